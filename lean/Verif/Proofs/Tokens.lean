import Verif.Proofs.Lex
import Verif.Spec.Words
/-!
# Tokens of the emitted statements
-/

namespace Wayfinder.Rust

theorem Name.word {s : Str} (h : Name s) : Word s := by
  refine ⟨?_, h.1⟩
  rintro rfl
  exact absurd h.2 (by decide)

/-- The tokens of a word that may be empty. -/
def wd (s : Str) : List Tok := if s = [] then [] else [.word s]

theorem Word.wd {s : Str} (h : Word s) : wd s = [.word s] := if_neg h.1

theorem Name.wd {s : Str} (h : Name s) : Rust.wd s = [.word s] := h.word.wd

theorem wd_nil : wd [] = [] := rfl

theorem capsIn_name {s : Str} : CapsIn Name s ↔ Name s :=
  ⟨fun h => h.elim id fun h => absurd h.2.2 (by decide), .inl⟩

/-- Tokens of a condition. -/
def condToks : Cond → List Tok
  | .iEqLen => toks c!"i == len"
  | .iAddGtLen n => toks c!"i +" ++ .word (natStr n) :: toks c!"> len"
  | .iLeLen => toks c!"i <= len"
  | .iAddLeLen n => toks c!"i +" ++ .word (natStr n) :: toks c!"<= len"

/-- Tokens of `a::b::`. -/
def modsToks (ms : List Str) : List Tok := ms.flatMap fun m => [.word (toSnakeCase m), .op c!"::"]

/-- Tokens of the constructors for a module path. -/
def nestToks (pre : List Str) : List Str → List Tok
  | [] => []
  | m :: ms => modsToks pre ++ toks c!"Route::" ++ wd (toCapsCase m) ++ .op ['('] :: nestToks (pre ++ [m]) ms

/-- Tokens of an arm of `match method`. -/
def verbToks (a : MethodArm) : List Tok :=
  .str true a.method.display :: toks c!"=> return Ok(Match::" ++
  .word (if a.isRedirect then c!"Redirect" else c!"Route") :: toks c!"(" ++
  nestToks [] a.modules ++ modsToks a.modules ++ toks c!"Route::" ++
  wd (toCapsCase a.name) ++ .op ['('] :: modsToks a.modules ++ wd (toCapsCase a.name) ++ toks c!"{" ++
  (a.captures.flatMap fun p => [.word p.name, .op [',']]) ++
  (a.nones.flatMap fun x => [.word x, .op [':'], .word c!"None", .op [',']]) ++
  toks c!"}" ++ List.replicate a.modules.length (.op [')']) ++ toks c!")" ++ toks c!")),"

mutual
/-- Tokens of a statement. -/
def stmtToks : Stmt → List Tok
  | .blank => []
  | .letStart => toks c!"let start = i;"
  | .addI n => toks c!"i +=" ++ .word (natStr n) :: toks c!";"
  | .retNotFound => toks c!"return Ok(Match::NotFound);"
  | .ifThen c body => toks c!"if" ++ condToks c ++ toks c!"{" ++ blockToks body ++ toks c!"}"
  | .matchMethod arms =>
    toks c!"match method {" ++ arms.flatMap verbToks ++ toks c!"_ => return Ok(Match::NotAllowed), }"
  | .matchPath n arms =>
    toks c!"match &path[i..i+" ++ .word (natStr n) :: toks c!"] {" ++ armsToks arms ++ toks c!"}"
  | .whileScan => toks c!"while i < len && &path[i..i+1] != b\"/\" { i += 1; }"
  | .letText => toks c!"let text = std::str::from_utf8(&path[start..i]).unwrap();"
  | .letParam name _ =>
    toks c!"let" ++ .word name :: toks c!"= text.parse().map_err(|e| Error::fail(" ++ .str false name :: toks c!", e))?;"
/-- Tokens of a block. -/
def blockToks : List Stmt → List Tok
  | [] => []
  | s :: ss => stmtToks s ++ blockToks ss
/-- Tokens of an arm. -/
def armToks : Arm → List Tok
  | .bytes pat body => .str true pat :: toks c!"=> {" ++ blockToks body ++ toks c!"}" ++ toks c!","
  | .wildNotFound => toks c!"_ => return Ok(Match::NotFound),"
  | .wildNothing => toks c!"_ => {},"
  | .someSlash => toks c!"Some('/') => {}"
  | .stray body => blockToks body
/-- Tokens of arms. -/
def armsToks : List Arm → List Tok
  | [] => []
  | a :: as => armToks a ++ armsToks as
end

/-- All names of an arm satisfy `N`. -/
def ArmNamed (N : Str → Prop) (a : MethodArm) : Prop :=
  (∀ m ∈ a.modules, N (toSnakeCase m) ∧ CapsIn N (toCapsCase m)) ∧ CapsIn N (toCapsCase a.name) ∧
  (∀ p ∈ a.captures, N p.name) ∧ ∀ x ∈ a.nones, N x

mutual
/-- All names satisfy `N` and all byte strings are plain; statements in the place of an arm do not
consist of blank lines. -/
def StmtNamed (N : Str → Prop) : Stmt → Prop
  | .ifThen _ body => BlockNamed N body
  | .matchMethod arms => ∀ a ∈ arms, ArmNamed N a
  | .matchPath _ arms => ArmsNamed N arms
  | .letParam name _ => N name
  | _ => True
/-- The same for a block. -/
def BlockNamed (N : Str → Prop) : List Stmt → Prop
  | [] => True
  | s :: ss => StmtNamed N s ∧ BlockNamed N ss
/-- The same for an arm. -/
def PathArmNamed (N : Str → Prop) : Arm → Prop
  | .bytes pat body => (∀ c ∈ pat, textChar c = true ∧ c ≠ '\n') ∧ BlockNamed N body
  | .wildNotFound => True
  | .wildNothing => True
  | .someSlash => True
  | .stray body => BlockNamed N body ∧ ∃ s ∈ body, s ≠ .blank
/-- The same for arms. -/
def ArmsNamed (N : Str → Prop) : List Arm → Prop
  | [] => True
  | a :: as => PathArmNamed N a ∧ ArmsNamed N as
end

mutual
/-- All byte strings are in ASCII. -/
def stmtAscii : Stmt → Bool
  | .ifThen _ body => blockAscii body
  | .matchPath _ arms => armsAscii arms
  | _ => true
/-- The same for a block. -/
def blockAscii : List Stmt → Bool
  | [] => true
  | s :: ss => stmtAscii s && blockAscii ss
/-- The same for an arm. -/
def armAscii : Arm → Bool
  | .bytes pat body => (pat.all fun c => decide (c.toNat < 128)) && blockAscii body
  | .stray body => blockAscii body
  | _ => true
/-- The same for arms. -/
def armsAscii : List Arm → Bool
  | [] => true
  | a :: as => armAscii a && armsAscii as
end

theorem Name.ascii {x : Str} (h : Name x) : ∀ c ∈ x, c.toNat < 128 := by
  have h2 := h.2
  cases x with
  | nil => intro c hc; cases hc
  | cons a x =>
    simp only [isName, Bool.and_eq_true, List.all_eq_true, decide_eq_true_eq] at h2
    exact h2.2

theorem Word.name {x : Str} (h : Word x) (hn : isName x = true) : Name x := ⟨h.2, hn⟩

/-- What satisfies `N` is a word. -/
class Wordlike (N : Str → Prop) : Prop where
  /-- in the sense of the lexer -/
  word : ∀ {x : Str}, N x → Word x

instance : Wordlike Name := ⟨Name.word⟩
instance : Wordlike Word := ⟨id⟩

theorem Word.textChar {x : Str} (h : Word x) : ∀ c ∈ x, textChar c = true := by
  intro c hc
  have h1 := h.2 c hc
  cases hs : Rust.textChar c with
  | true => rfl
  | false =>
    exfalso
    simp only [Rust.textChar, Bool.not_eq_false', Bool.or_eq_true, beq_iff_eq] at hs
    rcases hs with (rfl | rfl) | rfl <;> (revert h1; decide)

theorem Word.noNewline {x : Str} (h : Word x) : '\n' ∉ x := by
  intro hx
  have := h.2 _ hx
  revert this
  decide

section
variable {N : Str → Prop} [Wordlike N]

theorem wordOf {x : Str} (h : N x) : Word x := Wordlike.word h

theorem plainOf {x : Str} (h : N x) : ∀ c ∈ x, Rust.textChar c = true := (Wordlike.word h).textChar

theorem lineOf {x : Str} (h : N x) : '\n' ∉ x := (Wordlike.word h).noNewline

/-- A word or nothing, in front of something that reads alike after both. -/
theorem lexes_caps {x : Str} (hx : CapsIn N x) {s : Str} {ts us : List Tok} {st : LexState}
    (h : run (.word x) s = (.word x :: ts, st)) (h' : run .neutral s = (ts, st)) (hst : settled st = some us) :
    Lexes (x ++ s) (wd x ++ (ts ++ us)) := by
  rcases hx with hx | ⟨rfl, _⟩
  · rw [(wordOf hx).wd]
    simpa using lexes_word (wordOf hx) h hst
  · simpa [wd_nil] using lexes_of h' hst
end

theorem readBytes_plain {x : Str} (h : ∀ c ∈ x, Rust.textChar c = true) (l : List Tok) :
    readBytes (.str true x :: l) = some (x, l) := by
  have : x.contains '\\' = false := by
    cases hx : x.contains '\\' with
    | false => rfl
    | true => exact absurd (h _ (List.contains_iff_mem.1 hx)) (by decide)
  simp only [readBytes, this, Bool.false_eq_true, if_false]

theorem lexes_cond : ∀ c : Cond, Lexes (c.render ++ c!" {") (condToks c ++ toks c!"{")
  | .iEqLen => lexes_lit (s := c!"i == len {") (us := [.op ['{']]) rfl rfl
  | .iLeLen => lexes_lit (s := c!"i <= len {") (us := [.op ['{']]) rfl rfl
  | .iAddGtLen n => by
    have h1 : Lexes c!"i + " (toks c!"i +") := lexes_lit (s := c!"i + ") (us := []) rfl rfl
    have h2 : Lexes (natStr n ++ c!" > len {") (.word (natStr n) :: toks c!"> len" ++ toks c!"{") :=
      lexes_word (word_digits n) (us := [.op ['{']]) rfl rfl
    have := h1.append h2
    simpa [Cond.render, condToks] using this
  | .iAddLeLen n => by
    have h1 : Lexes c!"i + " (toks c!"i +") := lexes_lit (s := c!"i + ") (us := []) rfl rfl
    have h2 : Lexes (natStr n ++ c!" <= len {") (.word (natStr n) :: toks c!"<= len" ++ toks c!"{") :=
      lexes_word (word_digits n) (us := [.op ['{']]) rfl rfl
    have := h1.append h2
    simpa [Cond.render, condToks] using this

/-- The text of a module path. -/
def modsText (ms : List Str) : Str := ms.flatMap fun m => toSnakeCase m ++ c!"::"

/-- The text of the constructors for a module path. -/
def nestText (pre : Str) : List Str → Str
  | [] => []
  | m :: ms => pre ++ c!"Route::" ++ toCapsCase m ++ c!"(" ++ nestText (pre ++ (toSnakeCase m ++ c!"::")) ms

theorem moduleNest_eq : ∀ (ms : List Str) (path accum parens : Str), moduleNest ms path accum parens =
    (path ++ modsText ms, accum ++ nestText path ms, parens ++ List.replicate ms.length ')')
  | [], path, accum, parens => by simp [moduleNest, modsText, nestText]
  | m :: ms, path, accum, parens => by
    rw [moduleNest, moduleNest_eq ms]
    simp [modsText, nestText, List.replicate_succ, List.append_assoc]

variable {N : Str → Prop} [Wordlike N]

theorem lexes_mods {ms : List Str} (h : ∀ m ∈ ms, N (toSnakeCase m)) : Lexes (modsText ms) (modsToks ms) := by
  induction ms with
  | nil => exact .nil
  | cons m ms ih =>
    have h1 : Lexes (toSnakeCase m ++ c!"::") [.word (toSnakeCase m), .op c!"::"] :=
      lexes_word (wordOf (h m (List.mem_cons_self ..))) (us := []) rfl rfl
    have h2 := ih fun x hx => h x (List.mem_cons_of_mem _ hx)
    have := h1.append h2
    simpa [modsText, modsToks] using this

theorem lexes_route : Lexes c!"Route::" (toks c!"Route::") := lexes_lit (us := []) rfl rfl

theorem lexes_nest : ∀ (ms pre : List Str), (∀ m ∈ pre, N (toSnakeCase m)) →
    (∀ m ∈ ms, N (toSnakeCase m) ∧ CapsIn N (toCapsCase m)) → Lexes (nestText (modsText pre) ms) (nestToks pre ms)
  | [], _, _, _ => .nil
  | m :: ms, pre, hp, h => by
    have hm := h m (List.mem_cons_self ..)
    have h1 := (lexes_mods hp).append lexes_route
    have h2 : Lexes (toCapsCase m ++ c!"(") (wd (toCapsCase m) ++ [.op ['(']]) :=
      lexes_caps hm.2 (ts := []) (us := [.op ['(']]) rfl rfl rfl
    have h3 := lexes_nest ms (pre ++ [m]) (by
      intro x hx
      rcases List.mem_append.1 hx with hx | hx
      · exact hp x hx
      · rw [List.mem_singleton.1 hx]; exact hm.1) fun x hx => h x (List.mem_cons_of_mem _ hx)
    have heq : modsText (pre ++ [m]) = modsText pre ++ (toSnakeCase m ++ c!"::") := by
      simp [modsText]
    rw [heq] at h3
    have := (h1.append h2).append h3
    simpa [nestText, nestToks] using this

theorem lexes_parens : ∀ n : Nat, Lexes (List.replicate n ')') (List.replicate n (.op [')']))
  | 0 => .nil
  | n + 1 => by
    have h1 : Lexes c!")" [.op [')']] := lexes_of (ts := []) (us := [.op [')']]) rfl rfl
    simpa [List.replicate_succ] using h1.append (lexes_parens n)

theorem lexes_verb (k : Nat) {a : MethodArm} (h : ArmNamed N a) : Lexes (a.render k) (verbToks a) := by
  obtain ⟨hm, hn, hc, hx⟩ := h
  have hms : ∀ m ∈ a.modules, N (toSnakeCase m) := fun m h => (hm m h).1
  unfold MethodArm.render
  rw [moduleNest_eq]
  simp only [List.nil_append]
  have hverb : Lexes (a.method.byteStr ++ c!" => return Ok(Match::")
      (.str true a.method.display :: toks c!"=> return Ok(Match::") := by
    cases a.method
    · exact lexes_lit (s := c!"b\"GET\" => return Ok(Match::") (us := []) rfl rfl
    · exact lexes_lit (s := c!"b\"POST\" => return Ok(Match::") (us := []) rfl rfl
    · exact lexes_lit (s := c!"b\"PUT\" => return Ok(Match::") (us := []) rfl rfl
    · exact lexes_lit (s := c!"b\"DELETE\" => return Ok(Match::") (us := []) rfl rfl
  have hkind : Lexes ((if a.isRedirect then c!"Redirect" else c!"Route") ++ c!"(")
      (.word (if a.isRedirect then c!"Redirect" else c!"Route") :: toks c!"(") := by
    cases a.isRedirect
    · exact lexes_lit (s := c!"Route(") (us := [.op ['(']]) rfl rfl
    · exact lexes_lit (s := c!"Redirect(") (us := [.op ['(']]) rfl rfl
  have hnest : Lexes (nestText [] a.modules) (nestToks [] a.modules) :=
    lexes_nest a.modules [] (by simp) hm
  have hmods := lexes_mods hms
  have hname1 : Lexes (toCapsCase a.name ++ c!"(") (wd (toCapsCase a.name) ++ [.op ['(']]) :=
    lexes_caps hn (ts := []) (us := [.op ['(']]) rfl rfl rfl
  have hname2 : Lexes (toCapsCase a.name ++ c!" {") (wd (toCapsCase a.name) ++ toks c!"{") :=
    lexes_caps hn (ts := []) (us := [.op ['{']]) rfl rfl rfl
  have hline := ((((((hverb.append hkind).append hnest).append hmods).append lexes_route).append hname1).append
    hmods |>.append hname2).line k
  have hcap : Lexes (a.captures.map fun p => line (k + 1) (p.name ++ c!",")).flatten
      (a.captures.flatMap fun p => [.word p.name, .op [',']]) :=
    .flatten fun p hp => (lexes_word (wordOf (hc p hp)) (us := [.op [',']]) rfl rfl : Lexes _ [.word p.name, .op [',']]).line _
  have hnone : Lexes (a.nones.map fun x => line (k + 1) (x ++ c!": None,")).flatten
      (a.nones.flatMap fun x => [.word x, .op [':'], .word c!"None", .op [',']]) :=
    .flatten fun x h => (lexes_word (wordOf (hx x h)) (us := [.op [',']]) rfl rfl :
      Lexes _ [.word x, .op [':'], .word c!"None", .op [',']]).line _
  have hclose : Lexes c!"}" (toks c!"}") := lexes_lit (us := [.op ['}']]) rfl rfl
  have hend : Lexes c!"))),"  (toks c!")" ++ toks c!")),") := lexes_lit (s := c!"))),") (us := [.op [',']]) rfl rfl
  have hlast := ((hclose.append (lexes_parens a.modules.length)).append hend).line k
  have := ((hline.append hcap).append hnone).append hlast
  unfold verbToks
  simpa [List.append_assoc] using this

theorem lexes_index (n : Nat) : Lexes (c!"match &path[i..i+" ++ natStr n ++ c!"] {")
    (toks c!"match &path[i..i+" ++ .word (natStr n) :: toks c!"] {") := by
  have h1 : run .neutral c!"match &path[i..i+" = (toks c!"match &path[i..i", .op '+') := rfl
  have h2 : run (.word (natStr n)) c!"] {" = ([.word (natStr n), .op [']']], .op '{') := rfl
  have : Lexes (c!"match &path[i..i+" ++ natStr n ++ c!"] {")
      (toks c!"match &path[i..i" ++ .op ['+'] :: [.word (natStr n), .op [']']] ++ [.op ['{']]) := by
    refine lexes_of (st := .op '{') ?_ rfl
    rw [run_append, run_append, h1, run_op_word (word_digits n), h2]
    simp
  exact this

mutual
theorem lexes_stmt : ∀ (s : Stmt) (k : Nat), StmtNamed N s → LexesIf (stmtAscii s) (s.render k) (stmtToks s)
  | .blank, k, _ => lexes_newline.if
  | .letStart, k, _ => (lexes_lit (s := c!"let start = i;") (us := [.op [';']]) rfl rfl).line k |>.if
  | .retNotFound, k, _ => (lexes_lit (s := c!"return Ok(Match::NotFound);") (us := [.op [';']]) rfl rfl).line k |>.if
  | .letText, k, _ =>
    (lexes_lit (s := c!"let text = std::str::from_utf8(&path[start..i]).unwrap();") (us := [.op [';']]) rfl rfl).line k |>.if
  | .addI n, k, _ => by
    have h1 : Lexes c!"i += " (toks c!"i +=") := lexes_lit (s := c!"i += ") (us := []) rfl rfl
    have h2 : Lexes (natStr n ++ c!";") (.word (natStr n) :: toks c!";") :=
      lexes_word (word_digits n) (us := [.op [';']]) rfl rfl
    have := ((h1.append h2).line k).if
    simpa [Stmt.render, stmtToks, stmtAscii, List.append_assoc] using this
  | .ifThen c body, k, h => by
    have h1 : Lexes c!"if " (toks c!"if") := lexes_lit (s := c!"if ") (us := []) rfl rfl
    have h2 := (h1.append (lexes_cond c)).line k
    have h3 := lexes_block body (k + 1) (by simpa [StmtNamed] using h)
    have h4 : Lexes (line k c!"}") (toks c!"}") := (lexes_lit (us := [.op ['}']]) rfl rfl).line k
    have := (h2.if.append h3).append h4.if
    simpa [Stmt.render, stmtToks, stmtAscii, List.append_assoc] using this
  | .matchMethod arms, k, h => by
    have h1 : Lexes (line k c!"match method {") (toks c!"match method {") :=
      (lexes_lit (us := [.op ['{']]) rfl rfl).line k
    have h2 : Lexes (arms.map (MethodArm.render (k + 1))).flatten (arms.flatMap verbToks) :=
      .flatten fun a ha => lexes_verb (k + 1) ((by simpa [StmtNamed] using h : ∀ a ∈ arms, ArmNamed N a) a ha)
    have h3 : Lexes (line (k + 1) c!"_ => return Ok(Match::NotAllowed),") (toks c!"_ => return Ok(Match::NotAllowed),") :=
      (lexes_lit (us := [.op [',']]) rfl rfl).line _
    have h4 : Lexes (line k c!"}") (toks c!"}") := (lexes_lit (us := [.op ['}']]) rfl rfl).line k
    have := (((h1.append h2).append h3).append h4).if
    have heq : toks c!"_ => return Ok(Match::NotAllowed), }" =
        toks c!"_ => return Ok(Match::NotAllowed)," ++ toks c!"}" := by decide
    simpa [Stmt.render, stmtToks, stmtAscii, List.append_assoc, heq] using this
  | .matchPath n arms, k, h => by
    have h1 := lexes_index n
    have h3 := lexes_arms arms (k + 1) (by simpa [StmtNamed] using h)
    have h4 : Lexes (line k c!"}") (toks c!"}") := (lexes_lit (us := [.op ['}']]) rfl rfl).line k
    have := ((h1.line k).if.append h3).append h4.if
    simpa [Stmt.render, stmtToks, stmtAscii, List.append_assoc] using this
  | .whileScan, k, _ => by
    have h1 : Lexes (line k c!"while i < len && &path[i..i+1] != b\"/\" {") (toks c!"while i < len && &path[i..i+1] != b\"/\" {") :=
      (lexes_lit (us := [.op ['{']]) rfl rfl).line k
    have h2 : Lexes (line (k + 1) c!"i += 1;") (toks c!"i += 1;") := (lexes_lit (us := [.op [';']]) rfl rfl).line _
    have h4 : Lexes (line k c!"}") (toks c!"}") := (lexes_lit (us := [.op ['}']]) rfl rfl).line k
    have := ((h1.append h2).append h4).if
    have heq : toks c!"while i < len && &path[i..i+1] != b\"/\" { i += 1; }" =
        toks c!"while i < len && &path[i..i+1] != b\"/\" {" ++ (toks c!"i += 1;" ++ toks c!"}") := by decide
    simpa [Stmt.render, stmtToks, stmtAscii, List.append_assoc, heq] using this
  | .letParam name typ, k, h => by
    have hn : N name := by simpa [StmtNamed] using h
    have h1 : Lexes c!"let " (toks c!"let") := lexes_lit (s := c!"let ") (us := []) rfl rfl
    have h2 : Lexes (name ++ c!" = text.parse()") (.word name :: toks c!"= text.parse()") :=
      lexes_word (wordOf hn) (us := [.op [')']]) rfl rfl
    have h3 : Lexes (c!".map_err(|e| Error::fail(\"" ++ name ++ c!"\", e))?;")
        (toks c!".map_err(|e| Error::fail(" ++ (.str false name :: toks c!", e))?;")) :=
      lexes_str (fun c hc => textChar_plain (plainOf hn c hc)) (us := [.op [';']]) (b := false) rfl rfl rfl
    have := (((h1.append h2).line k).append (h3.line (k + 1))).if
    have heq : toks c!"= text.parse().map_err(|e| Error::fail(" = toks c!"= text.parse()" ++ toks c!".map_err(|e| Error::fail(" := by
      decide
    simpa [Stmt.render, stmtToks, stmtAscii, List.append_assoc, heq] using this
theorem lexes_block : ∀ (b : List Stmt) (k : Nat), BlockNamed N b → LexesIf (blockAscii b) (renderBlock k b) (blockToks b)
  | [], _, _ => by simpa [renderBlock, blockToks, blockAscii] using Lexes.nil.if
  | s :: b, k, h => by
    simp only [BlockNamed] at h
    simpa [renderBlock, blockToks, blockAscii] using (lexes_stmt s k h.1).append (lexes_block b k h.2)
theorem lexes_arm : ∀ (a : Arm) (k : Nat), PathArmNamed N a → LexesIf (armAscii a) (a.render k) (armToks a)
  | .bytes pat body, k, h => by
    simp only [PathArmNamed] at h
    have h1 : LexesIf (pat.all fun c => decide (c.toNat < 128)) (c!"b\"" ++ pat ++ c!"\" => {") (.str true pat :: toks c!"=> {") :=
      lexesIf_bytes (fun c hc => (h.1 c hc).1) (us := [.op ['{']]) (vs := []) rfl rfl rfl
    have h2 := lexes_block body (k + 1) h.2
    have h3 : Lexes (line k c!"},") (toks c!"}" ++ toks c!",") :=
      (lexes_lit (s := c!"},") (us := [.op [',']]) rfl rfl).line k
    have := ((h1.line k).append h2).append h3.if
    simpa [Arm.render, armToks, armAscii, List.append_assoc] using this
  | .wildNotFound, k, _ => (lexes_lit (s := c!"_ => return Ok(Match::NotFound),") (us := [.op [',']]) rfl rfl).line k |>.if
  | .wildNothing, k, _ => (lexes_lit (s := c!"_ => {},") (us := [.op [',']]) rfl rfl).line k |>.if
  | .someSlash, k, _ => (lexes_lit (s := c!"Some('/') => {}") (us := [.op ['}']]) rfl rfl).line k |>.if
  | .stray body, k, h => by
    simp only [PathArmNamed] at h
    simpa [Arm.render, armToks, armAscii] using lexes_block body (k - 1) h.1
theorem lexes_arms : ∀ (as : List Arm) (k : Nat), ArmsNamed N as → LexesIf (armsAscii as) (renderArms k as) (armsToks as)
  | [], _, _ => by simpa [renderArms, armsToks, armsAscii] using Lexes.nil.if
  | a :: as, k, h => by
    simp only [ArmsNamed] at h
    simpa [renderArms, armsToks, armsAscii] using (lexes_arm a k h.1).append (lexes_arms as k h.2)
end

end Wayfinder.Rust
