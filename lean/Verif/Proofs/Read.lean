import Verif.Proofs.Tokens
/-!
# Reading the tokens of the emitted statements
-/

namespace Wayfinder.Rust

/-! ## What is read -/

/-- The path of a module. -/
def snakes (ms : List Str) : List Str := ms.map toSnakeCase

/-- The constructors for the modules `ms` below `pre`, around a value. -/
def nestExpr (pre : List Str) (e : Expr) : List Str → Expr
  | [] => e
  | m :: ms => .app (snakes pre ++ [c!"Route", toCapsCase m]) (nestExpr (pre ++ [m]) e ms)

/-- The value that an arm returns. -/
def valueOf (a : MethodArm) : Expr :=
  nestExpr [] (.app (snakes a.modules ++ [c!"Route", toCapsCase a.name])
    (.struct (snakes a.modules ++ [toCapsCase a.name])
      (a.captures.map (fun p => (p.name, false)) ++ a.nones.map fun x => (x, true)))) a.modules

/-- An arm of `match method`. -/
def eraseVerb (a : MethodArm) : VerbArm := ⟨a.method.display, a.isRedirect, valueOf a⟩

mutual
/-- A statement without its indentation and inferred types; blank lines disappear. -/
def eraseStmt : Stmt → List Line
  | .blank => []
  | .letStart => [.letStart]
  | .addI n => [.addI n]
  | .retNotFound => [.retNotFound]
  | .ifThen c body => [.ifThen c (eraseBlock body)]
  | .matchMethod arms => [.matchMethod (arms.map eraseVerb)]
  | .matchPath n arms => [.matchPath n (eraseArms arms)]
  | .whileScan => [.whileScan]
  | .letText => [.letText]
  | .letParam name _ => [.letParam name name]
/-- The same for a block. -/
def eraseBlock : List Stmt → List Line
  | [] => []
  | s :: ss => eraseStmt s ++ eraseBlock ss
/-- The same for an arm. -/
def eraseArm : Arm → List PathArm
  | .bytes pat body => [.bytes pat (eraseBlock body)]
  | .wildNotFound => [.wildNotFound]
  | .wildNothing => [.wildNothing]
  | .someSlash => []
  | .stray _ => []
/-- The same for arms. -/
def eraseArms : List Arm → List PathArm
  | [] => []
  | a :: as => eraseArm a ++ eraseArms as
end

/-! ## Reading -/

theorem eat_append : ∀ es ts : List Tok, eat es (es ++ ts) = some ts
  | [], _ => rfl
  | e :: es, ts => by simp [eat, eat_append es ts]

theorem eatText_append (s : Str) (ts : List Tok) : eatText s (toks s ++ ts) = some ts := eat_append _ _

theorem readName_name {x : Str} (h : Name x) (ts : List Tok) : readName (.word x :: ts) = some (x, ts) := by
  simp [readName, h.2]

theorem readName_wd {x : Str} (h : Name x) (ts : List Tok) : readName (wd x ++ ts) = some (x, ts) := by
  rw [h.wd]; exact readName_name h ts

theorem readPath_last {x : Str} (h : Name x) {t : Tok} (ht : t ≠ .op c!"::") (ts : List Tok) :
    readPath (.word x :: t :: ts) = some ([x], t :: ts) := by
  simp [readPath, h.2, ht]

theorem readPath_cons {x : Str} (h : Name x) (ts : List Tok) :
    readPath (.word x :: .op c!"::" :: ts) = (readPath ts).map fun r => (x :: r.1, r.2) := by
  simp [readPath, h.2]

theorem readPath_mods {ms : List Str} (h : ∀ m ∈ ms, Name (toSnakeCase m)) (ts : List Tok) :
    readPath (modsToks ms ++ ts) = (readPath ts).map fun r => (snakes ms ++ r.1, r.2) := by
  induction ms with
  | nil => simp [modsToks, snakes]
  | cons m ms ih =>
    have ih := ih fun x hx => h x (List.mem_cons_of_mem _ hx)
    simp only [modsToks, List.flatMap_cons, List.cons_append, List.nil_append] at ih ⊢
    rw [readPath_cons (h m (List.mem_cons_self ..)), ih]
    cases readPath ts <;> simp [snakes]

theorem name_route : Name c!"Route" := by
  constructor
  · decide
  · decide

/-- `a::b::Route::X` and `(`. -/
theorem readPath_route {ms : List Str} (h : ∀ m ∈ ms, Name (toSnakeCase m)) {x : Str} (hx : Name x) (ts : List Tok) :
    readPath (modsToks ms ++ (toks c!"Route::" ++ (wd x ++ .op ['('] :: ts))) =
      some (snakes ms ++ [c!"Route", x], .op ['('] :: ts) := by
  rw [hx.wd]
  have : toks c!"Route::" ++ ([.word x] ++ .op ['('] :: ts) = .word c!"Route" :: .op c!"::" :: .word x :: .op ['('] :: ts :=
    rfl
  rw [readPath_mods h, this, readPath_cons name_route, readPath_last hx (by decide)]
  rfl

/-- `a::b::X` and `{`. -/
theorem readPath_struct {ms : List Str} (h : ∀ m ∈ ms, Name (toSnakeCase m)) {x : Str} (hx : Name x) (ts : List Tok) :
    readPath (modsToks ms ++ (wd x ++ .op ['{'] :: ts)) = some (snakes ms ++ [x], .op ['{'] :: ts) := by
  rw [hx.wd, readPath_mods h, List.singleton_append, readPath_last hx (by decide)]
  rfl

theorem readFields_fields : ∀ (cs : List Param) (xs : List Str) (ts : List Tok), (∀ p ∈ cs, Name p.name) →
    (∀ x ∈ xs, Name x) →
    readFields ((cs.flatMap fun p => [.word p.name, .op [',']]) ++
      (xs.flatMap fun x => [.word x, .op [':'], .word c!"None", .op [',']]) ++ .op ['}'] :: ts) =
      some (cs.map (fun p => (p.name, false)) ++ xs.map (fun x => (x, true)), ts)
  | [], [], ts, _, _ => by simp [readFields]
  | [], x :: xs, ts, hc, hx => by
    have ih := readFields_fields [] xs ts hc fun y hy => hx y (List.mem_cons_of_mem _ hy)
    simp only [List.flatMap_nil, List.nil_append, List.map_nil] at ih
    have hn := (hx x (List.mem_cons_self ..)).2
    simp [readFields, hn, ih]
  | p :: cs, xs, ts, hc, hx => by
    have ih := readFields_fields cs xs ts (fun y hy => hc y (List.mem_cons_of_mem _ hy)) hx
    have hn := (hc p (List.mem_cons_self ..)).2
    simp only [List.append_assoc] at ih
    simp [readFields, hn, ih]

/-- Tokens of the value of an arm, for the modules `ms` below `pre`. -/
def valueToks (a : MethodArm) (pre ms : List Str) : List Tok :=
  nestToks pre ms ++ modsToks a.modules ++ toks c!"Route::" ++
  wd (toCapsCase a.name) ++ .op ['('] :: modsToks a.modules ++ wd (toCapsCase a.name) ++ toks c!"{" ++
  (a.captures.flatMap fun p => [.word p.name, .op [',']]) ++
  (a.nones.flatMap fun x => [.word x, .op [':'], .word c!"None", .op [',']]) ++
  toks c!"}" ++ List.replicate ms.length (.op [')']) ++ toks c!")"

theorem readExpr_struct (n : Nat) {a : MethodArm} (h : ArmNamed Name a) (ts : List Tok) :
    readExpr (n + 1) (modsToks a.modules ++ (wd (toCapsCase a.name) ++ .op ['{'] ::
      ((a.captures.flatMap fun p => [.word p.name, .op [',']]) ++
      (a.nones.flatMap fun x => [.word x, .op [':'], .word c!"None", .op [',']]) ++ .op ['}'] :: ts))) =
    some (.struct (snakes a.modules ++ [toCapsCase a.name])
      (a.captures.map (fun p => (p.name, false)) ++ a.nones.map fun x => (x, true)), ts) := by
  rw [readExpr, readPath_struct (fun m hm => (h.1 m hm).1) (capsIn_name.1 h.2.1)]
  simp only
  rw [readFields_fields _ _ _ h.2.2.1 h.2.2.2]
  rfl

theorem readExpr_value {a : MethodArm} (h : ArmNamed Name a) : ∀ (ms pre : List Str) (n : Nat) (ts : List Tok),
    (∀ m ∈ pre, Name (toSnakeCase m)) → (∀ m ∈ ms, Name (toSnakeCase m) ∧ CapsIn Name (toCapsCase m)) → ms.length + 2 ≤ n →
    readExpr n (valueToks a pre ms ++ ts) = some (nestExpr pre (.app (snakes a.modules ++ [c!"Route", toCapsCase a.name])
      (.struct (snakes a.modules ++ [toCapsCase a.name])
        (a.captures.map (fun p => (p.name, false)) ++ a.nones.map fun x => (x, true)))) ms, ts)
  | [], pre, n + 2, ts, hp, hm, hn => by
    have h1 := readExpr_struct n h (.op [')'] :: ts)
    have heq : valueToks a pre [] ++ ts = modsToks a.modules ++ (toks c!"Route::" ++ (wd (toCapsCase a.name) ++ .op ['('] ::
        (modsToks a.modules ++ (wd (toCapsCase a.name) ++ .op ['{'] ::
        ((a.captures.flatMap fun p => [.word p.name, .op [',']]) ++
        (a.nones.flatMap fun x => [.word x, .op [':'], .word c!"None", .op [',']]) ++ .op ['}'] :: .op [')'] :: ts))))) := by
      have e1 : toks c!"{" = [.op ['{']] := rfl
      have e2 : toks c!"}" = [.op ['}']] := rfl
      have e3 : toks c!")" = [.op [')']] := rfl
      simp [valueToks, nestToks, e1, e2, e3]
    rw [heq, readExpr, readPath_route (fun m hm => (h.1 m hm).1) (capsIn_name.1 h.2.1)]
    simp only
    rw [h1]
    rfl
  | m :: ms, pre, n + 1, ts, hp, hm, hn => by
    have hmm := hm m (List.mem_cons_self ..)
    have ih := readExpr_value h ms (pre ++ [m]) n (.op [')'] :: ts) (by
      intro x hx
      rcases List.mem_append.1 hx with hx | hx
      · exact hp x hx
      · rw [List.mem_singleton.1 hx]; exact hmm.1) (fun x hx => hm x (List.mem_cons_of_mem _ hx))
      (by simp at hn; omega)
    have heq : valueToks a pre (m :: ms) ++ ts = modsToks pre ++ (toks c!"Route::" ++ (wd (toCapsCase m) ++ .op ['('] ::
        (valueToks a (pre ++ [m]) ms ++ .op [')'] :: ts))) := by
      have e3 : toks c!")" = [.op [')']] := rfl
      have : ∀ l : List Tok, List.replicate ms.length (.op [')']) ++ (.op [')'] :: l) =
          .op [')'] :: (List.replicate ms.length (.op [')']) ++ l) := by
        intro l
        have := List.replicate_append_replicate (n := ms.length) (m := 1) (a := Tok.op [')'])
        have h2 : List.replicate ms.length (Tok.op [')']) ++ [.op [')']] = List.replicate (ms.length + 1) (.op [')']) := by
          simpa using this
        rw [List.append_cons, h2, List.replicate_succ]
        rfl
      simp [valueToks, nestToks, e3, List.replicate_succ, this]
    rw [heq, readExpr, readPath_route hp (capsIn_name.1 hmm.2)]
    simp only
    rw [ih]
    rfl
  | [], _, 0, _, _, _, hn => by simp at hn
  | [], _, 1, _, _, _, hn => by simp at hn
  | _ :: _, _, 0, _, _, _, hn => by simp at hn

theorem valueToks_length (a : MethodArm) : ∀ (ms pre : List Str), ms.length + 2 ≤ (valueToks a pre ms).length
  | [], pre => by
    have : (toks c!"Route::").length = 2 := rfl
    simp [valueToks, this]; omega
  | m :: ms, pre => by
    have : (toks c!"Route::").length = 2 := rfl
    simp [valueToks, nestToks, this]
    omega

theorem verbToks_eq (a : MethodArm) : verbToks a = .str true a.method.display :: (toks c!"=> return Ok(Match::" ++
    .word (if a.isRedirect then c!"Redirect" else c!"Route") :: (toks c!"(" ++ (valueToks a [] a.modules ++ toks c!")),"))) := by
  simp [verbToks, valueToks]

theorem readVerbArms_arms : ∀ (arms : List MethodArm) (n : Nat) (ts : List Tok), (∀ a ∈ arms, ArmNamed Name a) →
    (arms.flatMap verbToks).length + 1 ≤ n →
    readVerbArms n (arms.flatMap verbToks ++ (toks c!"_ => return Ok(Match::NotAllowed), }" ++ ts)) =
      some (arms.map eraseVerb, ts)
  | _, 0, _, _, hn => by simp at hn
  | [], n + 1, ts, _, _ => by
    rw [List.flatMap_nil, List.nil_append, readVerbArms, eatText_append]
    rfl
  | a :: arms, n + 1, ts, h, hn => by
    have ha := h a (List.mem_cons_self ..)
    have hlen : (verbToks a).length = (valueToks a [] a.modules).length + ((toks c!"=> return Ok(Match::").length + 6) := by
      rw [verbToks_eq]
      have : (toks c!"(").length = 1 := rfl
      have : (toks c!")),").length = 3 := rfl
      simp [*]
      omega
    rw [List.flatMap_cons, List.length_append] at hn
    have ih := readVerbArms_arms arms n ts (fun x hx => h x (List.mem_cons_of_mem _ hx)) (by omega)
    have hv := valueToks_length a a.modules []
    have h1 := readExpr_value ha a.modules [] n
      (toks c!"))," ++ (arms.flatMap verbToks ++ (toks c!"_ => return Ok(Match::NotAllowed), }" ++ ts))) (by simp) ha.1 (by omega)
    have hk : ∀ l, readKind (.word (if a.isRedirect then c!"Redirect" else c!"Route") :: l) = some (a.isRedirect, l) := by
      intro l
      cases a.isRedirect <;> rfl
    rw [List.flatMap_cons, verbToks_eq, readVerbArms]
    have he : ∀ l, eatText c!"_ => return Ok(Match::NotAllowed), }" (.str true a.method.display :: l) = none := by
      intro l
      rfl
    have hb : ∀ l, readBytes (.str true a.method.display :: l) = some (a.method.display, l) := fun _ => by cases a.method <;> rfl
    simp only [List.cons_append, List.append_assoc, he, hb, eatText_append, hk, h1, ih, Option.bind_eq_bind, Option.bind_some]
    rfl

theorem readCond_cond : ∀ (c : Cond) (ts : List Tok), readCond (condToks c ++ ts) = some (c, ts)
  | .iEqLen, ts => rfl
  | .iLeLen, ts => rfl
  | .iAddGtLen n, ts => by
    have h1 : ∀ l, readCond (toks c!"i +" ++ l) = (do
      let (n, ts) ← readNum l
      match eatText c!"> len" ts with
      | some ts => return (.iAddGtLen n, ts)
      | none =>
        let ts ← eatText c!"<= len" ts
        return (.iAddLeLen n, ts)) := fun l => rfl
    simp only [condToks, List.append_assoc, List.cons_append]
    rw [h1, readNum_natStr]
    rfl
  | .iAddLeLen n, ts => by
    have h1 : ∀ l, readCond (toks c!"i +" ++ l) = (do
      let (n, ts) ← readNum l
      match eatText c!"> len" ts with
      | some ts => return (.iAddGtLen n, ts)
      | none =>
        let ts ← eatText c!"<= len" ts
        return (.iAddLeLen n, ts)) := fun l => rfl
    simp only [condToks, List.append_assoc, List.cons_append]
    rw [h1, readNum_natStr]
    rfl

theorem readLine_if (n : Nat) (ts : List Tok) : readLine (n + 1) (toks c!"if" ++ ts) =
    match readCond ts with
    | none => none
    | some (c, ts) =>
      match eatText c!"{" ts with
      | none => none
      | some ts => (readBlock n ts).map fun r => (.ifThen c r.1, r.2) := rfl

theorem readLine_method (n : Nat) (ts : List Tok) : readLine (n + 1) (toks c!"match method {" ++ ts) =
    (readVerbArms n ts).map fun r => (.matchMethod r.1, r.2) := rfl

theorem readLine_path (n : Nat) (ts : List Tok) : readLine (n + 1) (toks c!"match &path[i..i+" ++ ts) =
    match readNum ts with
    | none => none
    | some (k, ts) =>
      match eatText c!"] {" ts with
      | none => none
      | some ts => (readArms n ts).map fun r => (.matchPath k r.1, r.2) := rfl

theorem readLine_addI (n k : Nat) (ts : List Tok) :
    readLine (n + 1) (toks c!"i +=" ++ .word (natStr k) :: (toks c!";" ++ ts)) = some (.addI k, ts) := by
  have h1 : ∀ l, readAddI (toks c!"i +=" ++ l) = (do
    let (n, ts) ← readNum l
    let ts ← eatText c!";" ts
    return (.addI n, ts)) := fun _ => rfl
  have h2 : ∀ l, readLetParam (toks c!"i +=" ++ l) = none := fun _ => rfl
  have h3 : ∀ l, readOneOf fixedLines (toks c!"i +=" ++ l) = none := fun _ => rfl
  rw [readLine, h2]
  simp only
  rw [h3]
  simp only
  rw [h1, readNum_natStr]
  simp only [Option.bind_eq_bind, Option.bind_some, eatText_append]
  rfl

theorem readLine_param (n : Nat) {x : Str} (hx : Name x) (ts : List Tok) :
    readLine (n + 1) (toks c!"let" ++ .word x :: (toks c!"= text.parse().map_err(|e| Error::fail(" ++
      .str false x :: (toks c!", e))?;" ++ ts))) = some (.letParam x x, ts) := by
  have h : readLetParam (toks c!"let" ++ .word x :: (toks c!"= text.parse().map_err(|e| Error::fail(" ++
      .str false x :: (toks c!", e))?;" ++ ts))) = some (.letParam x x, ts) := by
    have hs : ∀ l, readStr (.str false x :: l) = some (x, l) := fun _ => rfl
    unfold readLetParam
    simp only [Option.bind_eq_bind, Option.bind_some, eatText_append, readName_name hx, hs]
    rfl
  rw [readLine, h]

theorem stmt_end (s : Stmt) (ts : List Tok) (h : eraseStmt s ≠ []) : eatText c!"}" (stmtToks s ++ ts) = none := by
  cases s with
  | blank => simp [eraseStmt] at h
  | ifThen c body => simp only [stmtToks, List.append_assoc]; rfl
  | matchMethod arms => simp only [stmtToks, List.append_assoc]; rfl
  | matchPath n arms => simp only [stmtToks, List.append_assoc]; rfl
  | addI n => simp only [stmtToks, List.append_assoc]; rfl
  | letParam name typ => simp only [stmtToks, List.append_assoc]; rfl
  | _ => rfl

theorem stmtToks_length (s : Stmt) (h : eraseStmt s ≠ []) : 1 ≤ (stmtToks s).length := by
  cases s with
  | blank => simp [eraseStmt] at h
  | ifThen c body => simp [stmtToks, show (toks c!"if").length = 1 from rfl]
  | matchMethod arms => simp [stmtToks, show (toks c!"match method {").length = 3 from rfl]; omega
  | matchPath n arms => simp [stmtToks]; omega
  | addI n => simp [stmtToks]; omega
  | letParam name typ => simp [stmtToks]; omega
  | letStart => decide
  | retNotFound => decide
  | whileScan => decide
  | letText => decide

theorem byteStrChar_of {c : Char} (h : textChar c = true) : byteStrChar c = decide (c.toNat < 128) := by
  simp only [textChar, Bool.not_eq_true', Bool.or_eq_false_iff, beq_eq_false_iff_ne] at h
  simp [byteStrChar, bne_iff_ne.2 h.1.1, bne_iff_ne.2 h.1.2, bne_iff_ne.2 h.2]

theorem plain_pat {pat : Str} (h : ∀ c ∈ pat, textChar c = true) :
    pat.all byteStrChar = pat.all fun c => decide (c.toNat < 128) := by
  induction pat with
  | nil => rfl
  | cons c pat ih =>
    rw [List.all_cons, List.all_cons, byteStrChar_of (h c (List.mem_cons_self ..)), ih fun d hd => h d (List.mem_cons_of_mem _ hd)]

/-- No arm begins like a statement. -/
theorem readArms_stmt (n : Nat) (s : Stmt) (ts : List Tok) (h : s ≠ .blank) : readArms n (stmtToks s ++ ts) = none := by
  cases n with
  | zero => rw [readArms]
  | succ n =>
    cases s with
    | blank => exact absurd rfl h
    | ifThen c body => simp only [stmtToks, List.append_assoc]; rfl
    | matchMethod arms => simp only [stmtToks, List.append_assoc]; rfl
    | matchPath n arms => simp only [stmtToks, List.append_assoc]; rfl
    | addI n => simp only [stmtToks, List.append_assoc]; rfl
    | letParam name typ => simp only [stmtToks, List.append_assoc]; rfl
    | _ => rfl

theorem readArms_stray (n : Nat) : ∀ (b : List Stmt) (ts : List Tok), (∃ s ∈ b, s ≠ .blank) →
    readArms n (blockToks b ++ ts) = none
  | [], _, h => by obtain ⟨s, h, _⟩ := h; cases h
  | s :: b, ts, h => by
    simp only [blockToks, List.append_assoc]
    by_cases hs : s = .blank
    · subst hs
      obtain ⟨s, hm, hs⟩ := h
      rcases List.mem_cons.1 hm with rfl | hm
      · exact absurd rfl hs
      · simpa [stmtToks] using readArms_stray n b ts ⟨s, hm, hs⟩
    · exact readArms_stmt n s _ hs

mutual
theorem readLine_stmt : ∀ (s : Stmt) (l : Line) (n : Nat) (ts : List Tok), StmtNamed Name s → stmtAscii s = true → eraseStmt s = [l] →
    (stmtToks s).length ≤ n → readLine n (stmtToks s ++ ts) = if s.shapeOk then some (l, ts) else none
  | s, l, 0, ts, _, _, hl, hn => by
    have := stmtToks_length s (by simp [hl])
    omega
  | .blank, _, _, _, _, _, hl, _ => by simp [eraseStmt] at hl
  | .letStart, l, n + 1, ts, _, _, hl, _ => by cases hl; rfl
  | .retNotFound, l, n + 1, ts, _, _, hl, _ => by cases hl; rfl
  | .whileScan, l, n + 1, ts, _, _, hl, _ => by cases hl; rfl
  | .letText, l, n + 1, ts, _, _, hl, _ => by cases hl; rfl
  | .addI k, l, n + 1, ts, _, _, hl, _ => by
    cases hl
    have := readLine_addI n k ts
    simpa [stmtToks, Stmt.shapeOk] using this
  | .letParam x t, l, n + 1, ts, h, _, hl, _ => by
    cases hl
    have := readLine_param n (x := x) (by simpa [StmtNamed] using h) ts
    simpa [stmtToks, Stmt.shapeOk] using this
  | .ifThen c body, l, n + 1, ts, h, ha, hl, hn => by
    simp only [stmtAscii] at ha
    simp only [eraseStmt] at hl
    cases hl
    simp only [StmtNamed] at h
    simp only [stmtToks, List.append_assoc, List.length_append] at hn ⊢
    have e1 : (toks c!"if").length = 1 := rfl
    have e2 : (toks c!"}").length = 1 := rfl
    rw [readLine_if, readCond_cond]
    simp only
    rw [eatText_append]
    simp only
    rw [readBlock_block body n ts h ha (by omega), Stmt.shapeOk]
    cases blockShapeOk body <;> rfl
  | .matchMethod arms, l, n + 1, ts, h, _, hl, hn => by
    simp only [eraseStmt] at hl
    cases hl
    simp only [StmtNamed] at h
    simp only [stmtToks, List.append_assoc, List.length_append] at hn ⊢
    have e1 : (toks c!"match method {").length = 3 := rfl
    rw [readLine_method, readVerbArms_arms arms n ts h (by omega)]
    rfl
  | .matchPath k arms, l, n + 1, ts, h, ha, hl, hn => by
    simp only [stmtAscii] at ha
    simp only [eraseStmt] at hl
    cases hl
    simp only [StmtNamed] at h
    simp only [stmtToks, List.append_assoc, List.length_append, List.cons_append, List.length_cons] at hn ⊢
    have e2 : (toks c!"}").length = 1 := rfl
    rw [readLine_path, readNum_natStr]
    simp only
    rw [eatText_append]
    simp only
    rw [readArms_arms arms n ts h ha (by omega), Stmt.shapeOk]
    cases armsShapeOk arms <;> rfl
theorem readBlock_block : ∀ (b : List Stmt) (n : Nat) (ts : List Tok), BlockNamed Name b → blockAscii b = true →
    (blockToks b).length + 1 ≤ n → readBlock n (blockToks b ++ (toks c!"}" ++ ts)) =
      if blockShapeOk b then some (eraseBlock b, ts) else none
  | _, 0, _, _, _, hn => by simp at hn
  | [], n + 1, ts, _, _, _ => by simp [blockToks, readBlock, eatText_append, eraseBlock, blockShapeOk]
  | s :: b, n + 1, ts, h, ha, hn => by
    simp only [BlockNamed] at h
    simp only [blockAscii, Bool.and_eq_true] at ha
    simp only [blockToks, List.length_append, List.append_assoc, eraseBlock] at hn ⊢
    cases hs : eraseStmt s with
    | nil =>
      have : s = .blank := by
        cases s <;> simp [eraseStmt] at hs
        rfl
      subst this
      have hz : stmtToks .blank = [] := by simp [stmtToks]
      rw [hz] at hn ⊢
      exact readBlock_block b (n + 1) ts h.2 ha.2 (by simpa using hn)
    | cons l ls =>
      have hls : ls = [] := by
        cases s <;> simp [eraseStmt] at hs <;> simp [hs]
      subst hls
      have hne : eraseStmt s ≠ [] := by simp [hs]
      have hlen := stmtToks_length s hne
      rw [readBlock, stmt_end s _ hne]
      simp only
      rw [readLine_stmt s l n _ h.1 ha.1 hs (by omega), blockShapeOk]
      cases s.shapeOk with
      | false => rfl
      | true =>
        simp only [if_true]
        rw [readBlock_block b n ts h.2 ha.2 (by omega)]
        cases blockShapeOk b <;> rfl
theorem readArms_arms : ∀ (as : List Arm) (n : Nat) (ts : List Tok), ArmsNamed Name as → armsAscii as = true →
    (armsToks as).length + 1 ≤ n → readArms n (armsToks as ++ (toks c!"}" ++ ts)) =
      if armsShapeOk as then some (eraseArms as, ts) else none
  | _, 0, _, _, _, hn => by simp at hn
  | [], n + 1, ts, _, _, _ => by simp [armsToks, readArms, eatText_append, eraseArms, armsShapeOk]
  | .wildNotFound :: as, n + 1, ts, h, ha, hn => by
    simp only [armsAscii, armAscii, Bool.and_eq_true] at ha
    simp only [ArmsNamed] at h
    simp only [armsToks, armToks, List.length_append, List.append_assoc, eraseArms, eraseArm] at hn ⊢
    have e2 : (toks c!"_ => return Ok(Match::NotFound),").length = 10 := rfl
    have h1 : ∀ l, readArms (n + 1) (toks c!"_ => return Ok(Match::NotFound)," ++ l) =
      (readArms n l).map fun r => (.wildNotFound :: r.1, r.2) := fun _ => rfl
    rw [h1, readArms_arms as n ts h.2 ha.2 (by omega), armsShapeOk, Arm.shapeOk]
    cases armsShapeOk as <;> rfl
  | .wildNothing :: as, n + 1, ts, h, ha, hn => by
    simp only [armsAscii, armAscii, Bool.and_eq_true] at ha
    simp only [ArmsNamed] at h
    simp only [armsToks, armToks, List.length_append, List.append_assoc, eraseArms, eraseArm] at hn ⊢
    have e2 : (toks c!"_ => {},").length = 5 := rfl
    have h1 : ∀ l, readArms (n + 1) (toks c!"_ => {}," ++ l) =
      (readArms n l).map fun r => (.wildNothing :: r.1, r.2) := fun _ => rfl
    rw [h1, readArms_arms as n ts h.2 ha.2 (by omega), armsShapeOk, Arm.shapeOk]
    cases armsShapeOk as <;> rfl
  | .someSlash :: as, n + 1, ts, h, _, hn => by
    simp only [armsToks, armToks, List.append_assoc]
    rfl
  | .stray b :: as, n + 1, ts, h, _, hn => by
    simp only [ArmsNamed, PathArmNamed] at h
    simp only [armsToks, armToks, List.append_assoc]
    rw [readArms_stray (n + 1) b _ h.1.2]
    rfl
  | .bytes pat body :: as, n + 1, ts, h, ha, hn => by
    simp only [armsAscii, armAscii, Bool.and_eq_true] at ha
    simp only [ArmsNamed, PathArmNamed] at h
    simp only [armsToks, armToks, List.length_append, List.append_assoc, List.cons_append, List.length_cons,
      eraseArms, eraseArm] at hn ⊢
    have h1 : ∀ l, readArms (n + 1) (.str true pat :: l) =
      match eatText c!"=> {" l with
      | none => none
      | some ts =>
        match readBlock n ts with
        | none => none
        | some (body, ts) =>
          match eatText c!"," ts with
          | none => none
          | some ts => (readArms n ts).map fun r => (.bytes pat body :: r.1, r.2) := by
      intro l
      have h2 : eatText c!"}" (.str true pat :: l) = none := rfl
      have h3 : eatText c!"_ => return Ok(Match::NotFound)," (.str true pat :: l) = none := rfl
      have h4 : eatText c!"_ => {}," (.str true pat :: l) = none := rfl
      rw [readArms]
      simp only [h2, h3, h4, readBytes_plain fun c hc => (h.1.1 c hc).1]
      rfl
    rw [h1, eatText_append]
    simp only
    rw [readBlock_block body n _ h.1.2 ha.1.2 (by omega), armsShapeOk, Arm.shapeOk, plain_pat (fun c hc => (h.1.1 c hc).1), ha.1.1, Bool.true_and]
    cases blockShapeOk body with
    | false => rfl
    | true =>
      simp only [if_true]
      rw [eatText_append]
      simp only
      rw [readArms_arms as n ts h.2 ha.2 (by omega)]
      cases armsShapeOk as <;> rfl
end

mutual
theorem stmtAscii_of : ∀ s : Stmt, s.shapeOk = true → stmtAscii s = true
  | .ifThen _ body, h => by simp only [stmtAscii]; exact blockAscii_of body (by simpa [Stmt.shapeOk] using h)
  | .matchPath _ arms, h => by simp only [stmtAscii]; exact armsAscii_of arms (by simpa [Stmt.shapeOk] using h)
  | .blank, _ | .letStart, _ | .retNotFound, _ | .letText, _ | .addI _, _ | .matchMethod _, _ | .whileScan, _ | .letParam _ _, _ => by
    simp [stmtAscii]
theorem blockAscii_of : ∀ b : List Stmt, blockShapeOk b = true → blockAscii b = true
  | [], _ => by simp [blockAscii]
  | s :: b, h => by
    simp only [blockShapeOk, Bool.and_eq_true] at h
    simp only [blockAscii, stmtAscii_of s h.1, blockAscii_of b h.2, Bool.and_self]
theorem armsAscii_of : ∀ as : List Arm, armsShapeOk as = true → armsAscii as = true
  | [], _ => by simp [armsAscii]
  | a :: as, h => by
    simp only [armsShapeOk, Bool.and_eq_true] at h
    simp only [armsAscii, armAscii_of a h.1, armsAscii_of as h.2, Bool.and_self]
theorem armAscii_of : ∀ a : Arm, a.shapeOk = true → armAscii a = true
  | .bytes pat body, h => by
    simp only [Arm.shapeOk, Bool.and_eq_true] at h
    simp only [armAscii, blockAscii_of body h.2, Bool.and_true]
    rw [List.all_eq_true] at h ⊢
    intro c hc
    have := h.1 c hc
    simp only [byteStrChar, Bool.and_eq_true] at this
    exact this.1.1.1
  | .wildNotFound, _ | .wildNothing, _ | .someSlash, _ => by simp [armAscii]
  | .stray _, h => by simp [Arm.shapeOk] at h
end

end Wayfinder.Rust
