import Verif.Spec.Indent
import Verif.Proofs.Text
import Verif.Proofs.Shape
import Verif.Props.Doc
/-!
# Indentation of the emitted file
-/

namespace Wayfinder.Layout

open Rust (Name BlockNamed StmtNamed PathArmNamed ArmsNamed ArmNamed ModNamed ModsNamed ActionNamed modsText nestText moduleNest_eq textChar)

/-! ## Brackets -/

theorem brackets_append : ∀ (a b : Str) (q : Bool) (o : Str), brackets q o (a ++ b) =
    (brackets q o a).bind fun r => brackets r.1 r.2 b
  | [], b, q, o => rfl
  | c :: a, b, q, o => by
    simp only [List.cons_append, brackets]
    split
    · exact brackets_append a b _ _
    · split
      · exact brackets_append a b _ _
      · split
        · exact brackets_append a b _ _
        · split
          · cases o with
            | nil => rfl
            | cons d o =>
              simp only
              split
              · exact brackets_append a b _ _
              · rfl
          · exact brackets_append a b _ _

/-- Text without brackets and quotes. -/
theorem brackets_plain {s : Str} (h : ∀ c ∈ s, c ≠ '"' ∧ isOpen c = false ∧ isClose c = false) (q : Bool) (o : Str) :
    brackets q o s = some (q, o) := by
  induction s with
  | nil => rfl
  | cons c s ih =>
    obtain ⟨h1, h2, h3⟩ := h c (by simp)
    have := ih fun c hc => h c (by simp [hc])
    simp [brackets, h1, h2, h3, this]

/-- Text inside a string. -/
theorem brackets_str {s : Str} (h : ∀ c ∈ s, textChar c = true) (o : Str) : brackets true o s = some (true, o) := by
  induction s with
  | nil => rfl
  | cons c s ih =>
    have h1 : c ≠ '"' := by
      rintro rfl
      exact absurd (h '"' (by simp)) (by decide)
    have := ih fun c hc => h c (by simp [hc])
    simp [brackets, h1, this]

theorem word_plain {c : Char} (h : Rust.isWordChar c = true) :
    (c ≠ '"' ∧ isOpen c = false ∧ isClose c = false) ∧ c ≠ '\n' ∧ c ∉ [' ', '/', '.', ')', ']', '}'] := by
  have key : ∀ d : Char, Rust.isWordChar d = false → c ≠ d := by
    rintro d hd rfl
    rw [h] at hd
    cases hd
  have h1 := key '(' (by decide)
  have h2 := key '[' (by decide)
  have h3 := key '{' (by decide)
  have h4 := key ')' (by decide)
  have h5 := key ']' (by decide)
  have h6 := key '}' (by decide)
  have h7 := key '"' (by decide)
  have h8 := key '\n' (by decide)
  have h9 := key ' ' (by decide)
  have h10 := key '/' (by decide)
  have h11 := key '.' (by decide)
  simp [isOpen, isClose, *]

theorem brackets_name {x : Str} (h : Name x) (q : Bool) (o : Str) : brackets q o x = some (q, o) :=
  brackets_plain (fun c hc => (word_plain (h.1 c hc)).1) q o

theorem digit_word (n : Nat) : ∀ c ∈ natStr n, Rust.isWordChar c = true := (Rust.word_digits n).2

theorem brackets_nat (n : Nat) (q : Bool) (o : Str) : brackets q o (natStr n) = some (q, o) :=
  brackets_plain (fun c hc => (word_plain (digit_word n c hc)).1) q o

/-- A piece of one line, with the flag and the brackets before and after it. -/
def Reads (s : Str) (q : Bool) (o : Str) (q' : Bool) (o' : Str) : Prop := '\n' ∉ s ∧ brackets q o s = some (q', o')

theorem Reads.append {a b : Str} {q q1 q2 : Bool} {o o1 o2 : Str} (h1 : Reads a q o q1 o1) (h2 : Reads b q1 o1 q2 o2) :
    Reads (a ++ b) q o q2 o2 := by
  refine ⟨by simp [h1.1, h2.1], ?_⟩
  rw [brackets_append, h1.2]
  exact h2.2

theorem reads_name {x : Str} (h : Name x) (q : Bool) (o : Str) : Reads x q o q o :=
  ⟨fun hc => (word_plain (h.1 _ hc)).2.1 rfl, brackets_name h q o⟩

theorem reads_nat (n : Nat) (q : Bool) (o : Str) : Reads (natStr n) q o q o :=
  ⟨fun hc => (word_plain (digit_word n _ hc)).2.1 rfl, brackets_nat n q o⟩

theorem reads_nil (q : Bool) (o : Str) : Reads [] q o q o := ⟨by simp, rfl⟩

theorem reads_flatten {α : Type} {f : α → Str} {q : Bool} {o : Str} : ∀ {xs : List α}, (∀ x ∈ xs, Reads (f x) q o q o) →
    Reads (xs.map f).flatten q o q o
  | [], _ => reads_nil q o
  | x :: xs, h => by
    simpa using (h x (by simp)).append (reads_flatten (xs := xs) fun y hy => h y (by simp [hy]))

/-! ## Lines -/

/-- The text is laid out from one stack to another. -/
def Lay (st : List Str) (t : Str) (st' : List Str) : Prop :=
  ∀ X, layLines (textLines (t ++ X)) st = layLines (textLines X) st'

/-- The text cannot be laid out. -/
def Wrong (st : List Str) (t : Str) : Prop := ∀ X, layLines (textLines (t ++ X)) st = none

theorem Lay.append {st st1 st2 : List Str} {a b : Str} (h1 : Lay st a st1) (h2 : Lay st1 b st2) : Lay st (a ++ b) st2 := by
  intro X
  rw [List.append_assoc, h1, h2]

theorem Lay.nil (st : List Str) : Lay st [] st := fun _ => rfl

theorem Wrong.append {st : List Str} {a : Str} (h : Wrong st a) (b : Str) : Wrong st (a ++ b) := by
  intro X
  rw [List.append_assoc, h]

theorem Lay.wrong {st st1 : List Str} {a b : Str} (h1 : Lay st a st1) (h2 : Wrong st1 b) : Wrong st (a ++ b) := by
  intro X
  rw [List.append_assoc, h1, h2]

theorem Lay.flatten {α : Type} {f : α → Str} {st : List Str} : ∀ {xs : List α}, (∀ x ∈ xs, Lay st (f x) st) →
    Lay st (xs.map f).flatten st
  | [], _ => .nil st
  | x :: xs, h => by
    simpa using (h x (by simp)).append (Lay.flatten (xs := xs) fun y hy => h y (by simp [hy]))

theorem lay_newline (st : List Str) : Lay st c!"\n" st := by
  intro X
  have : textLines (c!"\n" ++ X) = [] :: textLines X := by simp [textLines]
  rw [this]
  simp [layLines, layLine]

theorem ind_eq : ∀ k, ind k = List.replicate (4 * k) ' '
  | 0 => rfl
  | k + 1 => by
    rw [ind, ind_eq k]
    have : 4 * (k + 1) = 4 * k + 1 + 1 + 1 + 1 := by omega
    rw [this]
    simp [List.replicate_succ]

theorem layLine_ind (k : Nat) {c : Char} {s : Str} (hc : c ≠ ' ') (st : List Str) :
    layLine (ind k ++ c :: s) st = layText (4 * k) (c :: s) st := by
  have h1 : (ind k ++ c :: s).takeWhile (· = ' ') = ind k := by
    rw [List.takeWhile_append_of_pos]
    · simp [hc]
    · rw [ind_eq]
      simp
  have h2 : (ind k ++ c :: s).dropWhile (· = ' ') = c :: s := by
    rw [List.dropWhile_append_of_pos]
    · simp [hc]
    · rw [ind_eq]
      simp
  unfold layLine
  rw [if_neg (by simp), h1, h2, ind_eq, List.length_replicate]

theorem textLines_ind {k : Nat} {s : Str} (hs : '\n' ∉ s) (X : Str) :
    textLines (line k s ++ X) = (ind k ++ s) :: textLines X := by
  have h1 : '\n' ∉ ind k ++ s := by
    rw [ind_eq]
    simp [hs]
  have : line k s ++ X = (ind k ++ s) ++ '\n' :: X := by simp [line]
  rw [this, textLines_newline, textLines_line h1]
  rfl

theorem lay_of {st st' : List Str} {k : Nat} {c : Char} {s : Str} (hs : '\n' ∉ c :: s) (hc : c ≠ ' ')
    (h : layText (4 * k) (c :: s) st = some st') : Lay st (line k (c :: s)) st' := by
  intro X
  rw [textLines_ind hs, layLines, layLine_ind k hc, h]

theorem wrong_of {st : List Str} {k : Nat} {c : Char} {s : Str} (hs : '\n' ∉ c :: s) (hc : c ≠ ' ')
    (h : layText (4 * k) (c :: s) st = none) : Wrong st (line k (c :: s)) := by
  intro X
  rw [textLines_ind hs, layLines, layLine_ind k hc, h]

/-- Lines that begin with an ordinary character, and the brackets they leave open. -/
def Plain (s : Str) (o : Str) : Prop :=
  (∃ c s', s = c :: s' ∧ c ∉ [' ', '/', '.', ')', ']', '}']) ∧ Reads s false [] false o

theorem Plain.layText {c : Char} {s : Str} (hc : c ∉ [' ', '/', '.', ')', ']', '}']) (n : Nat) (st : List Str) :
    layText n (c :: s) st = if n = 4 * st.length then openTop (c :: s) st else none := by
  simp only [List.mem_cons, List.not_mem_nil, or_false, not_or] at hc
  obtain ⟨h1, h2, h3, h4, h5, h6⟩ := hc
  have hcl : isClose c = false := by simp [isClose, h4, h5, h6]
  unfold Layout.layText
  rw [if_neg (by simp), if_neg (by simp [Ne.symm h2]), List.takeWhile_cons_of_neg (by simp [hcl]),
    List.dropWhile_cons_of_neg (by simp [hcl])]
  simp [closeTop, h3]

theorem Plain.lay {s : Str} (h : Plain s []) {st : List Str} {k : Nat} (hk : st.length = k) : Lay st (line k s) st := by
  obtain ⟨⟨c, s', rfl, hc⟩, h1, h2⟩ := h
  refine lay_of h1 (by rintro rfl; simp at hc) ?_
  rw [Plain.layText hc, if_pos (by rw [hk]), openTop, h2]

theorem Plain.opens {s o : Str} {d : Char} (h : Plain s (d :: o)) {st : List Str} {k : Nat} (hk : st.length = k) :
    Lay st (line k s) ((d :: o) :: st) := by
  obtain ⟨⟨c, s', rfl, hc⟩, h1, h2⟩ := h
  refine lay_of h1 (by rintro rfl; simp at hc) ?_
  rw [Plain.layText hc, if_pos (by rw [hk]), openTop, h2]

theorem Plain.wrong {s o : Str} (h : Plain s o) {st : List Str} {k : Nat} (hk : st.length ≠ k) : Wrong st (line k s) := by
  obtain ⟨⟨c, s', rfl, hc⟩, h1, h2⟩ := h
  refine wrong_of h1 (by rintro rfl; simp at hc) ?_
  rw [Plain.layText hc, if_neg (by omega)]

/-- Lines that close what a line has left open. -/
theorem lay_close {o : Str} {st : List Str} {k : Nat} (hk : st.length = k) {c : Char} {a b : Str}
    (ha : ∀ x ∈ c :: a, isClose x = true) (hb : ∀ x ∈ b.head?, isClose x = false) (hn : '\n' ∉ b)
    (h1 : brackets false o (c :: a) = some (false, [])) (h2 : brackets false [] b = some (false, [])) :
    Lay (o :: st) (line k (c :: a ++ b)) st := by
  have hc : isClose c = true := ha c (by simp)
  have key : c = ')' ∨ c = ']' ∨ c = '}' := by
    simpa [isClose, or_assoc] using hc
  have hne : c ≠ ' ' ∧ c ≠ '/' ∧ c ≠ '.' := by rcases key with rfl | rfl | rfl <;> decide
  have hnl : '\n' ∉ c :: a ++ b := by
    rw [List.mem_append]
    rintro (h | h)
    · exact absurd (ha _ h) (by decide)
    · exact hn h
  refine lay_of (s := a ++ b) hnl hne.1 ?_
  have e1 : (c :: (a ++ b)).takeWhile isClose = c :: a := by
    rw [← List.cons_append, List.takeWhile_append_of_pos ha]
    cases b with
    | nil => simp
    | cons x b => simp [hb x (by simp)]
  have e2 : (c :: (a ++ b)).dropWhile isClose = b := by
    rw [← List.cons_append, List.dropWhile_append_of_pos ha]
    cases b with
    | nil => simp
    | cons x b => simp [hb x (by simp)]
  unfold layText
  rw [if_neg (by simp), if_neg (by simp [Ne.symm hne.2.1]), e1, e2]
  have e3 : closeTop (c :: a) (o :: st) = some st := by simp [closeTop, h1]
  rw [e3]
  simp [hne.2.2, hk, openTop, h2]

/-- Comments. -/
theorem lay_comment {s : Str} (hs : '\n' ∉ s) {st : List Str} {k : Nat} (hk : st.length = k) :
    Lay st (line k (c!"//" ++ s)) st := by
  refine lay_of (s := '/' :: s) (by simpa using hs) (by decide) ?_
  unfold layText
  rw [if_neg (by simp), if_pos (by simp), if_pos (by rw [hk])]

/-- Lines that continue the line above. -/
theorem lay_dot {s : Str} {st : List Str} {k : Nat} (hk : st.length = k) (h : Reads ('.' :: s) false [] false []) :
    Lay st (line (k + 1) ('.' :: s)) st := by
  refine lay_of h.1 (by decide) ?_
  unfold layText
  rw [if_neg (by simp), if_neg (by simp), List.takeWhile_cons_of_neg (by decide), List.dropWhile_cons_of_neg (by decide)]
  simp [closeTop, hk, openTop, h.2]

theorem lay_brace {st : List Str} {k : Nat} (hk : st.length = k) : Lay (c!"{" :: st) (line k c!"}") st :=
  lay_close (a := []) (b := []) hk (by decide) (by simp) (by simp) rfl rfl

theorem plain_lit {s o : Str} (h1 : ∃ c s', s = c :: s' ∧ c ∉ [' ', '/', '.', ')', ']', '}']) (h2 : '\n' ∉ s)
    (h3 : brackets false [] s = some (false, o)) : Plain s o := ⟨h1, h2, h3⟩

/-- The head of a line is a character of a literal. -/
theorem head_lit {c : Char} {s : Str} (h : c ∉ [' ', '/', '.', ')', ']', '}']) :
    ∃ d s', c :: s = d :: s' ∧ d ∉ [' ', '/', '.', ')', ']', '}'] := ⟨c, s, rfl, h⟩

theorem head_name {x : Str} (h : Name x) (s : Str) : ∃ d s', x ++ s = d :: s' ∧ d ∉ [' ', '/', '.', ')', ']', '}'] := by
  cases x with
  | nil => exact absurd h.2 (by decide)
  | cons c x => exact ⟨c, x ++ s, rfl, (word_plain (h.1 c (by simp))).2.2⟩

/-! ## Statements -/

theorem reads_mods {ms : List Str} (h : ∀ m ∈ ms, Name (toSnakeCase m)) (o : Str) : Reads (modsText ms) false o false o := by
  induction ms with
  | nil => exact reads_nil _ _
  | cons m ms ih =>
    have h1 := (reads_name (h m (by simp)) false o).append (b := c!"::") (q2 := false) (o2 := o) ⟨by decide, rfl⟩
    simpa [modsText] using h1.append (ih fun x hx => h x (by simp [hx]))

theorem reads_nest : ∀ (ms : List Str) (pre o : Str), (∀ o, Reads pre false o false o) →
    (∀ m ∈ ms, Name (toSnakeCase m) ∧ Name (toCapsCase m)) →
    Reads (nestText pre ms) false o false (List.replicate ms.length '(' ++ o)
  | [], _, o, _, _ => reads_nil _ _
  | m :: ms, pre, o, hp, h => by
    have hm := h m (by simp)
    have h1 : Reads c!"Route::" false o false o := ⟨by decide, rfl⟩
    have h2 : Reads c!"(" false o false ('(' :: o) := ⟨by decide, rfl⟩
    have h3 : ∀ o, Reads c!"::" false o false o := fun o => ⟨by decide, rfl⟩
    have h4 := reads_nest ms (pre ++ (toSnakeCase m ++ c!"::")) ('(' :: o)
      (fun o => (hp o).append ((reads_name hm.1 _ _).append (h3 o))) fun x hx => h x (by simp [hx])
    have := ((((hp o).append h1).append (reads_name hm.2 _ _)).append h2).append h4
    have e : List.replicate ms.length '(' ++ '(' :: o = List.replicate (m :: ms).length '(' ++ o := by
      rw [List.length_cons, List.replicate_succ']
      simp
    rw [← e]
    simpa [nestText, List.append_assoc] using this

theorem brackets_parens (o : Str) : ∀ n, brackets false (List.replicate n '(' ++ o) (List.replicate n ')') = some (false, o)
  | 0 => rfl
  | n + 1 => by
    rw [List.replicate_succ, List.replicate_succ]
    exact brackets_parens o n

theorem lay_methodArm {a : MethodArm} (h : ArmNamed Name a) {st : List Str} {k : Nat} (hk : st.length = k) :
    Lay st (a.render k) st := by
  obtain ⟨hm, hn, hc, hx⟩ := h
  replace hm := fun m h => And.intro (hm m h).1 (Rust.capsIn_name.1 (hm m h).2)
  replace hn := Rust.capsIn_name.1 hn
  have hms : ∀ m ∈ a.modules, Name (toSnakeCase m) := fun m h => (hm m h).1
  unfold MethodArm.render
  rw [moduleNest_eq]
  simp only [List.nil_append]
  let o1 : Str := c!"(("
  let o2 : Str := List.replicate a.modules.length '(' ++ o1
  have hverb : Reads (a.method.byteStr ++ c!" => return Ok(Match::") false [] false c!"(" := by
    cases a.method <;> exact ⟨by decide, rfl⟩
  have hkind : Reads ((if a.isRedirect then c!"Redirect" else c!"Route") ++ c!"(") false c!"(" false o1 := by
    cases a.isRedirect <;> exact ⟨by decide, rfl⟩
  have hnest : Reads (nestText [] a.modules) false o1 false o2 := reads_nest a.modules [] o1 (fun o => reads_nil _ _) hm
  have hroute : Reads c!"Route::" false o2 false o2 := ⟨by decide, rfl⟩
  have hp : Reads c!"(" false o2 false ('(' :: o2) := ⟨by decide, rfl⟩
  have hb : Reads c!" {" false ('(' :: o2) false ('{' :: '(' :: o2) := ⟨by decide, rfl⟩
  have hr := (((((((((hverb.append hkind).append hnest).append (reads_mods hms o2)).append hroute).append
    (reads_name hn _ _)).append hp).append (reads_mods hms _)).append (reads_name hn _ _)).append hb)
  have hhead : ∀ s : Str, ∃ c s', a.method.byteStr ++ s = c :: s' ∧ c ∉ [' ', '/', '.', ')', ']', '}'] := by
    intro s
    cases a.method <;> exact ⟨'b', _, rfl, by decide⟩
  have hopen := Plain.opens (st := st) (k := k) ⟨hhead _, by simpa only [List.append_assoc] using hr⟩ hk
  have hcap : Lay (('{' :: '(' :: o2) :: st) (a.captures.map fun p => line (k + 1) (p.name ++ c!",")).flatten
      (('{' :: '(' :: o2) :: st) := by
    refine Lay.flatten fun p hp => ?_
    have h1 : Reads c!"," false [] false [] := ⟨by decide, rfl⟩
    exact Plain.lay ⟨head_name (hc p hp) _, (reads_name (hc p hp) _ _).append h1⟩ (by simp [hk])
  have hnone : Lay (('{' :: '(' :: o2) :: st) (a.nones.map fun x => line (k + 1) (x ++ c!": None,")).flatten
      (('{' :: '(' :: o2) :: st) := by
    refine Lay.flatten fun p hp => ?_
    have h1 : Reads c!": None," false [] false [] := ⟨by decide, rfl⟩
    exact Plain.lay ⟨head_name (hx p hp) _, (reads_name (hx p hp) _ _).append h1⟩ (by simp [hk])
  have hclose : Lay (('{' :: '(' :: o2) :: st) (line k (c!"}" ++ List.replicate a.modules.length ')' ++ c!"))),")) st := by
    have e : c!"}" ++ List.replicate a.modules.length ')' ++ c!")))," =
        '}' :: (List.replicate a.modules.length ')' ++ c!")))") ++ c!"," := by simp
    rw [e]
    refine lay_close hk ?_ ?_ (by decide) ?_ rfl
    · intro x hx
      simp only [List.mem_cons, List.mem_append, List.mem_replicate, List.not_mem_nil, or_false] at hx
      have : x = '}' ∨ x = ')' := by
        rcases hx with h | ⟨_, h⟩ | h | h | h <;> simp [h]
      rcases this with rfl | rfl <;> decide
    · intro x hx
      have : x = ',' := by simpa using hx.symm
      rw [this]; decide
    · have e2 : ('(' :: o2 : Str) = List.replicate a.modules.length '(' ++ c!"(((" := by
        show '(' :: (List.replicate a.modules.length '(' ++ c!"((") = _
        have := List.replicate_succ' (n := a.modules.length) (a := '(')
        rw [List.replicate_succ] at this
        rw [← List.cons_append, this]
        simp
      have e3 : brackets false ('{' :: '(' :: o2) ('}' :: (List.replicate a.modules.length ')' ++ c!")))")) =
          brackets false ('(' :: o2) (List.replicate a.modules.length ')' ++ c!")))") := rfl
      rw [e3, e2, brackets_append, brackets_parens]
      rfl
  have := ((hopen.append hcap).append hnone).append hclose
  simpa only [List.append_assoc] using this

theorem reads_cond (c : Cond) (o : Str) : Reads c.render false o false o := by
  cases c with
  | iEqLen => exact ⟨by decide, rfl⟩
  | iLeLen => exact ⟨by decide, rfl⟩
  | iAddGtLen n =>
    have h1 : Reads c!"i + " false o false o := ⟨by decide, rfl⟩
    have h2 : Reads c!" > len" false o false o := ⟨by decide, rfl⟩
    exact (h1.append (reads_nat n _ _)).append h2
  | iAddLeLen n =>
    have h1 : Reads c!"i + " false o false o := ⟨by decide, rfl⟩
    have h2 : Reads c!" <= len" false o false o := ⟨by decide, rfl⟩
    exact (h1.append (reads_nat n _ _)).append h2

theorem plain_if (c : Cond) : Plain (c!"if " ++ c.render ++ c!" {") c!"{" := by
  have h1 : Reads c!"if " false [] false [] := ⟨by decide, rfl⟩
  have h2 : Reads c!" {" false [] false c!"{" := ⟨by decide, rfl⟩
  exact ⟨⟨_, _, rfl, by decide⟩, (h1.append (reads_cond c _)).append h2⟩

theorem plain_add (n : Nat) : Plain (c!"i += " ++ natStr n ++ c!";") [] := by
  have h1 : Reads c!"i += " false [] false [] := ⟨by decide, rfl⟩
  have h2 : Reads c!";" false [] false [] := ⟨by decide, rfl⟩
  exact ⟨⟨_, _, rfl, by decide⟩, (h1.append (reads_nat n _ _)).append h2⟩

theorem plain_matchPath (n : Nat) : Plain (c!"match &path[i..i+" ++ natStr n ++ c!"] {") c!"{" := by
  have h1 : Reads c!"match &path[i..i+" false [] false c!"[" := ⟨by decide, rfl⟩
  have h2 : Reads c!"] {" false c!"[" false c!"{" := ⟨by decide, rfl⟩
  exact ⟨⟨_, _, rfl, by decide⟩, (h1.append (reads_nat n _ _)).append h2⟩

theorem plain_bytes {pat : Str} (h : ∀ c ∈ pat, textChar c = true ∧ c ≠ '\n') : Plain (c!"b\"" ++ pat ++ c!"\" => {") c!"{" := by
  have h1 : Reads c!"b\"" false [] true [] := ⟨by decide, rfl⟩
  have h2 : Reads c!"\" => {" true [] false c!"{" := ⟨by decide, rfl⟩
  have h3 : Reads pat true [] true [] := ⟨fun hn => (h _ hn).2 rfl, brackets_str (fun c hc => (h c hc).1) _⟩
  exact ⟨⟨_, _, rfl, by decide⟩, (h1.append h3).append h2⟩

theorem plain_letParam {name : Str} (h : Name name) : Plain (c!"let " ++ name ++ c!" = text.parse()") [] := by
  have h1 : Reads c!"let " false [] false [] := ⟨by decide, rfl⟩
  have h2 : Reads c!" = text.parse()" false [] false [] := ⟨by decide, rfl⟩
  exact ⟨⟨_, _, rfl, by decide⟩, (h1.append (reads_name h _ _)).append h2⟩

theorem plain_letText : Plain c!"let text = std::str::from_utf8(&path[start..i]).unwrap();" [] :=
  plain_lit (head_lit (by decide)) (by decide +kernel) (by decide +kernel)

theorem lay_mapErr {name : Str} (h : Name name) {st : List Str} {k : Nat} (hk : st.length = k) :
    Lay st (line (k + 1) (c!".map_err(|e| Error::fail(\"" ++ name ++ c!"\", e))?;")) st := by
  have h1 : Reads c!".map_err(|e| Error::fail(\"" false [] true c!"((" := ⟨by decide, rfl⟩
  have h2 : Reads c!"\", e))?;" true c!"((" false [] := ⟨by decide, rfl⟩
  exact lay_dot hk ((h1.append (reads_name h _ _)).append h2)

/-- A statement that stands at the wrong level. -/
theorem wrong_stmt {s : Stmt} (h : StmtNamed Name s) (hb : s ≠ .blank) {st : List Str} {k : Nat} (hk : st.length ≠ k) :
    Wrong st (s.render k) := by
  cases s with
  | blank => exact absurd rfl hb
  | letStart => exact (plain_lit (o := []) (head_lit (by decide)) (by decide) rfl).wrong hk
  | addI n => exact (plain_add n).wrong hk
  | retNotFound => exact (plain_lit (o := []) (head_lit (by decide)) (by decide) rfl).wrong hk
  | ifThen c body =>
    rw [Stmt.render]
    exact (((plain_if c).wrong hk).append _).append _
  | matchMethod arms =>
    rw [Stmt.render]
    exact ((((plain_lit (o := c!"{") (head_lit (by decide)) (by decide) rfl).wrong hk).append _).append _).append _
  | matchPath n arms =>
    rw [Stmt.render]
    exact (((plain_matchPath n).wrong hk).append _).append _
  | whileScan =>
    rw [Stmt.render]
    exact (((plain_lit (o := c!"{") (head_lit (by decide)) (by decide) rfl).wrong hk).append _).append _
  | letText => exact plain_letText.wrong hk
  | letParam name typ =>
    rw [Stmt.render]
    exact ((plain_letParam (by simpa [StmtNamed] using h)).wrong hk).append _

theorem wrong_block {st : List Str} {k : Nat} (hk : st.length ≠ k) : ∀ {b : List Stmt}, BlockNamed Name b →
    (∃ s ∈ b, s ≠ .blank) → Wrong st (renderBlock k b)
  | [], _, h => by simp at h
  | s :: b, h, hs => by
    simp only [BlockNamed] at h
    rw [renderBlock]
    by_cases h1 : s = .blank
    · subst h1
      have h2 : ∃ s ∈ b, s ≠ .blank := by
        obtain ⟨x, hx, hxb⟩ := hs
        rcases List.mem_cons.1 hx with rfl | hx
        · exact absurd rfl hxb
        · exact ⟨x, hx, hxb⟩
      have := wrong_block hk h.2 h2
      rw [Stmt.render]
      exact (lay_newline st).wrong this
    · exact (wrong_stmt h.1 h1 hk).append _

mutual
theorem lay_stmt : ∀ (s : Stmt) (st : List Str) (k : Nat), st.length = k → StmtNamed Name s →
    (NoStray s → Lay st (s.render k) st) ∧ (¬ NoStray s → Wrong st (s.render k))
  | .blank, st, k, hk, _ => ⟨fun _ => lay_newline st, fun h => absurd (by simp [NoStray]) h⟩
  | .letStart, st, k, hk, _ => ⟨fun _ => (plain_lit (head_lit (by decide)) (by decide) rfl).lay hk,
      fun h => absurd (by simp [NoStray]) h⟩
  | .addI n, st, k, hk, _ => ⟨fun _ => (plain_add n).lay hk, fun h => absurd (by simp [NoStray]) h⟩
  | .retNotFound, st, k, hk, _ => ⟨fun _ => (plain_lit (head_lit (by decide)) (by decide) rfl).lay hk,
      fun h => absurd (by simp [NoStray]) h⟩
  | .ifThen c body, st, k, hk, h => by
    have ih := lay_block body (c!"{" :: st) (k + 1) (by simp [hk]) (by simpa [StmtNamed] using h)
    have h1 := (plain_if c).opens hk
    rw [Stmt.render, NoStray]
    exact ⟨fun hs => (h1.append (ih.1 hs)).append (lay_brace hk), fun hs => (h1.wrong (ih.2 hs)).append _⟩
  | .matchMethod arms, st, k, hk, h => by
    refine ⟨fun _ => ?_, fun h => absurd (by simp [NoStray]) h⟩
    have h1 : Lay st (line k c!"match method {") (c!"{" :: st) :=
      (plain_lit (head_lit (by decide)) (by decide) rfl).opens hk
    have h2 : Lay (c!"{" :: st) (arms.map (MethodArm.render (k + 1))).flatten (c!"{" :: st) :=
      .flatten fun a ha => lay_methodArm ((by simpa [StmtNamed] using h : ∀ a ∈ arms, ArmNamed Name a) a ha) (by simp [hk])
    have h3 : Lay (c!"{" :: st) (line (k + 1) c!"_ => return Ok(Match::NotAllowed),") (c!"{" :: st) :=
      (plain_lit (head_lit (by decide)) (by decide) rfl).lay (by simp [hk])
    rw [Stmt.render]
    exact ((h1.append h2).append h3).append (lay_brace hk)
  | .matchPath n arms, st, k, hk, h => by
    have ih := lay_arms arms (c!"{" :: st) (k + 1) (by simp [hk]) (by omega) (by simpa [StmtNamed] using h)
    have h1 := (plain_matchPath n).opens hk
    rw [Stmt.render, NoStray]
    exact ⟨fun hs => (h1.append (ih.1 hs)).append (lay_brace hk), fun hs => (h1.wrong (ih.2 hs)).append _⟩
  | .whileScan, st, k, hk, _ => by
    refine ⟨fun _ => ?_, fun h => absurd (by simp [NoStray]) h⟩
    have h1 : Lay st (line k c!"while i < len && &path[i..i+1] != b\"/\" {") (c!"{" :: st) :=
      (plain_lit (head_lit (by decide)) (by decide) rfl).opens hk
    have h2 : Lay (c!"{" :: st) (line (k + 1) c!"i += 1;") (c!"{" :: st) :=
      (plain_lit (head_lit (by decide)) (by decide) rfl).lay (by simp [hk])
    rw [Stmt.render]
    exact (h1.append h2).append (lay_brace hk)
  | .letText, st, k, hk, _ => ⟨fun _ => plain_letText.lay hk,
      fun h => absurd (by simp [NoStray]) h⟩
  | .letParam name typ, st, k, hk, h => by
    refine ⟨fun _ => ?_, fun h => absurd (by simp [NoStray]) h⟩
    have hn : Name name := by simpa [StmtNamed] using h
    rw [Stmt.render]
    exact ((plain_letParam hn).lay hk).append (lay_mapErr hn hk)
theorem lay_block : ∀ (b : List Stmt) (st : List Str) (k : Nat), st.length = k → BlockNamed Name b →
    (NoStrays b → Lay st (renderBlock k b) st) ∧ (¬ NoStrays b → Wrong st (renderBlock k b))
  | [], st, k, hk, _ => by
    simp only [renderBlock, NoStrays]
    exact ⟨fun _ => .nil st, fun h => absurd trivial h⟩
  | s :: b, st, k, hk, h => by
    simp only [BlockNamed] at h
    have h1 := lay_stmt s st k hk h.1
    have h2 := lay_block b st k hk h.2
    rw [renderBlock, NoStrays]
    refine ⟨fun hs => (h1.1 hs.1).append (h2.1 hs.2), fun hs => ?_⟩
    by_cases hs1 : NoStray s
    · exact (h1.1 hs1).wrong (h2.2 fun h => hs ⟨hs1, h⟩)
    · exact (h1.2 hs1).append _
theorem lay_arm : ∀ (a : Arm) (st : List Str) (k : Nat), st.length = k → 0 < k → PathArmNamed Name a →
    (NoStrayArm a → Lay st (a.render k) st) ∧ (¬ NoStrayArm a → Wrong st (a.render k))
  | .bytes pat body, st, k, hk, _, h => by
    simp only [PathArmNamed] at h
    have ih := lay_block body (c!"{" :: st) (k + 1) (by simp [hk]) h.2
    have h1 := (plain_bytes h.1).opens hk
    have h2 : Lay (c!"{" :: st) (line k c!"},") st :=
      lay_close (c := '}') (a := []) (b := c!",") hk (by decide) (by decide) (by decide) rfl rfl
    rw [Arm.render, NoStrayArm]
    exact ⟨fun hs => (h1.append (ih.1 hs)).append h2, fun hs => (h1.wrong (ih.2 hs)).append _⟩
  | .wildNotFound, st, k, hk, _, _ => ⟨fun _ => (plain_lit (head_lit (by decide)) (by decide) rfl).lay hk,
      fun h => absurd (by simp [NoStrayArm]) h⟩
  | .wildNothing, st, k, hk, _, _ => ⟨fun _ => (plain_lit (head_lit (by decide)) (by decide) rfl).lay hk,
      fun h => absurd (by simp [NoStrayArm]) h⟩
  | .someSlash, st, k, hk, _, _ => ⟨fun _ => (plain_lit (head_lit (by decide)) (by decide) rfl).lay hk,
      fun h => absurd (by simp [NoStrayArm]) h⟩
  | .stray body, st, k, hk, hk0, h => by
    simp only [PathArmNamed] at h
    rw [Arm.render, NoStrayArm]
    exact ⟨fun h => h.elim, fun _ => wrong_block (by omega) h.1 h.2⟩
theorem lay_arms : ∀ (as : List Arm) (st : List Str) (k : Nat), st.length = k → 0 < k → ArmsNamed Name as →
    (NoStrayArms as → Lay st (renderArms k as) st) ∧ (¬ NoStrayArms as → Wrong st (renderArms k as))
  | [], st, k, hk, _, _ => by
    simp only [renderArms, NoStrayArms]
    exact ⟨fun _ => .nil st, fun h => absurd trivial h⟩
  | a :: as, st, k, hk, hk0, h => by
    simp only [ArmsNamed] at h
    have h1 := lay_arm a st k hk hk0 h.1
    have h2 := lay_arms as st k hk hk0 h.2
    rw [renderArms, NoStrayArms]
    refine ⟨fun hs => (h1.1 hs.1).append (h2.1 hs.2), fun hs => ?_⟩
    by_cases hs1 : NoStrayArm a
    · exact (h1.1 hs1).wrong (h2.2 fun h => hs ⟨hs1, h⟩)
    · exact (h1.2 hs1).append _
end

/-! ## Declarations -/

theorem lay_docLine {st : List Str} {k : Nat} (hk : st.length = k) {s : Str} (h : '\n' ∉ s) :
    Lay st (line k (c!"/// " ++ s)) st := by
  have := lay_comment (s := c!"/ " ++ s) (by simpa using h) hk
  simpa using this

theorem lay_derive {st : List Str} {k : Nat} (hk : st.length = k) : Lay st (line k c!"#[derive(Debug, PartialEq, Eq)]") st :=
  (plain_lit (head_lit (by decide)) (by decide +kernel) (by decide +kernel)).lay hk

theorem lay_make {st : List Str} {k : Nat} (hk : st.length = k) :
    Lay st (line k c!"/// Make a path to this route with the given parameters.") st :=
  lay_docLine (s := c!"Make a path to this route with the given parameters.") hk (by decide +kernel)

theorem lay_toPath {st : List Str} {k : Nat} (hk : st.length = k) :
    Lay st (line k c!"pub fn to_path(&self) -> String {") (c!"{" :: st) :=
  (plain_lit (head_lit (by decide)) (by decide +kernel) (by decide +kernel)).opens hk

theorem lay_action {a : FlattenedAction} (h : ActionNamed Name a) {st : List Str} {k : Nat} (hk : st.length = k) :
    Lay st (renderAction k a) st := by
  have ⟨hn, hs, hp, hq⟩ := h
  replace hn := Rust.capsIn_name.1 hn
  have hk1 : (c!"{" :: st).length = k + 1 := by simp [hk]
  have hk2 : (c!"{" :: c!"{" :: st).length = k + 2 := by simp [hk]
  have lit : ∀ (s : Str) (q : Bool) (o : Str) (q' : Bool) (o' : Str), '\n' ∉ s → brackets q o s = some (q', o') →
    Reads s q o q' o' := fun s q o q' o' h1 h2 => ⟨h1, h2⟩
  have hdoc : Lay st (line k (c!"/// Renders for `" ++ a.method.display ++ c!" /"
      ++ renderPath (fun p => c!"{" ++ p ++ c!"}") (charlikes a.path) ++ c!"`.")) st := by
    have h2 : '\n' ∉ a.method.display := by cases a.method <;> decide
    have h1 := Rust.doc_chars h
    have := lay_docLine (st := st) (s := c!"Renders for `" ++ a.method.display ++ c!" /"
      ++ renderPath (fun p => c!"{" ++ p ++ c!"}") (charlikes a.path) ++ c!"`.") hk (by
        simp only [List.mem_append, not_or]
        exact ⟨⟨⟨⟨by decide, h2⟩, by decide⟩, h1⟩, by decide⟩)
    simpa only [List.append_assoc, List.cons_append, List.nil_append] using this
  have hunit : Lay st (line k (c!"pub struct " ++ toCapsCase a.name ++ c!";")) st := by
    refine Plain.lay ⟨⟨_, _, rfl, by decide⟩, ?_⟩ hk
    exact ((lit c!"pub struct " false [] false [] (by decide) rfl).append (reads_name hn _ _)).append
      (lit c!";" false [] false [] (by decide) rfl)
  have hopen : Lay st (line k (c!"pub struct " ++ toCapsCase a.name ++ c!" {")) (c!"{" :: st) := by
    refine Plain.opens ⟨⟨_, _, rfl, by decide⟩, ?_⟩ hk
    exact ((lit c!"pub struct " false [] false [] (by decide) rfl).append (reads_name hn _ _)).append
      (lit c!" {" false [] false c!"{" (by decide) rfl)
  have hfields : Lay (c!"{" :: st) (a.routeParameters.map fun p =>
      line (k + 1) (c!"pub " ++ p.name ++ c!": " ++ p.typ ++ c!",")).flatten (c!"{" :: st) := by
    refine Lay.flatten fun p hpm => Plain.lay ⟨⟨_, _, rfl, by decide⟩, ?_⟩ hk1
    exact ((((lit c!"pub " false [] false [] (by decide) rfl).append (reads_name (hp p hpm).1 _ _)).append
      (lit c!": " false [] false [] (by decide) rfl)).append (reads_name (hp p hpm).2 _ _)).append
      (lit c!"," false [] false [] (by decide) rfl)
  have hopts : Lay (c!"{" :: st) (a.queryParameters.map fun p =>
      line (k + 1) (c!"pub " ++ p.name ++ c!": Option<" ++ p.typ ++ c!">,")).flatten (c!"{" :: st) := by
    refine Lay.flatten fun p hpm => Plain.lay ⟨⟨_, _, rfl, by decide⟩, ?_⟩ hk1
    exact ((((lit c!"pub " false [] false [] (by decide) rfl).append (reads_name (hq p hpm).1 _ _)).append
      (lit c!": Option<" false [] false [] (by decide) rfl)).append (reads_name (hq p hpm).2 _ _)).append
      (lit c!">," false [] false [] (by decide) rfl)
  have himpl : Lay st (line k (c!"impl " ++ toCapsCase a.name ++ c!" {")) (c!"{" :: st) := by
    refine Plain.opens ⟨⟨_, _, rfl, by decide⟩, ?_⟩ hk
    exact ((lit c!"impl " false [] false [] (by decide) rfl).append (reads_name hn _ _)).append
      (lit c!" {" false [] false c!"{" (by decide) rfl)
  have hbound : ∀ x ∈ a.bound, Name x := by
    intro x hx
    simp only [FlattenedAction.bound, List.mem_append, List.mem_map] at hx
    rcases hx with ⟨p, hpm, rfl⟩ | ⟨p, hpm, rfl⟩
    · exact (hp p hpm).1
    · exact (hq p hpm).1
  have hlet : Lay (c!"{" :: c!"{" :: st) (line (k + 2) (c!"let " ++ toCapsCase a.name ++ c!" { "
        ++ (a.bound.map fun x => c!"ref " ++ x ++ c!", ").flatten ++ c!"} = self;")) (c!"{" :: c!"{" :: st) := by
    refine Plain.lay ⟨⟨_, _, rfl, by decide⟩, ?_⟩ hk2
    have h1 : Reads (a.bound.map fun x => c!"ref " ++ x ++ c!", ").flatten false c!"{" false c!"{" :=
      reads_flatten fun x hx => ((lit c!"ref " false c!"{" false c!"{" (by decide) rfl).append
        (reads_name (hbound x hx) _ _)).append (lit c!", " false c!"{" false c!"{" (by decide) rfl)
    exact ((((lit c!"let " false [] false [] (by decide) rfl).append (reads_name hn _ _)).append
      (lit c!" { " false [] false c!"{" (by decide) rfl)).append h1).append (lit c!"} = self;" false c!"{" false [] (by decide) rfl)
  have hfmt : Lay (c!"{" :: c!"{" :: st) (line (k + 2) (c!"format!(\"" ++ a.template ++ c!"\""
        ++ (a.formatArgs.map fun x => c!", " ++ x).flatten ++ c!")")) (c!"{" :: c!"{" :: st) := by
    refine Plain.lay ⟨⟨_, _, rfl, by decide⟩, ?_⟩ hk2
    have h1 : Reads (a.formatArgs.map fun x => c!", " ++ x).flatten false c!"(" false c!"(" := by
      refine reads_flatten fun x hx => ?_
      simp only [FlattenedAction.formatArgs, List.mem_map] at hx
      obtain ⟨p, hpm, rfl⟩ := hx
      exact (lit c!", " false c!"(" false c!"(" (by decide) rfl).append (reads_name (hp p hpm).1 _ _)
    have hnl : '\n' ∉ a.template := by
      intro hc
      unfold FlattenedAction.template at hc
      rcases List.mem_append.1 hc with hc | hc
      · revert hc; decide
      · refine Rust.renderPath_chars (P := fun c => c ≠ '\n') (by decide) ?_ ?_ '\n' hc rfl
        · intro c hc
          obtain ⟨s, hs', hcs⟩ := Rust.mem_charlikes_static hc
          exact (h.2.1 _ hs' c hcs).2
        · intro p _ c hc
          have : c = '{' ∨ c = '}' := by simpa using hc
          rcases this with rfl | rfl <;> decide
    have h2 : Reads a.template true c!"(" true c!"(" := ⟨hnl, brackets_str (Rust.template_chars h) _⟩
    exact ((((lit c!"format!(\"" false [] true c!"(" (by decide) rfl).append h2).append
      (lit c!"\"" true c!"(" false c!"(" (by decide) rfl)).append h1).append (lit c!")" false c!"(" false [] (by decide) rfl)
  have hdecl : Lay st (if (a.routeParameters.isEmpty && a.queryParameters.isEmpty) then line k (c!"pub struct " ++ toCapsCase a.name ++ c!";")
      else
        line k (c!"pub struct " ++ toCapsCase a.name ++ c!" {")
        ++ (a.routeParameters.map fun p =>
              line (k + 1) (c!"pub " ++ p.name ++ c!": " ++ p.typ ++ c!",")).flatten
        ++ (a.queryParameters.map fun p =>
              line (k + 1) (c!"pub " ++ p.name ++ c!": Option<" ++ p.typ ++ c!">,")).flatten
        ++ line k c!"}") st := by
    split
    · exact hunit
    · exact ((hopen.append hfields).append hopts).append (lay_brace hk)
  have hbind : Lay (c!"{" :: c!"{" :: st) (if (a.routeParameters.isEmpty && a.queryParameters.isEmpty) then []
      else line (k + 2) (c!"let " ++ toCapsCase a.name ++ c!" { "
        ++ (a.bound.map fun x => c!"ref " ++ x ++ c!", ").flatten
        ++ c!"} = self;")) (c!"{" :: c!"{" :: st) := by
    split
    · exact .nil _
    · exact hlet
  unfold renderAction
  exact ((((((((((hdoc.append (lay_derive hk)).append hdecl).append (lay_newline st)).append himpl).append (lay_make hk1)).append
    (lay_toPath hk1)).append hbind).append hfmt).append (lay_brace hk1)).append (lay_brace hk)).append (lay_newline st)

theorem lay_enum {name : Str} {actions : List FlattenedAction} {modules : List FlattenedModule} {st : List Str} {k : Nat}
    (hk : st.length = k) (hname : k = 1 ∨ Name (toSnakeCase name)) (ha : ∀ a ∈ actions, Name (toCapsCase a.name))
    (hm : ∀ m ∈ modules, Name (toSnakeCase m.name) ∧ Name (toCapsCase m.name)) :
    Lay st (renderRouteEnum k name actions modules) st := by
  have hk1 : (c!"{" :: st).length = k + 1 := by simp [hk]
  have hk2 : (c!"{" :: c!"{" :: st).length = k + 2 := by simp [hk]
  have hk3 : (c!"{" :: c!"{" :: c!"{" :: st).length = k + 3 := by simp [hk]
  have lit : ∀ (s : Str) (q : Bool) (o : Str) (q' : Bool) (o' : Str), '\n' ∉ s → brackets q o s = some (q', o') →
    Reads s q o q' o' := fun s q o q' o' h1 h2 => ⟨h1, h2⟩
  have hdoc : Lay st (if k = 1 then line k c!"/// An active route in the application -- match against this."
     else line k (c!"/// Parameters for requests to the " ++ toSnakeCase name ++ c!" controller.")) st := by
    split
    · exact lay_docLine (s := c!"An active route in the application -- match against this.") hk (by decide +kernel)
    · rename_i h1
      have hn := hname.resolve_left h1
      have := lay_docLine (st := st) (s := c!"Parameters for requests to the " ++ toSnakeCase name ++ c!" controller.") hk (by
        simp only [List.mem_append, not_or]
        exact ⟨⟨by decide, (reads_name hn false []).1⟩, by decide⟩)
      simpa only [List.append_assoc, List.cons_append, List.nil_append] using this
  have henum : Lay st (line k c!"pub enum Route {") (c!"{" :: st) :=
    (plain_lit (head_lit (by decide)) (by decide +kernel) (by decide +kernel)).opens hk
  have hva : Lay (c!"{" :: st) (actions.map fun a =>
        line (k + 1) (toCapsCase a.name ++ c!"(" ++ toCapsCase a.name ++ c!"),")).flatten (c!"{" :: st) := by
    refine Lay.flatten fun a haa => Plain.lay ⟨?_, ?_⟩ hk1
    · simpa only [List.append_assoc] using head_name (ha a haa) _
    · exact (((reads_name (ha a haa) _ _).append (lit c!"(" false [] false c!"(" (by decide) rfl)).append
        (reads_name (ha a haa) _ _)).append (lit c!")," false c!"(" false [] (by decide) rfl)
  have hvm : Lay (c!"{" :: st) (modules.map fun m =>
        line (k + 1) (toCapsCase m.name ++ c!"(" ++ toSnakeCase m.name ++ c!"::Route),")).flatten (c!"{" :: st) := by
    refine Lay.flatten fun m hmm => Plain.lay ⟨?_, ?_⟩ hk1
    · simpa only [List.append_assoc] using head_name (hm m hmm).2 _
    · exact (((reads_name (hm m hmm).2 _ _).append (lit c!"(" false [] false c!"(" (by decide) rfl)).append
        (reads_name (hm m hmm).1 _ _)).append (lit c!"::Route)," false c!"(" false [] (by decide) rfl)
  have himpl : Lay st (line k c!"impl Route {") (c!"{" :: st) :=
    (plain_lit (head_lit (by decide)) (by decide +kernel) (by decide +kernel)).opens hk
  have hmatch : Lay (c!"{" :: c!"{" :: st) (line (k + 2) c!"match self {") (c!"{" :: c!"{" :: c!"{" :: st) :=
    (plain_lit (head_lit (by decide)) (by decide +kernel) (by decide +kernel)).opens hk2
  have harm : ∀ x, Name x → Lay (c!"{" :: c!"{" :: c!"{" :: st)
      (line (k + 3) (c!"Route::" ++ x ++ c!"(ref route) => route.to_path(),")) (c!"{" :: c!"{" :: c!"{" :: st) := by
    intro x hx
    refine Plain.lay ⟨⟨_, _, rfl, by decide⟩, ?_⟩ hk3
    exact ((lit c!"Route::" false [] false [] (by decide) rfl).append (reads_name hx _ _)).append
      (lit c!"(ref route) => route.to_path()," false [] false [] (by decide) rfl)
  have hha := Lay.flatten (f := fun a : FlattenedAction =>
    line (k + 3) (c!"Route::" ++ toCapsCase a.name ++ c!"(ref route) => route.to_path(),")) fun a haa => harm _ (ha a haa)
  have hhm := Lay.flatten (f := fun m : FlattenedModule =>
    line (k + 3) (c!"Route::" ++ toCapsCase m.name ++ c!"(ref route) => route.to_path(),")) fun m hmm => harm _ (hm m hmm).2
  unfold renderRouteEnum
  exact ((((((((((((((hdoc.append (lay_derive hk)).append henum).append hva).append hvm).append (lay_brace hk)).append
    (lay_newline st)).append himpl).append (lay_make hk1)).append (lay_toPath hk1)).append hmatch).append hha).append hhm).append
    (lay_brace hk2)).append (lay_brace hk1)).append (lay_brace hk)

theorem lay_headers {headers : List Header} (hh : ∀ h ∈ headers, TidyHeader h) {st : List Str} {k : Nat} (hk : st.length = k) :
    Lay st (renderHeaders k headers) st := by
  unfold renderHeaders
  refine Lay.append (Lay.flatten fun h hm => Plain.lay ⟨(hh h hm).head, (hh h hm).line, (hh h hm).balanced⟩ hk) ?_
  split
  · exact lay_newline st
  · exact .nil st

mutual
theorem lay_module {headers : List Header} (hh : ∀ h ∈ headers, TidyHeader h) : ∀ (m : FlattenedModule) (st : List Str) (k : Nat),
    st.length = k → (k = 1 ∨ Name (toSnakeCase m.name)) → ModNamed Name m → Lay st (renderModule headers k m) st
  | .mk name actions modules, st, k, hk, hn, h => by
    simp only [ModNamed] at h
    have h3 := lay_enum (st := st) (name := name) hk hn (fun a ha => Rust.capsIn_name.1 (h.1 a ha).1) fun m hm =>
      ⟨(h.2.mem m hm).1, Rust.capsIn_name.1 (h.2.mem m hm).2.1⟩
    rw [renderModule]
    exact (((lay_headers hh hk).append (.flatten fun a ha => lay_action (h.1 a ha) hk)).append
      (lay_subs hh modules st k hk h.2)).append h3
theorem lay_subs {headers : List Header} (hh : ∀ h ∈ headers, TidyHeader h) : ∀ (ms : List FlattenedModule) (st : List Str) (k : Nat),
    st.length = k → ModsNamed Name ms → Lay st (renderSubmodules headers k ms) st
  | [], st, k, _, _ => by
    rw [renderSubmodules]
    exact .nil st
  | m :: ms, st, k, hk, h => by
    simp only [ModsNamed] at h
    rw [renderSubmodules]
    exact (lay_sub hh m st k hk h.1 h.2.2.1).append (lay_subs hh ms st k hk h.2.2.2)
theorem lay_sub {headers : List Header} (hh : ∀ h ∈ headers, TidyHeader h) : ∀ (m : FlattenedModule) (st : List Str) (k : Nat),
    st.length = k → Name (toSnakeCase m.name) → ModNamed Name m → Lay st (renderSubmodule headers k m) st
  | .mk name actions modules, st, k, hk, hn, h => by
    simp only [ModNamed] at h
    have hk1 : (c!"{" :: st).length = k + 1 := by simp [hk]
    have h3 := lay_enum (st := c!"{" :: st) (name := name) hk1 (.inr hn) (fun a ha => Rust.capsIn_name.1 (h.1 a ha).1) fun m hm =>
      ⟨(h.2.mem m hm).1, Rust.capsIn_name.1 (h.2.mem m hm).2.1⟩
    have h1 : Lay st (line k (c!"pub mod " ++ toSnakeCase name ++ c!" {")) (c!"{" :: st) := by
      refine Plain.opens ⟨⟨_, _, rfl, by decide⟩, ?_⟩ hk
      have r1 : Reads c!"pub mod " false [] false [] := ⟨by decide, rfl⟩
      have r2 : Reads c!" {" false [] false c!"{" := ⟨by decide, rfl⟩
      exact (r1.append (reads_name hn _ _)).append r2
    rw [renderSubmodule]
    exact ((h1.append ((((lay_headers hh hk1).append (.flatten fun a ha => lay_action (h.1 a ha) hk1)).append
      (lay_subs hh modules _ _ hk1 h.2)).append h3)).append (lay_brace hk)).append (lay_newline st)
end

end Wayfinder.Layout
