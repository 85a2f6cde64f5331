import Verif.Spec.Read
import Verif.Model.Gen
/-!
# Lexing the emitted text

The text of every emitted line is read back as a fixed list of tokens; lines do not interact.
-/

namespace Wayfinder.Rust

theorem run_append : ∀ (a b : Str) (st : LexState),
    run st (a ++ b) = ((run st a).1 ++ (run (run st a).2 b).1, (run (run st a).2 b).2)
  | [], b, st => by simp [run]
  | c :: a, b, st => by
    rw [List.cons_append, run, run_append a b, run]
    simp [List.append_assoc]

/-- In front of any text, `s` is read as the tokens `ts`. -/
def Lexes (s : Str) (ts : List Tok) : Prop :=
  ∀ rest, rest ≠ [] → run .neutral (s ++ rest) = (ts ++ (run .neutral rest).1, (run .neutral rest).2)

theorem Lexes.append {a b : Str} {ts us : List Tok} (ha : Lexes a ts) (hb : Lexes b us) :
    Lexes (a ++ b) (ts ++ us) := by
  intro rest hr
  rw [List.append_assoc, ha _ (by simp [hr]), hb rest hr, List.append_assoc]

theorem Lexes.nil : Lexes [] [] := fun _ _ => rfl

theorem Lexes.flatten {α : Type} {f : α → Str} {g : α → List Tok} {l : List α}
    (h : ∀ a ∈ l, Lexes (f a) (g a)) : Lexes (l.map f).flatten (l.flatMap g) := by
  induction l with
  | nil => exact .nil
  | cons a l ih =>
    rw [List.map_cons, List.flatten_cons, List.flatMap_cons]
    exact (h a (List.mem_cons_self ..)).append (ih fun x hx => h x (List.mem_cons_of_mem _ hx))

/-- An operator that is never the beginning of a longer one. -/
def solo (c : Char) : Bool := c!"(){}[];,".contains c

/-- The state is complete, up to an operator of one character. -/
def settled : LexState → Option (List Tok)
  | .neutral => some []
  | .op c => if solo c then some [.op [c]] else none
  | _ => none

theorem run_solo {c : Char} (h : solo c = true) {rest : Str} (hr : rest ≠ []) :
    run (.op c) rest = (.op [c] :: (run .neutral rest).1, (run .neutral rest).2) := by
  cases rest with
  | nil => exact absurd rfl hr
  | cons d rest =>
    have h1 : (c == '/') = false := by
      cases hs : c == '/' with
      | false => rfl
      | true => rw [beq_iff_eq] at hs; subst hs; revert h; decide
    have h2 : joined c d = false := by
      cases hj : joined c d with
      | false => rfl
      | true =>
        exfalso
        simp only [joined, List.mem_cons, List.cons.injEq, and_true, List.not_mem_nil, or_false, decide_eq_true_eq] at hj
        rcases hj with h1 | h1 | h1 | h1 | h1 | h1 | h1 | h1 | h1 | h1 | h1 <;> (obtain ⟨rfl, _⟩ := h1; revert h; decide)
    simp [run, lexStep, h1, h2]

theorem lexes_of {s : Str} {ts us : List Tok} {st : LexState} (h : run .neutral s = (ts, st))
    (hst : settled st = some us) : Lexes s (ts ++ us) := by
  intro rest hr
  rw [run_append, h]
  cases st with
  | neutral => cases hst; simp
  | op c =>
    simp only [settled] at hst
    split at hst
    · rename_i hc
      cases hst
      rw [run_solo hc hr]
      simp
    · cases hst
  | _ => cases hst

/-- A text without names. -/
theorem lexes_lit {s : Str} {us : List Tok} {ts : List Tok} {st : LexState} (h : run .neutral s = (ts, st))
    (hst : settled st = some us) : Lexes s (toks s) := by
  have : toks s = ts ++ us := by
    unfold toks lex
    rw [h]
    cases st with
    | neutral => cases hst; simp [flush]
    | op c =>
      simp only [settled] at hst
      split at hst
      · cases hst; simp [flush]
      · cases hst
    | _ => cases hst
  rw [this]
  exact lexes_of h hst

theorem run_words : ∀ (x acc : Str), (∀ c ∈ x, isWordChar c = true) → run (.word acc) x = ([], .word (acc ++ x))
  | [], acc, _ => by simp [run]
  | c :: x, acc, h => by
    have hc := h c (List.mem_cons_self ..)
    have ih := run_words x (acc ++ [c]) fun d hd => h d (List.mem_cons_of_mem _ hd)
    simp [run, lexStep, hc, ih]

theorem not_blank {c : Char} (h : isWordChar c = true) : isBlank c = false := by
  cases hb : isBlank c with
  | false => rfl
  | true =>
    exfalso
    simp only [isBlank, Bool.or_eq_true, beq_iff_eq] at hb
    rcases hb with ((rfl | rfl) | rfl) | rfl <;> revert h <;> decide

theorem not_joined {a c : Char} (h : isWordChar c = true) : joined a c = false := by
  cases hj : joined a c with
  | false => rfl
  | true =>
    exfalso
    simp only [joined, List.mem_cons, List.cons.injEq, and_true, List.not_mem_nil, or_false, decide_eq_true_eq] at hj
    rcases hj with h1 | h1 | h1 | h1 | h1 | h1 | h1 | h1 | h1 | h1 | h1 <;> (obtain ⟨_, rfl⟩ := h1; revert h; decide)

theorem run_word {x : Str} (h : Word x) : run .neutral x = ([], .word x) := by
  obtain ⟨hne, hx⟩ := h
  cases x with
  | nil => exact absurd rfl hne
  | cons c x =>
    have hc := hx c (List.mem_cons_self ..)
    have := run_words x [c] fun d hd => hx d (List.mem_cons_of_mem _ hd)
    simp [run, lexStep, lexStart, not_blank hc, hc, this]

theorem run_op_word {x : Str} (h : Word x) (a : Char) : run (.op a) x = ([.op [a]], .word x) := by
  obtain ⟨hne, hx⟩ := h
  cases x with
  | nil => exact absurd rfl hne
  | cons c x =>
    have hc := hx c (List.mem_cons_self ..)
    have := run_words x [c] fun d hd => hx d (List.mem_cons_of_mem _ hd)
    have hs : (c == '/') = false := by
      cases hs : c == '/' with
      | false => rfl
      | true => rw [beq_iff_eq] at hs; subst hs; revert hc; decide
    have hs2 : (c == '*') = false := by
      cases hs : c == '*' with
      | false => rfl
      | true => rw [beq_iff_eq] at hs; subst hs; revert hc; decide
    simp [run, lexStep, lexStart, not_blank hc, hc, this, hs, hs2, not_joined hc]

/-- A character that stands for itself in a string or byte string. -/
def PlainIn (b : Bool) (c : Char) : Prop := textChar c = true ∧ (b = true → c.toNat < 128)

theorem strChar_iff {c : Char} : strChar c = true ↔ PlainIn true c := by
  simp [strChar, PlainIn, textChar, Nat.not_le, and_assoc]

theorem strChar_text {c : Char} (h : strChar c = true) : textChar c = true := (strChar_iff.1 h).1

theorem textChar_plain {c : Char} (h : textChar c = true) : PlainIn false c := ⟨h, fun h => nomatch h⟩

theorem run_str (b : Bool) : ∀ (x acc : Str), (∀ c ∈ x, PlainIn b c) → run (.str b acc) x = ([], .str b (acc ++ x))
  | [], acc, _ => by simp [run]
  | c :: x, acc, h => by
    have hc := h c (List.mem_cons_self ..)
    have ih := run_str b x (acc ++ [c]) fun d hd => h d (List.mem_cons_of_mem _ hd)
    have h2 : (b && decide (128 ≤ c.toNat)) = false := by
      cases b with
      | false => rfl
      | true => simpa using hc.2 rfl
    have h1 := hc.1
    simp only [textChar, Bool.not_eq_true', Bool.or_eq_false_iff] at h1
    simp [run, lexStep, h1.1.1, h1.1.2, h1.2, h2, ih]

/-- Nothing can be read after a block comment has been opened, or a byte string with a character beyond ASCII. -/
theorem run_block : ∀ s : Str, run .block s = ([], .block)
  | [] => rfl
  | c :: s => by simp [run, lexStep, run_block s]

/-- The text after `s` cannot be read. -/
def Stuck (s : Str) : Prop := (run .neutral s).2 = .block

theorem Stuck.append {a : Str} (h : Stuck a) (b : Str) : Stuck (a ++ b) := by
  unfold Stuck
  rw [run_append, h, run_block]

theorem Lexes.stuck {a b : Str} {ts : List Tok} (h : Lexes a ts) (hb : Stuck b) : Stuck (a ++ b) := by
  unfold Stuck
  by_cases hn : b = []
  · rw [hn] at hb; cases hb
  · rw [h b hn]; exact hb

theorem run_str_stuck : ∀ (x acc : Str), (∀ c ∈ x, textChar c = true) → (∃ c ∈ x, 128 ≤ c.toNat) → (run (.str true acc) x).2 = .block
  | [], _, _, h => by obtain ⟨c, hc, _⟩ := h; cases hc
  | c :: x, acc, h, hx => by
    have h1 := h c (List.mem_cons_self ..)
    simp only [textChar, Bool.not_eq_true', Bool.or_eq_false_iff] at h1
    by_cases hc : 128 ≤ c.toNat
    · simp [run, lexStep, h1.1.1, h1.1.2, h1.2, hc, run_block]
    · have : ∃ d ∈ x, 128 ≤ d.toNat := by
        obtain ⟨d, hd, hd'⟩ := hx
        rcases List.mem_cons.1 hd with rfl | hd
        · exact absurd hd' hc
        · exact ⟨d, hd, hd'⟩
      have ih := run_str_stuck x (acc ++ [c]) (fun d hd => h d (List.mem_cons_of_mem _ hd)) this
      simp [run, lexStep, h1.1.1, h1.1.2, h1.2, hc, ih]

/-- If `p`, the text is read as the tokens `ts`, otherwise nothing after it can be read. -/
def LexesIf (p : Bool) (s : Str) (ts : List Tok) : Prop := (p = true → Lexes s ts) ∧ (p = false → Stuck s)

theorem Lexes.if {s : Str} {ts : List Tok} (h : Lexes s ts) : LexesIf true s ts := ⟨fun _ => h, fun h => nomatch h⟩

theorem LexesIf.append {p q : Bool} {a b : Str} {ts us : List Tok} (ha : LexesIf p a ts) (hb : LexesIf q b us) :
    LexesIf (p && q) (a ++ b) (ts ++ us) := by
  cases p with
  | false => exact ⟨fun h => (nomatch h), fun _ => (ha.2 rfl).append b⟩
  | true =>
    rw [Bool.true_and]
    exact ⟨fun h => (ha.1 rfl).append (hb.1 h), fun h => (ha.1 rfl).stuck (hb.2 h)⟩

theorem run_comment : ∀ x : Str, '\n' ∉ x → run .comment x = ([], .comment)
  | [], _ => rfl
  | c :: x, h => by
    simp only [List.mem_cons, not_or] at h
    have hc : (c == '\n') = false := beq_eq_false_iff_ne.2 (Ne.symm h.1)
    simp [run, lexStep, hc, run_comment x h.2]

theorem lexes_ind : ∀ k : Nat, Lexes (ind k) []
  | 0 => .nil
  | k + 1 => by
    have : Lexes c!"    " [] := lexes_of (ts := []) (us := []) rfl rfl
    exact this.append (lexes_ind k)

theorem lexes_newline : Lexes c!"\n" [] := lexes_of (ts := []) (us := []) rfl rfl

theorem Lexes.line {s : Str} {ts : List Tok} (h : Lexes s ts) (k : Nat) : Lexes (line k s) ts := by
  unfold Wayfinder.line
  simpa using ((lexes_ind k).append h).append lexes_newline

/-- A complete file. -/
theorem Lexes.lex {s : Str} {ts : List Tok} (h : Lexes s ts) : lex (s ++ c!"\n") = some ts := by
  unfold Rust.lex
  rw [h _ (by simp)]
  simp [run, lexStep, lexStart, isBlank, flush]

/-- A word and what follows. -/
theorem lexes_word {x s : Str} (hx : Word x) {ts us : List Tok} {st : LexState}
    (h : run (.word x) s = (ts, st)) (hst : settled st = some us) : Lexes (x ++ s) (ts ++ us) := by
  refine lexes_of (st := st) ?_ hst
  rw [run_append, run_word hx, h]
  simp

/-- A string between fixed texts. -/
theorem lexes_str {b : Bool} {x a s : Str} (hx : ∀ c ∈ x, PlainIn b c) {ts us vs : List Tok} {st : LexState}
    (ha : run .neutral a = (vs, .str b [])) (h : run (.str b x) s = (ts, st)) (hst : settled st = some us) :
    Lexes (a ++ x ++ s) (vs ++ (ts ++ us)) := by
  rw [← List.append_assoc]
  refine lexes_of (st := st) ?_ hst
  rw [run_append, run_append, ha, run_str b x [] hx]
  simp [h]

theorem LexesIf.line {p : Bool} {s : Str} {ts : List Tok} (h : LexesIf p s ts) (k : Nat) : LexesIf p (line k s) ts := by
  unfold Wayfinder.line
  simpa using ((lexes_ind k).if.append h).append lexes_newline.if

/-- A byte string between fixed texts. -/
theorem lexesIf_bytes {x a s : Str} (hx : ∀ c ∈ x, textChar c = true) {ts us vs : List Tok} {st : LexState}
    (ha : run .neutral a = (vs, .str true [])) (h : run (.str true x) s = (ts, st)) (hst : settled st = some us) :
    LexesIf (x.all fun c => decide (c.toNat < 128)) (a ++ x ++ s) (vs ++ (ts ++ us)) := by
  refine ⟨fun hall => lexes_str (fun c hc => ⟨hx c hc, fun _ => by simpa using List.all_eq_true.1 hall c hc⟩) ha h hst, fun hall => ?_⟩
  refine Stuck.append ?_ s
  unfold Stuck
  rw [run_append, ha]
  refine run_str_stuck x [] hx ?_
  simpa using hall

theorem word_digits (n : Nat) : Word (natStr n) := by
  unfold natStr
  rw [Nat.toList_repr]
  refine ⟨Nat.toDigits_ne_nil, fun c hc => ?_⟩
  have := Nat.isDigit_of_mem_toDigits (by decide) (by decide) hc
  simp [isWordChar, Char.isAlphanum, this]

theorem readDigits_natStr (n : Nat) : readDigits (natStr n) = n := by
  unfold readDigits natStr
  rw [Nat.toList_repr]
  have := Nat.ofDigitChars_ten_toDigits (n := n)
  unfold Nat.ofDigitChars at this
  exact this

theorem readNum_natStr (n : Nat) (ts : List Tok) : readNum (.word (natStr n) :: ts) = some (n, ts) := by
  have h1 : (natStr n).all Char.isDigit = true := by
    rw [List.all_eq_true]
    intro c hc
    unfold natStr at hc
    rw [Nat.toList_repr] at hc
    exact Nat.isDigit_of_mem_toDigits (by decide) (by decide) hc
  have h2 : (natStr n).isEmpty = false := by
    have := (word_digits n).1
    cases h : natStr n with
    | nil => exact absurd h this
    | cons a l => rfl
  simp [readNum, h1, h2, readDigits_natStr]

end Wayfinder.Rust
