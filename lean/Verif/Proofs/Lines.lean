import Verif.Proofs.Print
import Verif.Spec.Lines
/-!
# The parser does not see blank lines and line-ending style
-/

namespace Wayfinder

variable {α β γ δ : Type}

/-- A mark in front, merged with a mark that is already there. -/
def eolMark (t : List (Option Char)) : List (Option Char) :=
  match t with
  | none :: t => none :: t
  | t => none :: t

/-- Without the mark in front. -/
def stripMark (t : List (Option Char)) : List (Option Char) :=
  match t with
  | none :: t => t
  | t => t

theorem strip_eolMark (t : List (Option Char)) : stripMark (eolMark t) = stripMark t := by
  match t with
  | [] | none :: _ | some _ :: _ => rfl

theorem eolMark_eq (t : List (Option Char)) : eolMark t = none :: stripMark t := by
  match t with
  | [] | none :: _ | some _ :: _ => rfl

theorem marks_lf (r : Str) : marks ('\n' :: r) = eolMark (marks r) := by
  rw [marks]; rfl

theorem marks_crlf (r : Str) : marks ('\r' :: '\n' :: r) = eolMark (marks r) := by
  rw [marks]; rfl

theorem marks_char {c : Char} {r : Str} (h1 : c ≠ '\n') (h2 : c = '\r' → r.head? ≠ some '\n') :
    marks (c :: r) = some c :: marks r := by
  rw [marks]
  · exact h1
  · rintro r' rfl rfl; exact h2 rfl rfl

theorem marks_notEol {c : Char} {r : Str} (h : notEol c = true) : marks (c :: r) = some c :: marks r := by
  have : c ≠ '\n' ∧ c ≠ '\r' := by simpa [notEol] using h
  exact marks_char this.1 fun e => absurd e this.2

/-- The shapes of a text. -/
theorem marks_form (i : Str) : i = [] ∨
    (∃ c r, i = c :: r ∧ c ≠ '\n' ∧ (c = '\r' → r.head? ≠ some '\n') ∧ marks i = some c :: marks r) ∨
    (∃ r, (i = '\n' :: r ∨ i = '\r' :: '\n' :: r) ∧ marks i = none :: stripMark (marks r)) := by
  cases i with
  | nil => exact .inl rfl
  | cons c r =>
    by_cases h1 : c = '\n'
    · subst h1; exact .inr (.inr ⟨r, .inl rfl, by rw [marks_lf, eolMark_eq]⟩)
    · by_cases h2 : c = '\r' → r.head? ≠ some '\n'
      · exact .inr (.inl ⟨c, r, rfl, h1, h2, marks_char h1 h2⟩)
      · have hc : c = '\r' := Classical.byContradiction fun h => h2 fun h' => absurd h' h
        have hr : r.head? = some '\n' := Classical.byContradiction fun h => h2 fun _ => h
        cases r with
        | nil => cases hr
        | cons d r =>
          simp only [List.head?_cons, Option.some.injEq] at hr
          subst hc; subst hr
          exact .inr (.inr ⟨r, .inr rfl, by rw [marks_crlf, eolMark_eq]⟩)

/-- The shapes of two texts with the same marks. -/
theorem marks_cases {i j : Str} (h : marks i = marks j) : (i = [] ∧ j = []) ∨
    (∃ c r s, i = c :: r ∧ j = c :: s ∧ c ≠ '\n' ∧ (c = '\r' → r.head? ≠ some '\n') ∧
      (c = '\r' → s.head? ≠ some '\n') ∧ marks r = marks s) ∨
    (∃ r s, (i = '\n' :: r ∨ i = '\r' :: '\n' :: r) ∧ (j = '\n' :: s ∨ j = '\r' :: '\n' :: s) ∧
      stripMark (marks r) = stripMark (marks s)) := by
  have e0 : marks [] = [] := by rw [marks]
  rcases marks_form i with rfl | ⟨c, r, rfl, h1, h2, hi⟩ | ⟨r, hr, hi⟩ <;>
    rcases marks_form j with rfl | ⟨d, s, rfl, h3, h4, hj⟩ | ⟨s, hs, hj⟩
  · exact .inl ⟨rfl, rfl⟩
  · rw [hj, e0] at h; cases h
  · rw [hj, e0] at h; cases h
  · rw [hi, e0] at h; cases h
  · rw [hi, hj] at h
    simp only [List.cons.injEq, Option.some.injEq] at h
    obtain ⟨rfl, h⟩ := h
    exact .inr (.inl ⟨c, r, s, rfl, rfl, h1, h2, h4, h⟩)
  · rw [hi, hj] at h; simp at h
  · rw [hi, e0] at h; cases h
  · rw [hi, hj] at h; simp at h
  · rw [hi, hj] at h
    exact .inr (.inr ⟨r, s, hr, hs, by simpa using h⟩)

/-- A character that is not part of a line ending. -/
theorem marks_cons {c : Char} {r j : Str} (hc : notEol c = true) (h : marks (c :: r) = marks j) :
    ∃ s, j = c :: s ∧ marks r = marks s := by
  have hc' : c ≠ '\n' ∧ c ≠ '\r' := by simpa [notEol] using hc
  rcases marks_cases h with ⟨h1, _⟩ | ⟨d, r', s, h1, h2, _, _, _, h3⟩ | ⟨r', s, h1, _⟩
  · cases h1
  · cases h1; exact ⟨s, h2, h3⟩
  · rcases h1 with h1 | h1 <;> cases h1
    · exact absurd rfl hc'.1
    · exact absurd rfl hc'.2

/-! ## Results on texts with the same marks -/

/-- Same outcome, related values, rests with the same marks. -/
def Sim (R : α → β → Prop) : Res α → Res β → Prop
  | .ok r a, .ok s b => marks r = marks s ∧ R a b
  | .error _, .error _ => True
  | .failure _, .failure _ => True
  | _, _ => False

/-- The parsers behave alike on texts with the same marks. -/
def Like (R : α → β → Prop) (p : Parser α) (q : Parser β) : Prop :=
  ∀ i j, marks i = marks j → Sim R (p i) (q j)

/-- The parser never succeeds without consuming anything. -/
def Strict (p : Parser α) : Prop := ∀ i rest a, p i = .ok rest a → rest.length < i.length

theorem like_pure {R : α → β → Prop} {a : α} {b : β} (h : R a b) : Like R (pPure a) (pPure b) :=
  fun _ _ e => ⟨e, h⟩

theorem Like.bind {R : α → β → Prop} {S : γ → δ → Prop} {p : Parser α} {q : Parser β}
    {f : α → Parser γ} {g : β → Parser δ} (h : Like R p q) (hf : ∀ a b, R a b → Like S (f a) (g b)) :
    Like S (pBind p f) (pBind q g) := by
  intro i j e
  have := h i j e
  unfold pBind
  cases hp : p i <;> cases hq : q j <;> rw [hp, hq] at this <;>
    first | exact this.elim | trivial | exact hf _ _ this.2 _ _ this.1

theorem Like.map {R : α → β → Prop} {S : γ → δ → Prop} {p : Parser α} {q : Parser β} (h : Like R p q)
    {f : α → γ} {g : β → δ} (hf : ∀ a b, R a b → S (f a) (g b)) : Like S (pMap f p) (pMap g q) :=
  h.bind fun a b hab => like_pure (hf a b hab)

theorem Like.preceded {R : α → β → Prop} {S : γ → δ → Prop} {p : Parser α} {q : Parser β}
    {p' : Parser γ} {q' : Parser δ} (h : Like R p q) (h' : Like S p' q') :
    Like S (pPreceded p p') (pPreceded q q') := h.bind fun _ _ _ => h'

theorem Like.terminated {R : α → β → Prop} {S : γ → δ → Prop} {p : Parser α} {q : Parser β}
    {p' : Parser γ} {q' : Parser δ} (h : Like R p q) (h' : Like S p' q') :
    Like R (pTerminated p p') (pTerminated q q') :=
  h.bind fun _ _ hab => h'.bind fun _ _ _ => like_pure hab

theorem Like.returnError {R : α → β → Prop} {p : Parser α} {q : Parser β} (h : Like R p q) (k k' : Kind) :
    Like R (pReturnError k p) (pReturnError k' q) := by
  intro i j e
  have := h i j e
  unfold pReturnError
  cases hp : p i <;> cases hq : q j <;> rw [hp, hq] at this
  all_goals first | exact this.elim | exact this | skip
  all_goals (rename_i c d; cases c <;> cases d <;> trivial)

theorem like_alt_nil {R : α → β → Prop} (b : Bool) : Like R (pAlt b []) (pAlt b []) := fun _ _ _ => trivial

theorem Like.returning {R : α → α' → Prop} {S : β → β' → Prop} {T : γ → δ → Prop} {b : Bool} {before : Parser α}
    {before' : Parser α'} {p : Parser β} {p' : Parser β'} {alt : Parser γ} {alt' : Parser δ} (h : Like R before before')
    (hp : Like S p p') (ha : Like T alt alt') : Like T (pReturning b before p alt) (pReturning b before' p' alt') := by
  intro i j e
  have h := h i j e
  have hp := hp i j e
  have ha := ha i j e
  unfold pReturning
  cases b
  · exact ha
  · cases h1 : before i <;> cases h2 : before' j <;> rw [h1, h2] at h
    all_goals first | exact h.elim | exact ha | skip
    cases h3 : p i <;> cases h4 : p' j <;> rw [h3, h4] at hp
    all_goals first | exact hp.elim | exact ha | trivial

theorem Like.alt {R : α → β → Prop} {b : Bool} {p : Parser α} {q : Parser β} {ps : List (Parser α)}
    {qs : List (Parser β)} (h : Like R p q) (hs : Like R (pAlt b ps) (pAlt b qs)) :
    Like R (pAlt b (p :: ps)) (pAlt b (q :: qs)) := by
  intro i j e
  have := h i j e
  have hs := hs i j e
  unfold pAlt
  cases hp : p i <;> cases hq : q j <;> rw [hp, hq] at this
  all_goals first | exact this.elim | exact this | exact hs | skip
  cases b
  · trivial
  · exact hs

theorem like_char {c : Char} (hc : notEol c = true) : Like Eq (pChar c) (pChar c) := by
  intro i j e
  have hc' : c ≠ '\n' ∧ c ≠ '\r' := by simpa [notEol] using hc
  rcases marks_cases e with ⟨rfl, rfl⟩ | ⟨d, r, s, rfl, rfl, _, _, _, h⟩ | ⟨r, s, h1, h2, _⟩
  · trivial
  · unfold pChar
    simp only
    split
    · exact ⟨h, rfl⟩
    · trivial
  · have h1' : ∃ x, pChar c i = .error x := by
      rcases h1 with rfl | rfl
      · exact ⟨_, if_neg (Ne.symm hc'.1)⟩
      · exact ⟨_, if_neg (Ne.symm hc'.2)⟩
    have h2' : ∃ x, pChar c j = .error x := by
      rcases h2 with rfl | rfl
      · exact ⟨_, if_neg (Ne.symm hc'.1)⟩
      · exact ⟨_, if_neg (Ne.symm hc'.2)⟩
    obtain ⟨_, h1'⟩ := h1'
    obtain ⟨_, h2'⟩ := h2'
    rw [h1', h2']; trivial

theorem like_eof : Like Eq pEof pEof := by
  intro i j e
  rcases marks_cases e with ⟨rfl, rfl⟩ | ⟨d, r, s, rfl, rfl, _, _, _, h⟩ | ⟨r, s, h1, h2, _⟩
  · exact ⟨rfl, rfl⟩
  · trivial
  · rcases h1 with rfl | rfl <;> rcases h2 with rfl | rfl <;> trivial

/-- A prefix without line endings. -/
theorem prefix_marks : ∀ (t : Str) (i j : Str), (∀ c ∈ t, notEol c = true) → marks i = marks j → t <+: i →
    t <+: j ∧ marks (i.drop t.length) = marks (j.drop t.length)
  | [], _, _, _, e, _ => ⟨List.nil_prefix, by simpa using e⟩
  | c :: t, i, j, ht, e, h => by
    obtain ⟨r, rfl⟩ := h
    obtain ⟨s, rfl, hs⟩ := marks_cons (ht c (by simp)) e
    obtain ⟨h1, h2⟩ := prefix_marks t _ s (fun d hd => ht d (by simp [hd])) hs (List.prefix_append t r)
    exact ⟨(List.prefix_cons_inj c).2 h1, by simpa using h2⟩

theorem like_tag {t : Str} (ht : ∀ c ∈ t, notEol c = true) : Like Eq (pTag t) (pTag t) := by
  intro i j e
  unfold pTag
  by_cases h : t.isPrefixOf i
  · obtain ⟨h1, h2⟩ := prefix_marks t i j ht e (List.isPrefixOf_iff_prefix.1 h)
    rw [if_pos h, if_pos (List.isPrefixOf_iff_prefix.2 h1)]
    exact ⟨h2, rfl⟩
  · have h' : ¬ t.isPrefixOf j = true := fun h' =>
      h (List.isPrefixOf_iff_prefix.2 (prefix_marks t j i ht e.symm (List.isPrefixOf_iff_prefix.1 h')).1)
    rw [if_neg h, if_neg h']; trivial

theorem asciiLower_eol {c : Char} (h : notEol (asciiLower c) = true) : notEol c = true := by
  cases hc : notEol c with
  | true => rfl
  | false =>
    have : c = '\n' ∨ c = '\r' := by simpa [notEol, Classical.or_iff_not_imp_left] using hc
    rcases this with rfl | rfl
    · exact absurd h (by decide)
    · exact absurd h (by decide)

theorem prefix_noCase : ∀ (t : Str) (i j : Str), (∀ c ∈ t, notEol c = true) → marks i = marks j →
    t <+: i.map asciiLower → t <+: j.map asciiLower ∧ marks (i.drop t.length) = marks (j.drop t.length) ∧
      i.take t.length = j.take t.length
  | [], _, _, _, e, _ => ⟨List.nil_prefix, by simpa using e, rfl⟩
  | c :: t, [], j, ht, e, h => by simp at h
  | c :: t, d :: i, j, ht, e, h => by
    simp only [List.map_cons, List.cons_prefix_cons] at h
    obtain ⟨rfl, h⟩ := h
    obtain ⟨s, rfl, hs⟩ := marks_cons (asciiLower_eol (ht _ (List.mem_cons_self ..))) e
    obtain ⟨h1, h2, h3⟩ := prefix_noCase t i s (fun d hd => ht d (by simp [hd])) hs h
    exact ⟨by simpa using h1, by simpa using h2, by simpa using h3⟩

theorem like_tagNoCase {t : Str} (ht : ∀ c ∈ t.map asciiLower, notEol c = true) :
    Like Eq (pTagNoCase t) (pTagNoCase t) := by
  intro i j e
  unfold pTagNoCase
  by_cases h : (t.map asciiLower).isPrefixOf (i.map asciiLower)
  · obtain ⟨h1, h2, h3⟩ := prefix_noCase _ i j ht e (List.isPrefixOf_iff_prefix.1 h)
    rw [if_pos h, if_pos (List.isPrefixOf_iff_prefix.2 h1)]
    simp only [List.length_map] at h2 h3
    exact ⟨h2, h3⟩
  · have h' : ¬ (t.map asciiLower).isPrefixOf (j.map asciiLower) = true := fun h' =>
      h (List.isPrefixOf_iff_prefix.2 (prefix_noCase _ j i ht e.symm (List.isPrefixOf_iff_prefix.1 h')).1)
    rw [if_neg h, if_neg h']; trivial

/-- Runs of characters that are not part of a line ending. -/
theorem takeWhile_marks {f : Char → Bool} (hf : ∀ c, f c = true → notEol c = true) : ∀ (i j : Str),
    marks i = marks j → i.takeWhile f = j.takeWhile f ∧ marks (i.dropWhile f) = marks (j.dropWhile f)
  | i, j, e => by
    have hn : f '\n' = false := by
      cases h : f '\n' with
      | false => rfl
      | true => exact absurd (hf _ h) (by decide)
    have hr : f '\r' = false := by
      cases h : f '\r' with
      | false => rfl
      | true => exact absurd (hf _ h) (by decide)
    rcases marks_cases e with ⟨rfl, rfl⟩ | ⟨d, r, s, rfl, rfl, _, _, _, h⟩ | ⟨r, s, h1, h2, _⟩
    · exact ⟨rfl, e⟩
    · obtain ⟨h1, h2⟩ := takeWhile_marks hf r s h
      cases hd : f d with
      | true => simp only [List.takeWhile_cons, List.dropWhile_cons, hd, if_true]; exact ⟨by rw [h1], h2⟩
      | false => simp only [List.takeWhile_cons, List.dropWhile_cons, hd]; exact ⟨rfl, e⟩
    · rcases h1 with rfl | rfl <;> rcases h2 with rfl | rfl <;>
        simp only [List.takeWhile_cons, List.dropWhile_cons, hn, hr] <;> exact ⟨rfl, e⟩
  termination_by i => i.length

theorem like_takeWhile1 {f : Char → Bool} (hf : ∀ c, f c = true → notEol c = true) :
    Like Eq (pTakeWhile1 f) (pTakeWhile1 f) := by
  intro i j e
  obtain ⟨h1, h2⟩ := takeWhile_marks hf i j e
  unfold pTakeWhile1
  rw [h1]
  split
  · trivial
  · exact ⟨h2, rfl⟩

/-- `ws!` skips marks and blanks. -/
theorem dropWs_marks : ∀ i : Str, marks (i.dropWhile isWs) =
    (marks i).dropWhile fun m => match m with | none => true | some c => isWs c
  | i => by
    have hs : ∀ t : List (Option Char), (stripMark t).dropWhile (fun m => match m with | none => true | some c => isWs c)
        = t.dropWhile fun m => match m with | none => true | some c => isWs c := by
      intro t
      match t with
      | [] | none :: _ | some _ :: _ => simp [stripMark]
    rcases marks_form i with rfl | ⟨c, r, rfl, h1, h2, hi⟩ | ⟨r, hr, hi⟩
    · simp [marks]
    · cases hc : isWs c with
      | true =>
        have := dropWs_marks r
        rw [hi]
        simp only [List.dropWhile_cons, hc, if_true]
        exact this
      | false =>
        rw [hi]
        simp only [List.dropWhile_cons, hc]
        exact hi
    · rw [hi, List.dropWhile_cons]
      simp only [if_true]
      rw [hs]
      rcases hr with rfl | rfl
      · rw [← dropWs_marks r]; rfl
      · rw [← dropWs_marks r]; rfl
  termination_by i => i.length
  decreasing_by all_goals (subst_vars; simp; try omega)

theorem Like.ws {R : α → β → Prop} {p : Parser α} {q : Parser β} (h : Like R p q) : Like R (pWs p) (pWs q) := by
  intro i j e
  have := h (i.dropWhile isWs) (j.dropWhile isWs) (by rw [dropWs_marks, dropWs_marks, e])
  unfold pWs
  cases hp : p (i.dropWhile isWs) <;> cases hq : q (j.dropWhile isWs) <;> rw [hp, hq] at this
  all_goals first | exact this.elim | trivial | skip
  exact ⟨by rw [dropWs_marks, dropWs_marks, this.1], this.2⟩

theorem Like.count {p q : Parser α} (h : Like Eq p q) (n : Nat) : Like Eq (pCount p n) (pCount q n) := by
  have key : ∀ n a b i j acc, marks i = marks j → Sim Eq (countLoop p a n i acc) (countLoop q b n j acc) := by
    intro n
    induction n with
    | zero => intro a b i j acc e; exact ⟨e, rfl⟩
    | succ n ih =>
      intro a b i j acc e
      have := h i j e
      unfold countLoop
      cases hp : p i <;> cases hq : q j <;> rw [hp, hq] at this
      all_goals first | exact this.elim | trivial | skip
      obtain ⟨h1, rfl⟩ := this
      exact ih _ _ _ _ _ h1
  exact fun i j e => key n i j i j [] e

theorem Sim.prepend {r s : Res (List α)} (h : Sim Eq r s) (l : List α) : Sim Eq (r.prepend l) (s.prepend l) := by
  cases r <;> cases s <;> try exact h
  exact ⟨h.1, by rw [h.2]⟩

theorem Like.many0 {p q : Parser α} (tp : Tidy p) (tq : Tidy q) (sp : Strict p) (sq : Strict q)
    (h : Like Eq p q) : Like Eq (pMany0 p) (pMany0 q) := by
  have key : ∀ n i j, i.length ≤ n → marks i = marks j → Sim Eq (pMany0 p i) (pMany0 q j) := by
    intro n
    induction n with
    | zero =>
      intro i j hn e
      have := h i j e
      rw [many0_eq tp, many0_eq tq]
      cases hp : p i <;> cases hq : q j <;> rw [hp, hq] at this
      all_goals first | exact this.elim | trivial | exact ⟨e, rfl⟩ | skip
      have := sp _ _ _ hp
      omega
    | succ n ih =>
      intro i j hn e
      have := h i j e
      rw [many0_eq tp, many0_eq tq]
      cases hp : p i <;> cases hq : q j <;> rw [hp, hq] at this
      all_goals first | exact this.elim | trivial | exact ⟨e, rfl⟩ | skip
      rename_i r a s b
      have h1 := sp _ _ _ hp
      have h2 := sq _ _ _ hq
      obtain ⟨h3, rfl⟩ := this
      simp only
      rw [if_neg (fun h => by rw [h] at h1; omega), if_neg (fun h => by rw [h] at h2; omega)]
      exact (ih r s (by omega) h3).prepend _
  exact fun i j e => key _ i j (Nat.le_refl _) e

theorem Like.many1 {p q : Parser α} (tp : Tidy p) (tq : Tidy q) (sp : Strict p) (sq : Strict q)
    (h : Like Eq p q) : Like Eq (pMany1 p) (pMany1 q) := by
  intro i j e
  have := h i j e
  rw [many1_eq, many1_eq]
  cases hp : p i <;> cases hq : q j <;> rw [hp, hq] at this
  all_goals first | exact this.elim | trivial | skip
  obtain ⟨h3, rfl⟩ := this
  exact (h.many0 tp tq sp sq _ _ h3).prepend _

/-! ## Runs of line endings -/

theorem lineEnding_char {c : Char} {r : Str} (h1 : c ≠ '\n') (h2 : c = '\r' → r.head? ≠ some '\n') :
    pLineEnding (c :: r) = .error (.code (c :: r) .crlf) := by
  unfold pLineEnding
  split
  · rename_i e; cases e; exact absurd rfl h1
  · rename_i e; cases e; exact absurd rfl (h2 rfl)
  · rfl

theorem eols0_marks (i : Str) : ∃ rest l, pMany0 pLineEnding i = .ok rest l ∧ marks rest = stripMark (marks i) := by
  have key : ∀ n (i : Str), i.length ≤ n →
      ∃ rest l, pMany0 pLineEnding i = .ok rest l ∧ marks rest = stripMark (marks i) := by
    intro n
    induction n with
    | zero =>
      intro i hn
      have : i = [] := List.length_eq_zero_iff.1 (by omega)
      subst this
      exact ⟨[], [], rfl, by simp [marks, stripMark]⟩
    | succ n ih =>
      intro i hn
      rw [many0_eq tidy_lineEnding]
      rcases marks_form i with rfl | ⟨c, r, rfl, h1, h2, hi⟩ | ⟨r, hr, hi⟩
      · exact ⟨[], [], rfl, by simp [marks, stripMark]⟩
      · exact ⟨c :: r, [], by rw [lineEnding_char h1 h2], by rw [hi]; rfl⟩
      · have : pLineEnding i = .ok r () := by rcases hr with rfl | rfl <;> rfl
        have hlen := lineEnding_strict this
        obtain ⟨rest, l, hl, hm⟩ := ih r (by omega)
        rw [this]
        simp only
        rw [if_neg (fun h => by rw [h] at hlen; omega), hl]
        exact ⟨rest, [()] ++ l, rfl, by rw [hm, hi]; rfl⟩
  exact key _ i (Nat.le_refl _)

theorem like_eols0 : Like (fun _ _ => True) (pMany0 pLineEnding) (pMany0 pLineEnding) := by
  intro i j e
  obtain ⟨r, l, h1, h2⟩ := eols0_marks i
  obtain ⟨s, m, h3, h4⟩ := eols0_marks j
  rw [h1, h3]
  exact ⟨by rw [h2, h4, e], trivial⟩

theorem like_eols1 : Like (fun _ _ => True) (pMany1 pLineEnding) (pMany1 pLineEnding) := by
  intro i j e
  rw [many1_eq, many1_eq]
  rcases marks_cases e with ⟨rfl, rfl⟩ | ⟨d, r, s, rfl, rfl, h1, h2, h3, h⟩ | ⟨r, s, h1, h2, h⟩
  · trivial
  · rw [lineEnding_char h1 h2, lineEnding_char h1 h3]; trivial
  · have e1 : pLineEnding i = .ok r () := by rcases h1 with rfl | rfl <;> rfl
    have e2 : pLineEnding j = .ok s () := by rcases h2 with rfl | rfl <;> rfl
    obtain ⟨r', l, h3, h4⟩ := eols0_marks r
    obtain ⟨s', m, h5, h6⟩ := eols0_marks s
    rw [e1, e2]
    simp only [h3, h5, Res.prepend]
    exact ⟨by rw [h4, h6, h], trivial⟩

/-! ## Strict parsers -/

theorem Strict.bind_left {p : Parser α} {f : α → Parser β} (hp : Strict p) (hf : ∀ a, Tidy (f a)) :
    Strict (pBind p f) := by
  intro i rest b h
  unfold pBind at h
  cases he : p i with
  | ok r a => rw [he] at h; exact Nat.lt_of_le_of_lt ((hf a).length h) (hp _ _ _ he)
  | error c => rw [he] at h; cases h
  | failure c => rw [he] at h; cases h

theorem Strict.bind_right {p : Parser α} {f : α → Parser β} (hp : Tidy p) (hf : ∀ a, Strict (f a)) :
    Strict (pBind p f) := by
  intro i rest b h
  unfold pBind at h
  cases he : p i with
  | ok r a => rw [he] at h; exact Nat.lt_of_lt_of_le (hf a _ _ _ h) (hp.length he)
  | error c => rw [he] at h; cases h
  | failure c => rw [he] at h; cases h

theorem strict_char (c : Char) : Strict (pChar c) := by
  intro i rest a h
  unfold pChar at h
  split at h
  · split at h
    · cases h; simp
    · cases h
  · cases h

theorem strict_takeWhile1 (f : Char → Bool) : Strict (pTakeWhile1 f) := by
  intro i rest a h
  unfold pTakeWhile1 at h
  split at h
  · cases h
  · rename_i hne
    cases h
    have h1 := congrArg List.length (List.takeWhile_append_dropWhile (p := f) (l := i))
    rw [List.length_append] at h1
    have h2 : (i.takeWhile f).length ≠ 0 := fun h => hne (List.length_eq_zero_iff.1 h)
    omega

theorem strict_eols1 : Strict (pMany1 pLineEnding) := fun _ _ _ h =>
  many1_strict tidy_lineEnding (fun _ _ _ h => lineEnding_strict h) h

section
variable (cfg : ParseCfg)

theorem strict_ident : Strict (pIdent cfg) := strict_takeWhile1 _

theorem strict_queryParameter (level : Nat) : Strict (pQueryParameter cfg level) :=
  .bind_right (tidy_indent level) fun _ => .bind_left (strict_char _) fun _ =>
    (tidy_param cfg).ws.terminated ((tidy_char _).returnError _)

theorem strict_resource (level : Nat) : Strict (pResource cfg level) :=
  .bind_right (tidy_indent level) fun _ => .bind_right (tidy_method cfg) fun _ =>
    .bind_left (strict_char _) fun _ => (tidy_target cfg).bind fun _ => tidy_requireNewline.bind fun _ =>
      ((tidy_queryParameter cfg _).terminated tidy_requireNewline).many0.bind fun _ => tidy_pure _

theorem strict_nestedRoutes : ∀ fuel level, Strict (pNestedRoutes cfg fuel level)
  | 0, _ => fun _ _ _ h => by cases h
  | fuel + 1, level => .bind_right (tidy_pathSegment cfg level) fun _ => .bind_left strict_eols1 fun _ =>
      ((tidy_routesWith cfg (tidy_nestedRoutes cfg fuel (level + 1)) (level + 1)).returnError _).bind fun _ =>
        tidy_pure _

theorem strict_header : Strict pHeader :=
  Strict.bind_left (.bind_right ((tidy_char _).not.bind fun _ => tidy_notLineEnding.many0).recognize fun _ =>
    .bind_left strict_eols1 fun _ => tidy_pure _) fun _ => tidy_pure _

/-! ## The grammar -/

theorem like_method : Like Eq (pMethod cfg) (pMethod cfg) := by
  have key : ∀ (m : Method) (t : Str), (∀ c ∈ t.map asciiLower, notEol c = true) →
      Like Eq (pMap (fun _ => m) (pTagNoCase t)) (pMap (fun _ => m) (pTagNoCase t)) :=
    fun m t ht => (like_tagNoCase ht).map fun _ _ _ => rfl
  exact (key _ _ (by decide)).alt <| (key _ _ (by decide)).alt <| (key _ _ (by decide)).alt <|
    (key _ _ (by decide)).alt <| like_alt_nil _

theorem like_ident : Like Eq (pIdent cfg) (pIdent cfg) :=
  like_takeWhile1 fun c hc => by
    have := (wordChar_notWs cfg hc).1
    simp only [isWs, Bool.or_eq_false_iff, beq_eq_false_iff_ne] at this
    simp [notEol, this]

theorem like_param : Like Eq (pParam cfg) (pParam cfg) :=
  (like_ident cfg).bind fun _ _ e1 => ((like_tag (by decide)).returnError _ _).ws.bind fun _ _ _ =>
    (like_ident cfg).bind fun _ _ e2 => like_pure (by rw [e1, e2])

theorem like_indent (level : Nat) : Like Eq (pIndent level) (pIndent level) := (like_tag (by decide)).count _

theorem like_braced : Like Eq (pBraced cfg) (pBraced cfg) :=
  (like_char (by decide)).preceded ((like_param cfg).ws.terminated ((like_char (by decide)).returnError _ _))

theorem like_pathSegment (level : Nat) : Like Eq (pPathSegment cfg level) (pPathSegment cfg level) :=
  (like_indent level).preceded <|
    ((like_char (by decide)).preceded (like_param cfg).ws).returning (like_braced cfg) <|
    (Like.map (like_braced cfg) fun _ _ e => by rw [e]).alt <|
    ((like_ident cfg).map fun _ _ e => by rw [e]).alt <| like_alt_nil _

theorem like_queryParameter (level : Nat) : Like Eq (pQueryParameter cfg level) (pQueryParameter cfg level) :=
  (like_indent level).preceded <| (like_char (by decide)).preceded <| (like_param cfg).ws.terminated
    ((like_char (by decide)).returnError _ _)

theorem like_targetPath (b : Bool) : Like Eq (pTargetPath cfg b) (pTargetPath cfg b) := by
  have t : Tidy (pTerminated (pIdent cfg) (pWs (pTag c!"::"))) := (tidy_ident cfg).terminated (tidy_tag _).ws
  have s : Strict (pTerminated (pIdent cfg) (pWs (pTag c!"::"))) :=
    .bind_left (strict_ident cfg) fun _ => (tidy_tag _).ws.bind fun _ => tidy_pure _
  exact (Like.many0 t t s s ((like_ident cfg).terminated (like_tag (by decide)).ws)).bind fun _ _ e1 =>
    (like_ident cfg).bind fun _ _ e2 => like_pure (by rw [e1, e2])

theorem like_target : Like Eq (pTarget cfg) (pTarget cfg) :=
  ((like_tag (by decide)).ws.preceded (like_targetPath cfg true)).alt <|
    (like_targetPath cfg false).alt <| like_alt_nil _

theorem like_requireNewline : Like Eq pRequireNewline pRequireNewline :=
  (like_eols1.map fun _ _ _ => rfl).returnError _ _

theorem like_resource (level : Nat) : Like Eq (pResource cfg level) (pResource cfg level) := by
  have t : Tidy (pTerminated (pQueryParameter cfg (level + 1)) pRequireNewline) :=
    (tidy_queryParameter cfg _).terminated tidy_requireNewline
  have s : Strict (pTerminated (pQueryParameter cfg (level + 1)) pRequireNewline) :=
    .bind_left (strict_queryParameter cfg _) fun _ => tidy_requireNewline.bind fun _ => tidy_pure _
  exact (like_indent level).preceded <| (like_method cfg).bind fun _ _ e1 =>
    (like_char (by decide)).bind fun _ _ _ => (like_target cfg).bind fun _ _ e2 =>
    like_requireNewline.bind fun _ _ _ =>
    (Like.many0 t t s s ((like_queryParameter cfg _).terminated like_requireNewline)).bind fun _ _ e3 =>
    like_pure (by rw [e1, e2, e3])

theorem like_routesWith {p q : Parser NestedRoutes} (tp : Tidy p) (tq : Tidy q) (sp : Strict p) (sq : Strict q)
    (h : Like Eq p q) (level : Nat) : Like Eq (pRoutesWith cfg p level) (pRoutesWith cfg q level) := by
  have t : Tidy (pTerminated (pQueryParameter cfg level) (pMany1 pLineEnding)) :=
    (tidy_queryParameter cfg _).terminated tidy_lineEnding.many1
  have s : Strict (pTerminated (pQueryParameter cfg level) (pMany1 pLineEnding)) :=
    .bind_left (strict_queryParameter cfg _) fun _ => tidy_lineEnding.many1.bind fun _ => tidy_pure _
  have hm := h.many1 tp tq sp sq
  have hr := (like_resource cfg level).many1 (tidy_resource cfg level) (tidy_resource cfg level)
    (strict_resource cfg level) (strict_resource cfg level)
  refine (Like.many0 t t s s ((like_queryParameter cfg _).terminated like_eols1)).bind fun _ _ e1 => ?_
  refine Like.bind (R := Eq) ?_ fun _ _ e2 => like_pure (by rw [e1, e2])
  refine Like.returnError (Like.alt ?_ (Like.alt ?_ (like_alt_nil _))) _ _
  · refine hr.bind fun _ _ e3 => Like.bind (R := Eq) ?_ fun _ _ e4 => like_pure (by rw [e3, e4])
    exact Like.alt (like_eols0.preceded hm) (Like.alt (like_pure rfl) (like_alt_nil _))
  · exact hm.bind fun _ _ e4 => like_pure (by rw [e4])

theorem like_nestedRoutes : ∀ fuel level, Like Eq (pNestedRoutes cfg fuel level) (pNestedRoutes cfg fuel level)
  | 0, _ => fun _ _ _ => trivial
  | fuel + 1, level =>
    (like_pathSegment cfg level).bind fun _ _ e1 => like_eols1.bind fun _ _ _ =>
      ((like_routesWith cfg (tidy_nestedRoutes cfg _ _) (tidy_nestedRoutes cfg _ _) (strict_nestedRoutes cfg _ _)
        (strict_nestedRoutes cfg _ _) (like_nestedRoutes fuel (level + 1)) (level + 1)).returnError _ _).bind
        fun _ _ e2 => like_pure (by rw [e1, e2])

theorem strict_nested (level : Nat) : Strict (nestedRoutes cfg level) := fun i _ _ h =>
  strict_nestedRoutes cfg _ level i _ _ h

theorem like_nested (level : Nat) : Like Eq (nestedRoutes cfg level) (nestedRoutes cfg level) := by
  intro i j e
  have h1 : nestedRoutes cfg level i = pNestedRoutes cfg (i.length + j.length + 1) level i :=
    nestedRoutes_fuel cfg _ _ level i (by omega) (by omega)
  have h2 : nestedRoutes cfg level j = pNestedRoutes cfg (i.length + j.length + 1) level j :=
    nestedRoutes_fuel cfg _ _ level j (by omega) (by omega)
  rw [h1, h2]
  exact like_nestedRoutes cfg _ level i j e

theorem like_routes (level : Nat) : Like Eq (pRoutes cfg level) (pRoutes cfg level) := by
  rw [routes_eq]
  exact like_routesWith cfg (tidy_nested cfg _) (tidy_nested cfg _) (strict_nested cfg _) (strict_nested cfg _)
    (like_nested cfg level) level

theorem head_slash_marks {i j : Str} (e : marks i = marks j) (h : i.head? = some '/') : j.head? = some '/' := by
  cases i with
  | nil => cases h
  | cons c i =>
    simp only [List.head?_cons, Option.some.injEq] at h
    subst h
    obtain ⟨s, rfl, _⟩ := marks_cons (by decide) e
    rfl

theorem like_header : Like Eq pHeader pHeader := by
  intro i j e
  obtain ⟨h1, h2⟩ := takeWhile_marks (f := notEol) (fun _ h => h) i j e
  have he := like_eols1 _ _ h2
  have hbad : ∀ {k : Str}, (∃ x, pLineEnding k = .error x) → ∃ x, pMany1 pLineEnding k = .error x := by
    rintro k ⟨x, hx⟩
    exact ⟨_, by rw [many1_eq, hx]⟩
  rcases header_eq i with ⟨hi, r, l, h3, h4⟩ | ⟨hi, c, h4⟩ <;>
    rcases header_eq j with ⟨hj, s, m, h5, h6⟩ | ⟨hj, d, h6⟩
  · rw [h3, h5] at he
    rw [h4, h6]
    exact ⟨he.1, by rw [h1]⟩
  · rcases hj with hj | hj
    · exact absurd (head_slash_marks e.symm hj) hi
    · obtain ⟨x, hx⟩ := hbad hj
      rw [h3, hx] at he; exact he.elim
  · rcases hi with hi | hi
    · exact absurd (head_slash_marks e hi) hj
    · obtain ⟨x, hx⟩ := hbad hi
      rw [h5, hx] at he; exact he.elim
  · rw [h4, h6]; trivial

theorem like_routeConfig : Like Eq (routeConfig cfg) (routeConfig cfg) :=
  (like_header.many0 tidy_header tidy_header strict_header strict_header).bind fun _ _ e1 =>
    like_eols0.bind fun _ _ _ => (like_char (by decide)).bind fun _ _ _ => like_eols1.bind fun _ _ _ =>
    (like_routes cfg 1).bind fun _ _ e2 => like_eof.bind fun _ _ _ => like_pure (by rw [e1, e2])

end

end Wayfinder
