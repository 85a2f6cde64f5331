import Verif.Spec.ParseCost
import Verif.Proofs.Grammar
import Verif.Proofs.ParseFuel
/-!
# Bounds for the cost of reading a route file
-/

namespace Wayfinder

variable {α β γ : Type} (cfg : ParseCfg)

/-! ### What the parsers return -/

theorem tMethod_run : (tMethod cfg).run = pMethod cfg := rfl
theorem tParam_run : (tParam cfg).run = pParam cfg := rfl
theorem tPathSegment_run (l : Nat) : (tPathSegment cfg l).run = pPathSegment cfg l := rfl
theorem tQueryParameter_run (l : Nat) : (tQueryParameter cfg l).run = pQueryParameter cfg l := rfl
theorem tTarget_run : (tTarget cfg).run = pTarget cfg := rfl
theorem tResource_run (l : Nat) : (tResource cfg l).run = pResource cfg l := rfl

theorem tRoutesWith_run (n : Timed NestedRoutes) (l : Nat) :
    (tRoutesWith cfg n l).run = pRoutesWith cfg n.run l := rfl

theorem tNestedRoutes_run : ∀ f l, (tNestedRoutes cfg f l).run = pNestedRoutes cfg f l
  | 0, _ => rfl
  | f + 1, l => by
    have h : (tRoutesWith cfg (tNestedRoutes cfg f (l + 1)) (l + 1)).run =
        pRoutesWith cfg (pNestedRoutes cfg f (l + 1)) (l + 1) := by
      rw [tRoutesWith_run, tNestedRoutes_run f (l + 1)]
    show pBind _ (fun segment => pBind _ fun _ => pBind (pReturnError _
      (tRoutesWith cfg (tNestedRoutes cfg f (l + 1)) (l + 1)).run) fun routes => pPure _) = _
    rw [h]
    rfl

theorem tRoutes_run (l : Nat) : (tRoutes cfg l).run = pRoutes cfg l := by
  funext i
  show (tRoutesWith cfg (tNestedRoutes cfg (i.length + 1) l) l).run i = _
  rw [tRoutesWith_run, tNestedRoutes_run]
  rfl

theorem tRouteConfig_run : (tRouteConfig cfg).run = routeConfig cfg := by
  show pBind _ (fun headers => pBind _ fun _ => pBind _ fun _ => pBind _ fun _ => pBind (tRoutes cfg 1).run fun routes =>
    pBind _ fun _ => pPure _) = _
  rw [tRoutes_run]
  rfl

/-! ### Parsers that look at what they take, and a little more -/

/-- At most `a` steps for every character taken and `b` more; when nothing is returned, at most `a` steps for every
character there is and `b` more. -/
def Lin (a b : Nat) (p : Timed α) : Prop :=
  Tidy p.run ∧ ∀ i, match p.run i with
    | .ok rest _ => p.cost i + a * rest.length ≤ a * i.length + b
    | _ => p.cost i ≤ a * i.length + b

theorem Lin.ok {a b : Nat} {p : Timed α} (h : Lin a b p) {i rest : Str} {x : α} (e : p.run i = .ok rest x) :
    p.cost i + a * rest.length ≤ a * i.length + b := by
  have := h.2 i
  rwa [e] at this

theorem Lin.le {a b : Nat} {p : Timed α} (h : Lin a b p) (i : Str) : p.cost i ≤ a * i.length + b := by
  have := h.2 i
  split at this <;> omega

theorem Lin.mono {a b b' : Nat} {p : Timed α} (h : Lin a b p) (hb : b ≤ b') : Lin a b' p := by
  refine ⟨h.1, fun i => ?_⟩
  have := h.2 i
  cases e : p.run i <;> rw [e] at this <;> simp only at this ⊢ <;> omega

theorem lin_of_const {a b : Nat} {p : Timed α} (ht : Tidy p.run) (h : ∀ i, p.cost i ≤ b) : Lin a b p := by
  refine ⟨ht, fun i => ?_⟩
  have := h i
  split
  · rename_i rest x e
    have := Nat.mul_le_mul_left a (ht.length e)
    omega
  · omega

theorem Lin.bind {a b c : Nat} {p : Timed α} {f : α → Timed β} (hp : Lin a b p) (hf : ∀ x, Lin a c (f x)) :
    Lin a (b + c) (tBind p f) := by
  refine ⟨hp.1.bind fun x => (hf x).1, fun i => ?_⟩
  have h1 := hp.2 i
  simp only [tBind, pBind, Res.next]
  cases e : p.run i with
  | ok rest x =>
    rw [e] at h1
    have h2 := (hf x).2 rest
    simp only at h1 ⊢
    cases e2 : (f x).run rest with
    | ok r y => rw [e2] at h2; simp only at h2 ⊢; omega
    | error c => rw [e2] at h2; simp only at h2 ⊢; omega
    | failure c => rw [e2] at h2; simp only at h2 ⊢; omega
  | error c => rw [e] at h1; simp only at h1 ⊢; omega
  | failure c => rw [e] at h1; simp only at h1 ⊢; omega

theorem lin_pure {a : Nat} (x : α) : Lin a 0 (tPure x) := lin_of_const (tidy_pure x) fun _ => Nat.le_refl _

theorem Lin.map {a b : Nat} {p : Timed α} (h : Lin a b p) (f : α → β) : Lin a b (tMap f p) :=
  h.bind fun _ => lin_pure _

theorem Lin.preceded {a b c : Nat} {p : Timed α} {q : Timed β} (hp : Lin a b p) (hq : Lin a c q) :
    Lin a (b + c) (tPreceded p q) := hp.bind fun _ => hq

theorem Lin.terminated {a b c : Nat} {p : Timed α} {q : Timed β} (hp : Lin a b p) (hq : Lin a c q) :
    Lin a (b + c) (tTerminated p q) := hp.bind fun _ => hq.bind fun _ => lin_pure _

theorem lin_tag (a : Nat) (t : Str) : Lin a (1 + t.length) (tTag t) := lin_of_const (tidy_tag t) fun _ => Nat.le_refl _

theorem lin_char (a : Nat) (c : Char) : Lin a 1 (tChar c) := lin_of_const (tidy_char c) fun _ => Nat.le_refl _

theorem Lin.returnError {a b : Nat} {p : Timed α} (h : Lin a b p) (k : Kind) : Lin a (b + 1) (tReturnError k p) := by
  refine ⟨h.1.returnError k, fun i => ?_⟩
  have := h.2 i
  simp only [tReturnError, pReturnError]
  cases e : p.run i with
  | ok rest x => rw [e] at this; simp only at this ⊢; omega
  | error c => rw [e] at this; cases c <;> simp only at this ⊢ <;> omega
  | failure c => rw [e] at this; cases c <;> simp only at this ⊢ <;> omega

theorem takeDrop (f : Char → Bool) (i : Str) : (i.takeWhile f).length + (i.dropWhile f).length = i.length := by
  rw [← List.length_append, List.takeWhile_append_dropWhile]

theorem lin_takeWhile1 (f : Char → Bool) : Lin 1 1 (tTakeWhile1 f) := by
  refine ⟨tidy_takeWhile1 f, fun i => ?_⟩
  have := takeDrop f i
  simp only [tTakeWhile1, pTakeWhile1]
  cases e : i.takeWhile f with
  | nil => simp only [List.length_nil]; omega
  | cons c s => rw [e] at this; simp only; omega

theorem Lin.ws {b : Nat} {p : Timed α} (h : Lin 1 b p) : Lin 1 (b + 1) (tWs p) := by
  refine ⟨h.1.ws, fun i => ?_⟩
  have h1 := takeDrop isWs i
  have h2 := h.2 (i.dropWhile isWs)
  simp only [tWs, pWs, Res.next]
  cases e : p.run (i.dropWhile isWs) with
  | ok rest x =>
    have h3 := takeDrop isWs rest
    rw [e] at h2; simp only at h2 ⊢; omega
  | error c => rw [e] at h2; simp only at h2 ⊢; omega
  | failure c => rw [e] at h2; simp only at h2 ⊢; omega

theorem lin_ident : Lin 1 1 (tIdent cfg) := lin_takeWhile1 _

theorem lin_colon : Lin 1 3 tColon := (lin_tag 1 _).returnError _

theorem lin_param : Lin 1 6 (tParam cfg) :=
  (lin_ident cfg).bind fun _ => lin_colon.ws.bind fun _ => (lin_ident cfg).bind fun _ => lin_pure _

/-- What stands between brackets or braces. -/
theorem lin_bracketed (o c : Char) (k : Kind) :
    Lin 1 10 (tPreceded (tChar o) (tTerminated (tWs (tParam cfg)) (tReturnError k (tChar c)))) :=
  (lin_char 1 o).preceded ((lin_param cfg).ws.terminated ((lin_char 1 c).returnError k))

theorem bracketed_cost {o c : Char} {k : Kind} {i : Str} (h : i.head? ≠ some o) :
    (∃ e, (tPreceded (tChar o) (tTerminated (tWs (tParam cfg)) (tReturnError k (tChar c)))).run i = .error e) ∧
    (tPreceded (tChar o) (tTerminated (tWs (tParam cfg)) (tReturnError k (tChar c)))).cost i = 1 := by
  have : pChar o i = .error (.code i .char) := by
    cases i with
    | nil => rfl
    | cons d i => simp only [pChar]; rw [if_neg]; intro hd; exact h (by rw [hd]; rfl)
  refine ⟨⟨.code i .char, ?_⟩, ?_⟩
  · show pBind (pChar o) _ i = _
    simp [pBind, this]
  · simp [tPreceded, tBind, tChar, this, Res.next]

/-! ### Line ends -/

/-- The loops over line ends. -/
theorem loop_lineEnding : ∀ f i acc, ∃ rest l, many0Loop pLineEnding f i acc = .ok rest l ∧
    rest.length ≤ i.length ∧ loopCost tLineEnding f i + 4 * rest.length ≤ 4 * i.length + 4 ∧
    ((∃ e, pLineEnding i = .error e) → rest = i)
  | 0, i, acc => ⟨i, acc, rfl, Nat.le_refl _, by simp only [loopCost]; omega, fun _ => rfl⟩
  | f + 1, i, acc => by
    simp only [many0Loop, loopCost, tLineEnding, Res.next]
    cases e : pLineEnding i with
    | ok r x =>
      have := lineEnding_strict e
      have hne : r ≠ i := by rintro rfl; omega
      obtain ⟨rest, l, h1, h2, h3, _⟩ := loop_lineEnding f r (acc ++ [x])
      simp only [tLineEnding] at h3
      refine ⟨rest, l, ?_, by omega, ?_, ?_⟩
      · simp only [if_neg hne]; exact h1
      · simp only [if_neg hne]; omega
      · rintro ⟨_, h⟩; cases h
    | error c => exact ⟨i, acc, rfl, Nat.le_refl _, by simp only; omega, fun _ => rfl⟩
    | failure c =>
      exfalso
      unfold pLineEnding at e
      split at e <;> cases e

theorem lin_eols0 : Lin 4 4 (tMany0 tLineEnding) := by
  refine ⟨tidy_lineEnding.many0, fun i => ?_⟩
  obtain ⟨rest, l, h1, h2, h3, _⟩ := loop_lineEnding (i.length + 1) i []
  have : (tMany0 tLineEnding).run i = .ok rest l := h1
  rw [this]
  exact h3

theorem lin_eols1 : Lin 4 4 (tMany1 tLineEnding) := by
  refine ⟨tidy_lineEnding.many1, fun i => ?_⟩
  simp only [tMany1, pMany1, Res.next]
  cases e : tLineEnding.run i with
  | ok r x =>
    have := lineEnding_strict e
    obtain ⟨rest, l, h1, h2, h3, _⟩ := loop_lineEnding (r.length + 1) r [x]
    have h1' : many0Loop tLineEnding.run (r.length + 1) r [x] = .ok rest l := h1
    simp only [h1']
    simp only [tLineEnding] at h3 ⊢
    omega
  | error c => simp only [tLineEnding]; omega
  | failure c => simp only [tLineEnding]; omega

theorem lin_requireNewline : Lin 4 5 tRequireNewline := (lin_eols1.map _).returnError _

/-- The text does not begin with a line end. -/
def NoEnd (r : Str) : Prop := ∃ e, pLineEnding r = .error e

theorem noEnd_eols0 {i rest : Str} {l : List Unit} (h : pMany0 pLineEnding i = .ok rest l) : NoEnd rest := by
  have key : ∀ n i, i.length ≤ n → ∀ {rest l}, pMany0 pLineEnding i = .ok rest l → NoEnd rest := by
    intro n
    induction n with
    | zero =>
      intro i hn rest l h
      obtain rfl : i = [] := List.length_eq_zero_iff.1 (by omega)
      cases h
      exact ⟨_, rfl⟩
    | succ n ih =>
      intro i hn rest l h
      rw [many0_eq tidy_lineEnding] at h
      split at h
      · rename_i c e; cases h; exact ⟨c, e⟩
      · cases h
      · rename_i r a e
        have := lineEnding_strict e
        rw [if_neg (by rintro rfl; omega)] at h
        cases hm : pMany0 pLineEnding r with
        | error c => rw [hm] at h; cases h
        | failure c => rw [hm] at h; cases h
        | ok r' l' => rw [hm] at h; cases h; exact ih r (by omega) hm
  exact key _ i (Nat.le_refl _) h

theorem noEnd_eols1 {i rest : Str} {l : List Unit} (h : pMany1 pLineEnding i = .ok rest l) : NoEnd rest := by
  obtain ⟨r, a, l', _, h2, _⟩ := many1_inv h
  exact noEnd_eols0 h2

theorem noEnd_newline {i rest : Str} {a : Unit} (h : pRequireNewline i = .ok rest a) : NoEnd rest := by
  obtain ⟨l, h, _⟩ := map_ok (returnError_inv h)
  exact noEnd_eols1 h

theorem NoEnd.eols0 {r : Str} (h : NoEnd r) : pMany0 pLineEnding r = .ok r [] := by
  obtain ⟨e, h⟩ := h
  rw [many0_eq tidy_lineEnding, h]

theorem NoEnd.cost {r : Str} (h : NoEnd r) : (tMany0 tLineEnding).cost r = 4 := by
  obtain ⟨e, h⟩ := h
  simp [tMany0, loopCost, tLineEnding, h, Res.next]

/-! ### Indentation -/

/-- The number of blanks at the beginning. -/
def sp (i : Str) : Nat := (i.takeWhile (· == ' ')).length

/-- The number of blanks, tabs and line ends at the beginning. -/
def wsLen (i : Str) : Nat := (i.takeWhile isWs).length

/-- Nothing can begin here at a level below `n`: the line is indented too far, or what follows the indentation is
blank. -/
def TooDeep (n : Nat) (i : Str) : Prop :=
  2 * n ≤ sp i ∨ ∃ c r, i.dropWhile (· == ' ') = c :: r ∧ isWs c = true

theorem sp_spaces (l : Nat) (r : Str) : sp (spaces l ++ r) = 2 * l + sp r := by
  unfold sp spaces
  rw [List.takeWhile_append_of_pos (by intro c hc; rw [List.eq_of_mem_replicate hc]; rfl)]
  simp

theorem drop_spaces (l : Nat) (r : Str) : (spaces l ++ r).dropWhile (· == ' ') = r.dropWhile (· == ' ') := by
  unfold spaces
  exact List.dropWhile_append_of_pos fun c hc => by rw [List.eq_of_mem_replicate hc]; rfl

theorem TooDeep.mono {m n : Nat} {i : Str} (h : TooDeep n i) (hm : m ≤ n) : TooDeep m i := by
  rcases h with h | h
  · left; omega
  · exact .inr h

theorem deep_spaces (l : Nat) (r : Str) : TooDeep l (spaces l ++ r) := by
  left; rw [sp_spaces]; omega

/-- Behind the indentation there is something blank. -/
theorem TooDeep.head {l : Nat} {r : Str} (h : TooDeep (l + 1) (spaces l ++ r)) : ∃ c r', r = c :: r' ∧ isWs c = true := by
  rcases h with h | ⟨c, r', h, hc⟩
  · rw [sp_spaces] at h
    cases r with
    | nil => simp [sp] at h; omega
    | cons c r =>
      by_cases hc : c = ' '
      · exact ⟨c, r, rfl, by rw [hc]; rfl⟩
      · simp [sp, hc] at h; omega
  · rw [drop_spaces] at h
    cases r with
    | nil => cases h
    | cons d r =>
      by_cases hd : d = ' '
      · exact ⟨d, r, rfl, by rw [hd]; rfl⟩
      · simp [hd] at h
        exact ⟨d, r, rfl, by rw [h.1]; exact hc⟩

theorem wsLen_of_not_deep {n : Nat} {i : Str} (h : ¬ TooDeep n i) : wsLen i < 2 * n := by
  simp only [TooDeep, not_or, Nat.not_le, not_exists, not_and] at h
  obtain ⟨h1, h2⟩ := h
  have key : ∀ j : Str, (∀ c r, j.dropWhile (· == ' ') = c :: r → ¬ isWs c = true) → wsLen j = sp j := by
    intro j
    induction j with
    | nil => intro _; rfl
    | cons c j ih =>
      intro h
      by_cases hc : c = ' '
      · subst hc
        have := ih (fun d r hd => h d r (by rw [List.dropWhile_cons]; simpa using hd))
        have hw : isWs ' ' = true := rfl
        simp only [wsLen, sp, List.takeWhile_cons, hw, if_true, beq_self_eq_true, List.length_cons] at this ⊢
        omega
      · have := h c j (by simp [hc])
        simp [wsLen, sp, this, hc]
  rw [key i h2]
  exact h1

/-- Indentation. -/
theorem indent_cost (l : Nat) (i : Str) :
    (∃ r x, i = spaces l ++ r ∧ (tIndent l).run i = .ok r x ∧ (tIndent l).cost i = 4 * l) ∨
    (∃ e, (tIndent l).run i = .error e ∧ (tIndent l).cost i ≤ 4 * l) := by
  have key : ∀ l i start acc,
      (∃ r x, countLoop (pTag c!"  ") start l i acc = .ok r x ∧ countCost (tTag c!"  ") l i = 4 * l) ∨
      (∃ e, countLoop (pTag c!"  ") start l i acc = .error e ∧ countCost (tTag c!"  ") l i ≤ 4 * l) := by
    intro l
    induction l with
    | zero => intro i start acc; exact .inl ⟨i, acc, rfl, rfl⟩
    | succ l ih =>
      intro i start acc
      simp only [countLoop, countCost, tTag]
      cases e : pTag c!"  " i with
      | ok r x =>
        rcases ih r start (acc ++ [x]) with ⟨r', y, h1, h2⟩ | ⟨c, h1, h2⟩
        · simp only [tTag] at h2
          exact .inl ⟨r', y, h1, by simp only [Res.next, h2]; simp only [List.length_cons, List.length_nil]; omega⟩
        · simp only [tTag] at h2
          refine .inr ⟨c, h1, ?_⟩
          simp only [Res.next]
          have : (1 + [' ', ' '].length) = 3 := rfl
          omega
      | error c => exact .inr ⟨_, rfl, by simp only [Res.next, List.length_cons, List.length_nil]; omega⟩
      | failure c =>
        exfalso
        unfold pTag at e
        split at e <;> cases e
  rcases key l i i [] with ⟨r, x, h1, h2⟩ | ⟨e, h1, h2⟩
  · exact .inl ⟨r, x, indent_inv h1, h1, h2⟩
  · exact .inr ⟨e, h1, h2⟩

theorem indent_run (l : Nat) (r : Str) :
    (∃ x, (tIndent l).run (spaces l ++ r) = .ok r x) ∧ (tIndent l).cost (spaces l ++ r) = 4 * l := by
  obtain ⟨x, hx⟩ := indent_ok l r
  refine ⟨⟨x, hx⟩, ?_⟩
  rcases indent_cost l (spaces l ++ r) with ⟨r', x', _, h, hc⟩ | ⟨e, h, _⟩
  · exact hc
  · have : (tIndent l).run (spaces l ++ r) = .ok r x := hx
    rw [this] at h; cases h

/-- What a parser behind the indentation does. -/
theorem indented_run (l : Nat) (q : Timed α) (r : Str) :
    (tPreceded (tIndent l) q).run (spaces l ++ r) = q.run r ∧
    (tPreceded (tIndent l) q).cost (spaces l ++ r) = 4 * l + q.cost r := by
  obtain ⟨⟨x, hx⟩, hc⟩ := indent_run l r
  constructor
  · show pBind (tIndent l).run _ _ = _
    simp [pBind, hx]
  · simp [tPreceded, tBind, hx, hc, Res.next]

theorem indented_cases (l : Nat) (q : Timed α) (i : Str) :
    (∃ r, i = spaces l ++ r ∧ (tPreceded (tIndent l) q).run i = q.run r ∧
      (tPreceded (tIndent l) q).cost i = 4 * l + q.cost r) ∨
    (∃ e, (tPreceded (tIndent l) q).run i = .error e ∧ (tPreceded (tIndent l) q).cost i ≤ 4 * l) := by
  rcases indent_cost l i with ⟨r, x, rfl, h1, h2⟩ | ⟨e, h1, h2⟩
  · exact .inl ⟨r, rfl, indented_run l q r⟩
  · refine .inr ⟨e, ?_, ?_⟩
    · show pBind (tIndent l).run _ _ = _
      simp [pBind, h1]
    · simpa [tPreceded, tBind, h1, Res.next] using h2

/-! ### Segments -/

theorem returning_timed (b : Bool) (before : Parser α) (p : Timed β) (alt : Timed γ) (i : Str) :
    ((tReturning b before p alt).run i = alt.run i ∧ (tReturning b before p alt).cost i = alt.cost i) ∨
    ∃ c, p.run i = .failure c ∧ (tReturning b before p alt).run i = .failure c ∧
      (tReturning b before p alt).cost i = 1 + p.cost i := by
  simp only [tReturning, pReturning]
  cases b with
  | false => exact .inl ⟨rfl, rfl⟩
  | true =>
    cases before i with
    | error c => exact .inl ⟨rfl, rfl⟩
    | failure c => exact .inl ⟨rfl, rfl⟩
    | ok r x =>
      cases p.run i with
      | ok r x => exact .inl ⟨rfl, rfl⟩
      | error c => exact .inl ⟨rfl, rfl⟩
      | failure c => exact .inr ⟨c, rfl, rfl, rfl⟩

/-- A segment, behind the indentation. -/
def tSegment : Timed PathSegment :=
  tReturning cfg.early (pPreceded (pChar '{') (pWs (pParam cfg))) (tBraced cfg) <|
    tAlt cfg.altFail [tMap PathSegment.dynamic (tBraced cfg), tMap PathSegment.static (tIdent cfg)]

theorem ident_error {r : Str} (h : NotWord cfg r) :
    (tIdent cfg).run r = .error (.code r .takeWhile1) ∧ (tIdent cfg).cost r = 1 := by
  have : r.takeWhile (isIdentifierChar cfg) = [] := by
    cases r with
    | nil => rfl
    | cons c r => simp [h c rfl]
  exact ⟨by simp [tIdent, tTakeWhile1, pTakeWhile1, this], by simp [tIdent, tTakeWhile1, this]⟩

theorem map_run (f : α → β) (p : Timed α) (i : Str) : (tMap f p).run i = pMap f p.run i := rfl

theorem map_cost (f : α → β) (p : Timed α) (i : Str) : (tMap f p).cost i = p.cost i := by
  simp only [tMap, tBind, tPure, Res.next]
  split <;> rfl

/-- A segment does not begin with what is neither a brace nor part of a word. -/
theorem segment_error {r : Str} (h : NotWord cfg r) (hb : r.head? ≠ some '{') :
    (∃ e, (tSegment cfg).run r = .error e) ∧ (tSegment cfg).cost r = 4 := by
  obtain ⟨⟨e, h1⟩, h2⟩ := bracketed_cost cfg (o := '{') (c := '}') (k := .custom c!"Expected a \"}\"") hb
  obtain ⟨h3, h4⟩ := ident_error cfg h
  have h1' : (tBraced cfg).run r = .error e := h1
  have h2' : (tBraced cfg).cost r = 1 := h2
  constructor
  · refine ⟨.code r .alt, ?_⟩
    show pReturning _ _ (tBraced cfg).run _ r = _
    rw [returning_eq (by intro c hc; rw [h1'] at hc; cases hc)]
    simp [tAlt, pAlt, map_run, pMap, pBind, h1', h3]
  · simp [tSegment, tReturning, h1', tAlt, altCost, map_run, map_cost, pMap, pBind, h3, h2', h4]

theorem lin_segment : Lin 1 14 (tSegment cfg) ∧
    ∀ i e, (tSegment cfg).run i = .failure e → i.head? = some '{' := by
  have hl : Lin 1 10 (tBraced cfg) := lin_bracketed cfg _ _ _
  have hbr := hl.2
  have htidy : Tidy (tSegment cfg).run := by
    refine tidy_returning hl.1 (tidy_alt _ fun q hq => ?_)
    simp only [List.map_cons, List.map_nil, List.mem_cons, List.not_mem_nil, or_false] at hq
    rcases hq with rfl | rfl
    · exact hl.1.map _
    · exact (tidy_ident cfg).map _
  have key : ∀ i, (match (tSegment cfg).run i with
      | .ok rest _ => (tSegment cfg).cost i + 1 * rest.length ≤ 1 * i.length + 14
      | .error _ => (tSegment cfg).cost i ≤ 1 * i.length + 14
      | .failure _ => (tSegment cfg).cost i ≤ 1 * i.length + 14 ∧ i.head? = some '{') := by
    intro i
    by_cases hb : i.head? = some '{'
    · have hw : NotWord cfg i := by
        intro c hc
        rw [hb] at hc
        cases hc
        exact nonWord_notWord cfg (by decide) (by decide)
      obtain ⟨h3, h4⟩ := ident_error cfg hw
      have h1 := hbr i
      have halt : (match (tAlt cfg.altFail [tMap PathSegment.dynamic (tBraced cfg), tMap PathSegment.static (tIdent cfg)]).run i with
          | .ok rest _ => (tAlt cfg.altFail [tMap PathSegment.dynamic (tBraced cfg), tMap PathSegment.static (tIdent cfg)]).cost i + 1 * rest.length ≤ 1 * i.length + 14
          | .error _ => (tAlt cfg.altFail [tMap PathSegment.dynamic (tBraced cfg), tMap PathSegment.static (tIdent cfg)]).cost i ≤ 1 * i.length + 14
          | .failure _ => (tAlt cfg.altFail [tMap PathSegment.dynamic (tBraced cfg), tMap PathSegment.static (tIdent cfg)]).cost i ≤ 1 * i.length + 14) := by
        simp only [tAlt, List.map_cons, List.map_nil, pAlt, altCost, map_run, map_cost, pMap, pBind, pPure]
        cases e : (tBraced cfg).run i with
        | ok rest x => rw [e] at h1; simp only at h1 ⊢; omega
        | error c => rw [e] at h1; simp only [h3, h4] at h1 ⊢; omega
        | failure c =>
          rw [e] at h1; simp only [h3, h4] at h1 ⊢
          cases cfg.altFail <;> simp <;> omega
      rcases returning_timed cfg.early (pPreceded (pChar '{') (pWs (pParam cfg))) (tBraced cfg)
        (tAlt cfg.altFail [tMap PathSegment.dynamic (tBraced cfg), tMap PathSegment.static (tIdent cfg)]) i with
        ⟨hr, hc⟩ | ⟨c, hf, hr, hc⟩
      · simp only [tSegment, hr, hc]
        split <;> rename_i er <;> rw [er] at halt
        · exact halt
        · exact halt
        · exact ⟨halt, hb⟩
      · rw [hf] at h1
        simp only [tSegment, hr, hc]
        simp only at h1
        exact ⟨by omega, hb⟩
    · obtain ⟨⟨e, h1⟩, h2⟩ := bracketed_cost cfg (o := '{') (c := '}') (k := .custom c!"Expected a \"}\"") hb
      have h1' : (tBraced cfg).run i = .error e := h1
      have h2' : (tBraced cfg).cost i = 1 := h2
      have h3 := (lin_ident cfg).2 i
      have hr : (tSegment cfg).run i = (tAlt cfg.altFail [tMap PathSegment.dynamic (tBraced cfg), tMap PathSegment.static (tIdent cfg)]).run i := by
        show pReturning _ _ (tBraced cfg).run _ i = _
        rw [returning_eq (by intro c hc; rw [h1'] at hc; cases hc)]
      have hc : (tSegment cfg).cost i = (tAlt cfg.altFail [tMap PathSegment.dynamic (tBraced cfg), tMap PathSegment.static (tIdent cfg)]).cost i := by
        simp only [tSegment, tReturning]
        split
        · split
          · rename_i e2; rw [h1'] at e2; cases e2
          · rfl
        · rfl
      rw [hr, hc]
      simp only [tAlt, List.map_cons, List.map_nil, pAlt, altCost, map_run, map_cost, pMap, pBind, pPure, h1', h2']
      cases e : (tIdent cfg).run i with
      | ok rest x =>
        rw [e] at h3
        simp only at h3
        change 1 + 1 + (1 + (tIdent cfg).cost i + 0) + 1 * rest.length ≤ 1 * i.length + 14
        omega
      | error c =>
        rw [e] at h3
        simp only at h3
        change 1 + 1 + (1 + (tIdent cfg).cost i + 0) ≤ 1 * i.length + 14
        omega
      | failure c =>
        exfalso
        simp only [tIdent, tTakeWhile1, pTakeWhile1] at e
        split at e <;> cases e
  refine ⟨⟨htidy, fun i => ?_⟩, fun i e he => ?_⟩
  · have := key i
    cases e : (tSegment cfg).run i <;> rw [e] at this <;> simp only at this ⊢ <;> omega
  · have := key i
    rw [he] at this
    exact this.2

end Wayfinder
