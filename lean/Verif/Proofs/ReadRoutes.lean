import Verif.Proofs.ReadCost
/-!
# The routes of a file are read in linear time
-/

namespace Wayfinder

variable {α β γ : Type} (cfg : ParseCfg)

/-! ### Where no route begins -/

/-- Nothing is found at once. -/
def Refuses (s : Nat) (p : Timed α) (i : Str) : Prop := (∃ e, p.run i = .error e) ∧ p.cost i + 1 ≤ s

theorem Refuses.many1 {s : Nat} {p : Timed α} {i : Str} (h : Refuses s p i) :
    (∃ e, (tMany1 p).run i = .error e) ∧ (tMany1 p).cost i ≤ s := by
  obtain ⟨⟨e, h1⟩, h2⟩ := h
  constructor
  · exact ⟨.code i .many1, by simp only [tMany1, pMany1, h1]⟩
  · simp only [tMany1, h1, Res.next]; omega

/-- A segment without braces. -/
theorem segment_ident {i : Str} (hb : i.head? ≠ some '{') :
    (tSegment cfg).cost i = 3 + (tIdent cfg).cost i ∧
    (∀ r x, (tIdent cfg).run i = .ok r x → (tSegment cfg).run i = .ok r (.static x)) ∧
    ∀ e, (tIdent cfg).run i = .error e → ∃ e, (tSegment cfg).run i = .error e := by
  obtain ⟨⟨e, h1⟩, h2⟩ := bracketed_cost cfg (o := '{') (c := '}') (k := .custom c!"Expected a \"}\"") hb
  have h1' : (tBraced cfg).run i = .error e := h1
  have h2' : (tBraced cfg).cost i = 1 := h2
  have hr : (tSegment cfg).run i = (tAlt cfg.altFail [tMap PathSegment.dynamic (tBraced cfg), tMap PathSegment.static (tIdent cfg)]).run i := by
    show pReturning _ _ (tBraced cfg).run _ i = _
    rw [returning_eq (by intro c hc; rw [h1'] at hc; cases hc)]
  have hc : (tSegment cfg).cost i = (tAlt cfg.altFail [tMap PathSegment.dynamic (tBraced cfg), tMap PathSegment.static (tIdent cfg)]).cost i := by
    simp only [tSegment, tReturning]
    split
    · split
      · rename_i e2; rw [h1'] at e2; cases e2
      · rfl
    · rfl
  rw [hr, hc]
  simp only [tAlt, List.map_cons, List.map_nil, pAlt, altCost, map_run, map_cost, pMap, pBind, pPure, h1', h2']
  refine ⟨?_, ?_, ?_⟩
  · cases e : (tIdent cfg).run i with
    | ok rest x => change 1 + 1 + (1 + (tIdent cfg).cost i + 0) = _; omega
    | error c => change 1 + 1 + (1 + (tIdent cfg).cost i + 0) = _; omega
    | failure c =>
      exfalso
      simp only [tIdent, tTakeWhile1, pTakeWhile1] at e
      split at e <;> cases e
  · intro r x h; rw [h]
  · intro e h; rw [h]; exact ⟨_, rfl⟩

theorem take_verb (p : Char → Bool) (hp : p ' ' = false) (r : Str) : ∀ v : Str,
    ((v ++ ' ' :: r).takeWhile p).length ≤ v.length ∧
      ∃ c b, (v ++ ' ' :: r).dropWhile p = c :: b ∧ (c ∈ v ∨ c = ' ')
  | [] => by simp [hp]
  | c :: v => by
    by_cases h : p c = true
    · obtain ⟨h1, d, b, h2, h3⟩ := take_verb p hp r v
      simp only [List.cons_append, List.takeWhile_cons, List.dropWhile_cons, h, if_true, List.length_cons]
      refine ⟨by omega, d, b, h2, ?_⟩
      rcases h3 with h3 | h3
      · exact .inl (List.mem_cons_of_mem _ h3)
      · exact .inr h3
    · simp [h]

theorem line_refuses {c : Char} {r : Str} (h : c ≠ '\n' ∧ c ≠ '\r') :
    (∃ e, (tMany1 tLineEnding).run (c :: r) = .error e) ∧ (tMany1 tLineEnding).cost (c :: r) = 4 := by
  have h1 : ∃ e, pLineEnding (c :: r) = .error e := by
    unfold pLineEnding
    split
    · rename_i h2; cases h2; exact absurd rfl h.1
    · rename_i h2; cases h2; exact absurd rfl h.2
    · exact ⟨_, rfl⟩
  obtain ⟨e, h1⟩ := h1
  exact ⟨⟨.code (c :: r) .many1, by simp only [tMany1, tLineEnding, pMany1, h1]⟩, by simp only [tMany1, tLineEnding, h1, Res.next]⟩

/-- The path of a nested route. -/
theorem nested_cases (f l : Nat) (i : Str) :
    (∃ r, i = spaces l ++ r ∧ (tPathSegment cfg l).run i = (tSegment cfg).run r ∧
      (tPathSegment cfg l).cost i = 4 * l + (tSegment cfg).cost r) ∨
    (∃ e, (tNestedRoutes cfg f l).run i = .error e ∧ (tNestedRoutes cfg f l).cost i ≤ 4 * l) := by
  cases f with
  | zero => exact .inr ⟨_, rfl, Nat.zero_le _⟩
  | succ f =>
    rcases indented_cases l (tSegment cfg) i with ⟨r, h0, h1, h2⟩ | ⟨e, h1, h2⟩
    · exact .inl ⟨r, h0, h1, h2⟩
    · obtain ⟨h3, h4⟩ := bind_run_error (f := fun segment => tBind (tMany1 tLineEnding) fun _ =>
        tBind (tReturnError (.custom c!"In routes starting here")
          (tRoutesWith cfg (tNestedRoutes cfg f (l + 1)) (l + 1))) fun routes =>
          tPure (NestedRoutes.mk segment routes)) (show (tPathSegment cfg l).run i = .error e from h1)
      exact .inr ⟨e, h3, by rw [show (tNestedRoutes cfg (f + 1) l).cost i = _ from h4]; exact h2⟩

/-- Where the segment is an error, so is the route. -/
theorem nestedRoutes_error (f l : Nat) {i : Str} {e : Ctx} (h : (tPathSegment cfg l).run i = .error e) :
    (∃ e, (tNestedRoutes cfg f l).run i = .error e) ∧ (tNestedRoutes cfg f l).cost i ≤ (tPathSegment cfg l).cost i := by
  cases f with
  | zero => exact ⟨⟨_, rfl⟩, Nat.zero_le _⟩
  | succ f =>
    obtain ⟨h3, h4⟩ := bind_run_error (f := fun segment => tBind (tMany1 tLineEnding) fun _ =>
      tBind (tReturnError (.custom c!"In routes starting here")
        (tRoutesWith cfg (tNestedRoutes cfg f (l + 1)) (l + 1))) fun routes =>
        tPure (NestedRoutes.mk segment routes)) h
    exact ⟨⟨e, h3⟩, Nat.le_of_eq h4⟩

/-- Where no line ends behind the segment, there is no route. -/
theorem nestedRoutes_line (f l : Nat) {i r : Str} {x : PathSegment} {e : Ctx} (h : (tPathSegment cfg l).run i = .ok r x)
    (h' : (tMany1 tLineEnding).run r = .error e) :
    (∃ e, (tNestedRoutes cfg f l).run i = .error e) ∧
      (tNestedRoutes cfg f l).cost i ≤ (tPathSegment cfg l).cost i + (tMany1 tLineEnding).cost r := by
  cases f with
  | zero => exact ⟨⟨_, rfl⟩, Nat.zero_le _⟩
  | succ f =>
    obtain ⟨h3, h4⟩ := bind_run_ok (f := fun segment => tBind (tMany1 tLineEnding) fun _ =>
      tBind (tReturnError (.custom c!"In routes starting here")
        (tRoutesWith cfg (tNestedRoutes cfg f (l + 1)) (l + 1))) fun routes =>
        tPure (NestedRoutes.mk segment routes)) h
    obtain ⟨h5, h6⟩ := bind_run_error (f := fun _ =>
      tBind (tReturnError (.custom c!"In routes starting here")
        (tRoutesWith cfg (tNestedRoutes cfg f (l + 1)) (l + 1))) fun routes =>
        tPure (NestedRoutes.mk x routes)) h'
    exact ⟨⟨e, h3.trans h5⟩, Nat.le_of_eq (h4.trans (by rw [h6]))⟩

theorem nested_refuses (f l : Nat) {i : Str} (h : TooDeep (l + 1) i ∨ BracketLine l i ∨ MethodLine l i) :
    Refuses (4 * l + 30) (tNestedRoutes cfg f l) i := by
  rcases nested_cases cfg f l i with ⟨r, rfl, h1, h2⟩ | ⟨e, h1, h2⟩
  rotate_left
  · exact ⟨⟨e, h1⟩, by omega⟩
  have plain : (∃ c r', r = c :: r' ∧ isIdentifierChar cfg c = false ∧ c ≠ '{') →
      Refuses (4 * l + 30) (tNestedRoutes cfg f l) (spaces l ++ r) := by
    rintro ⟨c, r', rfl, hc, hb⟩
    obtain ⟨⟨e, h3⟩, h4⟩ := segment_error cfg (notWord_cons cfg hc) (r := c :: r') (by simpa using hb)
    rw [h3] at h1
    obtain ⟨h5, h6⟩ := nestedRoutes_error cfg f l h1
    exact ⟨h5, by omega⟩
  rcases h with h | ⟨r', h⟩ | ⟨v, m, r', h, hv⟩
  · obtain ⟨c, r', rfl, hc⟩ := h.head
    refine plain ⟨c, r', rfl, ?_, ?_⟩
    · by_cases hw : isIdentifierChar cfg c = true
      · have := wordChar_notWs cfg hw
        rw [hc] at this; cases this.1
      · simpa using hw
    · rintro rfl; revert hc; decide
  · obtain rfl := List.append_cancel_left h
    exact plain ⟨'[', r', rfl, nonWord_notWord cfg (by decide) (by decide), by decide⟩
  · obtain rfl := List.append_cancel_left h
    have hv' := verb_length hv
    obtain ⟨hne, hch⟩ := verb_chars hv
    have hb : (v ++ ' ' :: r').head? ≠ some '{' := verb_head hv (by decide) (by intro m; cases m <;> decide) _
    obtain ⟨h3, h4, h5⟩ := segment_ident cfg hb
    obtain ⟨h6, c, b, h7, h8⟩ := take_verb (isIdentifierChar cfg) (nonWord_notWord cfg (by decide) (by decide)) r' v
    have hcost : (tIdent cfg).cost (v ++ ' ' :: r') ≤ 7 := by
      simp only [tIdent, tTakeWhile1]; omega
    rcases ident_cases cfg (v ++ ' ' :: r') with ⟨r2, x, h9, _, _⟩ | ⟨e, h9, _⟩
    · have hr2 : r2 = c :: b := by
        simp only [tIdent, tTakeWhile1, pTakeWhile1, h7] at h9
        split at h9 <;> cases h9
        rfl
      subst hr2
      rw [h4 _ _ h9] at h1
      have hcn : c ≠ '\n' ∧ c ≠ '\r' := by
        rcases h8 with h8 | rfl
        · have := (hch c h8).1
          constructor <;> (rintro rfl; revert this; decide)
        · decide
      obtain ⟨⟨e, h10⟩, h11⟩ := line_refuses (r := b) hcn
      obtain ⟨h12, h13⟩ := nestedRoutes_line cfg f l h1 h10
      exact ⟨h12, by omega⟩
    · obtain ⟨e, h10⟩ := h5 e h9
      rw [h10] at h1
      obtain ⟨h12, h13⟩ := nestedRoutes_error cfg f l h1
      exact ⟨h12, by omega⟩

/-! ### Resources and child routes -/

/-- What is left by the routes of a block, and what they cost: `K` steps for every character taken and `c` more, unless
what is left is too deep for a further line of the level. -/
def BlockBound (K c l : Nat) (p : Timed α) (i : Str) : Prop :=
  match p.run i with
  | .ok rest _ => p.cost i + K * rest.length ≤ K * i.length + c ∨ (p.cost i ≤ K * i.length + c ∧ TooDeep l rest)
  | .error _ => False
  | .failure _ => p.cost i ≤ K * i.length + c

/-- The child routes behind resources. -/
theorem children_bound {K s l : Nat} {N : Timed NestedRoutes} (hN : Turns K s (TooDeep (l + 1)) (TooDeep l) (TooDeep l) N)
    (b : Bool) {i : Str} (hi : NoEnd i) :
    BlockBound K (s + 6) l (tAlt b [tPreceded (tMany0 tLineEnding) (tMany1 N), tPure []]) i := by
  obtain ⟨h1, h2⟩ : (tPreceded (tMany0 tLineEnding) (tMany1 N)).run i = (tMany1 N).run i ∧
      (tPreceded (tMany0 tLineEnding) (tMany1 N)).cost i = 4 + (tMany1 N).cost i := by
    obtain ⟨h1, h2⟩ := bind_run_ok (f := fun _ => tMany1 N) (p := tMany0 tLineEnding) (i := i) (a := []) hi.eols0
    exact ⟨h1, h2.trans (by rw [hi.cost])⟩
  have hp : (tAlt b [(tPure [] : Timed (List NestedRoutes))]).run i = .ok i [] ∧
      (tAlt b [(tPure [] : Timed (List NestedRoutes))]).cost i = 1 := alt_run_ok (p := tPure []) rfl
  have hm := hN.many1 i
  unfold BlockBound
  cases e : (tMany1 N).run i with
  | ok r a =>
    rw [e] at hm h1
    obtain ⟨h3, h4⟩ := alt_run_ok (b := b) (ps := [tPure []]) h1
    rw [h3]
    simp only at hm ⊢
    rcases hm.1 with h5 | ⟨h5, h6⟩
    · left; omega
    · right
      refine ⟨by omega, ?_⟩
      rcases h6 with h6 | h6
      · exact h6.mono (by omega)
      · exact h6
  | error c =>
    rw [e] at hm h1
    obtain ⟨h3, h4⟩ := alt_run_error (b := b) (ps := [tPure []]) h1
    rw [h3, hp.1]
    simp only at hm ⊢
    rw [hp.2] at h4
    rcases hm with h5 | ⟨h5, h6⟩
    · left; omega
    · right; exact ⟨by omega, h6⟩
  | failure c =>
    rw [e] at hm h1
    simp only at hm
    rcases alt_run_failure (b := b) (ps := [tPure []]) h1 with ⟨_, h3, h4⟩ | ⟨_, h3, h4⟩
    · rw [h3, hp.1]
      rw [hp.2] at h4
      exact .inr ⟨by omega, hm.2⟩
    · rw [h3]
      simp only
      omega

/-- The same where no child route begins. -/
theorem children_none {s : Nat} {N : Timed NestedRoutes} (b : Bool) {i : Str} (hi : NoEnd i) (h : Refuses s N i) :
    (tAlt b [tPreceded (tMany0 tLineEnding) (tMany1 N), tPure []]).run i = .ok i [] ∧
    (tAlt b [tPreceded (tMany0 tLineEnding) (tMany1 N), tPure []]).cost i ≤ s + 6 := by
  obtain ⟨⟨e, h0⟩, h0'⟩ := h.many1
  obtain ⟨h1, h2⟩ : (tPreceded (tMany0 tLineEnding) (tMany1 N)).run i = (tMany1 N).run i ∧
      (tPreceded (tMany0 tLineEnding) (tMany1 N)).cost i = 4 + (tMany1 N).cost i := by
    obtain ⟨h1, h2⟩ := bind_run_ok (f := fun _ => tMany1 N) (p := tMany0 tLineEnding) (i := i) (a := []) hi.eols0
    exact ⟨h1, h2.trans (by rw [hi.cost])⟩
  have hp : (tAlt b [(tPure [] : Timed (List NestedRoutes))]).run i = .ok i [] ∧
      (tAlt b [(tPure [] : Timed (List NestedRoutes))]).cost i = 1 := alt_run_ok (p := tPure []) rfl
  rw [h0] at h1
  obtain ⟨h3, h4⟩ := alt_run_error (b := b) (ps := [tPure []]) h1
  exact ⟨h3.trans hp.1, by omega⟩

/-- The resources and the child routes of a block, before the error is translated. -/
def tBlock (N : Timed NestedRoutes) (l : Nat) : List (Timed (List Resource × List NestedRoutes)) :=
  [tBind (tMany1 (tResource cfg l)) fun resources =>
    tBind (tAlt cfg.altFail [tPreceded (tMany0 tLineEnding) (tMany1 N), tPure []]) fun routes =>
    tPure (resources, routes),
   tBind (tMany1 N) fun routes => tPure ([], routes)]

/-- The child routes alone. -/
theorem only_children {K s l : Nat} {N : Timed NestedRoutes} (hN : Turns K s (TooDeep (l + 1)) (TooDeep l) (TooDeep l) N)
    (b : Bool) (i : Str) :
    match (tAlt b [tBind (tMany1 N) fun routes => tPure (([] : List Resource), routes)]).run i with
    | .ok rest _ =>
      (tAlt b [tBind (tMany1 N) fun routes => tPure (([] : List Resource), routes)]).cost i + K * rest.length ≤ K * i.length + s + 1 ∨
      ((tAlt b [tBind (tMany1 N) fun routes => tPure (([] : List Resource), routes)]).cost i ≤ K * i.length + s + 1 ∧ TooDeep l rest)
    | _ => (tAlt b [tBind (tMany1 N) fun routes => tPure (([] : List Resource), routes)]).cost i ≤ K * i.length + s + 1 := by
  have hm := hN.many1 i
  have hc : (tBind (tMany1 N) fun routes => tPure (([] : List Resource), routes)).cost i = (tMany1 N).cost i := bind_pure_run.2
  cases e : (tMany1 N).run i with
  | ok r a =>
    rw [e] at hm
    have h1 : (tBind (tMany1 N) fun routes => tPure (([] : List Resource), routes)).run i = .ok r ([], a) := (bind_run_ok e).1
    obtain ⟨h3, h4⟩ := alt_run_ok (b := b) (ps := []) h1
    rw [h3]
    simp only at hm ⊢
    rcases hm.1 with h5 | ⟨h5, h6⟩
    · left; omega
    · right
      refine ⟨by omega, ?_⟩
      rcases h6 with h6 | h6
      · exact h6.mono (by omega)
      · exact h6
  | error c =>
    rw [e] at hm
    have h1 : (tBind (tMany1 N) fun routes => tPure (([] : List Resource), routes)).run i = .error c := (bind_run_error e).1
    obtain ⟨h3, h4⟩ := alt_run_error (b := b) (ps := []) h1
    rw [alt_nil.2] at h4
    rw [h3, alt_nil.1]
    simp only at hm ⊢
    rcases hm with h5 | ⟨h5, h6⟩ <;> omega
  | failure c =>
    rw [e] at hm
    have h1 : (tBind (tMany1 N) fun routes => tPure (([] : List Resource), routes)).run i = .failure c := (bind_run_failure e).1
    simp only at hm
    rcases alt_run_failure (b := b) (ps := []) h1 with ⟨_, h3, h4⟩ | ⟨_, h3, h4⟩
    · rw [alt_nil.2] at h4
      rw [h3, alt_nil.1]
      simp only
      omega
    · rw [h3]
      simp only
      omega

theorem only_children_none {s : Nat} {N : Timed NestedRoutes} (b : Bool) {i : Str} (h : Refuses s N i) :
    (∃ e, (tAlt b [tBind (tMany1 N) fun routes => tPure (([] : List Resource), routes)]).run i = .error e) ∧
    (tAlt b [tBind (tMany1 N) fun routes => tPure (([] : List Resource), routes)]).cost i ≤ s + 1 := by
  obtain ⟨⟨e, h0⟩, h0'⟩ := h.many1
  obtain ⟨h1, h2⟩ := bind_run_error (f := fun routes => tPure (([] : List Resource), routes)) h0
  obtain ⟨h3, h4⟩ := alt_run_error (b := b) (ps := []) h1
  rw [alt_nil.2] at h4
  exact ⟨⟨_, h3.trans alt_nil.1⟩, by omega⟩

theorem returnError_timed (k : Kind) (p : Timed α) (i : Str) :
    (tReturnError k p).cost i = 1 + p.cost i ∧
    (∀ r a, p.run i = .ok r a → (tReturnError k p).run i = .ok r a) ∧
    (∀ c, p.run i = .error c ∨ p.run i = .failure c → ∃ c, (tReturnError k p).run i = .failure c) := by
  refine ⟨rfl, ?_, ?_⟩
  · intro r a h; simp [tReturnError, pReturnError, h]
  · rintro c (h | h)
    · simp only [tReturnError, pReturnError, h]
      cases c <;> exact ⟨_, rfl⟩
    · simp only [tReturnError, pReturnError, h]
      cases c <;> exact ⟨_, rfl⟩

theorem rnr_bound {l : Nat} {N : Timed NestedRoutes}
    (hN : Turns 100 (4 * l + 30) (TooDeep (l + 1)) (TooDeep l) (TooDeep l) N)
    (hr : ∀ i, MethodLine l i → Refuses (4 * l + 30) N i) (i : Str) :
    BlockBound 100 (3 * (4 * l + 30) + 20) l (tResourcesAndRoutes cfg N l) i := by
  have hR : Turns 100 (4 * l + 30) (TooDeep (l + 1)) (MethodLine l) (MethodLine l) (tResource cfg l) :=
    (resource_turns cfg l).more (d := 80) (by rw [tResource_run]; exact tidy_resource cfg l)
  have hd : ∀ i, TooDeep (l + 1) i → Refuses (4 * l + 30) N i := fun i h => hN.dead h
  generalize hs : 4 * l + 30 = s at *
  -- the two alternatives
  have key : match (tAlt cfg.altFail (tBlock cfg N l)).run i with
      | .ok rest _ => (tAlt cfg.altFail (tBlock cfg N l)).cost i + 100 * rest.length ≤ 100 * i.length + (3 * s + 19) ∨
        ((tAlt cfg.altFail (tBlock cfg N l)).cost i ≤ 100 * i.length + (3 * s + 19) ∧ TooDeep l rest)
      | _ => (tAlt cfg.altFail (tBlock cfg N l)).cost i ≤ 100 * i.length + (3 * s + 19) := by
    have hm := hR.many1 i
    cases e : (tMany1 (tResource cfg l)).run i with
    | error c =>
      rw [e] at hm
      simp only at hm
      obtain ⟨h1, h2⟩ := bind_run_error (f := fun resources =>
        tBind (tAlt cfg.altFail [tPreceded (tMany0 tLineEnding) (tMany1 N), tPure []]) fun routes =>
        tPure (resources, routes)) e
      obtain ⟨h3, h4⟩ := alt_run_error (b := cfg.altFail) (ps := [tBind (tMany1 N) fun routes => tPure (([] : List Resource), routes)]) h1
      simp only [tBlock]
      rw [h3, h4]
      rcases hm with hm | ⟨hm, hx⟩
      · have ho := only_children hN cfg.altFail i
        cases e2 : (tAlt cfg.altFail [tBind (tMany1 N) fun routes => tPure (([] : List Resource), routes)]).run i with
        | ok r a =>
          rw [e2] at ho
          simp only at ho ⊢
          rcases ho with ho | ⟨ho, h5⟩
          · left; omega
          · right; exact ⟨by omega, h5⟩
        | error c => rw [e2] at ho; simp only at ho ⊢; omega
        | failure c => rw [e2] at ho; simp only at ho ⊢; omega
      · obtain ⟨⟨c', h5⟩, h6⟩ := only_children_none cfg.altFail (hr i hx)
        rw [h5]
        simp only
        omega
    | failure c =>
      rw [e] at hm
      simp only at hm
      obtain ⟨h1, h2⟩ := bind_run_failure (f := fun resources =>
        tBind (tAlt cfg.altFail [tPreceded (tMany0 tLineEnding) (tMany1 N), tPure []]) fun routes =>
        tPure (resources, routes)) e
      obtain ⟨⟨c', h5⟩, h6⟩ := only_children_none cfg.altFail (hr i hm.2)
      simp only [tBlock]
      rcases alt_run_failure (b := cfg.altFail) (ps := [tBind (tMany1 N) fun routes => tPure (([] : List Resource), routes)]) h1 with
        ⟨_, h3, h4⟩ | ⟨_, h3, h4⟩
      · rw [h3, h4, h5]
        simp only
        omega
      · rw [h3, h4]
        simp only
        omega
    | ok r xs =>
      rw [e] at hm
      simp only at hm
      obtain ⟨hm, hz⟩ := hm
      have hne : NoEnd r := by
        rw [show (tMany1 (tResource cfg l)).run = pMany1 (pResource cfg l) by
          show pMany1 (tResource cfg l).run = _
          rw [tResource_run]] at e
        exact resources_noEnd cfg e
      obtain ⟨h1, h2⟩ := bind_run_ok (f := fun resources =>
        tBind (tAlt cfg.altFail [tPreceded (tMany0 tLineEnding) (tMany1 N), tPure []]) fun routes =>
        tPure (resources, routes)) e
      simp only [tBlock]
      have hc : (tBind (tAlt cfg.altFail [tPreceded (tMany0 tLineEnding) (tMany1 N), tPure []]) fun routes =>
        tPure (xs, routes)).cost r = (tAlt cfg.altFail [tPreceded (tMany0 tLineEnding) (tMany1 N), tPure []]).cost r := bind_pure_run.2
      rw [hc] at h2
      rcases hm with hm | ⟨hm, hx⟩
      · have hb := children_bound hN cfg.altFail hne
        unfold BlockBound at hb
        cases e2 : (tAlt cfg.altFail [tPreceded (tMany0 tLineEnding) (tMany1 N), tPure []]).run r with
        | error c => rw [e2] at hb; exact hb.elim
        | ok r' ys =>
          rw [e2] at hb
          rw [(bind_run_ok e2).1] at h1
          obtain ⟨h3, h4⟩ := alt_run_ok (b := cfg.altFail) (ps := [tBind (tMany1 N) fun routes => tPure (([] : List Resource), routes)]) h1
          rw [h3, h4]
          simp only at hb ⊢
          change _ + 100 * r'.length ≤ _ ∨ _ ∧ TooDeep l r'
          rcases hb with hb | ⟨hb, h5⟩
          · left; omega
          · right; exact ⟨by omega, h5⟩
        | failure c =>
          rw [e2] at hb
          rw [(bind_run_failure e2).1] at h1
          obtain ⟨⟨c', h5⟩, h6⟩ := only_children_none cfg.altFail (hr i hz)
          simp only at hb
          rcases alt_run_failure (b := cfg.altFail) (ps := [tBind (tMany1 N) fun routes => tPure (([] : List Resource), routes)]) h1 with
            ⟨_, h3, h4⟩ | ⟨_, h3, h4⟩
          · rw [h3, h4, h5]
            simp only
            omega
          · rw [h3, h4]
            simp only
            omega
      · have hre : Refuses s N r := by
          rcases hx with hx | hx
          · exact hd r hx
          · exact hr r hx
        have hdeep : TooDeep l r := by
          rcases hx with hx | hx
          · exact hx.mono (by omega)
          · exact hx.deep
        obtain ⟨h5, h6⟩ := children_none cfg.altFail hne hre
        rw [(bind_run_ok h5).1] at h1
        obtain ⟨h3, h4⟩ := alt_run_ok (b := cfg.altFail) (ps := [tBind (tMany1 N) fun routes => tPure (([] : List Resource), routes)]) h1
        rw [h3, h4]
        exact .inr ⟨by omega, hdeep⟩
  have hrr : ∃ k, tResourcesAndRoutes cfg N l = tReturnError k (tAlt cfg.altFail (tBlock cfg N l)) := ⟨_, rfl⟩
  obtain ⟨k, hrr⟩ := hrr
  obtain ⟨h1, h2, h3⟩ := returnError_timed k (tAlt cfg.altFail (tBlock cfg N l)) i
  unfold BlockBound
  rw [hrr, h1]
  cases e : (tAlt cfg.altFail (tBlock cfg N l)).run i with
  | ok r a =>
    rw [e] at key
    rw [h2 r a e]
    simp only at key ⊢
    rcases key with h | ⟨h, h'⟩
    · left; omega
    · right; exact ⟨by omega, h'⟩
  | error c =>
    rw [e] at key
    obtain ⟨c', h4⟩ := h3 c (.inl e)
    rw [h4]
    simp only at key ⊢
    omega
  | failure c =>
    rw [e] at key
    obtain ⟨c', h4⟩ := h3 c (.inr e)
    rw [h4]
    simp only at key ⊢
    omega

/-- A line with a bracket is no resource and no child route. -/
theorem block_bracket {l : Nat} {N : Timed NestedRoutes} {i : Str} (hi : BracketLine l i)
    (hr : Refuses (4 * l + 30) N i) :
    (∃ e, (tResourcesAndRoutes cfg N l).run i = .failure e) ∧ (tResourcesAndRoutes cfg N l).cost i ≤ 2 * (4 * l + 30) + 3 := by
  have h0 : Refuses (4 * l + 30) (tResource cfg l) i := by
    obtain ⟨h1, h2⟩ := resource_refuses cfg l (.inr hi)
    exact ⟨h1, by omega⟩
  obtain ⟨⟨e, h1⟩, h2⟩ := h0.many1
  obtain ⟨h3, h4⟩ := bind_run_error (f := fun resources =>
    tBind (tAlt cfg.altFail [tPreceded (tMany0 tLineEnding) (tMany1 N), tPure []]) fun routes =>
    tPure (resources, routes)) h1
  obtain ⟨h5, h6⟩ := alt_run_error (b := cfg.altFail) (ps := [tBind (tMany1 N) fun routes => tPure (([] : List Resource), routes)]) h3
  obtain ⟨⟨e', h7⟩, h8⟩ := only_children_none cfg.altFail hr
  rw [h7] at h5
  have hrr : ∃ k, tResourcesAndRoutes cfg N l = tReturnError k (tAlt cfg.altFail (tBlock cfg N l)) := ⟨_, rfl⟩
  obtain ⟨k, hrr⟩ := hrr
  obtain ⟨h9, _, h10⟩ := returnError_timed k (tAlt cfg.altFail (tBlock cfg N l)) i
  rw [hrr, h9]
  refine ⟨h10 e' (.inl h5), ?_⟩
  have : (tAlt cfg.altFail (tBlock cfg N l)).cost i = _ := h6
  omega

/-! ### Routes -/

theorem routes_bound {l : Nat} {N : Timed NestedRoutes}
    (hN : Turns 100 (4 * l + 30) (TooDeep (l + 1)) (TooDeep l) (TooDeep l) N)
    (hr : ∀ i, BracketLine l i ∨ MethodLine l i → Refuses (4 * l + 30) N i) (i : Str) :
    BlockBound 100 (4 * (4 * l + 30) + 20) l (tRoutesWith cfg N l) i := by
  have hq : LoopBound 20 (4 * l + 2) (fun _ => False) (BracketLine l)
      ((tMany0 (tTerminated (tQueryParameter cfg l) (tMany1 tLineEnding))).cost i) i
      ((tMany0 (tTerminated (tQueryParameter cfg l) (tMany1 tLineEnding))).run i) :=
    (query_turns cfg l (lin_eols1.mono (by omega)) fun h => by
      obtain ⟨e, _, hne, rfl⟩ := eols1_inv (show pMany1 pLineEnding _ = _ from h)
      have := List.length_pos_iff.2 hne
      simp only [List.length_append]
      omega).many0 i
  have htidy : Tidy (tMany0 (tTerminated (tQueryParameter cfg l) (tMany1 tLineEnding))).run := by
    have : (tMany0 (tTerminated (tQueryParameter cfg l) (tMany1 tLineEnding))).run =
        pMany0 (pTerminated (pQueryParameter cfg l) (pMany1 pLineEnding)) := by
      rfl
    rw [this]
    exact ((tidy_queryParameter cfg _).terminated tidy_lineEnding.many1).many0
  unfold BlockBound
  cases e : (tMany0 (tTerminated (tQueryParameter cfg l) (tMany1 tLineEnding))).run i with
  | error c => rw [e] at hq; exact hq.elim
  | failure c =>
    rw [e] at hq
    simp only [LoopBound] at hq
    obtain ⟨h1, h2⟩ := bind_run_failure (f := fun qs => tBind (tResourcesAndRoutes cfg N l) fun rnr => tPure (Routes.mk rnr.1 rnr.2 qs)) e
    rw [tRoutesWith, h1, h2]
    simp only
    omega
  | ok r qs =>
    rw [e] at hq
    simp only [LoopBound] at hq
    have hlen := htidy.length e
    obtain ⟨h1, h2⟩ := bind_run_ok (f := fun qs => tBind (tResourcesAndRoutes cfg N l) fun rnr => tPure (Routes.mk rnr.1 rnr.2 qs)) e
    rw [tRoutesWith, h1, h2]
    have hc : (tBind (tResourcesAndRoutes cfg N l) fun rnr => tPure (Routes.mk rnr.1 rnr.2 qs)).cost r =
        (tResourcesAndRoutes cfg N l).cost r := bind_pure_run.2
    rw [hc]
    rcases hq with hq | ⟨hq, hx⟩
    · have hb := rnr_bound cfg hN (fun i h => hr i (.inr h)) r
      unfold BlockBound at hb
      cases e2 : (tResourcesAndRoutes cfg N l).run r with
      | error c => rw [e2] at hb; exact hb.elim
      | failure c =>
        rw [e2] at hb
        rw [(bind_run_failure e2).1]
        simp only at hb ⊢
        omega
      | ok r' x =>
        rw [e2] at hb
        rw [(bind_run_ok e2).1]
        simp only at hb ⊢
        change _ + 100 * r'.length ≤ _ ∨ _ ∧ TooDeep l r'
        rcases hb with hb | ⟨hb, h5⟩
        · left; omega
        · right; exact ⟨by omega, h5⟩
    · rcases hx with hx | hx
      · exact hx.elim
      obtain ⟨⟨c, h5⟩, h6⟩ := block_bracket cfg hx (hr r (.inl hx))
      rw [(bind_run_failure h5).1]
      simp only
      omega

theorem nested_turns : ∀ f l,
    Turns 100 (4 * l + 30) (TooDeep (l + 1)) (TooDeep l) (TooDeep l) (tNestedRoutes cfg f l)
  | 0, l => by
    refine ⟨?_, ?_, ?_, ?_⟩
    · intro i r a h; cases h
    · intro i c h; left; simp only [tNestedRoutes]; omega
    · intro i c h; cases h
    · intro i h; exact nested_refuses cfg 0 l (.inl h)
  | f + 1, l => by
    have ih := nested_turns f (l + 1)
    have hroutes := routes_bound cfg ih fun i h => nested_refuses cfg f (l + 1) (.inr h)
    have hseg := lin_segment cfg
    -- what is behind the path
    have key : ∀ i, (∃ e, (tNestedRoutes cfg (f + 1) l).run i = .error e ∧ (tNestedRoutes cfg (f + 1) l).cost i + 1 ≤ 4 * l + 30) ∨
        (TooDeep l i ∧ match (tNestedRoutes cfg (f + 1) l).run i with
          | .ok rest _ => (tNestedRoutes cfg (f + 1) l).cost i + 1 + 100 * rest.length ≤ 100 * i.length ∨
            ((tNestedRoutes cfg (f + 1) l).cost i + 1 ≤ 100 * i.length ∧ TooDeep (l + 1) rest)
          | _ => (tNestedRoutes cfg (f + 1) l).cost i + 1 ≤ 100 * i.length + (4 * l + 30)) := by
      intro i
      rcases nested_cases cfg (f + 1) l i with ⟨r, rfl, h1, h2⟩ | ⟨e, h1, h2⟩
      rotate_left
      · exact .inl ⟨e, h1, by omega⟩
      right
      refine ⟨deep_spaces l r, ?_⟩
      have hlen : (spaces l ++ r).length = 2 * l + r.length := by simp [spaces]
      have hb := hseg.1.2 r
      cases e : (tSegment cfg).run r with
      | error c =>
        rw [e] at h1 hb
        obtain ⟨⟨c', h3⟩, h4⟩ := nestedRoutes_error cfg (f + 1) l h1
        rw [h3]
        simp only at hb ⊢
        omega
      | failure c =>
        rw [e] at h1 hb
        obtain ⟨h3, h4⟩ := bind_run_failure (f := fun segment => tBind (tMany1 tLineEnding) fun _ =>
          tBind (tReturnError (.custom c!"In routes starting here")
            (tRoutesWith cfg (tNestedRoutes cfg f (l + 1)) (l + 1))) fun routes =>
            tPure (NestedRoutes.mk segment routes)) h1
        rw [tNestedRoutes, h3, h4]
        simp only at hb ⊢
        omega
      | ok r1 seg =>
        rw [e] at h1 hb
        have hs1 : r1.length < r.length := by
          obtain ⟨s, hs, heq⟩ := segment_inv cfg (show pPathSegment cfg l (spaces l ++ r) = .ok r1 seg from h1)
          rw [List.append_assoc] at heq
          obtain rfl := List.append_cancel_left heq
          have : s ≠ [] := by
            cases hs with
            | static hw => exact hw.1
            | dynamic _ => simp
          have := List.length_pos_iff.2 this
          simp only [List.length_append]
          omega
        have hl := lin_eols1.2 r1
        cases e2 : (tMany1 tLineEnding).run r1 with
        | error c =>
          rw [e2] at hl
          obtain ⟨⟨c', h3⟩, h4⟩ := nestedRoutes_line cfg (f + 1) l h1 e2
          rw [h3]
          simp only at hb hl ⊢
          omega
        | failure c =>
          rw [e2] at hl
          obtain ⟨h3, h4⟩ := bind_run_ok (f := fun segment => tBind (tMany1 tLineEnding) fun _ =>
            tBind (tReturnError (.custom c!"In routes starting here")
              (tRoutesWith cfg (tNestedRoutes cfg f (l + 1)) (l + 1))) fun routes =>
              tPure (NestedRoutes.mk segment routes)) h1
          obtain ⟨h5, h6⟩ := bind_run_failure (f := fun _ =>
            tBind (tReturnError (.custom c!"In routes starting here")
              (tRoutesWith cfg (tNestedRoutes cfg f (l + 1)) (l + 1))) fun routes =>
              tPure (NestedRoutes.mk seg routes)) e2
          rw [tNestedRoutes, h3, h4, h5, h6]
          simp only at hb hl ⊢
          omega
        | ok r2 _ =>
          rw [e2] at hl
          have hs2 : r2.length < r1.length := by
            obtain ⟨e, _, hne, rfl⟩ := eols1_inv (show pMany1 pLineEnding _ = _ from e2)
            have := List.length_pos_iff.2 hne
            simp only [List.length_append]
            omega
          obtain ⟨h3, h4⟩ := bind_run_ok (f := fun segment => tBind (tMany1 tLineEnding) fun _ =>
            tBind (tReturnError (.custom c!"In routes starting here")
              (tRoutesWith cfg (tNestedRoutes cfg f (l + 1)) (l + 1))) fun routes =>
              tPure (NestedRoutes.mk segment routes)) h1
          obtain ⟨h5, h6⟩ := bind_run_ok (f := fun _ =>
            tBind (tReturnError (.custom c!"In routes starting here")
              (tRoutesWith cfg (tNestedRoutes cfg f (l + 1)) (l + 1))) fun routes =>
              tPure (NestedRoutes.mk seg routes)) e2
          rw [tNestedRoutes, h3, h4, h5, h6]
          obtain ⟨h7, h8, h9⟩ := returnError_timed (.custom c!"In routes starting here")
            (tRoutesWith cfg (tNestedRoutes cfg f (l + 1)) (l + 1)) r2
          have hc : (tBind (tReturnError (.custom c!"In routes starting here")
              (tRoutesWith cfg (tNestedRoutes cfg f (l + 1)) (l + 1))) fun routes =>
              tPure (NestedRoutes.mk seg routes)).cost r2 = _ := bind_pure_run.2
          rw [hc, h7]
          have hR := hroutes r2
          unfold BlockBound at hR
          cases e3 : (tRoutesWith cfg (tNestedRoutes cfg f (l + 1)) (l + 1)).run r2 with
          | error c => rw [e3] at hR; exact hR.elim
          | failure c =>
            rw [e3] at hR
            obtain ⟨c', h10⟩ := h9 c (.inr e3)
            rw [(bind_run_failure h10).1]
            simp only at hb hl hR ⊢
            omega
          | ok r3 x =>
            rw [e3] at hR
            rw [(bind_run_ok (h8 _ _ e3)).1]
            simp only at hb hl hR ⊢
            change _ + 100 * r3.length ≤ _ ∨ _ ∧ TooDeep (l + 1) r3
            rcases hR with hR | ⟨hR, h10⟩
            · left; omega
            · right; exact ⟨by omega, h10⟩
    refine ⟨?_, ?_, ?_, ?_⟩
    · intro i r a h
      rcases key i with ⟨e, h1, _⟩ | ⟨h1, h2⟩
      · rw [h1] at h; cases h
      · rw [h] at h2; exact ⟨h2, h1⟩
    · intro i c h
      rcases key i with ⟨e, _, h1⟩ | ⟨h1, h2⟩
      · exact .inl h1
      · rw [h] at h2; exact .inr ⟨h2, h1⟩
    · intro i c h
      rcases key i with ⟨e, h1, _⟩ | ⟨h1, h2⟩
      · rw [h1] at h; cases h
      · rw [h] at h2; exact ⟨h2, h1⟩
    · intro i h; exact nested_refuses cfg (f + 1) l (.inl h)

end Wayfinder
