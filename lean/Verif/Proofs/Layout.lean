import Verif.Spec.Layout
import Verif.Spec.Config
/-!
# Texts, trees and sequences of lines
-/

namespace Wayfinder

variable {cfg : ParseCfg}

mutual
/-- Every block has a resource or a child. -/
def Routes.Full : Routes → Prop
  | .mk rs ns _ => (rs ≠ [] ∨ ns ≠ []) ∧ FullAll ns
/-- So have the blocks of all children. -/
def FullAll : List NestedRoutes → Prop
  | [] => True
  | n :: ns => n.Full ∧ FullAll ns
/-- So has the block of a child. -/
def NestedRoutes.Full : NestedRoutes → Prop
  | .mk _ r => r.Full
end

/-! ## Texts -/

theorem LinesText.append {a b : List (Nat × RouteLine)} {t u : Str} (h : LinesText cfg a t) (h' : LinesText cfg b u) :
    LinesText cfg (a ++ b) (t ++ u) := by
  induction h with
  | nil => exact h'
  | cons h1 h2 h3 _ ih =>
    rw [List.append_assoc]
    exact .cons h1 h2 h3 ih

theorem LinesText.split {a b : List (Nat × RouteLine)} {t : Str} (h : LinesText cfg (a ++ b) t) :
    ∃ u v, t = u ++ v ∧ LinesText cfg a u ∧ LinesText cfg b v := by
  induction a generalizing t with
  | nil => exact ⟨[], t, rfl, .nil, h⟩
  | cons l a ih =>
    cases h with
    | cons h1 h2 h3 h4 =>
      obtain ⟨u, v, rfl, h5, h6⟩ := ih h4
      exact ⟨_, v, by simp, .cons h1 h2 h3 h5, h6⟩

theorem query_lines {level : Nat} {qs : List Param} {t : Str} :
    QueryLines cfg level qs t ↔ LinesText cfg (qs.map fun p => (level, .query p)) t := by
  induction qs generalizing t with
  | nil =>
    constructor
    · intro h; cases h; exact .nil
    · intro h; cases h; exact .nil
  | cons q qs ih =>
    constructor
    · intro h
      cases h with
      | cons h1 h2 h3 h4 => exact .cons (.query h1) h2 h3 (ih.1 h4)
    · intro h
      cases h with
      | cons h1 h2 h3 h4 =>
        cases h1 with
        | query h1 => exact .cons h1 h2 h3 (ih.2 h4)

theorem resource_lines {level : Nat} {x : Resource} {t : Str} :
    ResourceText cfg level x t ↔ LinesText cfg (x.lines level) t := by
  constructor
  · rintro ⟨h1, h2, h3, h4, h5, h6⟩
    exact .cons (.resource h1 h2 h3) h4 h5 (query_lines.1 h6)
  · intro h
    unfold Resource.lines at h
    cases h with
    | cons h1 h2 h3 h4 =>
      cases h1 with
      | resource h5 h6 h7 => exact .mk h5 h6 h7 h2 h3 (query_lines.2 h4)

theorem resources_lines {level : Nat} {xs : List Resource} {t : Str} :
    ResourceTexts cfg level xs t ↔ LinesText cfg (xs.flatMap (Resource.lines level)) t := by
  induction xs generalizing t with
  | nil =>
    constructor
    · intro h; cases h; exact .nil
    · intro h; cases h; exact .nil
  | cons x xs ih =>
    rw [List.flatMap_cons]
    constructor
    · intro h
      cases h with
      | cons h1 h2 => exact (resource_lines.1 h1).append (ih.1 h2)
    · intro h
      obtain ⟨u, v, rfl, h1, h2⟩ := h.split
      exact .cons (resource_lines.2 h1) (ih.2 h2)

mutual
theorem block_lines : ∀ (r : Routes) (level : Nat) (t : Str), BlockText cfg level r t ↔ r.Full ∧ LinesText cfg (r.lines level) t
  | .mk rs ns qs, level, t => by
    rw [Routes.lines, Routes.Full]
    constructor
    · rintro ⟨h1, h2, h3, h4⟩
      obtain ⟨h5, h6⟩ := (children_lines ns level _).1 h3
      exact ⟨⟨h4, h5⟩, ((query_lines.1 h1).append (resources_lines.1 h2)).append h6⟩
    · rintro ⟨⟨h4, h5⟩, h⟩
      obtain ⟨u, v, rfl, h, h3⟩ := h.split
      obtain ⟨u, w, rfl, h1, h2⟩ := h.split
      exact .mk (query_lines.2 h1) (resources_lines.2 h2) ((children_lines ns level _).2 ⟨h5, h3⟩) h4
theorem children_lines : ∀ (ns : List NestedRoutes) (level : Nat) (t : Str),
    ChildTexts cfg level ns t ↔ FullAll ns ∧ LinesText cfg (childLines ns level) t
  | [], level, t => by
    rw [childLines, FullAll]
    constructor
    · intro h; cases h; exact ⟨trivial, .nil⟩
    · rintro ⟨_, h⟩; cases h; exact .nil
  | .mk s r :: ns, level, t => by
    rw [childLines, FullAll, NestedRoutes.lines, NestedRoutes.Full]
    constructor
    · intro h
      cases h with
      | cons h1 h2 h3 h4 h5 =>
        obtain ⟨h6, h7⟩ := (block_lines r (level + 1) _).1 h4
        obtain ⟨h8, h9⟩ := (children_lines ns level _).1 h5
        refine ⟨⟨h6, h8⟩, ?_⟩
        exact (LinesText.cons (.segment h1) h2 h3 h7).append h9
    · rintro ⟨⟨h6, h8⟩, h⟩
      obtain ⟨u, v, rfl, h, h9⟩ := h.split
      cases h with
      | cons h1 h2 h3 h7 =>
        cases h1 with
        | segment h1 => exact .cons h1 h2 h3 ((block_lines r (level + 1) _).2 ⟨h6, h7⟩) ((children_lines ns level _).2 ⟨h8, h9⟩)
end

/-! ## Trees -/

theorem accepts_cons {base : Nat} {s : Spot} {l : Nat × RouteLine} {ls : List (Nat × RouteLine)} :
    s.accepts base (l :: ls) ↔ ∃ s', s.next base l = some s' ∧ s'.accepts base ls := by
  cases s <;> exact .rfl

/-- The lines of a tree can be read. -/
theorem fresh_queries {base k : Nat} (qs : List Param) (rest : List (Nat × RouteLine)) :
    (Spot.fresh k).accepts base (qs.map (fun p => (k, .query p)) ++ rest) ↔ (Spot.fresh k).accepts base rest := by
  induction qs with
  | nil => exact .rfl
  | cons q qs ih =>
    rw [List.map_cons, List.cons_append, accepts_cons]
    simp [Spot.next, ih]

theorem filled_queries {base k : Nat} (qs : List Param) (rest : List (Nat × RouteLine)) :
    (Spot.filled k).accepts base (qs.map (fun p => (k + 1, .query p)) ++ rest) ↔ (Spot.filled k).accepts base rest := by
  induction qs with
  | nil => exact .rfl
  | cons q qs ih =>
    rw [List.map_cons, List.cons_append, accepts_cons]
    simp [Spot.next, ih]

theorem resource_spot {base k : Nat} (s : Spot) (hs : s = .fresh k ∨ s = .filled k) (x : Resource) (rest : List (Nat × RouteLine)) :
    s.accepts base (x.lines k ++ rest) ↔ (Spot.filled k).accepts base rest := by
  rw [Resource.lines, List.cons_append, accepts_cons]
  rcases hs with rfl | rfl <;> simp [Spot.next, filled_queries]

theorem filled_resources {base k : Nat} (xs : List Resource) (rest : List (Nat × RouteLine)) :
    (Spot.filled k).accepts base (xs.flatMap (Resource.lines k) ++ rest) ↔ (Spot.filled k).accepts base rest := by
  induction xs with
  | nil => exact .rfl
  | cons x xs ih => rw [List.flatMap_cons, List.append_assoc, resource_spot _ (.inr rfl), ih]

mutual
theorem block_spot {base : Nat} : ∀ (r : Routes) (k : Nat), base ≤ k → r.Full → ∃ k', k ≤ k' ∧
    ∀ rest, (Spot.fresh k).accepts base (r.lines k ++ rest) ↔ (Spot.filled k').accepts base rest
  | .mk rs ns qs, k, hb, hf => by
    rw [Routes.Full] at hf
    obtain ⟨hne, hall⟩ := hf
    rw [Routes.lines]
    simp only [List.append_assoc, fresh_queries]
    cases rs with
    | cons x xs =>
      simp only [List.flatMap_cons, List.append_assoc, resource_spot (.fresh k) (.inl rfl), filled_resources]
      exact childs_spot ns k k hb (Nat.le_refl k) hall
    | nil =>
      cases ns with
      | nil => simp at hne
      | cons n ns =>
        obtain ⟨s, r⟩ := n
        rw [FullAll, NestedRoutes.Full] at hall
        obtain ⟨k1, h1, h2⟩ := block_spot (base := base) r (k + 1) (by omega) hall.1
        obtain ⟨k2, h3, h4⟩ := childs_spot ns k k1 hb (by omega) hall.2
        refine ⟨k2, h3, fun rest => ?_⟩
        rw [childLines, NestedRoutes.lines]
        simp only [List.flatMap_nil, List.nil_append, List.cons_append, List.append_assoc]
        rw [accepts_cons]
        simp [Spot.next, h2, h4]
theorem childs_spot {base : Nat} : ∀ (ns : List NestedRoutes) (k k1 : Nat), base ≤ k → k ≤ k1 → FullAll ns → ∃ k', k ≤ k' ∧
    ∀ rest, (Spot.filled k1).accepts base (childLines ns k ++ rest) ↔ (Spot.filled k').accepts base rest
  | [], k, k1, _, hk, _ => ⟨k1, hk, fun rest => by rw [childLines]; exact .rfl⟩
  | .mk s r :: ns, k, k1, hb, hk, hall => by
    rw [FullAll, NestedRoutes.Full] at hall
    obtain ⟨k2, h1, h2⟩ := block_spot (base := base) r (k + 1) (by omega) hall.1
    obtain ⟨k3, h3, h4⟩ := childs_spot ns k k2 hb (by omega) hall.2
    refine ⟨k3, h3, fun rest => ?_⟩
    rw [childLines, NestedRoutes.lines, List.append_assoc, List.cons_append, accepts_cons]
    simp [Spot.next, hb, hk, h2, h4]
end

/-- What is left behind a block of level `k`: nothing, or a line of an enclosing block. -/
def Left (base k : Nat) (rest : List (Nat × RouteLine)) : Prop :=
  rest = [] ∨ ∃ j s more, rest = (j, .segment s) :: more ∧ base ≤ j ∧ j < k ∧ (Spot.fresh (j + 1)).accepts base more

/-- What the reader has read, from either spot. -/
theorem spot_tree {base : Nat} : ∀ (n : Nat) (ls : List (Nat × RouteLine)), ls.length ≤ n → ∀ k, base ≤ k →
    ((Spot.fresh k).accepts base ls → ∃ (r : Routes) (rest : List (Nat × RouteLine)), r.Full ∧ ls = r.lines k ++ rest ∧ Left base k rest) ∧
    ((Spot.filled k).accepts base ls → ∃ (qs : List Param) (xs : List Resource) (ns : List NestedRoutes) (rest : List (Nat × RouteLine)), FullAll ns ∧
      ls = qs.map (fun p => (k + 1, .query p)) ++ xs.flatMap (Resource.lines k) ++ childLines ns k ++ rest ∧ Left base k rest)
  | n, [], _, k, hb => ⟨fun h => absurd h (by simp [Spot.accepts]), fun _ => ⟨[], [], [], [], trivial, by simp [childLines], .inl rfl⟩⟩
  | 0, _ :: _, hn, _, _ => by simp at hn
  | n + 1, (j, l) :: ls, hn, k, hb => by
    have hn' : ls.length ≤ n := by simpa using hn
    -- behind a segment of level `k`
    have kids : (Spot.fresh (k + 1)).accepts base ls → ∃ (r : Routes) (ns : List NestedRoutes) (rest : List (Nat × RouteLine)), r.Full ∧ FullAll ns ∧
        ls = r.lines (k + 1) ++ childLines ns k ++ rest ∧ Left base k rest := by
      intro h
      obtain ⟨r, rest, h1, h2, h3⟩ := (spot_tree n ls hn' (k + 1) (by omega)).1 h
      rcases h3 with rfl | ⟨j', s, more, rfl, h4, h5, h6⟩
      · exact ⟨r, [], [], h1, trivial, by simpa [childLines] using h2, .inl rfl⟩
      · by_cases hj : j' = k
        · subst hj
          have hlen : ((j', RouteLine.segment s) :: more).length ≤ n := by
            have := congrArg List.length h2
            simp only [List.length_append] at this
            omega
          obtain ⟨qs, xs, ns, rest, h7, h8, h9⟩ := (spot_tree n _ hlen j' hb).2
            (by rw [accepts_cons]; exact ⟨_, by simp [Spot.next, hb], h6⟩)
          have hq : qs = [] := by
            cases qs with
            | nil => rfl
            | cons q qs => simp at h8
          subst hq
          have hx : xs = [] := by
            cases xs with
            | nil => rfl
            | cons x xs => simp [Resource.lines] at h8
          subst hx
          refine ⟨r, ns, rest, h1, h7, ?_, h9⟩
          rw [h2, h8]
          simp
        · exact ⟨r, [], _, h1, trivial, by simpa [childLines] using h2, .inr ⟨j', s, more, rfl, h4, by omega, h6⟩⟩
    constructor
    · intro h
      obtain ⟨s', h1, h2⟩ := accepts_cons.1 h
      cases l with
      | query p =>
        simp only [Spot.next, Option.ite_none_right_eq_some, Option.some.injEq] at h1
        obtain ⟨rfl, rfl⟩ := h1
        obtain ⟨⟨rs, ns, qs⟩, rest, h3, h4, h5⟩ := (spot_tree n ls hn' j hb).1 h2
        refine ⟨.mk rs ns (p :: qs), rest, ?_, ?_, h5⟩
        · rw [Routes.Full] at h3 ⊢; exact h3
        · rw [h4]; simp [Routes.lines]
      | resource m b ms x =>
        simp only [Spot.next, Option.ite_none_right_eq_some, Option.some.injEq] at h1
        obtain ⟨rfl, rfl⟩ := h1
        obtain ⟨qs, xs, ns, rest, h3, h4, h5⟩ := (spot_tree n ls hn' j hb).2 h2
        refine ⟨.mk (⟨m, ms, x, b, qs⟩ :: xs) ns [], rest, ?_, ?_, h5⟩
        · rw [Routes.Full]; exact ⟨.inl (by simp), h3⟩
        · rw [h4]; simp [Routes.lines, Resource.lines]
      | segment s =>
        simp only [Spot.next, Option.ite_none_right_eq_some, Option.some.injEq] at h1
        obtain ⟨rfl, rfl⟩ := h1
        obtain ⟨r, ns, rest, h3, h4, h5, h6⟩ := kids h2
        refine ⟨.mk [] (.mk s r :: ns) [], rest, ?_, ?_, h6⟩
        · rw [Routes.Full, FullAll, NestedRoutes.Full]; exact ⟨.inr (by simp), h3, h4⟩
        · rw [h5]; simp [Routes.lines, childLines, NestedRoutes.lines]
    · intro h
      obtain ⟨s', h1, h2⟩ := accepts_cons.1 h
      cases l with
      | query p =>
        simp only [Spot.next, Option.ite_none_right_eq_some, Option.some.injEq] at h1
        obtain ⟨rfl, rfl⟩ := h1
        obtain ⟨qs, xs, ns, rest, h3, h4, h5⟩ := (spot_tree n ls hn' k hb).2 h2
        exact ⟨p :: qs, xs, ns, rest, h3, by rw [h4]; simp, h5⟩
      | resource m b ms x =>
        simp only [Spot.next, Option.ite_none_right_eq_some, Option.some.injEq] at h1
        obtain ⟨rfl, rfl⟩ := h1
        obtain ⟨qs, xs, ns, rest, h3, h4, h5⟩ := (spot_tree n ls hn' j hb).2 h2
        exact ⟨[], ⟨m, ms, x, b, qs⟩ :: xs, ns, rest, h3, by rw [h4]; simp [Resource.lines], h5⟩
      | segment s =>
        simp only [Spot.next, Option.ite_none_right_eq_some, Option.some.injEq] at h1
        obtain ⟨⟨hbj, hjk⟩, rfl⟩ := h1
        by_cases hj : j = k
        · subst hj
          obtain ⟨r, ns, rest, h3, h4, h5, h6⟩ := kids h2
          refine ⟨[], [], .mk s r :: ns, rest, ?_, ?_, h6⟩
          · rw [FullAll, NestedRoutes.Full]; exact ⟨h3, h4⟩
          · rw [h5]; simp [childLines, NestedRoutes.lines]
        · exact ⟨[], [], [], _, trivial, by simp [childLines], .inr ⟨j, s, ls, rfl, hbj, by omega, h2⟩⟩

/-- The machine accepts exactly the lines of trees. -/
theorem accepts_iff {k : Nat} {ls : List (Nat × RouteLine)} : (Spot.fresh k).accepts k ls ↔ ∃ r : Routes, r.Full ∧ ls = r.lines k := by
  constructor
  · intro h
    obtain ⟨r, rest, h1, h2, h3⟩ := (spot_tree _ ls (Nat.le_refl _) k (Nat.le_refl k)).1 h
    rcases h3 with rfl | ⟨j, s, more, rfl, h4, h5, h6⟩
    · exact ⟨r, h1, by simpa using h2⟩
    · omega
  · rintro ⟨r, h1, rfl⟩
    obtain ⟨k', -, h⟩ := block_spot (base := k) r k (Nat.le_refl k) h1
    have := (h []).2 (by simp [Spot.accepts])
    simpa using this

/-! ## The lines determine the tree -/

/-- Nothing, or a line of a lower level, or a segment of this level. -/
def Behind (k : Nat) (rest : List (Nat × RouteLine)) : Prop :=
  rest = [] ∨ ∃ j l more, rest = (j, l) :: more ∧ (j < k ∨ (j = k ∧ ∃ s, l = .segment s))

theorem queries_cancel {k : Nat} {qs qs' : List Param} {x y : List (Nat × RouteLine)} (hx : ∀ p more, x ≠ (k, .query p) :: more)
    (hy : ∀ p more, y ≠ (k, .query p) :: more) (h : qs.map (fun p => (k, RouteLine.query p)) ++ x = qs'.map (fun p => (k, .query p)) ++ y) :
    qs = qs' ∧ x = y := by
  induction qs generalizing qs' with
  | nil =>
    cases qs' with
    | nil => exact ⟨rfl, h⟩
    | cons q qs' => exact absurd h (hx _ _)
  | cons q qs ih =>
    cases qs' with
    | nil => exact absurd h.symm (hy _ _)
    | cons q' qs' =>
      simp only [List.map_cons, List.cons_append, List.cons.injEq, Prod.mk.injEq, RouteLine.query.injEq, true_and] at h
      obtain ⟨rfl, h1⟩ := h
      obtain ⟨rfl, h2⟩ := ih h1
      exact ⟨rfl, h2⟩

theorem resources_cancel {k : Nat} {rs rs' : List Resource} {x y : List (Nat × RouteLine)} (hx : Behind k x) (hy : Behind k y)
    (h : rs.flatMap (Resource.lines k) ++ x = rs'.flatMap (Resource.lines k) ++ y) : rs = rs' ∧ x = y := by
  have start : ∀ (r : Resource) (z more : List (Nat × RouteLine)), Behind k z → z ≠ r.lines k ++ more := by
    rintro r z more (rfl | ⟨j, l, m, rfl, hj | ⟨rfl, s, rfl⟩⟩) he
    · simp [Resource.lines] at he
    · simp only [Resource.lines, List.cons_append, List.cons.injEq, Prod.mk.injEq] at he; omega
    · simp [Resource.lines] at he
  have noquery : ∀ (l : List Resource) (z : List (Nat × RouteLine)), Behind k z → ∀ p more, l.flatMap (Resource.lines k) ++ z ≠ (k + 1, .query p) :: more := by
    intro l z hz p more he
    cases l with
    | nil =>
      rcases hz with rfl | ⟨j, l, m, rfl, hj | ⟨rfl, s, rfl⟩⟩
      · simp at he
      · simp at he; omega
      · simp at he
    | cons r l => simp [Resource.lines] at he
  induction rs generalizing rs' with
  | nil =>
    cases rs' with
    | nil => exact ⟨rfl, h⟩
    | cons r rs' => rw [List.flatMap_cons, List.append_assoc] at h; exact absurd h (start _ _ _ hx)
  | cons r rs ih =>
    cases rs' with
    | nil => rw [List.flatMap_cons, List.append_assoc] at h; exact absurd h.symm (start _ _ _ hy)
    | cons r' rs' =>
      obtain ⟨m, ms, nm, b, qs⟩ := r
      obtain ⟨m', ms', nm', b', qs'⟩ := r'
      simp only [List.flatMap_cons, List.append_assoc, Resource.lines, List.cons_append, List.cons.injEq, Prod.mk.injEq,
        RouteLine.resource.injEq, true_and] at h
      obtain ⟨⟨rfl, rfl, rfl, rfl⟩, h3⟩ := h
      obtain ⟨rfl, h4⟩ := queries_cancel (noquery rs x hx) (noquery rs' y hy) h3
      obtain ⟨rfl, h5⟩ := ih h4
      exact ⟨rfl, h5⟩

/-- Nothing, or a line of a lower level. -/
def Beneath (k : Nat) (rest : List (Nat × RouteLine)) : Prop := rest = [] ∨ ∃ j l more, rest = (j, l) :: more ∧ j < k

theorem beneath_children {k : Nat} {ns : List NestedRoutes} {x : List (Nat × RouteLine)} (hx : Beneath k x) :
    Behind k (childLines ns k ++ x) ∧ Beneath (k + 1) (childLines ns k ++ x) := by
  cases ns with
  | nil =>
    rw [childLines, List.nil_append]
    rcases hx with rfl | ⟨j, l, m, rfl, hj⟩
    · exact ⟨.inl rfl, .inl rfl⟩
    · exact ⟨.inr ⟨j, l, m, rfl, .inl hj⟩, .inr ⟨j, l, m, rfl, by omega⟩⟩
  | cons n ns =>
    obtain ⟨s, r⟩ := n
    rw [childLines, NestedRoutes.lines]
    exact ⟨.inr ⟨k, _, _, rfl, .inr ⟨rfl, s, rfl⟩⟩, .inr ⟨k, _, _, rfl, by omega⟩⟩

mutual
theorem block_cancel : ∀ (r r' : Routes) (k : Nat) (x y : List (Nat × RouteLine)), Beneath k x → Beneath k y →
    r.lines k ++ x = r'.lines k ++ y → r = r' ∧ x = y
  | .mk rs ns qs, .mk rs' ns' qs', k, x, y, hx, hy, h => by
    rw [Routes.lines, Routes.lines] at h
    simp only [List.append_assoc] at h
    have noquery : ∀ (l : List Resource) (z : List (Nat × RouteLine)), Behind k z → ∀ p more, l.flatMap (Resource.lines k) ++ z ≠ (k, .query p) :: more := by
      intro l z hz p more he
      cases l with
      | nil =>
        rcases hz with rfl | ⟨j, l, m, rfl, hj | ⟨rfl, s, rfl⟩⟩
        · simp at he
        · simp at he; omega
        · simp at he
      | cons r l => simp [Resource.lines] at he
    obtain ⟨rfl, h6⟩ := queries_cancel (noquery rs _ (beneath_children hx).1) (noquery rs' _ (beneath_children hy).1) h
    obtain ⟨rfl, h7⟩ := resources_cancel (beneath_children hx).1 (beneath_children hy).1 h6
    obtain ⟨rfl, h8⟩ := children_cancel ns ns' k x y hx hy h7
    exact ⟨rfl, h8⟩
theorem children_cancel : ∀ (ns ns' : List NestedRoutes) (k : Nat) (x y : List (Nat × RouteLine)), Beneath k x → Beneath k y →
    childLines ns k ++ x = childLines ns' k ++ y → ns = ns' ∧ x = y
  | [], [], _, _, _, _, _, h => ⟨rfl, by simpa [childLines] using h⟩
  | [], .mk s' r' :: ns', k, x, y, hx, hy, h => by
    rcases hx with rfl | ⟨j, l, m, rfl, hj⟩
    · simp [childLines, NestedRoutes.lines] at h
    · simp [childLines, NestedRoutes.lines] at h; omega
  | .mk s r :: ns, [], k, x, y, hx, hy, h => by
    rcases hy with rfl | ⟨j, l, m, rfl, hj⟩
    · simp [childLines, NestedRoutes.lines] at h
    · simp [childLines, NestedRoutes.lines] at h; omega
  | .mk s r :: ns, .mk s' r' :: ns', k, x, y, hx, hy, h => by
    simp only [childLines, NestedRoutes.lines, List.cons_append, List.append_assoc, List.cons.injEq, Prod.mk.injEq, RouteLine.segment.injEq,
      true_and] at h
    obtain ⟨rfl, h9⟩ := h
    obtain ⟨rfl, h10⟩ := block_cancel r r' (k + 1) _ _ (beneath_children hx).2 (beneath_children hy).2 h9
    obtain ⟨rfl, h11⟩ := children_cancel ns ns' k x y hx hy h10
    exact ⟨rfl, h11⟩
end

/-- Two trees with the same lines are the same. -/
theorem lines_inj {r r' : Routes} {k : Nat} (h : r.lines k = r'.lines k) : r = r' :=
  (block_cancel r r' k [] [] (.inl rfl) (.inl rfl) (by simpa using h)).1

end Wayfinder
