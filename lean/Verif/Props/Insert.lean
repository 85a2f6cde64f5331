import Verif.Proofs.Insert
import Verif.Props.Layout
import Verif.Props.Edit
import Verif.Tests.Check
/-!
# C79: lines that are inserted into a route file
-/

namespace Wayfinder

variable (cfg : ParseCfg)

/-- The level of a spot. -/
def Spot.level : Spot → Nat
  | .fresh k => k
  | .filled k => k

theorem accepts_level {base : Nat} {s : Spot} {a b : List (Nat × RouteLine)} (h : s.accepts base (a ++ b)) :
    ∃ s' : Spot, s'.accepts base b ∧ s'.level = blockLevel s.level a := by
  induction a generalizing s with
  | nil => exact ⟨s, h, rfl⟩
  | cons l a ih =>
    rw [List.cons_append, accepts_cons] at h
    obtain ⟨s1, h1, h2⟩ := h
    obtain ⟨s', g1, g2⟩ := ih h2
    refine ⟨s', g1, g2.trans ?_⟩
    obtain ⟨j, l⟩ := l
    cases s <;> cases l <;> simp only [Spot.next] at h1 <;> split at h1 <;> simp at h1 <;> subst h1 <;> simp [blockLevel, Spot.level]
    rename_i hj
    rw [hj]

theorem file_of_lines {c : RouteConfig} {e h e' t : Str} (he : Eols e) (hh : HeaderLines c.headers h) (he' : Eols e') (hne : e' ≠ [])
    (ht : LinesText cfg (c.routes.lines 1) t) (hf : c.routes.Full) : routeConfig cfg (e ++ h ++ c!"/" ++ e' ++ t) = .ok [] c :=
  config_accepted cfg (.mk he hh he' hne ((block_lines _ _ _).2 ⟨hf, ht⟩))

theorem full_of {r : Routes} {k : Nat} (h : (Spot.fresh k).accepts k (r.lines k)) : r.Full := by
  obtain ⟨r', h1, h2⟩ := accepts_iff.1 h
  exact lines_inj h2 ▸ h1

theorem fullAll_iff {ns : List NestedRoutes} : FullAll ns ↔ ∀ n ∈ ns, n.Full := by
  induction ns with
  | nil => simp [FullAll]
  | cons n ns ih => simp [FullAll, ih]

theorem Edited.full {r r' old new : Routes} {segs : List PathSegment} (h : Edited r segs old new r') (hn : old.Full → new.Full)
    (hf : r.Full) : r'.Full := by
  induction h with
  | here => exact hn hf
  | @child rs before after qs seg sub sub' old new segs _ ih =>
    simp only [Routes.Full, fullAll_iff, List.mem_append, List.mem_cons] at hf ⊢
    refine ⟨.inr (by simp), fun n hm => ?_⟩
    rcases hm with hm | rfl | hm
    · exact hf.2 n (.inl hm)
    · rw [NestedRoutes.Full]
      have := hf.2 _ (.inr (.inl rfl))
      rw [NestedRoutes.Full] at this
      exact ih hn this
    · exact hf.2 n (.inr (.inr hm))

theorem Edited.hasRoute {r r' old new : Routes} {segs : List PathSegment} (h : Edited r segs old new r') :
    ∃ above, HasRoute r segs above old := by
  induction h with
  | here => exact ⟨_, .here _⟩
  | @child rs before after qs seg sub sub' old new segs _ ih =>
    obtain ⟨above, h⟩ := ih
    exact ⟨_, .child (r := .mk rs (before ++ .mk seg sub :: after) qs) (by simp [Routes.routes]) h⟩

/-- **C79, a child.** The lines of a child are inserted into an accepted file, at a level that is open there, before a segment that is not
deeper or at the end. Then the file is accepted, and its configuration is the old one with the child added to the block of its level that is
open there. -/
theorem C79_child {c : RouteConfig} {e h e' t1 x t2 : Str} (he : Eols e) (hh : HeaderLines c.headers h) (he' : Eols e') (hne : e' ≠ [])
    {a b : List (Nat × RouteLine)} (hl : c.routes.lines 1 = a ++ b) (h1 : LinesText cfg a t1) (h2 : LinesText cfg b t2)
    (hc : ∃ rest, routeConfig cfg (e ++ h ++ c!"/" ++ e' ++ (t1 ++ t2)) = .ok rest c) {n : NestedRoutes} {k : Nat}
    (hx : LinesText cfg (n.lines k) x) (hn : (Spot.fresh (k + 1)).accepts (k + 1) (n.routes.lines (k + 1)))
    (hk : 1 ≤ k) (hk' : k ≤ blockLevel 1 a) (hb : SegmentNext k b) : ∃ old new r',
      routeConfig cfg (e ++ h ++ c!"/" ++ e' ++ (t1 ++ x ++ t2)) = .ok [] ⟨c.headers, r'⟩ ∧
      Edited c.routes (routeBehind k a) old new r' ∧ AddsChild n old new := by
  obtain ⟨_, hc⟩ := hc
  have hf : c.routes.Full := full_of ((C66_lines cfg _ c).1 ⟨_, hc⟩).choose_spec.choose_spec.choose_spec.choose_spec.2.2.2.2.2.2
  obtain ⟨segs, old, new, r', g1, g2, g3, g4⟩ := insert_child n c.routes 1 a b [] (by simp) hl hb hk hk'
  simp only [List.map_nil, List.nil_append] at g4
  refine ⟨old, new, r', ?_, by rw [routeBehind, g4]; exact g1, g2⟩
  refine file_of_lines cfg (c := ⟨c.headers, r'⟩) he hh he' hne (by rw [g3]; exact (h1.append hx).append h2) (g1.full (fun ho => ?_) hf)
  obtain ⟨rs, before, after, qs⟩ := g2
  have hn := full_of hn
  obtain ⟨s, sub⟩ := n
  simp only [Routes.Full, fullAll_iff, List.mem_append, List.mem_cons] at ho ⊢
  refine ⟨.inr (by simp), fun n hm => ?_⟩
  rcases hm with hm | rfl | hm
  · exact ho.2 n (.inl hm)
  · exact hn
  · exact ho.2 n (.inr hm)

/-- **C79, a resource.** The same for a resource of the level of the block that is open, before a resource of this level, before a segment
or at the end. -/
theorem C79_resource {c : RouteConfig} {e h e' t1 x t2 : Str} (he : Eols e) (hh : HeaderLines c.headers h) (he' : Eols e') (hne : e' ≠ [])
    {a b : List (Nat × RouteLine)} (hl : c.routes.lines 1 = a ++ b) (h1 : LinesText cfg a t1) (h2 : LinesText cfg b t2)
    (hc : ∃ rest, routeConfig cfg (e ++ h ++ c!"/" ++ e' ++ (t1 ++ t2)) = .ok rest c) {res : Resource} {k : Nat}
    (hx : LinesText cfg (res.lines k) x) (hk : k = blockLevel 1 a) (hb : ResourceNext k b) : ∃ old new r',
      routeConfig cfg (e ++ h ++ c!"/" ++ e' ++ (t1 ++ x ++ t2)) = .ok [] ⟨c.headers, r'⟩ ∧
      Edited c.routes (routeBehind k a) old new r' ∧ AddsResource res old new := by
  obtain ⟨_, hc⟩ := hc
  have hf : c.routes.Full := full_of ((C66_lines cfg _ c).1 ⟨_, hc⟩).choose_spec.choose_spec.choose_spec.choose_spec.2.2.2.2.2.2
  have hk1 : 1 ≤ k := by
    rw [hk]
    exact blockLevel_ge (k := 0) (fun _ _ => Nat.zero_le _) (Nat.le_refl 1)
  obtain ⟨segs, old, new, r', g1, g2, g3, g4⟩ := insert_resource res c.routes 1 a b [] (by simp) hl hb hk1 hk
  simp only [List.map_nil, List.nil_append] at g4
  refine ⟨old, new, r', ?_, by rw [routeBehind, g4]; exact g1, g2⟩
  refine file_of_lines cfg (c := ⟨c.headers, r'⟩) he hh he' hne (by rw [g3]; exact (h1.append hx).append h2) (g1.full (fun ho => ?_) hf)
  obtain ⟨before, after, ns, qs⟩ := g2
  simp only [Routes.Full] at ho ⊢
  exact ⟨.inl (by simp), ho.2⟩

/-- **C79, the conditions.** If the lines with a child inserted are in order, and the next line is not deeper than the child, then the
level is open and the next line is a segment. -/
theorem C79_child_needed {a b : List (Nat × RouteLine)} {n : NestedRoutes} {k : Nat} (hn : (Spot.fresh (k + 1)).accepts (k + 1) (n.routes.lines (k + 1)))
    (h : (Spot.fresh 1).accepts 1 (a ++ n.lines k ++ b)) (hb : ∀ j l more, b = (j, l) :: more → j ≤ k) :
    1 ≤ k ∧ k ≤ blockLevel 1 a ∧ SegmentNext k b := by
  obtain ⟨s, sub⟩ := n
  have hn := full_of hn
  simp only [NestedRoutes.routes] at hn
  rw [List.append_assoc] at h
  obtain ⟨s1, h1, h2⟩ := accepts_level h
  have h0 : 1 ≤ blockLevel 1 a := blockLevel_ge (k := 0) (fun _ _ => Nat.zero_le _) (Nat.le_refl 1)
  simp only [Spot.level] at h2
  rw [NestedRoutes.lines, List.cons_append, accepts_cons] at h1
  obtain ⟨s2, h3, h4⟩ := h1
  have h5 : 1 ≤ k ∧ k ≤ blockLevel 1 a ∧ s2 = .fresh (k + 1) := by
    cases s1 <;> simp only [Spot.next] at h3 <;> split at h3 <;> simp at h3 <;> subst h3 <;> simp only [Spot.level] at h2
    · rename_i hj
      subst hj
      exact ⟨by omega, by omega, rfl⟩
    · rename_i hj
      exact ⟨by omega, by omega, rfl⟩
  obtain ⟨h6, h7, rfl⟩ := h5
  refine ⟨h6, h7, ?_⟩
  obtain ⟨k', h8, h9⟩ := block_spot (base := 1) sub (k + 1) (by omega) hn
  rw [h9] at h4
  cases b with
  | nil => exact .inl rfl
  | cons y b =>
    obtain ⟨j, l⟩ := y
    have hj := hb j l b rfl
    obtain ⟨s3, h10, _⟩ := accepts_cons.1 h4
    cases l with
    | segment s => exact .inr ⟨j, s, b, rfl, hj⟩
    | query => simp only [Spot.next] at h10; split at h10 <;> simp at h10; omega
    | resource => simp only [Spot.next] at h10; split at h10 <;> simp at h10; omega

/-- The same for a resource, if the next line is no query parameter. -/
theorem C79_resource_needed {a b : List (Nat × RouteLine)} {x : Resource} {k : Nat}
    (h : (Spot.fresh 1).accepts 1 (a ++ x.lines k ++ b)) (hb : ∀ p more, b ≠ (k + 1, .query p) :: more) :
    k = blockLevel 1 a ∧ ResourceNext k b := by
  rw [List.append_assoc] at h
  obtain ⟨s1, h1, h2⟩ := accepts_level h
  simp only [Spot.level] at h2
  have hs : s1 = .fresh k ∨ s1 = .filled k := by
    rw [Resource.lines, List.cons_append, accepts_cons] at h1
    obtain ⟨s2, h3, _⟩ := h1
    cases s1 <;> simp only [Spot.next] at h3 <;> split at h3 <;> simp at h3 <;> rename_i hj <;> subst hj
    · exact .inl rfl
    · exact .inr rfl
  rw [resource_spot s1 hs] at h1
  refine ⟨by rcases hs with rfl | rfl <;> exact h2, ?_⟩
  cases b with
  | nil => exact .inl (.inl rfl)
  | cons y b =>
    obtain ⟨j, l⟩ := y
    obtain ⟨s3, h10, _⟩ := accepts_cons.1 h1
    cases l with
    | segment s =>
      simp only [Spot.next] at h10
      split at h10 <;> simp at h10
      rename_i hj
      exact .inl (.inr ⟨j, s, b, rfl, hj.2⟩)
    | query p =>
      simp only [Spot.next] at h10
      split at h10 <;> simp at h10
      rename_i hj
      subst hj
      exact absurd rfl (hb p b)
    | resource =>
      simp only [Spot.next] at h10
      split at h10 <;> simp at h10
      rename_i hj
      subst hj
      exact .inr ⟨_, _, _, _, b, rfl⟩

/-- **C79, what changes.** A line for a verb is inserted into a file, where its block had resources but none for the verb. Exactly the
requests with this verb that end at the block change their answer. -/
theorem C79_effect {W : World} {c : RouteConfig} {e h e' t1 x t2 : Str} (he : Eols e) (hh : HeaderLines c.headers h) (he' : Eols e') (hne : e' ≠ [])
    {a b : List (Nat × RouteLine)} (hl : c.routes.lines 1 = a ++ b) (h1 : LinesText cfg a t1) (h2 : LinesText cfg b t2)
    (hc : ∃ rest, routeConfig cfg (e ++ h ++ c!"/" ++ e' ++ (t1 ++ t2)) = .ok rest c) {res : Resource} {k : Nat}
    (hx : LinesText cfg (res.lines k) x) (hk : k = blockLevel 1 a) (hb : ResourceNext k b)
    {c' : RouteConfig} (hc' : ∃ rest, routeConfig cfg (e ++ h ++ c!"/" ++ e' ++ (t1 ++ x ++ t2)) = .ok rest c') {body body' : List Stmt}
    (h : Supported c.routes body) (hp : PlainTexts c.routes) (h' : Supported c'.routes body') (hp' : PlainTexts c'.routes)
    (hv : ∀ node above, HasRoute c.routes (routeBehind k a) above node → node.resources ≠ [] ∧ ∀ o ∈ node.resources, o.method ≠ res.method)
    (path m : Bytes) :
    (callMatchRoute W body' path m = callMatchRoute W body path m ∨ callMatchRoute W body path m = .notAllowed) ∧
    (callMatchRoute W body' path m ≠ callMatchRoute W body path m ↔ m = verbBytes res.method ∧ ∃ above caps node rest,
      ComesBy W c.routes (routeBehind k a) above caps path node rest ∧ Finished rest) := by
  obtain ⟨old, new, r', g1, g2, g3⟩ := C79_resource cfg he hh he' hne hl h1 h2 hc hx hk hb
  obtain ⟨rest', hc'⟩ := hc'
  rw [g1] at hc'
  cases hc'
  obtain ⟨above, hr⟩ := g2.hasRoute
  obtain ⟨v1, v2⟩ := hv old above hr
  obtain ⟨k1, k2⟩ := C58_verb g2 g3 v2 v1 h hp h' hp' path m
  by_cases hq : m = verbBytes res.method ∧ ∃ above caps node rest,
      ComesBy W c.routes (routeBehind k a) above caps path node rest ∧ Finished rest
  · obtain ⟨hm, above, caps, node, rest, q1, q2⟩ := hq
    obtain ⟨q3, q4⟩ := k1 above caps node rest q1 q2 hm
    refine ⟨.inr q3, fun _ => ⟨hm, above, caps, node, rest, q1, q2⟩, fun _ e => ?_⟩
    rw [e, q3, Outcome.isMatch] at q4
    split at q4 <;> cases q4
  · have e := k2 fun above caps node rest q1 q2 hm => hq ⟨hm, above, caps, node, rest, q1, q2⟩
    exact ⟨.inl e, fun hd => absurd e hd, fun q => absurd q hq⟩

/-! ### Examples -/

/-- A short file: `people` has a block with two resources, then comes `old`. -/
def Demo.lined : Routes :=
  .mk [] [.mk (.static c!"people") (.mk [Demo.res .get c!"x" c!"A", Demo.res .put c!"x" c!"B"] [] []),
    .mk (.static c!"old") (.mk [Demo.res .get c!"x" c!"C"] [] [])] []

/-- Behind the block of `people` a child of it can be inserted, and a child of the root; a resource can be inserted at three places in the
block. The routes are those of the blocks. -/
example : let ls := Demo.lined.lines 1
    (Spot.fresh 1).accepts 1 ls ∧ blockLevel 1 (ls.take 3) = 2 ∧ SegmentNext 1 (ls.drop 3) ∧ SegmentNext 2 (ls.drop 3) ∧
    routeBehind 1 (ls.take 3) = [] ∧ routeBehind 2 (ls.take 3) = [.static c!"people"] ∧
    (∀ i ∈ [1, 2, 3], blockLevel 1 (ls.take i) = 2 ∧ ResourceNext 2 (ls.drop i) ∧ routeBehind 2 (ls.take i) = [.static c!"people"]) := by
  refine ⟨accepts_iff.2 ⟨_, ?_, rfl⟩, rfl, .inr ⟨_, _, _, rfl, by decide⟩, .inr ⟨_, _, _, rfl, by decide⟩, rfl, rfl, fun i hi => ?_⟩
  · simp [Demo.lined, Routes.Full, FullAll, NestedRoutes.Full]
  · simp only [List.mem_cons, List.not_mem_nil, or_false] at hi
    rcases hi with rfl | rfl | rfl
    · exact ⟨rfl, .inr ⟨_, _, _, _, _, rfl⟩, rfl⟩
    · exact ⟨rfl, .inr ⟨_, _, _, _, _, rfl⟩, rfl⟩
    · exact ⟨rfl, .inl (.inr ⟨_, _, _, rfl, by decide⟩), rfl⟩

/-- **C79, in the middle of a block.** The conditions on the next line are needed: a child that is inserted between two resources takes the
second one away, and a resource that is inserted before a query parameter takes this one away; the files are accepted. -/
theorem C79_middle_false :
    (∃ r r' : Routes, (∃ rest, routeConfig cfg c!"/\n  a\n    GET A\n    PUT B\n" = .ok rest ⟨[], r⟩) ∧
      (∃ rest, routeConfig cfg c!"/\n  a\n    GET A\n  b\n    GET C\n    PUT B\n" = .ok rest ⟨[], r'⟩) ∧
      Declares r [.static c!"a"] [] ⟨.put, [], c!"B", false, []⟩ ∧ Declares r' [.static c!"b"] [] ⟨.put, [], c!"B", false, []⟩ ∧
      ¬ Declares r' [.static c!"a"] [] ⟨.put, [], c!"B", false, []⟩) ∧
    ∃ r r' : Routes, (∃ rest, routeConfig cfg c!"/\n  GET A\n    [p: T]\n" = .ok rest ⟨[], r⟩) ∧
      (∃ rest, routeConfig cfg c!"/\n  GET A\n  PUT B\n    [p: T]\n" = .ok rest ⟨[], r'⟩) ∧
      r = .mk [⟨.get, [], c!"A", false, [⟨c!"p", c!"T"⟩]⟩] [] [] ∧
      r' = .mk [⟨.get, [], c!"A", false, []⟩, ⟨.put, [], c!"B", false, [⟨c!"p", c!"T"⟩]⟩] [] [] := by
  obtain ⟨u, alt, early⟩ := cfg
  refine ⟨⟨.mk [] [.mk (.static c!"a") (.mk [⟨.get, [], c!"A", false, []⟩, ⟨.put, [], c!"B", false, []⟩] [] [])] [],
    .mk [] [.mk (.static c!"a") (.mk [⟨.get, [], c!"A", false, []⟩] [] []),
      .mk (.static c!"b") (.mk [⟨.get, [], c!"C", false, []⟩, ⟨.put, [], c!"B", false, []⟩] [] [])] [],
    ⟨[], by cases early <;> rfl⟩, ⟨[], by cases early <;> rfl⟩, Rust.mem_declared.1 (by decide), Rust.mem_declared.1 (by decide),
    fun h => absurd (Rust.mem_declared.2 h) (by decide)⟩,
    _, _, ⟨[], by cases early <;> rfl⟩, ⟨[], by cases early <;> rfl⟩, rfl, rfl⟩

end Wayfinder
