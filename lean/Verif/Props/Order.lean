import Verif.Spec.Order
import Verif.Proofs.Refine
import Verif.Tests.Demo
/-!
# C18: the order of sibling routes is irrelevant
-/

namespace Wayfinder

/-- Well-formed tries with the same elements are equal. -/
theorem Trie.ext_get {K V : Type} [DecidableEq K] {cmp : K → K → Ordering} (hcmp : OrderCmp cmp) :
    ∀ (n : Nat) (t t' : Trie K V), t.depth ≤ n → t.WF cmp → t'.WF cmp →
      (∀ ks, t.get ks = t'.get ks) → t = t'
  | 0, t, _, h, _, _, _ => by have := t.depth_pos; omega
  | n + 1, t, t', hn, hw, hw', hg => by
    have hd : t.data = t'.data := by simpa [Trie.get] using hg []
    have hkid : ∀ {t t' c : Trie K V} {k : K}, t.WF cmp → (∀ ks, t.get ks = t'.get ks) →
        t.child k = some c → ∃ c', t'.child k = some c' ∧ ∀ ks, c.get ks = c'.get ks := by
      intro t t' c k hw hg hc
      obtain ⟨ks, v, hv⟩ := hw.live_child hc
      have h1 := hg (k :: ks)
      rw [Trie.get_cons, hc, Trie.get_cons] at h1
      cases hc' : t'.child k with
      | none => rw [hc'] at h1; simp [hv] at h1
      | some c' =>
        refine ⟨c', rfl, fun ks => ?_⟩
        have := hg (k :: ks)
        rwa [Trie.get_cons, hc, Trie.get_cons, hc'] at this
    have hch : ∀ k, assoc k t.children = assoc k t'.children := by
      intro k
      change t.child k = t'.child k
      cases hc : t.child k with
      | none =>
        cases hc' : t'.child k with
        | none => rfl
        | some c' =>
          obtain ⟨c, h, _⟩ := hkid hw' (fun ks => (hg ks).symm) hc'
          rw [hc] at h; cases h
      | some c =>
        obtain ⟨c', hc', hcg⟩ := hkid hw hg hc
        rw [hc']
        have := Trie.depth_lt_of_child hc
        rw [Trie.ext_get hcmp n c c' (by omega) (hw.of_child hc) (hw'.of_child hc') hcg]
    have := sortedKeys_ext hcmp hw.sorted_children hw'.sorted_children hch
    obtain ⟨d, cs⟩ := t
    obtain ⟨d', cs'⟩ := t'
    have hd' : d = d' := hd
    have hcs : cs = cs' := this
    rw [hd', hcs]

/-- The trie does not depend on the order in which elements are added. -/
theorem addAll_perm {l l' : List FlattenedRoute} (h : l.Perm l') :
    addAll Trie.new l = addAll Trie.new l' := by
  obtain ⟨h1, h2⟩ := addAll_spec l Trie.new Trie.wf_new
  obtain ⟨h1', h2'⟩ := addAll_spec l' Trie.new Trie.wf_new
  have hiff : (∃ t, addAll Trie.new l = some t) ↔ ∃ t, addAll Trie.new l' = some t := by
    rw [h1, h1']
    have := (h.map fun v : FlattenedRoute => charlikes v.path).nodup_iff
    rw [this]
    simp [Trie.get_new]
  cases ht : addAll Trie.new l with
  | none =>
    cases ht' : addAll Trie.new l' with
    | none => rfl
    | some t' =>
      obtain ⟨t, h⟩ := hiff.2 ⟨t', ht'⟩
      rw [ht] at h; cases h
  | some t =>
    obtain ⟨t', ht'⟩ := hiff.1 ⟨t, ht⟩
    obtain ⟨hw, hg⟩ := h2 t ht
    obtain ⟨hw', hg'⟩ := h2' t' ht'
    rw [ht']
    congr 1
    refine Trie.ext_get Charlike.orderCmp t.depth t t' (Nat.le_refl _) hw hw' fun ks => ?_
    apply Option.ext
    intro v
    rw [hg, hg']
    simp only [h.mem_iff]

theorem reordered_flatten {r r' : Routes} (h : Reordered r r') : ∀ (path : List PathSegment)
    (q : List Param), (flattenRoutes r path q).Perm (flattenRoutes r' path q) := by
  induction h with
  | refl => intro path q; exact .refl _
  | trans _ _ ih1 ih2 => intro path q; exact (ih1 path q).trans (ih2 path q)
  | swap rs pre a b post qs =>
    intro path q
    rw [flattenRoutes_mk, flattenRoutes_mk]
    refine .cons _ (List.Perm.flatMap_right _ ?_)
    exact .append_left _ (.swap b a post)
  | inner rs pre seg post qs _ ih =>
    intro path q
    rw [flattenRoutes_mk, flattenRoutes_mk]
    refine .cons _ ?_
    rw [List.flatMap_append, List.flatMap_append, List.flatMap_cons, List.flatMap_cons]
    exact .append_left _ (.append_right _ (ih _ _))

/-- Any permutation of the children is a reordering. -/
theorem Reordered.of_perm {rs : List Resource} {ns ns' : List NestedRoutes} {qs : List Param}
    (h : ns.Perm ns') : Reordered (.mk rs ns qs) (.mk rs ns' qs) := by
  suffices ∀ (pre : List NestedRoutes), Reordered (.mk rs (pre ++ ns) qs) (.mk rs (pre ++ ns') qs) by
    simpa using this []
  induction h with
  | nil => intro pre; exact .refl _
  | cons a _ ih => intro pre; simpa using ih (pre ++ [a])
  | swap a b l => intro pre; exact .swap rs pre b a l qs
  | trans _ _ ih1 ih2 => intro pre; exact .trans (ih1 pre) (ih2 pre)

/-- **C18.** Reordering siblings at any levels leaves the generated `match_route` unchanged: the same
program and the same text, or the same failure. -/
theorem C18_order {r r' : Routes} (h : Reordered r r') :
    matcherBody r = matcherBody r' ∧ matcherText r = matcherText r' := by
  have : matcherBody r = matcherBody r' := by
    simp only [matcherBody, toTrie, addAll_perm (reordered_flatten h [] [])]
  exact ⟨this, by simp only [matcherText, this]⟩

/-- The people application with its siblings in another order at two levels. -/
example : ∃ r', Reordered Demo.people r' ∧ r'.routes.map NestedRoutes.pathSegment =
      [.static c!"old", .static c!"people"] ∧
    (matcherBody r').toOption.isSome = true ∧
    (r'.routes.flatMap fun n => n.routes.routes.map NestedRoutes.pathSegment) =
      [.static c!"new", .dynamic ⟨c!"id", c!"u32"⟩] :=
  ⟨_, .trans (.inner _ [] _ _ _ (.swap _ [] _ _ [] _)) (.swap _ [] _ _ [] _), rfl, by decide +kernel, rfl⟩

end Wayfinder
