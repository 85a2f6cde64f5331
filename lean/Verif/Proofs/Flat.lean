import Verif.Model.Flat
import Verif.Proofs.Trie
import Verif.Spec.Config
/-!
# The route trie of a configuration
-/

namespace Wayfinder

/-! ## Orders -/

theorem Char.toNat_inj' {a b : Char} (h : a.toNat = b.toNat) : a = b := Char.toNat_inj.1 h

theorem Str.orderCmp : OrderCmp Str.cmp where
  eq_iff := by
    intro a
    induction a with
    | nil => intro b; cases b <;> simp [Str.cmp]
    | cons x xs ih =>
      intro b
      cases b with
      | nil => simp [Str.cmp]
      | cons y ys =>
        simp only [Str.cmp]
        by_cases h1 : x.toNat < y.toNat
        · simp only [h1, if_true]
          constructor
          · intro h; cases h
          · intro h; simp at h; rw [h.1] at h1; omega
        · by_cases h2 : y.toNat < x.toNat
          · simp only [h1, h2, if_true, if_false]
            constructor
            · intro h; cases h
            · intro h; simp at h; rw [h.1] at h2; omega
          · simp only [h1, h2, if_false]
            have : x = y := Char.toNat_inj' (by omega)
            subst this
            simp [ih ys]
  gt_iff := by
    intro a
    induction a with
    | nil => intro b; cases b <;> simp [Str.cmp]
    | cons x xs ih =>
      intro b
      cases b with
      | nil => simp [Str.cmp]
      | cons y ys =>
        simp only [Str.cmp]
        by_cases h1 : x.toNat < y.toNat
        · have h2 : ¬ y.toNat < x.toNat := by omega
          simp [h1, h2]
        · by_cases h2 : y.toNat < x.toNat
          · simp [h1, h2]
          · simp [h1, h2, ih ys]
  trans := by
    intro a
    induction a with
    | nil =>
      intro b c
      cases b <;> cases c <;> simp [Str.cmp]
    | cons x xs ih =>
      intro b c
      cases b with
      | nil => simp [Str.cmp]
      | cons y ys =>
        cases c with
        | nil => simp [Str.cmp]
        | cons z zs =>
          simp only [Str.cmp]
          intro hab hbc
          by_cases h1 : x.toNat < y.toNat
          · by_cases h2 : y.toNat < z.toNat
            · rw [if_pos (by omega)]
            · by_cases h3 : z.toNat < y.toNat
              · simp [h2, h3] at hbc
              · rw [if_pos (by omega)]
          · by_cases h1' : y.toNat < x.toNat
            · simp [h1, h1'] at hab
            · simp only [h1, h1', if_false] at hab
              by_cases h2 : y.toNat < z.toNat
              · rw [if_pos (by omega)]
              · by_cases h3 : z.toNat < y.toNat
                · simp [h2, h3] at hbc
                · simp only [h2, h3, if_false] at hbc
                  rw [if_neg (by omega), if_neg (by omega)]
                  exact ih _ _ hab hbc

theorem Charlike.orderCmp : OrderCmp Charlike.cmp where
  eq_iff := by
    intro a b
    cases a with
    | static x =>
      cases b with
      | static y =>
        simp only [Charlike.cmp]
        by_cases h1 : x.toNat < y.toNat
        · simp only [h1, if_true]
          constructor
          · intro h; cases h
          · intro h; simp at h; rw [h] at h1; omega
        · by_cases h2 : y.toNat < x.toNat
          · simp only [h1, h2, if_true, if_false]
            constructor
            · intro h; cases h
            · intro h; simp at h; rw [h] at h2; omega
          · simp only [h1, h2, if_false]
            have : x = y := Char.toNat_inj' (by omega)
            simp [this]
      | _ => simp [Charlike.cmp]
    | dynamic x =>
      cases b with
      | dynamic y => simp [Charlike.cmp, Str.orderCmp.eq_iff]
      | _ => simp [Charlike.cmp]
    | separator => cases b <;> simp [Charlike.cmp]
  gt_iff := by
    intro a b
    cases a with
    | static x =>
      cases b with
      | static y =>
        simp only [Charlike.cmp]
        by_cases h1 : x.toNat < y.toNat
        · have h2 : ¬ y.toNat < x.toNat := by omega
          simp [h1, h2]
        · by_cases h2 : y.toNat < x.toNat
          · simp [h1, h2]
          · simp [h1, h2]
      | _ => simp [Charlike.cmp]
    | dynamic x =>
      cases b with
      | dynamic y => simp only [Charlike.cmp]; exact Str.orderCmp.gt_iff x y
      | _ => simp [Charlike.cmp]
    | separator => cases b <;> simp [Charlike.cmp]
  trans := by
    intro a b c
    cases a with
    | static x =>
      cases b with
      | static y =>
        cases c with
        | static z =>
          simp only [Charlike.cmp]
          intro hab hbc
          by_cases h1 : x.toNat < y.toNat
          · by_cases h2 : y.toNat < z.toNat
            · rw [if_pos (by omega)]
            · by_cases h3 : z.toNat < y.toNat <;> simp [h2, h3] at hbc
          · by_cases h1' : y.toNat < x.toNat <;> simp [h1, h1'] at hab
        | _ => simp [Charlike.cmp]
      | _ => cases c <;> simp [Charlike.cmp]
    | dynamic x =>
      cases b with
      | dynamic y =>
        cases c with
        | dynamic z => simp only [Charlike.cmp]; exact Str.orderCmp.trans x y z
        | _ => simp [Charlike.cmp]
      | _ => cases c <;> simp [Charlike.cmp]
    | separator => cases b <;> cases c <;> simp [Charlike.cmp]

/-! ## Charlikes -/

theorem charlikes_nil : charlikes [] = [] := rfl

theorem charlikes_append (a b : List PathSegment) : charlikes (a ++ b) = charlikes a ++ charlikes b := by
  simp [charlikes]

theorem charlikes_cons (s : PathSegment) (b : List PathSegment) :
    charlikes (s :: b) = s.charlikes ++ charlikes b := by
  simp [charlikes]

theorem dynamics_append (a b : List PathSegment) : dynamics (a ++ b) = dynamics a ++ dynamics b := by
  simp [dynamics]

private theorem statics_sep_inj : ∀ (a b : Str) (k k' : List Charlike),
    a.map Charlike.static ++ Charlike.separator :: k = b.map Charlike.static ++ Charlike.separator :: k' →
    a = b ∧ k = k'
  | [], [], k, k', h => by simpa using h
  | [], y :: b, k, k', h => by simp at h
  | x :: a, [], k, k', h => by simp at h
  | x :: a, y :: b, k, k', h => by
    simp only [List.map_cons, List.cons_append, List.cons.injEq, Charlike.static.injEq] at h
    obtain ⟨h1, h2⟩ := statics_sep_inj a b k k' h.2
    exact ⟨by rw [h.1, h1], h2⟩

/-- The charlikes of a segment are a prefix code. -/
theorem PathSegment.charlikes_append_inj {s s' : PathSegment} {k k' : List Charlike}
    (h : s.charlikes ++ k = s'.charlikes ++ k') : SameSlot s s' ∧ k = k' := by
  cases s with
  | static a =>
    cases s' with
    | static b =>
      simp only [PathSegment.charlikes, List.append_assoc, List.cons_append, List.nil_append] at h
      exact statics_sep_inj a b k k' h
    | dynamic q =>
      simp only [PathSegment.charlikes, List.append_assoc, List.cons_append, List.nil_append] at h
      cases a <;> simp at h
  | dynamic p =>
    cases s' with
    | static b =>
      simp only [PathSegment.charlikes, List.append_assoc, List.cons_append, List.nil_append] at h
      cases b <;> simp at h
    | dynamic q => simpa [PathSegment.charlikes, SameSlot] using h

theorem SameSlot.charlikes_eq {s s' : PathSegment} (h : SameSlot s s') : s.charlikes = s'.charlikes := by
  cases s <;> cases s' <;> simp_all [SameSlot, PathSegment.charlikes]

theorem SameSlot.refl (s : PathSegment) : SameSlot s s := by cases s <;> simp [SameSlot]

theorem PathSegment.charlikes_ne_nil (s : PathSegment) : s.charlikes ≠ [] := by
  cases s <;> simp [PathSegment.charlikes]

/-! ## Flattening -/

theorem flattenNesteds_eq (ns : List NestedRoutes) (path : List PathSegment) (q : List Param) :
    flattenNesteds ns path q = ns.flatMap fun n => flattenRoutes n.routes (path ++ [n.pathSegment]) q := by
  induction ns with
  | nil => simp [flattenNesteds]
  | cons n ns ih =>
    obtain ⟨seg, r⟩ := n
    simp [flattenNesteds, flattenNested, ih]

theorem flattenRoutes_mk (rs : List Resource) (ns : List NestedRoutes) (qs : List Param)
    (path : List PathSegment) (q : List Param) :
    flattenRoutes (.mk rs ns qs) path q =
      ⟨path, rs, q ++ qs⟩ ::
        ns.flatMap fun n => flattenRoutes n.routes (path ++ [n.pathSegment]) (q ++ qs) := by
  simp [flattenRoutes, flattenNesteds_eq]

/-- Induction over a configuration: to prove something of every block, prove it from the blocks
nested in it. -/
theorem Routes.ind {P : Routes → Prop}
    (h : ∀ rs ns qs, (∀ n ∈ ns, P n.routes) → P (.mk rs ns qs)) : ∀ r, P r := by
  intro r
  refine Routes.rec (motive_1 := P) (motive_2 := fun n => P n.routes)
    (motive_3 := fun ns => ∀ n ∈ ns, P n.routes) ?_ ?_ ?_ ?_ r
  · intro rs ns qs ih; exact h rs ns qs ih
  · intro seg r ih; exact ih
  · intro n hn; cases hn
  · intro n ns ih1 ih2 m hm
    rcases List.mem_cons.1 hm with rfl | hm
    · exact ih1
    · exact ih2 m hm

/-- Flattened routes are exactly the blocks of the configuration. -/
theorem mem_flattenRoutes (r : Routes) : ∀ (path : List PathSegment) (q : List Param) (v : FlattenedRoute),
    v ∈ flattenRoutes r path q ↔ ∃ segs above node, HasRoute r segs above node ∧
      v = ⟨path ++ segs, node.resources, q ++ above ++ node.queryParameters⟩ := by
  induction r using Routes.ind with
  | h rs ns qs ih =>
    intro path q v
    rw [flattenRoutes_mk]
    simp only [List.mem_cons, List.mem_flatMap]
    constructor
    · rintro (rfl | ⟨n, hn, hv⟩)
      · exact ⟨[], [], _, .here _, by simp⟩
      · obtain ⟨segs, above, node, hnode, rfl⟩ := (ih n hn _ _ _).1 hv
        refine ⟨n.pathSegment :: segs, qs ++ above, node, ?_, by simp⟩
        exact HasRoute.child (r := .mk rs ns qs) (seg := n.pathSegment) (sub := n.routes)
          (by cases n; exact hn) hnode
    · rintro ⟨segs, above, node, hnode, rfl⟩
      cases hnode with
      | here => left; simp
      | child hmem hsub =>
        right
        refine ⟨_, hmem, (ih _ hmem _ _ _).2 ⟨_, _, _, hsub, by simp⟩⟩

theorem HasRoute.append {r mid node : Routes} {s1 s2 : List PathSegment} {q1 q2 : List Param}
    (h1 : HasRoute r s1 q1 mid) (h2 : HasRoute mid s2 q2 node) :
    HasRoute r (s1 ++ s2) (q1 ++ q2) node := by
  induction h1 with
  | here => exact h2
  | child hm _ ih => simpa using HasRoute.child hm (ih h2)

/-! ## Building the trie -/

/-- `addAll` succeeds iff all keys are new and distinct, and then adds exactly the given routes. -/
theorem addAll_spec : ∀ (rs : List FlattenedRoute) (t : RouteTrie), t.WF Charlike.cmp →
    ((∃ t', addAll t rs = some t') ↔
      (rs.map fun v => charlikes v.path).Nodup ∧ ∀ v ∈ rs, t.get (charlikes v.path) = none) ∧
    (∀ t', addAll t rs = some t' → t'.WF Charlike.cmp ∧
      ∀ ks v, t'.get ks = some v ↔ t.get ks = some v ∨ (v ∈ rs ∧ charlikes v.path = ks))
  | [], t, hwf => by
    constructor
    · simp [addAll]
    · intro t' h
      simp [addAll] at h; subst h
      exact ⟨hwf, by simp⟩
  | r :: rs, t, hwf => by
    have hadd := Trie.add_spec Charlike.orderCmp (charlikes r.path) t r hwf
    cases hg : t.get (charlikes r.path) with
    | some w =>
      obtain ⟨e, he⟩ := hadd.2 w hg
      constructor
      · simp [addAll, he, hg]
      · intro t' h; simp [addAll, he] at h
    | none =>
      obtain ⟨t1, ht1, hwf1, hget1⟩ := hadd.1 hg
      have ih := addAll_spec rs t1 hwf1
      have hall : addAll t (r :: rs) = addAll t1 rs := by simp [addAll, ht1]
      rw [hall]
      constructor
      · rw [ih.1]
        simp only [List.map_cons, List.nodup_cons, List.mem_cons, forall_eq_or_imp, hg, true_and,
          List.mem_map, not_exists, not_and]
        constructor
        · rintro ⟨h1, h2⟩
          refine ⟨⟨fun v hv heq => ?_, h1⟩, fun v hv => ?_⟩
          · have := h2 v hv
            rw [hget1, if_pos heq.symm] at this; cases this
          · have := h2 v hv
            rw [hget1] at this
            by_cases hk : charlikes r.path = charlikes v.path
            · rw [if_pos hk] at this; cases this
            · rwa [if_neg hk] at this
        · rintro ⟨⟨h1, h2⟩, h3⟩
          refine ⟨h2, fun v hv => ?_⟩
          rw [hget1, if_neg (fun h => h1 v hv h.symm)]
          exact h3 v hv
      · intro t' h
        obtain ⟨hw, hg'⟩ := ih.2 t' h
        have hnew : ∀ v ∈ rs, charlikes v.path ≠ charlikes r.path := by
          intro v hv heq
          have := (ih.1.1 ⟨t', h⟩).2 v hv
          rw [hget1, if_pos heq.symm] at this; cases this
        refine ⟨hw, fun ks v => ?_⟩
        rw [hg', hget1]
        by_cases hk : charlikes r.path = ks
        · subst hk
          simp only [if_true, Option.some.injEq, hg, List.mem_cons]
          constructor
          · rintro (rfl | ⟨h1, h2⟩)
            · right; exact ⟨.inl rfl, rfl⟩
            · exact absurd h2 (hnew v h1)
          · rintro (h | ⟨rfl | h1, h2⟩)
            · cases h
            · left; rfl
            · exact absurd h2 (hnew v h1)
        · simp only [hk, if_false, List.mem_cons]
          constructor
          · rintro (h | ⟨h1, h2⟩)
            · exact .inl h
            · exact .inr ⟨.inr h1, h2⟩
          · rintro (h | ⟨rfl | h1, h2⟩)
            · exact .inl h
            · exact absurd h2 hk
            · exact .inr ⟨h1, h2⟩

/-- What `t` stores is described by `P`. -/
structure Rep (t : RouteTrie) (P : List Charlike → FlattenedRoute → Prop) : Prop where
  wf : t.WF Charlike.cmp
  get : ∀ ks v, t.get ks = some v ↔ P ks v

/-- The elements below a block reached by `path`, keyed by the rest of the path. -/
def BlockItems (r : Routes) (path : List PathSegment) (q : List Param)
    (ks : List Charlike) (v : FlattenedRoute) : Prop :=
  v ∈ flattenRoutes r path q ∧ charlikes v.path = charlikes path ++ ks

theorem toTrie_rep {r : Routes} {t : RouteTrie} (h : toTrie r = some t) :
    Rep t (BlockItems r [] []) := by
  obtain ⟨hw, hg⟩ := (addAll_spec (flattenRoutes r [] []) Trie.new Trie.wf_new).2 t h
  refine ⟨hw, fun ks v => ?_⟩
  rw [hg]
  simp [Trie.get_new, BlockItems, charlikes_nil]

theorem flattenRoutes_path {r : Routes} {path : List PathSegment} {q : List Param} {v : FlattenedRoute}
    (h : v ∈ flattenRoutes r path q) : ∃ segs, v.path = path ++ segs := by
  obtain ⟨segs, _, _, _, rfl⟩ := (mem_flattenRoutes r path q v).1 h
  exact ⟨segs, rfl⟩

/-- Elements of a block: its own, or those of a child behind the child's segment. -/
theorem blockItems_mk {rs : List Resource} {ns : List NestedRoutes} {qs : List Param}
    {path : List PathSegment} {q : List Param} {ks : List Charlike} {v : FlattenedRoute} :
    BlockItems (.mk rs ns qs) path q ks v ↔
      (ks = [] ∧ v = ⟨path, rs, q ++ qs⟩) ∨
      ∃ n ∈ ns, ∃ ks', ks = n.pathSegment.charlikes ++ ks' ∧
        BlockItems n.routes (path ++ [n.pathSegment]) (q ++ qs) ks' v := by
  unfold BlockItems
  rw [flattenRoutes_mk]
  simp only [List.mem_cons, List.mem_flatMap]
  constructor
  · rintro ⟨rfl | ⟨n, hn, hv⟩, hk⟩
    · left; simpa using hk
    · right
      obtain ⟨segs, hsegs⟩ := flattenRoutes_path hv
      refine ⟨n, hn, charlikes segs, ?_, hv, ?_⟩
      · rw [hsegs, charlikes_append, charlikes_append] at hk
        simp only [List.append_assoc, List.append_cancel_left_eq] at hk
        rw [← hk]; simp [charlikes]
      · rw [hsegs, charlikes_append]
  · rintro (⟨rfl, rfl⟩ | ⟨n, hn, ks', rfl, hv, hk⟩)
    · exact ⟨.inl rfl, by simp⟩
    · refine ⟨.inr ⟨n, hn, hv⟩, ?_⟩
      rw [hk, charlikes_append]; simp [charlikes]

/-! ## Distinct siblings -/

private theorem nodup_flatMap {α β : Type} {l : List α} {f : α → List β} :
    (l.flatMap f).Nodup ↔ (∀ a ∈ l, (f a).Nodup) ∧ l.Pairwise fun a b => ∀ x ∈ f a, x ∉ f b := by
  induction l with
  | nil => simp
  | cons a l ih =>
    rw [List.flatMap_cons, List.nodup_append, ih, List.pairwise_cons]
    simp only [List.mem_cons, forall_eq_or_imp, List.mem_flatMap]
    constructor
    · rintro ⟨h1, ⟨h2, h3⟩, h4⟩
      exact ⟨⟨h1, h2⟩, fun b hb x hx hxb => h4 x hx x ⟨b, hb, hxb⟩ rfl, h3⟩
    · rintro ⟨⟨h1, h2⟩, h3, h4⟩
      refine ⟨h1, ⟨h2, h4⟩, ?_⟩
      rintro x hx y ⟨b, hb, hyb⟩ rfl
      exact h3 b hb x hx hyb

theorem distinctSiblings_mk {rs : List Resource} {ns : List NestedRoutes} {qs : List Param} :
    DistinctSiblings (.mk rs ns qs) ↔
      (ns.Pairwise fun a b => ¬ SameSlot a.pathSegment b.pathSegment) ∧
      ∀ n ∈ ns, DistinctSiblings n.routes := by
  constructor
  · intro h
    refine ⟨h [] [] _ (.here _), fun n hn segs q node hnode => ?_⟩
    exact h (n.pathSegment :: segs) (qs ++ q) node
      (HasRoute.child (r := .mk rs ns qs) (sub := n.routes) (by cases n; exact hn) hnode)
  · rintro ⟨h1, h2⟩ segs q node hnode
    cases hnode with
    | here => exact h1
    | child hm hs => exact h2 _ hm _ _ _ hs

/-- The keys of all blocks are distinct iff siblings are distinct everywhere. -/
theorem flatten_nodup_iff (r : Routes) : ∀ (path : List PathSegment) (q : List Param),
    ((flattenRoutes r path q).map fun v => charlikes v.path).Nodup ↔ DistinctSiblings r := by
  induction r using Routes.ind with
  | h rs ns qs ih =>
    intro path q
    rw [flattenRoutes_mk, distinctSiblings_mk, List.map_cons, List.nodup_cons, List.map_flatMap,
      nodup_flatMap]
    have key : ∀ n ∈ ns, ∀ x, x ∈ (flattenRoutes n.routes (path ++ [n.pathSegment]) (q ++ qs)).map
        (fun v => charlikes v.path) → ∃ ks, x = charlikes path ++ (n.pathSegment.charlikes ++ ks) := by
      intro n _ x hx
      obtain ⟨v, hv, rfl⟩ := List.mem_map.1 hx
      obtain ⟨segs, hsegs⟩ := flattenRoutes_path hv
      exact ⟨charlikes segs, by rw [hsegs, charlikes_append, charlikes_append]; simp [charlikes]⟩
    have own : ∀ n : NestedRoutes, charlikes (path ++ [n.pathSegment]) ∈
        (flattenRoutes n.routes (path ++ [n.pathSegment]) (q ++ qs)).map (fun v => charlikes v.path) := by
      intro n
      obtain ⟨seg, ⟨rs', ns', qs'⟩⟩ := n
      simp only [NestedRoutes.routes_mk, flattenRoutes_mk]
      simp
    constructor
    · rintro ⟨_, h2, h3⟩
      refine ⟨?_, fun n hn => (ih n hn _ _).1 (h2 n hn)⟩
      refine h3.imp ?_
      intro a b hab hslot
      refine hab _ (own a) ?_
      have : charlikes (path ++ [a.pathSegment]) = charlikes (path ++ [b.pathSegment]) := by
        rw [charlikes_append, charlikes_append]; simp [charlikes, hslot.charlikes_eq]
      rw [this]; exact own b
    · rintro ⟨h1, h2⟩
      refine ⟨?_, fun n hn => (ih n hn _ _).2 (h2 n hn), ?_⟩
      · intro hmem
        obtain ⟨n, hn, hx⟩ := List.mem_flatMap.1 hmem
        obtain ⟨ks, hks⟩ := key n hn _ hx
        have hlen := congrArg List.length hks
        have hne := List.length_pos_iff.2 n.pathSegment.charlikes_ne_nil
        simp only [List.length_append] at hlen; omega
      · refine List.Pairwise.imp_of_mem ?_ h1
        intro a b ha hb hslot x hxa hxb
        obtain ⟨ka, hka⟩ := key a ha x hxa
        obtain ⟨kb, hkb⟩ := key b hb x hxb
        rw [hka] at hkb
        exact hslot (PathSegment.charlikes_append_inj (List.append_cancel_left hkb)).1

/-- The trie can be built iff siblings are distinct. -/
theorem toTrie_isSome_iff (r : Routes) : (∃ t, toTrie r = some t) ↔ DistinctSiblings r := by
  unfold toTrie
  rw [(addAll_spec (flattenRoutes r [] []) Trie.new Trie.wf_new).1, flatten_nodup_iff]
  simp [Trie.get_new]

end Wayfinder
