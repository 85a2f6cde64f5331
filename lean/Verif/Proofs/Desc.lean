import Verif.Proofs.GenTrie
import Verif.Spec.Router
/-!
# What the nodes of a route trie stand for
-/

namespace Wayfinder

/-- The children of `t` are described by `P` (nothing is said about the element at `t` itself). -/
structure Desc (t : RouteTrie) (P : List Charlike → FlattenedRoute → Prop) : Prop where
  wf : t.WF Charlike.cmp
  get : ∀ k ks v, t.get (k :: ks) = some v ↔ P (k :: ks) v

theorem Rep.desc {t : RouteTrie} {P : List Charlike → FlattenedRoute → Prop} (h : Rep t P) : Desc t P :=
  ⟨h.wf, fun k ks v => h.get (k :: ks) v⟩

theorem Desc.congr {t : RouteTrie} {P Q : List Charlike → FlattenedRoute → Prop} (h : Desc t P)
    (hPQ : ∀ k ks v, P (k :: ks) v ↔ Q (k :: ks) v) : Desc t Q :=
  ⟨h.wf, fun k ks v => (h.get k ks v).trans (hPQ k ks v)⟩

theorem Rep.congr {t : RouteTrie} {P Q : List Charlike → FlattenedRoute → Prop} (h : Rep t P)
    (hPQ : ∀ ks v, P ks v ↔ Q ks v) : Rep t Q :=
  ⟨h.wf, fun ks v => (h.get ks v).trans (hPQ ks v)⟩

theorem Desc.mem_iff {t c : RouteTrie} {k : Charlike} {P : List Charlike → FlattenedRoute → Prop}
    (h : Desc t P) : (k, c) ∈ t.children ↔ t.child k = some c :=
  ⟨fun hm => assoc_of_mem Charlike.orderCmp h.wf.sorted_children hm, fun hc => assoc_mem hc⟩

theorem Desc.child_rep {t c : RouteTrie} {k : Charlike} {P : List Charlike → FlattenedRoute → Prop}
    (h : Desc t P) (hc : t.child k = some c) : Rep c (fun ks v => P (k :: ks) v) := by
  refine ⟨h.wf.of_child hc, fun ks v => ?_⟩
  rw [← h.get, Trie.get_cons, hc]; rfl

theorem Desc.child_iff {t : RouteTrie} {k : Charlike} {P : List Charlike → FlattenedRoute → Prop}
    (h : Desc t P) : (∃ c, t.child k = some c) ↔ ∃ ks v, P (k :: ks) v := by
  constructor
  · rintro ⟨c, hc⟩
    obtain ⟨ks, v, hv⟩ := h.wf.live_child hc
    exact ⟨ks, v, ((h.child_rep hc).get ks v).1 hv⟩
  · rintro ⟨ks, v, hv⟩
    have := (h.get k ks v).2 hv
    rw [Trie.get_cons] at this
    cases hc : t.child k with
    | none => simp [hc] at this
    | some c => exact ⟨c, rfl⟩

theorem Desc.child_of {t : RouteTrie} {k : Charlike} {P : List Charlike → FlattenedRoute → Prop}
    (h : Desc t P) {ks v} (hv : P (k :: ks) v) : ∃ c, (k, c) ∈ t.children := by
  obtain ⟨c, hc⟩ := h.child_iff.2 ⟨ks, v, hv⟩
  exact ⟨c, h.mem_iff.2 hc⟩

theorem Desc.item_of {t c : RouteTrie} {k : Charlike} {P : List Charlike → FlattenedRoute → Prop}
    (h : Desc t P) (hm : (k, c) ∈ t.children) : ∃ ks v, P (k :: ks) v :=
  h.child_iff.1 ⟨c, h.mem_iff.1 hm⟩

/-- Two children with the same key are the same entry. -/
theorem Desc.unique {t c c' : RouteTrie} {k : Charlike} {P : List Charlike → FlattenedRoute → Prop}
    (h : Desc t P) (hm : (k, c) ∈ t.children) (hm' : (k, c') ∈ t.children) : c = c' := by
  have h1 := h.mem_iff.1 hm
  have h2 := h.mem_iff.1 hm'
  rw [h1] at h2; exact Option.some.inj h2

/-! ## Items -/

theorem blockItems_self (r : Routes) (path : List PathSegment) (q : List Param) :
    BlockItems r path q [] ⟨path, r.resources, q ++ r.queryParameters⟩ := by
  obtain ⟨rs, ns, qs⟩ := r
  exact blockItems_mk.2 (.inl ⟨rfl, rfl⟩)

/-- Elements below a node reached through the static text `u` of a segment of a block with
children `ns`. -/
def StaticItems (ns : List NestedRoutes) (u : Str) (path : List PathSegment) (q : List Param)
    (ks : List Charlike) (v : FlattenedRoute) : Prop :=
  ∃ n ∈ ns, ∃ rest ks', n.pathSegment = .static (u ++ rest) ∧
    ks = rest.map .static ++ .separator :: ks' ∧
    BlockItems n.routes (path ++ [.static (u ++ rest)]) q ks' v

theorem staticItems_nil {ns : List NestedRoutes} {u : Str} {path : List PathSegment} {q : List Param}
    {v : FlattenedRoute} : ¬ StaticItems ns u path q [] v := by
  rintro ⟨n, _, rest, ks', _, h, _⟩
  simp at h

theorem staticItems_dynamic {ns : List NestedRoutes} {u : Str} {path : List PathSegment}
    {q : List Param} {x : Str} {ks : List Charlike} {v : FlattenedRoute} :
    ¬ StaticItems ns u path q (.dynamic x :: ks) v := by
  rintro ⟨n, _, rest, ks', _, h, _⟩
  cases rest <;> simp at h

theorem staticItems_static {ns : List NestedRoutes} {u : Str} {path : List PathSegment}
    {q : List Param} {c : Char} {ks : List Charlike} {v : FlattenedRoute} :
    StaticItems ns u path q (.static c :: ks) v ↔ StaticItems ns (u ++ [c]) path q ks v := by
  constructor
  · rintro ⟨n, hn, rest, ks', hseg, h, hb⟩
    cases rest with
    | nil => simp at h
    | cons c' rest =>
      simp only [List.map_cons, List.cons_append, List.cons.injEq, Charlike.static.injEq] at h
      obtain ⟨rfl, rfl⟩ := h
      exact ⟨n, hn, rest, ks', by simpa using hseg, rfl, by simpa using hb⟩
  · rintro ⟨n, hn, rest, ks', hseg, h, hb⟩
    exact ⟨n, hn, c :: rest, ks', by simpa using hseg, by simp [h], by simpa using hb⟩

theorem staticItems_sep {ns : List NestedRoutes} {u : Str} {path : List PathSegment}
    {q : List Param} {ks : List Charlike} {v : FlattenedRoute} :
    StaticItems ns u path q (.separator :: ks) v ↔
      ∃ n ∈ ns, n.pathSegment = .static u ∧ BlockItems n.routes (path ++ [.static u]) q ks v := by
  constructor
  · rintro ⟨n, hn, rest, ks', hseg, h, hb⟩
    cases rest with
    | nil =>
      simp only [List.map_nil, List.nil_append, List.cons.injEq, true_and] at h
      subst h
      exact ⟨n, hn, by simpa using hseg, by simpa using hb⟩
    | cons c' rest => simp at h
  · rintro ⟨n, hn, hseg, hb⟩
    exact ⟨n, hn, [], ks, by simpa using hseg, by simp, by simpa using hb⟩

/-- Children of a block, seen from its trie node. -/
theorem blockItems_static {rs : List Resource} {ns : List NestedRoutes} {qs : List Param}
    {path : List PathSegment} {q : List Param} {c : Char} {ks : List Charlike} {v : FlattenedRoute} :
    BlockItems (.mk rs ns qs) path q (.static c :: ks) v ↔
      StaticItems ns [] path (q ++ qs) (.static c :: ks) v := by
  rw [blockItems_mk]
  constructor
  · rintro (⟨h, _⟩ | ⟨n, hn, ks', h, hb⟩)
    · cases h
    · cases hs : n.pathSegment with
      | dynamic p => rw [hs] at h; simp [PathSegment.charlikes] at h
      | static s =>
        rw [hs] at h hb
        exact ⟨n, hn, s, ks', by simpa using hs, by simpa [PathSegment.charlikes] using h, by simpa using hb⟩
  · rintro ⟨n, hn, rest, ks', hseg, h, hb⟩
    right
    refine ⟨n, hn, ks', ?_, ?_⟩
    · rw [hseg, h]; simp [PathSegment.charlikes]
    · rw [hseg]; exact hb

theorem blockItems_sep {rs : List Resource} {ns : List NestedRoutes} {qs : List Param}
    {path : List PathSegment} {q : List Param} {ks : List Charlike} {v : FlattenedRoute} :
    BlockItems (.mk rs ns qs) path q (.separator :: ks) v ↔
      StaticItems ns [] path (q ++ qs) (.separator :: ks) v := by
  rw [blockItems_mk]
  constructor
  · rintro (⟨h, _⟩ | ⟨n, hn, ks', h, hb⟩)
    · cases h
    · cases hs : n.pathSegment with
      | dynamic p => rw [hs] at h; simp [PathSegment.charlikes] at h
      | static s =>
        rw [hs] at h hb
        exact ⟨n, hn, s, ks', by simpa using hs, by simpa [PathSegment.charlikes] using h, by simpa using hb⟩
  · rintro ⟨n, hn, rest, ks', hseg, h, hb⟩
    right
    refine ⟨n, hn, ks', ?_, ?_⟩
    · rw [hseg, h]; simp [PathSegment.charlikes]
    · rw [hseg]; exact hb

theorem blockItems_dynamic {rs : List Resource} {ns : List NestedRoutes} {qs : List Param}
    {path : List PathSegment} {q : List Param} {x : Str} {ks : List Charlike} {v : FlattenedRoute} :
    BlockItems (.mk rs ns qs) path q (.dynamic x :: ks) v ↔
      ∃ n ∈ ns, ∃ p ks', n.pathSegment = .dynamic p ∧ p.name = x ∧ ks = .separator :: ks' ∧
        BlockItems n.routes (path ++ [.dynamic p]) (q ++ qs) ks' v := by
  rw [blockItems_mk]
  constructor
  · rintro (⟨h, _⟩ | ⟨n, hn, ks', h, hb⟩)
    · cases h
    · cases hs : n.pathSegment with
      | static s => rw [hs] at h; cases s <;> simp [PathSegment.charlikes] at h
      | dynamic p =>
        rw [hs] at h hb
        simp only [PathSegment.charlikes, List.cons_append, List.nil_append, List.cons.injEq,
          Charlike.dynamic.injEq] at h
        exact ⟨n, hn, p, ks', hs, h.1.symm, h.2, hb⟩
  · rintro ⟨n, hn, p, ks', hseg, hx, h, hb⟩
    right
    refine ⟨n, hn, ks', ?_, ?_⟩
    · rw [hseg, h]; simp [PathSegment.charlikes, hx]
    · rw [hseg]; exact hb

/-! ## Children with a common beginning -/

/-- The static children whose text begins with `u`. -/
def kidsFrom (ns : List NestedRoutes) (u : Str) : List NestedRoutes :=
  ns.filter fun n => match n.pathSegment with
    | .static s => u.isPrefixOf s
    | .dynamic _ => false

theorem mem_kidsFrom {ns : List NestedRoutes} {u : Str} {n : NestedRoutes} :
    n ∈ kidsFrom ns u ↔ n ∈ ns ∧ ∃ rest, n.pathSegment = .static (u ++ rest) := by
  simp only [kidsFrom, List.mem_filter]
  constructor
  · rintro ⟨hn, h⟩
    refine ⟨hn, ?_⟩
    cases hs : n.pathSegment with
    | dynamic p => simp [hs] at h
    | static s =>
      simp only [hs, List.isPrefixOf_iff_prefix] at h
      obtain ⟨rest, hr⟩ := h
      exact ⟨rest, by rw [hr]⟩
  · rintro ⟨hn, rest, h⟩
    exact ⟨hn, by simp [h]⟩

/-- Every static child beginning with `u` goes on with `w`. -/
theorem kidsFrom_extend {ns : List NestedRoutes} {u w : Str}
    (h : ∀ n ∈ ns, ∀ rest, n.pathSegment = .static (u ++ rest) → ∃ rest', rest = w ++ rest') :
    kidsFrom ns u = kidsFrom ns (u ++ w) := by
  simp only [kidsFrom]
  apply List.filter_congr
  intro n hn
  cases hs : n.pathSegment with
  | dynamic p => rfl
  | static s =>
    simp only
    rw [Bool.eq_iff_iff, List.isPrefixOf_iff_prefix, List.isPrefixOf_iff_prefix]
    constructor
    · rintro ⟨rest, rfl⟩
      obtain ⟨rest', rfl⟩ := h n hn rest hs
      exact ⟨rest', by simp⟩
    · rintro ⟨rest, rfl⟩
      exact ⟨w ++ rest, by simp⟩

/-- Static child characters of a node inside a segment. -/
theorem static_child_iff {t : RouteTrie} {ns : List NestedRoutes} {u : Str} {path : List PathSegment}
    {q : List Param} (h : Desc t (StaticItems ns u path q)) (c : Char) :
    (∃ t', (Charlike.static c, t') ∈ t.children) ↔
      ∃ n ∈ ns, ∃ rest, n.pathSegment = .static (u ++ c :: rest) := by
  constructor
  · rintro ⟨t', hm⟩
    obtain ⟨ks, v, hv⟩ := h.item_of hm
    obtain ⟨n, hn, rest, ks', hseg, _, _⟩ := staticItems_static.1 hv
    exact ⟨n, hn, rest, by simpa using hseg⟩
  · rintro ⟨n, hn, rest, hseg⟩
    refine h.child_of (ks := rest.map .static ++ [.separator])
      (v := ⟨path ++ [.static (u ++ c :: rest)], n.routes.resources, q ++ n.routes.queryParameters⟩) ?_
    exact ⟨n, hn, c :: rest, [], hseg, by simp, blockItems_self _ _ _⟩

theorem sep_child_iff {t : RouteTrie} {ns : List NestedRoutes} {u : Str} {path : List PathSegment}
    {q : List Param} (h : Desc t (StaticItems ns u path q)) :
    (∃ t', (Charlike.separator, t') ∈ t.children) ↔ ∃ n ∈ ns, n.pathSegment = .static u := by
  constructor
  · rintro ⟨t', hm⟩
    obtain ⟨ks, v, hv⟩ := h.item_of hm
    obtain ⟨n, hn, hseg, _⟩ := staticItems_sep.1 hv
    exact ⟨n, hn, hseg⟩
  · rintro ⟨n, hn, hseg⟩
    exact h.child_of (ks := []) (staticItems_sep.2 ⟨n, hn, hseg, blockItems_self _ _ _⟩)

theorem no_dynamic_child {t : RouteTrie} {ns : List NestedRoutes} {u : Str} {path : List PathSegment}
    {q : List Param} (h : Desc t (StaticItems ns u path q)) (x : Str) (t' : RouteTrie) :
    (Charlike.dynamic x, t') ∉ t.children := by
  intro hm
  obtain ⟨ks, v, hv⟩ := h.item_of hm
  exact staticItems_dynamic hv

theorem Desc.static_child {t t' : RouteTrie} {ns : List NestedRoutes} {u : Str}
    {path : List PathSegment} {q : List Param} (h : Desc t (StaticItems ns u path q)) {c : Char}
    (hm : (Charlike.static c, t') ∈ t.children) : Rep t' (StaticItems ns (u ++ [c]) path q) :=
  (h.child_rep (h.mem_iff.1 hm)).congr fun _ _ => staticItems_static

theorem rep_static_data {t : RouteTrie} {ns : List NestedRoutes} {u : Str}
    {path : List PathSegment} {q : List Param} (h : Rep t (StaticItems ns u path q)) :
    t.data = none := by
  cases hd : t.data with
  | none => rfl
  | some v => exact absurd ((h.get [] v).1 (by simp [hd])) staticItems_nil

/-- Distinctness makes the child with a given static text unique. -/
theorem unique_static {ns : List NestedRoutes}
    (hd : ns.Pairwise fun a b => ¬ SameSlot a.pathSegment b.pathSegment) {a b : NestedRoutes}
    (ha : a ∈ ns) (hb : b ∈ ns) (hs : SameSlot a.pathSegment b.pathSegment) : a = b := by
  induction ns with
  | nil => cases ha
  | cons n ns ih =>
    obtain ⟨h1, h2⟩ := List.pairwise_cons.1 hd
    have hsymm : SameSlot b.pathSegment a.pathSegment := by
      revert hs; cases a.pathSegment <;> cases b.pathSegment <;> simp [SameSlot] <;> exact fun h => h.symm
    rcases List.mem_cons.1 ha with ha' | ha'
    · rcases List.mem_cons.1 hb with hb' | hb'
      · rw [ha', hb']
      · exact absurd hs (ha' ▸ h1 b hb')
    · rcases List.mem_cons.1 hb with hb' | hb'
      · exact absurd hsymm (hb' ▸ h1 a ha')
      · exact ih h2 ha' hb'

theorem Desc.sep_child {t t' : RouteTrie} {ns : List NestedRoutes} {u : Str}
    {path : List PathSegment} {q : List Param} (h : Desc t (StaticItems ns u path q))
    (hd : ns.Pairwise fun a b => ¬ SameSlot a.pathSegment b.pathSegment)
    (hm : (Charlike.separator, t') ∈ t.children) {n : NestedRoutes} (hn : n ∈ ns)
    (hseg : n.pathSegment = .static u) : Rep t' (BlockItems n.routes (path ++ [.static u]) q) := by
  refine (h.child_rep (h.mem_iff.1 hm)).congr fun ks v => ?_
  rw [staticItems_sep]
  constructor
  · rintro ⟨n', hn', hseg', hb⟩
    have : n' = n := unique_static hd hn' hn (by rw [hseg, hseg']; exact SameSlot.refl _)
    rw [← this]; exact hb
  · intro hb; exact ⟨n, hn, hseg, hb⟩

theorem rep_block_data {t : RouteTrie} {r : Routes} {path : List PathSegment} {q : List Param}
    (h : Rep t (BlockItems r path q)) :
    t.data = some ⟨path, r.resources, q ++ r.queryParameters⟩ := by
  have := (h.get [] _).2 (blockItems_self r path q)
  simpa using this

end Wayfinder
