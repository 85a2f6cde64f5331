import Verif.Spec.Modules
import Verif.Proofs.Flat
/-!
# The module table
-/

namespace Wayfinder

/-! ## Association lists -/

section maps
variable {α : Type}

theorem mapGet_mapSet {k k' : Str} {v : α} : ∀ {m : List (Str × α)},
    mapGet k (mapSet k' v m) = if k' = k then some v else mapGet k m
  | [] => by simp [mapSet, mapGet]
  | (x, a) :: m => by
    simp only [mapSet]
    split
    · rename_i h; subst h; simp only [mapGet]; split <;> rfl
    · rename_i h
      simp only [mapGet, mapGet_mapSet]
      by_cases hx : x = k
      · subst hx; simp [Ne.symm h]
      · simp [hx]

theorem mapGet_mem {k : Str} {a : α} : ∀ {m : List (Str × α)}, mapGet k m = some a → (k, a) ∈ m
  | (x, b) :: m, h => by
    simp only [mapGet] at h
    split at h
    · rename_i hx; subst hx; cases h; simp
    · exact List.mem_cons_of_mem _ (mapGet_mem h)

theorem mapGet_none {k : Str} : ∀ {m : List (Str × α)}, mapGet k m = none ↔ k ∉ m.map Prod.fst
  | [] => by simp [mapGet]
  | (x, b) :: m => by
    simp only [mapGet, List.map_cons, List.mem_cons, not_or]
    split
    · rename_i hx; subst hx; simp
    · rename_i hx; rw [mapGet_none]; simp [Ne.symm hx]

theorem mapGet_of_mem {k : Str} {a : α} : ∀ {m : List (Str × α)}, (m.map Prod.fst).Nodup →
    (k, a) ∈ m → mapGet k m = some a
  | (x, b) :: m, hn, h => by
    simp only [List.map_cons, List.nodup_cons] at hn
    simp only [mapGet]
    rcases List.mem_cons.1 h with h | h
    · cases h; simp
    · have : x ≠ k := fun e => hn.1 (List.mem_map.2 ⟨_, h, e.symm⟩)
      rw [if_neg this]; exact mapGet_of_mem hn.2 h

theorem mapGet_append {k : Str} {b : List (Str × α)} : ∀ {a : List (Str × α)},
    mapGet k (a ++ b) = (mapGet k a).orElse fun _ => mapGet k b
  | [] => by simp [mapGet]
  | (x, v) :: a => by
    simp only [List.cons_append, mapGet]
    split
    · rfl
    · exact mapGet_append

theorem mapSet_keys {k : Str} {v : α} : ∀ {m : List (Str × α)},
    (mapSet k v m).map Prod.fst = if k ∈ m.map Prod.fst then m.map Prod.fst else m.map Prod.fst ++ [k]
  | [] => by simp [mapSet]
  | (x, a) :: m => by
    simp only [mapSet]
    by_cases h : x = k
    · subst h; simp
    · simp only [h, if_false, List.map_cons, mapSet_keys, List.mem_cons, Ne.symm h, false_or]
      split <;> simp

theorem mapSet_mem {k : Str} {v : α} {x : Str × α} : ∀ {m : List (Str × α)}, x ∈ mapSet k v m →
    x = (k, v) ∨ x ∈ m
  | [], h => by simp [mapSet] at h; exact .inl h
  | (y, a) :: m, h => by
    simp only [mapSet] at h
    split at h
    · rename_i hy; subst hy
      rcases List.mem_cons.1 h with h | h
      · exact .inl h
      · exact .inr (by simp [h])
    · rcases List.mem_cons.1 h with h | h
      · exact .inr (by simp [h])
      · exact (mapSet_mem h).imp id fun h => by simp [h]

end maps

/-! ## Modules as maps -/

/-- The action stored under a module path and a name. -/
def Module.get : List Str → Str → Module → Option FlattenedAction
  | [], n, .mk _ as => mapGet n as
  | m :: mods, n, .mk ms _ => (mapGet m ms).bind (Module.get mods n)

/-- Keys are distinct and are the names of the actions; no submodule is empty. -/
inductive Module.WF : Module → Prop where
  | mk {ms : List (Str × Module)} {as : List (Str × FlattenedAction)} :
      (as.map Prod.fst).Nodup → (∀ x ∈ as, x.2.name = x.1) → (ms.map Prod.fst).Nodup →
      (∀ x ∈ ms, Module.WF x.2) → (∀ x ∈ ms, ∃ mods n a, x.2.get mods n = some a) →
      Module.WF (.mk ms as)

theorem Module.wf_default : Module.default.WF := .mk (by simp) (by simp) (by simp) (by simp) (by simp)

theorem Module.get_default (mods : List Str) (n : Str) : Module.default.get mods n = none := by
  cases mods <;> simp [Module.default, Module.get, mapGet]

theorem Module.insertAction_spec {name : Str} {act : FlattenedAction} (hname : act.name = name) :
    ∀ (mods : List Str) (m : Module), m.WF →
      (m.insertAction mods name act = none ↔ ∃ a, m.get mods name = some a) ∧
      ∀ m', m.insertAction mods name act = some m' → m'.WF ∧
        ∀ mods' n', m'.get mods' n' = if mods' = mods ∧ n' = name then some act else m.get mods' n'
  | [], .mk ms as, hw => by
    cases hw with
    | mk h1 h2 h3 h4 h5 =>
      simp only [Module.insertAction, Module.get]
      cases hg : mapGet name as with
      | some a => simp
      | none =>
        simp only [reduceCtorEq, exists_false, Option.some.injEq, true_and]
        rintro m' rfl
        have hk := mapGet_none.1 hg
        refine ⟨.mk ?_ ?_ h3 h4 h5, ?_⟩
        · simp only [List.map_append, List.map_cons, List.map_nil]
          rw [List.nodup_append]
          refine ⟨h1, by simp, ?_⟩
          intro a ha b hb e
          simp only [List.mem_singleton] at hb
          exact hk (by rw [← hb, ← e]; exact ha)
        · intro x hx
          rcases List.mem_append.1 hx with hx | hx
          · exact h2 x hx
          · simp only [List.mem_singleton] at hx; subst hx; exact hname
        · intro mods' n'
          cases mods' with
          | nil =>
            simp only [Module.get, true_and, mapGet_append]
            by_cases hn : n' = name
            · subst hn; rw [hg]; simp [mapGet]
            · simp only [hn, if_false, mapGet, Ne.symm hn]
              cases mapGet n' as <;> rfl
          | cons => simp [Module.get]
  | m :: mods, .mk ms as, hw => by
    cases hw with
    | mk h1 h2 h3 h4 h5 =>
      have hsub : ((mapGet m ms).getD .default).WF := by
        cases hg : mapGet m ms with
        | none => exact Module.wf_default
        | some sub => exact h4 _ (mapGet_mem hg)
      have hget : ∀ mods' n', ((mapGet m ms).getD .default).get mods' n' =
          (mapGet m ms).bind (Module.get mods' n') := by
        intro mods' n'
        cases hg : mapGet m ms with
        | none => simp [Module.get_default]
        | some sub => rfl
      obtain ⟨ih1, ih2⟩ := insertAction_spec hname mods _ hsub
      simp only [Module.insertAction, Module.get]
      rw [← hget]
      cases hi : ((mapGet m ms).getD .default).insertAction mods name act with
      | none => simp [ih1.1 hi]
      | some sub =>
        obtain ⟨hw', hg'⟩ := ih2 sub hi
        constructor
        · simp only [reduceCtorEq, false_iff]
          intro h
          rw [ih1.2 h] at hi; cases hi
        · simp only [Option.some.injEq]
          rintro m' rfl
          refine ⟨.mk h1 h2 ?_ ?_ ?_, ?_⟩
          · rw [mapSet_keys]
            split
            · exact h3
            · rename_i hk
              rw [List.nodup_append]
              refine ⟨h3, by simp, ?_⟩
              intro a ha b hb e
              simp only [List.mem_singleton] at hb
              exact hk (by rw [← hb, ← e]; exact ha)
          · intro x hx
            rcases mapSet_mem hx with rfl | hx
            · exact hw'
            · exact h4 x hx
          · intro x hx
            rcases mapSet_mem hx with rfl | hx
            · exact ⟨mods, name, act, by rw [hg']; simp⟩
            · exact h5 x hx
          · intro mods' n'
            cases mods' with
            | nil => simp [Module.get]
            | cons m0 mods' =>
              simp only [Module.get, mapGet_mapSet, List.cons.injEq]
              by_cases hm : m = m0
              · subst hm
                simp only [if_true, Option.bind_some, true_and, hg']
                split
                · rfl
                · exact hget mods' n'
              · simp [hm, Ne.symm hm]

/-! ## Inserting a list of actions -/

/-- Insert actions one after another. -/
def insertAll : List (List Str × FlattenedAction) → Module → Option Module
  | [], m => some m
  | e :: es, m => (m.insertAction e.1 e.2.name e.2).bind (insertAll es)

theorem insertAll_append (a b : List (List Str × FlattenedAction)) (m : Module) :
    insertAll (a ++ b) m = (insertAll a m).bind (insertAll b) := by
  induction a generalizing m with
  | nil => rfl
  | cons e a ih =>
    simp only [List.cons_append, insertAll]
    cases m.insertAction e.1 e.2.name e.2 with
    | none => rfl
    | some m' => exact ih m'

/-- The key of an entry. -/
abbrev entryKey (e : List Str × FlattenedAction) : List Str × Str := (e.1, e.2.name)

theorem insertAll_spec : ∀ (es : List (List Str × FlattenedAction)) (m : Module), m.WF →
    ((∃ m', insertAll es m = some m') ↔
      (es.map entryKey).Nodup ∧ ∀ e ∈ es, m.get e.1 e.2.name = none) ∧
    ∀ m', insertAll es m = some m' → m'.WF ∧ ∀ mods n a, m'.get mods n = some a ↔
      m.get mods n = some a ∨ (mods, a) ∈ es ∧ a.name = n
  | [], m, hw => by
    refine ⟨by simp [insertAll], ?_⟩
    simp only [insertAll, Option.some.injEq]
    rintro m' rfl
    exact ⟨hw, by simp⟩
  | e :: es, m, hw => by
    obtain ⟨h1, h2⟩ := Module.insertAction_spec (name := e.2.name) (act := e.2) rfl e.1 m hw
    simp only [insertAll]
    cases hi : m.insertAction e.1 e.2.name e.2 with
    | none =>
      obtain ⟨a, ha⟩ := h1.1 hi
      simp [ha]
    | some m1 =>
      have hnone : m.get e.1 e.2.name = none := by
        cases hg : m.get e.1 e.2.name with
        | none => rfl
        | some a => rw [h1.2 ⟨a, hg⟩] at hi; cases hi
      obtain ⟨hw1, hg1⟩ := h2 m1 hi
      obtain ⟨ih1, ih2⟩ := insertAll_spec es m1 hw1
      simp only [Option.bind_some]
      constructor
      · rw [ih1]
        simp only [List.map_cons, List.nodup_cons, List.mem_cons, forall_eq_or_imp, hnone, true_and]
        constructor
        · rintro ⟨hnd, hall⟩
          refine ⟨⟨?_, hnd⟩, ?_⟩
          · intro hm
            obtain ⟨e', he', hk⟩ := List.mem_map.1 hm
            have := hall e' he'
            simp only [entryKey, Prod.mk.injEq] at hk
            rw [hg1, hk.1, hk.2] at this
            simp at this
          · intro e' he'
            have := hall e' he'
            rw [hg1] at this
            split at this
            · cases this
            · exact this
        · rintro ⟨⟨hnm, hnd⟩, hall⟩
          refine ⟨hnd, fun e' he' => ?_⟩
          rw [hg1, if_neg, hall e' he']
          rintro ⟨ha, hb⟩
          exact hnm (List.mem_map.2 ⟨e', he', by simp [entryKey, ha, hb]⟩)
      · intro m' hm'
        obtain ⟨hw', hg'⟩ := ih2 m' hm'
        refine ⟨hw', fun mods n a => ?_⟩
        rw [hg', hg1]
        have hnd := (ih1.1 ⟨m', hm'⟩)
        by_cases hk : mods = e.1 ∧ n = e.2.name
        · obtain ⟨rfl, rfl⟩ := hk
          simp only [and_self, if_true, Option.some.injEq, hnone, reduceCtorEq, false_or, List.mem_cons]
          constructor
          · rintro (rfl | ⟨ha, hn⟩)
            · exact ⟨.inl rfl, rfl⟩
            · exact ⟨.inr ha, hn⟩
          · rintro ⟨ha | ha, hn⟩
            · left; rw [← ha]
            · right; exact ⟨ha, hn⟩
        · simp only [hk, if_false, List.mem_cons]
          constructor
          · rintro (ha | ⟨ha, hn⟩)
            · exact .inl ha
            · exact .inr ⟨.inr ha, hn⟩
          · rintro (ha | ⟨ha | ha, hn⟩)
            · exact .inl ha
            · exact absurd ⟨by rw [← ha], by rw [← ha]; exact hn.symm⟩ hk
            · exact .inr ⟨ha, hn⟩

/-! ## The work list -/

/-- The actions of one flattened route. -/
def FlattenedRoute.entries (v : FlattenedRoute) : List (List Str × FlattenedAction) :=
  (v.resources.filter fun x => !x.isRedirect).map fun x =>
    (x.modules, ⟨x.name, x.method, v.path, dynamics v.path, v.queryParameters ++ x.queryParameters⟩)

theorem addResources_eq (path : List PathSegment) (query : List Param) :
    ∀ (rs : List Resource) (acc : Module),
      addResources path query rs acc = insertAll (FlattenedRoute.entries ⟨path, rs, query⟩) acc
  | [], acc => rfl
  | r :: rs, acc => by
    simp only [addResources, FlattenedRoute.entries, List.filter_cons]
    cases hr : r.isRedirect with
    | true =>
      simp only [Bool.not_true, if_true, Bool.false_eq_true, if_false]
      exact addResources_eq path query rs acc
    | false =>
      simp only [Bool.not_false, if_true, List.map_cons, insertAll, Bool.false_eq_true, if_false]
      cases acc.insertAction r.modules r.name _ with
      | none => rfl
      | some acc' => exact addResources_eq path query rs acc'

/-- All actions below a work-list item. -/
def itemEntries (x : Routes × List PathSegment × List Param) : List (List Str × FlattenedAction) :=
  (flattenRoutes x.1 x.2.1 x.2.2).flatMap FlattenedRoute.entries

/-- Turns needed for a work list. -/
def stackCount (stack : List (Routes × List PathSegment × List Param)) : Nat :=
  (stack.map fun x => x.1.count).sum

theorem countNesteds_eq : ∀ (ns : List NestedRoutes),
    countNesteds ns = (ns.map fun n => n.routes.count).sum
  | [] => by simp [countNesteds]
  | .mk seg r :: ns => by simp [countNesteds, NestedRoutes.count, countNesteds_eq ns]

theorem Routes.count_pos (r : Routes) : 0 < r.count := by
  obtain ⟨rs, ns, qs⟩ := r
  simp only [Routes.count]; omega

theorem flattenModulesLoop_eq : ∀ (fuel : Nat) (stack : List (Routes × List PathSegment × List Param))
    (acc : Module), stackCount stack ≤ fuel →
    ∃ es, es.Perm (stack.flatMap itemEntries) ∧ flattenModulesLoop fuel stack acc = insertAll es acc
  | 0, [], acc, _ => ⟨[], by simp, rfl⟩
  | 0, (r, _) :: _, _, h => by
    have := r.count_pos
    simp only [stackCount, List.map_cons, List.sum_cons] at h
    omega
  | fuel + 1, [], acc, _ => ⟨[], by simp, rfl⟩
  | fuel + 1, (.mk rs ns qs, path, query) :: stack, acc, h => by
    simp only [stackCount, List.map_cons, List.sum_cons, Routes.count] at h
    obtain ⟨es, hp, he⟩ := flattenModulesLoop_eq fuel
      ((ns.map fun n => (n.routes, path ++ [n.pathSegment], query ++ qs)).reverse ++ stack)
      ((addResources path (query ++ qs) rs acc).getD acc) (by
        simp only [stackCount, List.map_append, List.map_reverse, List.map_map, List.sum_append,
          List.sum_reverse]
        rw [countNesteds_eq] at h
        have : ((fun x : Routes × List PathSegment × List Param => x.1.count) ∘
          fun n : NestedRoutes => (n.routes, path ++ [n.pathSegment], query ++ qs)) =
            fun n : NestedRoutes => n.routes.count := rfl
        rw [this]; omega)
    refine ⟨FlattenedRoute.entries ⟨path, rs, query ++ qs⟩ ++ es, ?_, ?_⟩
    · rw [List.flatMap_cons]
      simp only [itemEntries, flattenRoutes_mk, List.flatMap_cons, List.append_assoc]
      refine .append_left _ (hp.trans ?_)
      rw [List.flatMap_append]
      refine .append_right _ ?_
      refine ((List.reverse_perm _).flatMap_right _).trans ?_
      rw [List.flatMap_map, List.flatMap_assoc]
      exact .refl _
    · simp only [flattenModulesLoop]
      rw [insertAll_append, addResources_eq]
      rw [addResources_eq] at he
      cases hi : insertAll (FlattenedRoute.entries ⟨path, rs, query ++ qs⟩) acc with
      | none => rfl
      | some acc' =>
        simp only [hi, Option.getD_some] at he
        simpa using he

/-- All actions of a configuration, in file order. -/
def Routes.entries (r : Routes) : List (List Str × FlattenedAction) := itemEntries (r, [], [])

theorem flattenModules_eq (r : Routes) : ∃ es, es.Perm r.entries ∧
    flattenModules r = insertAll es .default := by
  obtain ⟨es, h1, h2⟩ := flattenModulesLoop_eq r.count [(r, [], [])] .default (by simp [stackCount])
  exact ⟨es, by simpa [Routes.entries] using h1, h2⟩

theorem flattenModules_spec (r : Routes) :
    ((∃ m, flattenModules r = some m) ↔ (r.entries.map entryKey).Nodup) ∧
    ∀ m, flattenModules r = some m → m.WF ∧ ∀ mods n a, m.get mods n = some a ↔
      (mods, a) ∈ r.entries ∧ a.name = n := by
  obtain ⟨es, hp, he⟩ := flattenModules_eq r
  obtain ⟨h1, h2⟩ := insertAll_spec es .default Module.wf_default
  rw [he]
  constructor
  · rw [h1, (hp.map entryKey).nodup_iff]
    simp [Module.get_default]
  · intro m hm
    obtain ⟨h3, h4⟩ := h2 m hm
    refine ⟨h3, fun mods n a => ?_⟩
    rw [h4, hp.mem_iff]
    simp [Module.get_default]

theorem allResourcesL_eq : ∀ (ns : List NestedRoutes),
    allResourcesL ns = ns.flatMap fun n => n.routes.allResources
  | [] => by simp [allResourcesL]
  | .mk seg r :: ns => by simp [allResourcesL, NestedRoutes.allResources, allResourcesL_eq ns]

theorem entries_keys (r : Routes) : ∀ (path : List PathSegment) (q : List Param),
    ((flattenRoutes r path q).flatMap FlattenedRoute.entries).map entryKey =
      (r.allResources.filter fun x => !x.isRedirect).map fun x => (x.modules, x.name) := by
  induction r using Routes.ind with
  | h rs ns qs ih =>
    intro path q
    rw [flattenRoutes_mk, List.flatMap_cons, List.map_append, Routes.allResources, List.filter_append,
      List.map_append]
    congr 1
    · simp [FlattenedRoute.entries, entryKey]
    · rw [allResourcesL_eq, List.flatMap_assoc, List.map_flatMap, List.filter_flatMap, List.map_flatMap]
      simp only [List.flatMap]
      congr 1
      exact List.map_congr_left fun n hn => ih n hn _ _

theorem flattenModules_isSome (r : Routes) : (∃ m, flattenModules r = some m) ↔ DistinctActions r := by
  rw [(flattenModules_spec r).1, Routes.entries, itemEntries, entries_keys, DistinctActions]

theorem mem_entries {r : Routes} {mods : List Str} {a : FlattenedAction} :
    (mods, a) ∈ r.entries ↔ ∃ segs query res, Declares r segs query res ∧ res.isRedirect = false ∧
      mods = res.modules ∧
      a = ⟨res.name, res.method, segs, dynamics segs, query ++ res.queryParameters⟩ := by
  simp only [Routes.entries, itemEntries, List.mem_flatMap, FlattenedRoute.entries, List.mem_map,
    List.mem_filter]
  constructor
  · rintro ⟨v, hv, res, ⟨hres, hred⟩, he⟩
    obtain ⟨segs, above, node, hr, rfl⟩ := (mem_flattenRoutes r [] [] v).1 hv
    cases he
    refine ⟨segs, above ++ node.queryParameters, res, ⟨node, above, hr, hres, rfl⟩, by simpa using hred, rfl, ?_⟩
    simp
  · rintro ⟨segs, query, res, ⟨node, above, hr, hres, rfl⟩, hred, rfl, rfl⟩
    refine ⟨_, (mem_flattenRoutes r [] [] _).2 ⟨segs, above, node, hr, rfl⟩, res, ⟨hres, by simpa using hred⟩, ?_⟩
    simp

/-! ## Sorting -/

theorem insertByName_perm {α : Type} (key : α → Str) (a : α) : ∀ (l : List α),
    (insertByName key a l).Perm (a :: l)
  | [] => .refl _
  | b :: l => by
    simp only [insertByName]
    split
    · exact (List.Perm.cons b (insertByName_perm key a l)).trans (.swap a b l)
    · exact .refl _

theorem sortByName_perm {α : Type} (key : α → Str) : ∀ (l : List α), (sortByName key l).Perm l
  | [] => .refl _
  | a :: l => (insertByName_perm key a _).trans (.cons a (sortByName_perm key l))

theorem Str.cmp_ne_gt_trans {a b c : Str} (h1 : Str.cmp a b ≠ .gt) (h2 : Str.cmp b c ≠ .gt) :
    Str.cmp a c ≠ .gt := by
  rcases Str.orderCmp.lt_trichotomy a b with h | rfl | h
  · rcases Str.orderCmp.lt_trichotomy b c with h' | rfl | h'
    · rw [Str.orderCmp.trans _ _ _ h h']; simp
    · rw [h]; simp
    · exact absurd ((Str.orderCmp.gt_iff b c).2 h') h2
  · exact h2
  · exact absurd ((Str.orderCmp.gt_iff a b).2 h) h1

theorem sortByName_sorted {α : Type} (key : α → Str) : ∀ (l : List α), SortedBy key (sortByName key l)
  | [] => .nil
  | a :: l => by
    have ih := sortByName_sorted key l
    simp only [sortByName]
    revert ih
    generalize sortByName key l = s
    intro ih
    induction s with
    | nil => simp [insertByName, SortedBy]
    | cons b s ihs =>
      obtain ⟨h1, h2⟩ := List.pairwise_cons.1 ih
      simp only [insertByName]
      split
      · rename_i hgt
        refine List.pairwise_cons.2 ⟨?_, ihs h2⟩
        intro x hx
        rcases List.mem_cons.1 ((insertByName_perm key a s).mem_iff.1 hx) with rfl | hx
        · have := (Str.orderCmp.gt_iff _ _).1 hgt
          rw [this]; simp
        · exact h1 x hx
      · rename_i hgt
        refine List.pairwise_cons.2 ⟨?_, ih⟩
        intro x hx
        rcases List.mem_cons.1 hx with rfl | hx
        · exact hgt
        · exact Str.cmp_ne_gt_trans hgt (h1 x hx)

/-! ## Finalization -/

/-- Strictly sorted by name. -/
def StrictBy {α : Type} (key : α → Str) (l : List α) : Prop :=
  l.Pairwise fun a b => Str.cmp (key a) (key b) = .lt

theorem SortedBy.strict {α : Type} {key : α → Str} {l : List α} (h : SortedBy key l)
    (hn : (l.map key).Nodup) : StrictBy key l := by
  have h' : l.Pairwise fun a b => key a ≠ key b := List.pairwise_map.1 hn
  refine (List.Pairwise.and h h').imp ?_
  rintro a b ⟨h1, h2⟩
  rcases Str.orderCmp.lt_trichotomy (key a) (key b) with h | h | h
  · exact h
  · exact absurd h h2
  · exact absurd ((Str.orderCmp.gt_iff _ _).2 h) h1

theorem StrictBy.ext {α : Type} {key : α → Str} {l l' : List α} (h : StrictBy key l) (h' : StrictBy key l')
    (hm : ∀ a, a ∈ l ↔ a ∈ l') : l = l' := by
  have hn : ∀ {l : List α}, StrictBy key l → l.Nodup := by
    intro l hl
    refine List.Pairwise.imp ?_ hl
    rintro a b hab rfl
    exact Str.orderCmp.lt_irrefl _ hab
  refine List.Perm.eq_of_pairwise (le := fun a b => Str.cmp (key a) (key b) = .lt) ?_ h h'
    ((List.perm_ext_iff_of_nodup (hn h) (hn h')).2 hm)
  intro a b _ _ h1 h2
  exact absurd h2 (Str.orderCmp.lt_asymm h1)

theorem StrictBy.inj {α : Type} {key : α → Str} {l : List α} (h : StrictBy key l) {a b : α}
    (ha : a ∈ l) (hb : b ∈ l) (hk : key a = key b) : a = b := by
  induction l with
  | nil => cases ha
  | cons x l ih =>
    obtain ⟨h1, h2⟩ := List.pairwise_cons.1 h
    rcases List.mem_cons.1 ha with ha' | ha' <;> rcases List.mem_cons.1 hb with hb' | hb'
    · rw [ha', hb']
    · subst ha'; exact absurd hk (Str.orderCmp.ne_of_lt (h1 b hb'))
    · subst hb'; exact absurd hk.symm (Str.orderCmp.ne_of_lt (h1 a ha'))
    · exact ih h2 ha' hb'

/-- Strictly sorted everywhere, no submodule empty. -/
inductive Proper : FlattenedModule → Prop where
  | mk {m : FlattenedModule} : StrictBy FlattenedAction.name m.actions →
      StrictBy FlattenedModule.name m.modules → (∀ sub ∈ m.modules, Proper sub) →
      (∀ sub ∈ m.modules, ∃ mods a, HasAction sub mods a) → Proper m

theorem hasAction_cons {m : FlattenedModule} {x : Str} {mods : List Str} {a : FlattenedAction} :
    HasAction m (x :: mods) a ↔ ∃ sub ∈ m.modules, sub.name = x ∧ HasAction sub mods a := by
  constructor
  · intro h; cases h with | inside h1 h2 => exact ⟨_, h1, rfl, h2⟩
  · rintro ⟨sub, h1, rfl, h2⟩; exact .inside h1 h2

theorem hasAction_nil {m : FlattenedModule} {a : FlattenedAction} :
    HasAction m [] a ↔ a ∈ m.actions := by
  constructor
  · intro h; cases h; assumption
  · exact .here

/-- Proper trees with the same actions are equal. -/
theorem Proper.ext {m : FlattenedModule} (h : Proper m) : ∀ {m' : FlattenedModule}, Proper m' →
    m.name = m'.name → (∀ mods a, HasAction m mods a ↔ HasAction m' mods a) → m = m' := by
  induction h with
  | @mk m h1 h2 h3 h4 ih =>
    intro m' hp' hname hall
    cases hp' with
    | mk g1 g2 g3 g4 =>
      have hacts : m.actions = m'.actions := h1.ext g1 fun a => by
        rw [← hasAction_nil, hall, hasAction_nil]
      have hfind : ∀ {m m' : FlattenedModule}, (∀ sub ∈ m.modules, ∃ mods a, HasAction sub mods a) →
          (∀ mods a, HasAction m mods a ↔ HasAction m' mods a) → ∀ sub ∈ m.modules,
          ∃ sub' ∈ m'.modules, sub'.name = sub.name := by
        intro m m' hl hall sub hs
        obtain ⟨mods, a, ha⟩ := hl sub hs
        obtain ⟨sub', hs', hn, _⟩ := hasAction_cons.1 ((hall _ _).1 (.inside hs ha))
        exact ⟨sub', hs', hn⟩
      have hsame : ∀ {sub sub' : FlattenedModule}, sub ∈ m.modules → sub' ∈ m'.modules →
          sub'.name = sub.name → sub = sub' := by
        intro sub sub' hs hs' hn
        refine ih sub hs (g3 sub' hs') hn.symm fun mods a => ?_
        constructor
        · intro ha
          obtain ⟨s, hs2, hn2, ha2⟩ := hasAction_cons.1 ((hall _ _).1 (.inside hs ha))
          rwa [g2.inj hs' hs2 (by rw [hn, hn2])]
        · intro ha
          have := HasAction.inside hs' ha
          rw [← hall] at this
          obtain ⟨s, hs2, hn2, ha2⟩ := hasAction_cons.1 this
          rwa [h2.inj hs hs2 (by rw [← hn, hn2])]
      have hmods : m.modules = m'.modules := by
        refine h2.ext g2 fun sub => ⟨fun hs => ?_, fun hs => ?_⟩
        · obtain ⟨sub', hs', hn⟩ := hfind h4 hall sub hs
          rw [hsame hs hs' hn]; exact hs'
        · obtain ⟨sub', hs', hn⟩ := hfind g4 (fun a b => (hall a b).symm) sub hs
          rw [← hsame hs' hs hn.symm]; exact hs'
      obtain ⟨n, as, ms⟩ := m
      obtain ⟨n', as', ms'⟩ := m'
      have hname : n = n' := hname
      have hacts : as = as' := hacts
      have hmods : ms = ms' := hmods
      rw [hname, hacts, hmods]

theorem finalizes_name {m : Module} {name : Str} {out : FlattenedModule} (h : Finalizes m name out) :
    out.name = name := by cases h; rfl

theorem finalizesAll_names {ms : List (Str × Module)} {outs : List FlattenedModule}
    (h : FinalizesAll ms outs) : outs.map FlattenedModule.name = ms.map Prod.fst := by
  induction ms generalizing outs with
  | nil => cases h; rfl
  | cons km ms ih =>
    cases h with
    | cons h1 h2 => simp [finalizes_name h1, ih h2]

theorem finalizesAll_mem {ms : List (Str × Module)} {outs : List FlattenedModule}
    (h : FinalizesAll ms outs) : (∀ sub ∈ outs, ∃ x ∈ ms, Finalizes x.2 x.1 sub) ∧
    ∀ x ∈ ms, ∃ sub ∈ outs, Finalizes x.2 x.1 sub := by
  induction ms generalizing outs with
  | nil => cases h; simp
  | cons km ms ih =>
    cases h with
    | @cons k m _ out outs h1 h2 =>
      obtain ⟨i1, i2⟩ := ih h2
      constructor
      · intro sub hs
        rcases List.mem_cons.1 hs with rfl | hs
        · exact ⟨(k, m), by simp, h1⟩
        · obtain ⟨x, hx, hf⟩ := i1 sub hs
          exact ⟨x, by simp [hx], hf⟩
      · intro x hx
        rcases List.mem_cons.1 hx with rfl | hx
        · exact ⟨out, by simp, h1⟩
        · obtain ⟨sub, hs, hf⟩ := i2 x hx
          exact ⟨sub, by simp [hs], hf⟩

/-- Whatever the drain order and the sorting algorithm, the result is proper and has the actions of the
table. -/
theorem finalizes_spec {m : Module} (hw : m.WF) : ∀ {name : Str} {out : FlattenedModule},
    Finalizes m name out → Proper out ∧
      ∀ mods a, HasAction out mods a ↔ m.get mods a.name = some a := by
  induction hw with
  | @mk ms as h1 h2 h3 h4 h5 ih =>
    intro name out hf
    cases hf with
    | @mk _ _ _ drained mods acts hp1 hs1 hf hp2 hs2 =>
      obtain ⟨hm1, hm2⟩ := finalizesAll_mem hf
      have hnames := finalizesAll_names hf
      have hstrict : StrictBy FlattenedModule.name mods := hs2.strict (by
        rw [(hp2.map FlattenedModule.name).nodup_iff, hnames]; exact h3)
      have hkey : (as.map Prod.snd).map FlattenedAction.name = as.map Prod.fst := by
        rw [List.map_map]
        exact List.map_congr_left fun x hx => h2 x hx
      have hact : ∀ mods' a, HasAction (.mk name acts mods) mods' a ↔
          (Module.mk ms as).get mods' a.name = some a := by
        intro mods' a
        cases mods' with
        | nil =>
          rw [hasAction_nil]
          change a ∈ acts ↔ _
          rw [hp1.mem_iff, Module.get]
          constructor
          · intro ha
            obtain ⟨x, hx, rfl⟩ := List.mem_map.1 ha
            exact mapGet_of_mem h1 (by rw [h2 x hx]; exact hx)
          · intro hg
            exact List.mem_map.2 ⟨_, mapGet_mem hg, rfl⟩
        | cons x mods' =>
          rw [hasAction_cons]
          change (∃ sub ∈ mods, _) ↔ _
          simp only [Module.get, Option.bind_eq_some_iff]
          constructor
          · rintro ⟨sub, hs, hn, ha⟩
            obtain ⟨km, hkm, hfin⟩ := hm1 sub (hp2.mem_iff.1 hs)
            have : km.1 = x := by rw [← hn, finalizes_name hfin]
            refine ⟨km.2, mapGet_of_mem h3 (by rw [← this]; exact hkm), ?_⟩
            exact ((ih km hkm hfin).2 _ _).1 ha
          · rintro ⟨sub, hg, ha⟩
            obtain ⟨out, ho, hfin⟩ := hm2 _ (mapGet_mem hg)
            exact ⟨out, hp2.mem_iff.2 ho, finalizes_name hfin, ((ih _ (mapGet_mem hg) hfin).2 _ _).2 ha⟩
      refine ⟨.mk ?_ hstrict ?_ ?_, hact⟩
      · exact hs1.strict (by
          rw [(hp1.map FlattenedAction.name).nodup_iff, hkey]; exact h1)
      · intro sub hs
        obtain ⟨km, hkm, hfin⟩ := hm1 sub (hp2.mem_iff.1 hs)
        exact (ih km hkm hfin).1
      · intro sub hs
        obtain ⟨km, hkm, hfin⟩ := hm1 sub (hp2.mem_iff.1 hs)
        obtain ⟨mods', n, a, ha⟩ := h5 km hkm
        have hn : a.name = n := by
          clear ih hact hfin
          have hw := h4 km hkm
          revert ha
          generalize km.2 = m at hw
          clear hkm
          induction mods' generalizing m with
          | nil =>
            cases hw with
            | mk g1 g2 g3 g4 g5 =>
              intro ha
              simp only [Module.get] at ha
              exact g2 _ (mapGet_mem ha)
          | cons x mods' ihm =>
            cases hw with
            | mk g1 g2 g3 g4 g5 =>
              intro ha
              simp only [Module.get, Option.bind_eq_some_iff] at ha
              obtain ⟨sub, hg, ha⟩ := ha
              exact ihm sub (g4 _ (mapGet_mem hg)) ha
        exact ⟨mods', a, ((ih km hkm hfin).2 _ _).2 (by rw [hn]; exact ha)⟩

mutual
theorem finalize_finalizes : ∀ (m : Module) (name : Str), Finalizes m name (m.finalize name)
  | .mk ms as, name => by
    rw [Module.finalize]
    exact .mk (sortByName_perm _ _) (sortByName_sorted _ _) (finalizeAll_finalizes ms)
      (sortByName_perm _ _) (sortByName_sorted _ _)
theorem finalizeAll_finalizes : ∀ (ms : List (Str × Module)), FinalizesAll ms (finalizeAll ms)
  | [] => by rw [finalizeAll]; exact .nil
  | (k, m) :: ms => by
    rw [finalizeAll]
    exact .cons (by rw [finalizeOne]; exact finalize_finalizes m k) (finalizeAll_finalizes ms)
end

/-- The module tree of a configuration. -/
theorem modulesRoot_spec {r : Routes} {root : FlattenedModule} (h : modulesRoot r = some root) :
    Proper root ∧ root.name = c!"routes" ∧ ∀ mods a, HasAction root mods a ↔ (mods, a) ∈ r.entries := by
  simp only [modulesRoot, Option.map_eq_some_iff] at h
  obtain ⟨m, hm, rfl⟩ := h
  obtain ⟨hw, hg⟩ := (flattenModules_spec r).2 m hm
  have hf := finalize_finalizes m c!"routes"
  obtain ⟨h1, h2⟩ := finalizes_spec hw hf
  refine ⟨h1, finalizes_name hf, fun mods a => ?_⟩
  rw [h2, hg]; simp

end Wayfinder
