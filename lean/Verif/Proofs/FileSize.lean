import Verif.Proofs.Size
import Verif.Proofs.Text
import Verif.Proofs.Clear
import Verif.Spec.FileSize
/-!
# Proofs about the size of the emitted file
-/

namespace Wayfinder

/-! ## Texts without newlines -/

theorem Param.oneLine_iff {p : Param} : p.oneLine = true ↔ '\n' ∉ p.name ∧ '\n' ∉ p.typ := by
  simp only [Param.oneLine, Bool.and_eq_true, Wayfinder.oneLine_iff]

theorem Resource.oneLine_of {x : Resource} (h : x.oneLined = true) : x.oneLine = true := by
  simp only [Resource.oneLined, Resource.oneLine, Bool.and_eq_true, List.all_eq_true] at h ⊢
  exact ⟨h.1, fun p hp => Wayfinder.oneLine_iff.2 (Param.oneLine_iff.1 (h.2 p hp)).1⟩

theorem PathSegment.oneLine_of {s : PathSegment} (h : s.oneLined = true) : s.oneLine = true := by
  cases s with
  | static s => exact h
  | dynamic p => exact Wayfinder.oneLine_iff.2 (Param.oneLine_iff.1 h).1

mutual
theorem Routes.oneLine_of : ∀ {r : Routes}, r.oneLined = true → r.oneLine = true
  | .mk rs ns qs, h => by
    simp only [Routes.oneLined, Routes.oneLine, Bool.and_eq_true, List.all_eq_true] at h ⊢
    exact ⟨⟨fun x hx => Resource.oneLine_of (h.1.1 x hx),
      fun p hp => Wayfinder.oneLine_iff.2 (Param.oneLine_iff.1 (h.1.2 p hp)).1⟩, nestedOneLine_of h.2⟩
theorem nestedOneLine_of : ∀ {ns : List NestedRoutes}, nestedOneLined ns = true → nestedOneLine ns = true
  | [], _ => rfl
  | n :: ns, h => by
    simp only [nestedOneLined, nestedOneLine, Bool.and_eq_true] at h ⊢
    exact ⟨NestedRoutes.oneLine_of h.1, nestedOneLine_of h.2⟩
theorem NestedRoutes.oneLine_of : ∀ {n : NestedRoutes}, n.oneLined = true → n.oneLine = true
  | .mk seg r, h => by
    simp only [NestedRoutes.oneLined, NestedRoutes.oneLine, Bool.and_eq_true] at h ⊢
    exact ⟨PathSegment.oneLine_of h.1, Routes.oneLine_of h.2⟩
end

/-! ## The actions of a configuration -/

/-- No newline in an action. -/
def FlattenedAction.OneLined (a : FlattenedAction) : Prop :=
  '\n' ∉ a.name ∧ (∀ s ∈ a.path, s.oneLined = true) ∧ (∀ p ∈ a.routeParameters, p.oneLine = true) ∧
    ∀ p ∈ a.queryParameters, p.oneLine = true

/-- No newline in a flattened route. -/
def FlattenedRoute.OneLined (v : FlattenedRoute) : Prop :=
  (∀ s ∈ v.path, s.oneLined = true) ∧ (∀ p ∈ v.queryParameters, p.oneLine = true) ∧ ∀ x ∈ v.resources, x.oneLined = true

mutual
theorem flattenRoutes_oneLined : ∀ {r : Routes}, r.oneLined = true → ∀ {path : List PathSegment} {query : List Param},
    (∀ s ∈ path, s.oneLined = true) → (∀ p ∈ query, p.oneLine = true) → ∀ v ∈ flattenRoutes r path query, v.OneLined
  | .mk rs ns qs, h, path, query, hp, hq => by
    simp only [Routes.oneLined, Bool.and_eq_true, List.all_eq_true] at h
    have hq' : ∀ p ∈ query ++ qs, p.oneLine = true := by
      intro p hm
      rcases List.mem_append.1 hm with hm | hm
      exacts [hq p hm, h.1.2 p hm]
    intro v hv
    simp only [flattenRoutes, List.mem_cons] at hv
    rcases hv with rfl | hv
    · exact ⟨hp, hq', h.1.1⟩
    · exact flattenNesteds_oneLined h.2 hp hq' v hv
theorem flattenNesteds_oneLined : ∀ {ns : List NestedRoutes}, nestedOneLined ns = true → ∀ {path : List PathSegment} {query : List Param},
    (∀ s ∈ path, s.oneLined = true) → (∀ p ∈ query, p.oneLine = true) → ∀ v ∈ flattenNesteds ns path query, v.OneLined
  | [], _, _, _, _, _ => by simp [flattenNesteds]
  | n :: ns, h, path, query, hp, hq => by
    simp only [nestedOneLined, Bool.and_eq_true] at h
    intro v hv
    simp only [flattenNesteds, List.mem_append] at hv
    rcases hv with hv | hv
    exacts [flattenNested_oneLined h.1 hp hq v hv, flattenNesteds_oneLined h.2 hp hq v hv]
theorem flattenNested_oneLined : ∀ {n : NestedRoutes}, n.oneLined = true → ∀ {path : List PathSegment} {query : List Param},
    (∀ s ∈ path, s.oneLined = true) → (∀ p ∈ query, p.oneLine = true) → ∀ v ∈ flattenNested n path query, v.OneLined
  | .mk seg r, h, path, query, hp, hq => by
    simp only [NestedRoutes.oneLined, Bool.and_eq_true] at h
    refine flattenRoutes_oneLined h.2 (fun s hs => ?_) hq
    rcases List.mem_append.1 hs with hs | hs
    · exact hp s hs
    · rw [List.mem_singleton.1 hs]; exact h.1
end

theorem entries_oneLined {r : Routes} (h : r.oneLined = true) {mods : List Str} {a : FlattenedAction} (hm : (mods, a) ∈ r.entries) :
    a.OneLined ∧ ∀ x ∈ mods, '\n' ∉ x := by
  simp only [Routes.entries, itemEntries, List.mem_flatMap, FlattenedRoute.entries, List.mem_map, List.mem_filter] at hm
  obtain ⟨v, hv, x, ⟨hx, -⟩, he⟩ := hm
  obtain ⟨h1, h2, h3⟩ := flattenRoutes_oneLined h (path := []) (query := []) (by simp) (by simp) v hv
  have h4 := h3 x hx
  simp only [Resource.oneLined, Bool.and_eq_true, List.all_eq_true] at h4
  cases he
  refine ⟨⟨oneLine_iff.1 h4.1.1, h1, fun p hp => ?_, fun p hp => ?_⟩, fun m hm => oneLine_iff.1 (h4.1.2 m hm)⟩
  · simp only [dynamics, List.mem_filterMap] at hp
    obtain ⟨s, hs, hp⟩ := hp
    cases s with
    | static => simp at hp
    | dynamic q => simp only [Option.some.injEq] at hp; subst hp; exact h1 _ hs
  · rcases List.mem_append.1 hp with hp | hp
    exacts [h2 p hp, h4.2 p hp]

/-- The number of fields of an action. -/
def FlattenedAction.fields (a : FlattenedAction) : Nat := a.routeParameters.length + a.queryParameters.length

theorem route_structs (rs : List Resource) (path : List PathSegment) (query : List Param) :
    (FlattenedRoute.entries ⟨path, rs, query⟩).map (fun e => (e.1, e.2.fields)) =
      (rs.filter fun x => !x.isRedirect).map fun x => (x.modules, (dynamics path).length + query.length + x.queryParameters.length) := by
  simp [FlattenedRoute.entries, FlattenedAction.fields, Function.comp_def, Nat.add_assoc]

mutual
theorem entries_structs : ∀ (r : Routes) (path : List PathSegment) (query : List Param),
    ((flattenRoutes r path query).flatMap FlattenedRoute.entries).map (fun e => (e.1, e.2.fields)) =
      r.structs ((dynamics path).length + query.length)
  | .mk rs ns qs, path, query => by
    simp only [flattenRoutes, List.flatMap_cons, List.map_append, route_structs, entriess_structs ns, Routes.structs,
      List.length_append, Nat.add_assoc]
theorem entriess_structs : ∀ (ns : List NestedRoutes) (path : List PathSegment) (query : List Param),
    ((flattenNesteds ns path query).flatMap FlattenedRoute.entries).map (fun e => (e.1, e.2.fields)) =
      nestedStructs ((dynamics path).length + query.length) ns
  | [], _, _ => rfl
  | n :: ns, path, query => by
    simp only [flattenNesteds, List.flatMap_append, List.map_append, entry_structs n, entriess_structs ns, nestedStructs]
theorem entry_structs : ∀ (n : NestedRoutes) (path : List PathSegment) (query : List Param),
    ((flattenNested n path query).flatMap FlattenedRoute.entries).map (fun e => (e.1, e.2.fields)) =
      n.structs ((dynamics path).length + query.length)
  | .mk (.static s) r, path, query => by
    simp only [flattenNested, entries_structs r, NestedRoutes.structs]
    simp [dynamics]
  | .mk (.dynamic p) r, path, query => by
    simp only [flattenNested, entries_structs r, NestedRoutes.structs]
    have : (dynamics (path ++ [.dynamic p])).length = (dynamics path).length + 1 := by simp [dynamics]
    rw [this]; congr 1; omega
end

theorem Routes.entries_structs (r : Routes) : r.entries.map (fun e => (e.1, e.2.fields)) = r.structs 0 := by
  simp only [Routes.entries, itemEntries, Wayfinder.entries_structs]; rfl

/-! ## The actions and modules of a tree -/

mutual
/-- All actions of a tree of modules, with their modules. -/
def FlattenedModule.all : FlattenedModule → List (List Str × FlattenedAction)
  | .mk _ as ms => as.map (fun a => ([], a)) ++ allOf ms
/-- All actions of a list of modules. -/
def allOf : List FlattenedModule → List (List Str × FlattenedAction)
  | [] => []
  | m :: ms => m.all.map (fun e => (m.name :: e.1, e.2)) ++ allOf ms
end

mutual
/-- The names of all modules of a tree. -/
def FlattenedModule.places : FlattenedModule → List (List Str)
  | .mk _ _ ms => placesOf ms
/-- The names of all modules of a list and inside of them. -/
def placesOf : List FlattenedModule → List (List Str)
  | [] => []
  | m :: ms => [m.name] :: (m.places.map (m.name :: ·) ++ placesOf ms)
end

theorem mem_allOf : ∀ {ms : List FlattenedModule} {e : List Str × FlattenedAction},
    e ∈ allOf ms ↔ ∃ m ∈ ms, ∃ mods, e.1 = m.name :: mods ∧ (mods, e.2) ∈ m.all
  | [], e => by simp [allOf]
  | m :: ms, e => by
    simp only [allOf, List.mem_append, List.mem_map, mem_allOf (ms := ms), List.mem_cons, exists_eq_or_imp]
    refine or_congr_left ⟨?_, ?_⟩
    · rintro ⟨e', h, rfl⟩; exact ⟨_, rfl, h⟩
    · rintro ⟨mods, h1, h2⟩; exact ⟨_, h2, by rw [← h1]⟩

theorem mem_placesOf : ∀ {ms : List FlattenedModule} {p : List Str},
    p ∈ placesOf ms ↔ ∃ m ∈ ms, ∃ rest, p = m.name :: rest ∧ (rest = [] ∨ rest ∈ m.places)
  | [], p => by simp [placesOf]
  | m :: ms, p => by
    simp only [placesOf, List.mem_append, List.mem_map, mem_placesOf (ms := ms), List.mem_cons, exists_eq_or_imp, ← or_assoc]
    refine or_congr_left ⟨?_, ?_⟩
    · rintro (rfl | ⟨rest, h, rfl⟩)
      exacts [⟨[], rfl, .inl rfl⟩, ⟨rest, rfl, .inr h⟩]
    · rintro ⟨rest, rfl, rfl | h⟩
      exacts [.inl rfl, .inr ⟨rest, h, rfl⟩]

theorem all_of {m : FlattenedModule} {mods : List Str} {a : FlattenedAction} (h : HasAction m mods a) : (mods, a) ∈ m.all := by
  induction h with
  | @here m a h => cases m; simpa [FlattenedModule.all] using .inl h
  | @inside m sub mods a hs _ ih =>
    cases m
    simp only [FlattenedModule.all, List.mem_append]
    exact .inr (mem_allOf.2 ⟨sub, hs, mods, rfl, ih⟩)

mutual
theorem of_all : ∀ (m : FlattenedModule) {mods : List Str} {a : FlattenedAction}, (mods, a) ∈ m.all → HasAction m mods a
  | .mk n as ms, mods, a, h => by
    simp only [FlattenedModule.all, List.mem_append, List.mem_map, Prod.mk.injEq] at h
    rcases h with ⟨a', ha, rfl, rfl⟩ | h
    · exact .here ha
    · obtain ⟨sub, mods', hs, rfl, h'⟩ := of_allOf ms h
      exact .inside hs h'
theorem of_allOf : ∀ (ms : List FlattenedModule) {mods : List Str} {a : FlattenedAction}, (mods, a) ∈ allOf ms →
    ∃ sub mods', sub ∈ ms ∧ mods = sub.name :: mods' ∧ HasAction sub mods' a
  | [], _, _, h => by simp [allOf] at h
  | m :: ms, mods, a, h => by
    simp only [allOf, List.mem_append, List.mem_map, Prod.mk.injEq] at h
    rcases h with ⟨e, he, rfl, rfl⟩ | h
    · exact ⟨m, e.1, by simp, rfl, of_all m he⟩
    · obtain ⟨sub, mods', hs, h1, h2⟩ := of_allOf ms h
      exact ⟨sub, mods', by simp [hs], h1, h2⟩
end

theorem mem_all {m : FlattenedModule} {mods : List Str} {a : FlattenedAction} : (mods, a) ∈ m.all ↔ HasAction m mods a :=
  ⟨of_all m, all_of⟩

theorem places_of {m node : FlattenedModule} {p : List Str} (h : HasModule m p node) : p = [] ∨ p ∈ m.places := by
  induction h with
  | here => exact .inl rfl
  | @inside m sub node mods hs _ ih =>
    cases m
    exact .inr (by simp only [FlattenedModule.places]; exact mem_placesOf.2 ⟨sub, hs, mods, rfl, ih⟩)

mutual
theorem of_places : ∀ (m : FlattenedModule) {p : List Str}, p ∈ m.places → p ≠ [] ∧ ∃ node, HasModule m p node
  | .mk n as ms, p, h => by
    obtain ⟨sub, rest, hs, rfl, node, hn⟩ := of_placesOf ms (by simpa only [FlattenedModule.places] using h)
    exact ⟨by simp, node, .inside hs hn⟩
theorem of_placesOf : ∀ (ms : List FlattenedModule) {p : List Str}, p ∈ placesOf ms →
    ∃ sub rest, sub ∈ ms ∧ p = sub.name :: rest ∧ ∃ node, HasModule sub rest node
  | [], _, h => by simp [placesOf] at h
  | m :: ms, p, h => by
    simp only [placesOf, List.mem_cons, List.mem_append, List.mem_map] at h
    rcases h with rfl | ⟨rest, hr, rfl⟩ | h
    · exact ⟨m, [], by simp, rfl, m, .here _⟩
    · exact ⟨m, rest, by simp, rfl, (of_places m hr).2⟩
    · obtain ⟨sub, rest, hs, h1, h2⟩ := of_placesOf ms h
      exact ⟨sub, rest, by simp [hs], h1, h2⟩
end

theorem strict_nodup {α : Type} {key : α → Str} {l : List α} (h : StrictBy key l) : (l.map key).Nodup := by
  rw [List.Nodup, List.pairwise_map]
  refine List.Pairwise.imp ?_ h
  intro a b hab he
  rw [he] at hab
  rw [(Str.orderCmp.eq_iff _ _).2 rfl] at hab
  cases hab

mutual
theorem all_nodup : ∀ (m : FlattenedModule), Proper m → m.all.Nodup
  | .mk n as ms, h => by
    cases h with
    | mk h1 h2 h3 h4 =>
      simp only [FlattenedModule.all]
      refine List.Nodup.append ?_ (allOf_nodup ms (strict_nodup h2) h3) ?_
      · exact (strict_nodup h1).of_map.map fun a b h => by simpa using h
      · intro e he hb
        obtain ⟨a, -, rfl⟩ := List.mem_map.1 he
        obtain ⟨m, -, mods, h', -⟩ := mem_allOf.1 hb
        simp at h'
theorem allOf_nodup : ∀ (ms : List FlattenedModule), (ms.map FlattenedModule.name).Nodup → (∀ m ∈ ms, Proper m) → (allOf ms).Nodup
  | [], _, _ => by simp [allOf]
  | m :: ms, h, hp => by
    simp only [List.map_cons, List.nodup_cons, List.mem_map, not_exists, not_and] at h
    simp only [allOf]
    refine List.Nodup.append ?_ (allOf_nodup ms h.2 fun m hm => hp m (by simp [hm])) ?_
    · refine (all_nodup m (hp m (by simp))).map ?_
      rintro ⟨x, a⟩ ⟨y, b⟩ he
      simpa using he
    · intro e he hb
      obtain ⟨e', -, rfl⟩ := List.mem_map.1 he
      obtain ⟨m', hm', mods, h', -⟩ := mem_allOf.1 hb
      simp only [List.cons.injEq] at h'
      exact h.1 m' hm' h'.1.symm
end

mutual
theorem places_nodup : ∀ (m : FlattenedModule), Proper m → m.places.Nodup
  | .mk n as ms, h => by
    cases h with
    | mk h1 h2 h3 h4 => simpa only [FlattenedModule.places] using placesOf_nodup ms (strict_nodup h2) h3
theorem placesOf_nodup : ∀ (ms : List FlattenedModule), (ms.map FlattenedModule.name).Nodup → (∀ m ∈ ms, Proper m) → (placesOf ms).Nodup
  | [], _, _ => by simp [placesOf]
  | m :: ms, h, hp => by
    simp only [List.map_cons, List.nodup_cons, List.mem_map, not_exists, not_and] at h
    simp only [placesOf, List.nodup_cons, List.mem_append, List.mem_map, not_or]
    have hout : ∀ rest, m.name :: rest ∉ placesOf ms := by
      intro rest hb
      obtain ⟨m', hm', _, h', -⟩ := mem_placesOf.1 hb
      simp only [List.cons.injEq] at h'
      exact h.1 m' hm' h'.1.symm
    refine ⟨⟨?_, hout []⟩, List.Nodup.append ?_ (placesOf_nodup ms h.2 fun m hm => hp m (by simp [hm])) ?_⟩
    · rintro ⟨rest, hr, he⟩
      simp only [List.cons.injEq, true_and] at he
      exact (of_places m hr).1 he
    · refine (places_nodup m (hp m (by simp))).map ?_
      intro x y he
      simpa using he
    · intro e he hb
      obtain ⟨e', -, rfl⟩ := List.mem_map.1 he
      exact hout _ hb
end

variable {r : Routes} {root : FlattenedModule}

theorem all_perm (h : modulesRoot r = some root) : root.all.Perm r.entries := by
  have hn : r.entries.Nodup := by
    cases hf : flattenModules r with
    | none => simp [modulesRoot, hf] at h
    | some m => exact ((flattenModules_spec r).1.1 ⟨m, hf⟩).of_map
  refine (List.perm_ext_iff_of_nodup (all_nodup root (modulesRoot_spec h).1) hn).2 ?_
  rintro ⟨mods, a⟩
  rw [mem_all, (modulesRoot_spec h).2.2]

theorem places_perm (h : modulesRoot r = some root) : root.places.Perm r.moduleNames := by
  refine (List.perm_ext_iff_of_nodup (places_nodup root (modulesRoot_spec h).1) (List.nodup_dedup _)).2 ?_
  intro p
  simp only [Routes.moduleNames, List.mem_dedup, List.mem_flatMap, List.mem_filter, List.mem_inits, ← r.entries_structs,
    List.mem_map, decide_eq_true_eq, ne_eq]
  constructor
  · intro hp
    obtain ⟨hne, node, hn⟩ := of_places root hp
    obtain ⟨mods', a, ha⟩ := C24_no_empty h hn hne
    exact ⟨_, ⟨_, (modulesRoot_spec h).2.2 _ _ |>.1 ha, rfl⟩, ⟨mods', rfl⟩, hne⟩
  · rintro ⟨_, ⟨⟨mods, a⟩, he, rfl⟩, ⟨rest, hr⟩, hne⟩
    have ha := (modulesRoot_spec h).2.2 _ _ |>.2 he
    simp only at hr
    rw [← hr] at ha
    obtain ⟨node, hn, -⟩ := Rust.hasModule_of ha
    exact (places_of hn).resolve_left hne

/-! ## Lines -/

theorem line_count (k : Nat) (s : Str) : lineCount (line k s) = 1 + lineCount s := by
  simp only [line, lineCount_append, lineCount_zero (ind_no k)]
  have : lineCount c!"\n" = 1 := rfl
  omega

theorem flatten_count {α : Type} (f : α → Str) (l : List α) : lineCount (l.map f).flatten = (l.map fun a => lineCount (f a)).sum := by
  induction l with
  | nil => rfl
  | cons a l ih => simp [lineCount_append, ih]

theorem display_no (m : Method) : '\n' ∉ m.display := by cases m <;> decide

theorem path_no {dyn : Str → Str} (hd : ∀ p, '\n' ∉ p → '\n' ∉ dyn p) : ∀ (cs : List Charlike),
    (∀ c ∈ cs, match c with | .static c => c ≠ '\n' | .dynamic p => '\n' ∉ p | .separator => True) → '\n' ∉ renderPath dyn cs
  | [], _ => by simp [renderPath]
  | .static s :: rest, h => by
    have := h _ (List.mem_cons_self ..)
    simp only at this
    simp [renderPath, path_no hd rest fun c hc => h c (List.mem_cons_of_mem _ hc), Ne.symm this]
  | .dynamic p :: rest, h => by
    have := h _ (List.mem_cons_self ..)
    simp only at this
    simp [renderPath, path_no hd rest fun c hc => h c (List.mem_cons_of_mem _ hc), hd p this]
  | .separator :: [], _ => by simp [renderPath]
  | .separator :: c :: rest, h => by
    have := path_no hd (c :: rest) fun c hc => h c (List.mem_cons_of_mem _ hc)
    simp [renderPath, this]

theorem charlikes_no {segs : List PathSegment} (h : ∀ s ∈ segs, s.oneLined = true) :
    ∀ c ∈ charlikes segs, match c with | .static c => c ≠ '\n' | .dynamic p => '\n' ∉ p | .separator => True := by
  intro c hc
  simp only [charlikes, List.mem_flatten, List.mem_map] at hc
  obtain ⟨_, ⟨s, hs, rfl⟩, hc⟩ := hc
  have h1 := h s hs
  cases s with
  | static t =>
    have h1 := oneLine_iff.1 h1
    simp only [PathSegment.charlikes, List.mem_append, List.mem_map, List.mem_singleton] at hc
    rcases hc with ⟨x, hx, rfl⟩ | rfl
    · exact fun e => h1 (e ▸ hx)
    · trivial
  | dynamic p =>
    simp only [PathSegment.charlikes, List.mem_cons, List.not_mem_nil, or_false] at hc
    rcases hc with rfl | rfl
    · exact (Param.oneLine_iff.1 h1).1
    · trivial

theorem sum_ones {α : Type} {f : α → Nat} {l : List α} (h : ∀ a ∈ l, f a = 1) : (l.map f).sum = l.length := by
  induction l with
  | nil => rfl
  | cons a l ih =>
    simp only [List.map_cons, List.sum_cons, List.length_cons, h a (by simp), ih fun b hb => h b (by simp [hb])]
    omega

theorem flatten_no {α : Type} {f : α → Str} {l : List α} (h : ∀ a ∈ l, '\n' ∉ f a) : '\n' ∉ (l.map f).flatten := by
  simp only [List.mem_flatten, List.mem_map, not_exists, not_and]
  rintro _ ⟨a, ha, rfl⟩
  exact h a ha

theorem action_count {a : FlattenedAction} (h : a.OneLined) (k : Nat) :
    lineCount (renderAction k a) + 2 = structLines a.fields := by
  obtain ⟨h1, h2, h3, h4⟩ := h
  have hc := caps_no h1
  have hd := display_no a.method
  have hp1 := path_no (dyn := fun p => c!"{" ++ p ++ c!"}") (fun p hp => by simp [hp]) _ (charlikes_no h2)
  have hp2 := path_no (dyn := fun _ => c!"{}") (fun p hp => by decide) _ (charlikes_no h2)
  have hb : '\n' ∉ (a.bound.map fun x => c!"ref " ++ x ++ c!", ").flatten := by
    refine flatten_no fun x hx => ?_
    simp only [FlattenedAction.bound, List.mem_append, List.mem_map] at hx
    rcases hx with ⟨p, hp, rfl⟩ | ⟨p, hp, rfl⟩
    · simp [(Param.oneLine_iff.1 (h3 p hp)).1]
    · simp [(Param.oneLine_iff.1 (h4 p hp)).1]
  have hf : '\n' ∉ (a.formatArgs.map fun x => c!", " ++ x).flatten := by
    refine flatten_no fun x hx => ?_
    simp only [FlattenedAction.formatArgs, List.mem_map] at hx
    obtain ⟨p, hp, rfl⟩ := hx
    simp [(Param.oneLine_iff.1 (h3 p hp)).1]
  have hr : (a.routeParameters.map fun p => lineCount (line (k + 1) (c!"pub " ++ p.name ++ c!": " ++ p.typ ++ c!","))).sum = a.routeParameters.length :=
    sum_ones fun p hp => lineCount_line (by have := Param.oneLine_iff.1 (h3 p hp); simp [this]) _
  have hq : (a.queryParameters.map fun p => lineCount (line (k + 1) (c!"pub " ++ p.name ++ c!": Option<" ++ p.typ ++ c!">,"))).sum = a.queryParameters.length :=
    sum_ones fun p hp => lineCount_line (by have := Param.oneLine_iff.1 (h4 p hp); simp [this]) _
  have hn : lineCount c!"\n" = 1 := rfl
  have e1 : lineCount (line k (c!"/// Renders for `" ++ a.method.display ++ c!" /" ++ renderPath (fun p => c!"{" ++ p ++ c!"}") (charlikes a.path) ++ c!"`.")) = 1 :=
    lineCount_line (by simp only [List.mem_append, hd, hp1, not_or, not_false_eq_true, and_true]; decide) _
  have e2 : lineCount (line k c!"#[derive(Debug, PartialEq, Eq)]") = 1 := lineCount_line (by decide) _
  have e3 : lineCount (line k (c!"pub struct " ++ toCapsCase a.name ++ c!";")) = 1 := lineCount_line (by simp [hc]) _
  have e4 : lineCount (line k (c!"pub struct " ++ toCapsCase a.name ++ c!" {")) = 1 := lineCount_line (by simp [hc]) _
  have e5 : lineCount (line k c!"}") = 1 := lineCount_line (by decide) _
  have e6 : lineCount (line k (c!"impl " ++ toCapsCase a.name ++ c!" {")) = 1 := lineCount_line (by simp [hc]) _
  have e7 : lineCount (line (k + 1) c!"/// Make a path to this route with the given parameters.") = 1 := lineCount_line (by decide +kernel) _
  have e8 : lineCount (line (k + 1) c!"pub fn to_path(&self) -> String {") = 1 := lineCount_line (by decide) _
  have e9 : lineCount (line (k + 2) (c!"let " ++ toCapsCase a.name ++ c!" { " ++ (a.bound.map fun x => c!"ref " ++ x ++ c!", ").flatten ++ c!"} = self;")) = 1 :=
    lineCount_line (by simp only [List.mem_append, hc, hb, not_or, not_false_eq_true, and_true]; decide) _
  have e10 : lineCount (line (k + 2) (c!"format!(\"" ++ a.template ++ c!"\"" ++ (a.formatArgs.map fun x => c!", " ++ x).flatten ++ c!")")) = 1 :=
    lineCount_line (by simp only [FlattenedAction.template, List.mem_append, hp2, hf, not_or, not_false_eq_true, and_true]; decide) _
  have e11 : lineCount (line (k + 1) c!"}") = 1 := lineCount_line (by decide) _
  have e0 : lineCount [] = 0 := rfl
  by_cases hnp : (a.routeParameters.isEmpty && a.queryParameters.isEmpty) = true
  · have h0 : a.fields = 0 := by
      simp only [Bool.and_eq_true, List.isEmpty_iff] at hnp
      simp [FlattenedAction.fields, hnp]
    simp only [renderAction, hnp, if_true, lineCount_append, e1, e2, e3, e5, e6, e7, e8, e10, e11, hn, e0, structLines, h0]
  · have h0 : a.fields ≠ 0 := by
      intro h0
      simp only [FlattenedAction.fields, Nat.add_eq_zero_iff, List.length_eq_zero_iff] at h0
      simp [h0] at hnp
    simp only [renderAction, hnp, if_false, lineCount_append, flatten_count, e1, e2, e4, e5, e6, e7, e8, e9, e10, e11, hn, hr, hq, structLines, if_neg h0,
      Bool.false_eq_true]
    simp only [FlattenedAction.fields]
    omega

theorem headers_count (k : Nat) (hs : List Header) : lineCount (renderHeaders k hs) = headerLines hs := by
  cases hs with
  | nil => rfl
  | cons h hs =>
    simp only [renderHeaders, headerLines, lineCount_append, flatten_count, line_count, List.length_cons, reduceCtorEq, if_false]
    rw [if_pos (by omega)]
    rfl

theorem enum_count {k : Nat} {name : Str} {as : List FlattenedAction} {ms : List FlattenedModule} (hn : '\n' ∉ name)
    (ha : ∀ a ∈ as, '\n' ∉ a.name) (hm : ∀ m ∈ ms, '\n' ∉ m.name) :
    lineCount (renderRouteEnum k name as ms) = 12 + 2 * as.length + 2 * ms.length := by
  have a1 : (as.map fun a => lineCount (line (k + 1) (toCapsCase a.name ++ c!"(" ++ toCapsCase a.name ++ c!"),"))).sum = as.length :=
    sum_ones fun a h => lineCount_line (by simp [caps_no (ha a h)]) _
  have a2 : (as.map fun a => lineCount (line (k + 3) (c!"Route::" ++ toCapsCase a.name ++ c!"(ref route) => route.to_path(),"))).sum = as.length :=
    sum_ones fun a h => lineCount_line (by simp [caps_no (ha a h)]) _
  have m1 : (ms.map fun m => lineCount (line (k + 1) (toCapsCase m.name ++ c!"(" ++ toSnakeCase m.name ++ c!"::Route),"))).sum = ms.length :=
    sum_ones fun m h => lineCount_line (by simp [caps_no (hm m h), snake_no (hm m h)]) _
  have m2 : (ms.map fun m => lineCount (line (k + 3) (c!"Route::" ++ toCapsCase m.name ++ c!"(ref route) => route.to_path(),"))).sum = ms.length :=
    sum_ones fun m h => lineCount_line (by simp [caps_no (hm m h)]) _
  have e0 : lineCount (if k = 1 then line k c!"/// An active route in the application -- match against this."
      else line k (c!"/// Parameters for requests to the " ++ toSnakeCase name ++ c!" controller.")) = 1 := by
    split
    · exact lineCount_line (by decide +kernel) _
    · exact lineCount_line (by simp [snake_no hn]) _
  have e1 : lineCount (line k c!"#[derive(Debug, PartialEq, Eq)]") = 1 := lineCount_line (by decide) _
  have e2 : lineCount (line k c!"pub enum Route {") = 1 := lineCount_line (by decide) _
  have e3 : lineCount (line k c!"}") = 1 := lineCount_line (by decide) _
  have e4 : lineCount (line k c!"impl Route {") = 1 := lineCount_line (by decide) _
  have e5 : lineCount (line (k + 1) c!"/// Make a path to this route with the given parameters.") = 1 := lineCount_line (by decide +kernel) _
  have e6 : lineCount (line (k + 1) c!"pub fn to_path(&self) -> String {") = 1 := lineCount_line (by decide) _
  have e7 : lineCount (line (k + 2) c!"match self {") = 1 := lineCount_line (by decide) _
  have e8 : lineCount (line (k + 2) c!"}") = 1 := lineCount_line (by decide) _
  have e9 : lineCount (line (k + 1) c!"}") = 1 := lineCount_line (by decide) _
  have e10 : lineCount c!"\n" = 1 := rfl
  simp only [renderRouteEnum, lineCount_append, flatten_count, a1, a2, m1, m2, e0, e1, e2, e3, e4, e5, e6, e7, e8, e9, e10]
  omega

/-- No newline in a tree of modules. -/
def TreeOneLined (m : FlattenedModule) : Prop :=
  (∀ mods a, HasAction m mods a → a.OneLined ∧ ∀ x ∈ mods, '\n' ∉ x) ∧ '\n' ∉ m.name

theorem actions_sum {as : List FlattenedAction} {k : Nat} (h : ∀ a ∈ as, a.OneLined) :
    lineCount (as.map (renderAction k)).flatten + 2 * as.length = ((as.map fun a => (([] : List Str), a)).map fun e => structLines e.2.fields).sum := by
  induction as with
  | nil => rfl
  | cons a as ih =>
    have h1 := action_count (h a (by simp)) k
    have h2 := ih fun b hb => h b (by simp [hb])
    simp only [List.map_cons, List.flatten_cons, lineCount_append, List.sum_cons, List.length_cons] at h2 ⊢
    omega

mutual
theorem module_count (hs : List Header) : ∀ (m : FlattenedModule) (k : Nat), Proper m → TreeOneLined m →
    lineCount (renderModule hs k m) = 12 + headerLines hs + (m.all.map fun e => structLines e.2.fields).sum
      + (17 + headerLines hs) * m.places.length
  | .mk n as ms, k, hp, ht => by
    have ha : ∀ a ∈ as, a.OneLined := fun a h => (ht.1 [] a (.here h)).1
    cases hp with
    | mk h1 h2 h3 h4 =>
      have hm : ∀ m ∈ ms, TreeOneLined m := by
        intro m hm
        refine ⟨fun mods a h => ?_, ?_⟩
        · obtain ⟨e1, e2⟩ := ht.1 _ _ (HasAction.inside hm h)
          exact ⟨e1, fun x hx => e2 x (by simp [hx])⟩
        · obtain ⟨mods, a, h⟩ := h4 m hm
          exact (ht.1 _ _ (HasAction.inside hm h)).2 _ (by simp)
      have e1 := enum_count (k := k) ht.2 (fun a h => (ha a h).1) fun m h => (hm m h).2
      have e2 := modules_count hs ms k h3 hm
      have e3 := actions_sum (k := k) ha
      simp only [FlattenedModule.name] at e1
      simp only [renderModule, FlattenedModule.all, FlattenedModule.places, lineCount_append, headers_count, e1, List.map_append, List.sum_append]
      omega
theorem modules_count (hs : List Header) : ∀ (ms : List FlattenedModule) (k : Nat), (∀ m ∈ ms, Proper m) → (∀ m ∈ ms, TreeOneLined m) →
    lineCount (renderSubmodules hs k ms) + 2 * ms.length = ((allOf ms).map fun e => structLines e.2.fields).sum
      + (17 + headerLines hs) * (placesOf ms).length
  | [], _, _, _ => rfl
  | m :: ms, k, hp, ht => by
    have e1 := module_count hs m (k + 1) (hp m (by simp)) (ht m (by simp))
    have e2 := modules_count hs ms k (fun m h => hp m (by simp [h])) fun m h => ht m (by simp [h])
    have e3 : lineCount (renderSubmodule hs k m) = 3 + lineCount (renderModule hs (k + 1) m) := by
      have hn := (ht m (by simp)).2
      obtain ⟨n, as, subs⟩ := m
      simp only [FlattenedModule.name] at hn
      have e0 : lineCount c!"\n" = 1 := rfl
      simp only [renderSubmodule, renderModule, lineCount_append, e0,
        lineCount_line (s := c!"}") (by decide), lineCount_line (s := c!"pub mod " ++ toSnakeCase n ++ c!" {") (by simp [snake_no hn])]
      clear e1 e2
      omega
    simp only [renderSubmodules, allOf, placesOf, lineCount_append, List.map_append, List.sum_append, List.length_cons, List.length_append,
      List.length_map, List.map_map, Function.comp_def, e3]
    rw [e1]
    simp only [Nat.mul_add, Nat.mul_one] at e2 ⊢
    omega
end

/-! ## The comment -/

theorem indent_no (k : Nat) : '\n' ∉ indent k := by
  unfold indent
  split <;> decide

theorem paramDisplay_no {p : Param} (h : p.oneLine = true) : '\n' ∉ p.display := by
  have := Param.oneLine_iff.1 h
  simp [Param.display, this]

theorem resource_count {x : Resource} (h : x.oneLined = true) (k : Nat) :
    lineCount (x.stringify k) = 1 + x.queryParameters.length := by
  simp only [Resource.oneLined, Bool.and_eq_true, List.all_eq_true] at h
  have hm : '\n' ∉ (x.modules.map fun m => m ++ c!"::").flatten :=
    flatten_no fun m hm => by simp [oneLine_iff.1 (h.1.2 m hm)]
  have hq : (x.queryParameters.map fun p => lineCount (c!"\n" ++ indent (k + 1) ++ c!"[" ++ p.display ++ c!"]")).sum = x.queryParameters.length :=
    sum_ones fun p hp => by
      simp only [lineCount_append, lineCount_zero (indent_no _), lineCount_zero (paramDisplay_no (h.2 p hp))]; rfl
  rw [← flatten_count] at hq
  have hr : lineCount (if x.isRedirect then c!" ->" else c!"") = 0 := by split <;> rfl
  simp only [Resource.stringify, lineCount_append, hq, lineCount_zero hm, lineCount_zero (indent_no k),
    lineCount_zero (display_no x.method), hr, lineCount_zero (oneLine_iff.1 h.1.1)]
  have e1 : lineCount c!"\n" = 1 := rfl
  have e2 : lineCount c!" " = 0 := rfl
  omega

theorem segment_no {s : PathSegment} (h : s.oneLined = true) : '\n' ∉ s.stringify := by
  cases s with
  | static s => exact oneLine_iff.1 h
  | dynamic p => simp [PathSegment.stringify, paramDisplay_no h]

mutual
theorem routes_count : ∀ {r : Routes}, r.oneLined = true → ∀ (k : Nat), lineCount (r.stringify k) = r.itemCount
  | .mk rs ns qs, h, k => by
    simp only [Routes.oneLined, Bool.and_eq_true, List.all_eq_true] at h
    have e1 : (qs.map fun p => lineCount (indent k ++ c!"[" ++ p.display ++ c!"]\n")).sum = qs.length :=
      sum_ones fun p hp => by
        simp only [lineCount_append, lineCount_zero (indent_no _), lineCount_zero (paramDisplay_no (h.1.2 p hp))]; rfl
    have e2 : (rs.map fun x => lineCount (x.stringify k)) = rs.map fun x => 1 + x.queryParameters.length :=
      List.map_congr_left fun x hx => resource_count (h.1.1 x hx) k
    rw [← flatten_count] at e1
    simp only [Routes.stringify, stringifyParams, stringifyResources, lineCount_append, e1, nesteds_count h.2, Routes.itemCount]
    rw [flatten_count, e2]
theorem nesteds_count : ∀ {ns : List NestedRoutes}, nestedOneLined ns = true → ∀ (k : Nat), lineCount (stringifyNested ns k) = nestedItemCount ns
  | [], _, _ => rfl
  | n :: ns, h, k => by
    simp only [nestedOneLined, Bool.and_eq_true] at h
    simp only [stringifyNested, lineCount_append, nestedItemCount, nested_count h.1, nesteds_count h.2]
theorem nested_count : ∀ {n : NestedRoutes}, n.oneLined = true → ∀ (k : Nat), lineCount (n.stringify k) = n.itemCount
  | .mk seg r, h, k => by
    simp only [NestedRoutes.oneLined, Bool.and_eq_true] at h
    simp only [NestedRoutes.stringify, lineCount_append, NestedRoutes.itemCount, routes_count h.2, lineCount_zero (indent_no k),
      lineCount_zero (segment_no h.1)]
    have e1 : lineCount c!"\n" = 1 := rfl
    omega
end

theorem commentLines_count (s : Str) : lineCount (commentLines s) = lineCount s := by
  induction s with
  | nil => rfl
  | cons c s ih =>
    have e : commentLines (c :: s) = (if c = '\n' then c!"\n    //! " else [c]) ++ commentLines s := by simp [commentLines]
    rw [e, lineCount_append, ih]
    by_cases hc : c = '\n'
    · subst hc
      have : lineCount ('\n' :: s) = 1 + lineCount s := by simp [lineCount, Nat.add_comm]
      rw [this]; rfl
    · have : lineCount (c :: s) = lineCount s := by simp [lineCount, hc]
      rw [if_neg hc, this, lineCount_zero (s := [c]) (by simpa using Ne.symm hc)]; omega

end Wayfinder
