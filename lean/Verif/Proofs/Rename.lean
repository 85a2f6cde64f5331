import Verif.Spec.Rename
import Verif.Spec.Open
import Verif.Spec.Shape
import Verif.Proofs.Compose
import Verif.Proofs.Classify
/-!
# Renaming path parameters
-/

namespace Wayfinder

variable {f : Str → Str}

theorem renameL_eq (f : Str → Str) : ∀ ns, renameL f ns = ns.map (NestedRoutes.rename f)
  | [] => rfl
  | n :: ns => by simp [renameL, renameL_eq f ns]

@[simp] theorem NestedRoutes.pathSegment_rename (n : NestedRoutes) :
    (n.rename f).pathSegment = n.pathSegment.rename f := by cases n; rfl

@[simp] theorem Routes.routes_rename (r : Routes) : (r.rename f).routes = r.routes.map (NestedRoutes.rename f) := by
  cases r; simp [Routes.rename, renameL_eq]

@[simp] theorem Routes.resources_rename (r : Routes) : (r.rename f).resources = r.resources := by
  cases r; rfl

@[simp] theorem Routes.queryParameters_rename (r : Routes) :
    (r.rename f).queryParameters = r.queryParameters := by
  cases r; rfl

theorem staticTexts_rename (ns : List NestedRoutes) :
    staticTexts (ns.map (NestedRoutes.rename f)) = staticTexts ns := by
  simp only [staticTexts, List.filterMap_map]
  congr 1
  funext n
  cases n with
  | mk seg r => cases seg <;> rfl

theorem paramNames_rename (ns : List NestedRoutes) :
    paramNames (ns.map (NestedRoutes.rename f)) = (paramNames ns).map f := by
  simp only [paramNames, List.filterMap_map, List.map_filterMap]
  congr 1
  funext n
  cases n with
  | mk seg r => cases seg <;> rfl

theorem minName_rename {a b : Str} (h1 : a ≤ b → f a ≤ f b) (h2 : b ≤ a → f b ≤ f a) :
    minName (f a) (f b) = f (minName a b) := by
  unfold minName
  by_cases h : a ≤ b
  · rw [if_pos h, if_pos (h1 h)]
  · have hba : b ≤ a := (List.le_total a b).resolve_left h
    rw [if_neg h]
    by_cases h' : f a ≤ f b
    · rw [if_pos h']; exact List.le_antisymm h' (h2 hba)
    · rw [if_neg h']

theorem foldl_minName_rename : ∀ (l : List Str) (x : Str),
    (∀ a ∈ x :: l, ∀ b ∈ x :: l, a ≤ b → f a ≤ f b) →
    (l.map f).foldl minName (f x) = f (l.foldl minName x)
  | [], x, _ => rfl
  | y :: l, x, h => by
    simp only [List.map_cons, List.foldl_cons]
    rw [minName_rename (h x (by simp) y (by simp)) (h y (by simp) x (by simp))]
    refine foldl_minName_rename l _ fun a ha b hb => ?_
    have hm : minName x y ∈ x :: y :: l := by unfold minName; split <;> simp
    have sub : ∀ c ∈ minName x y :: l, c ∈ x :: y :: l := by
      intro c hc
      rcases List.mem_cons.1 hc with rfl | hc
      · exact hm
      · simp [hc]
    exact h a (sub a ha) b (sub b hb)

theorem captor_rename {ns : List NestedRoutes}
    (h : ∀ x ∈ paramNames ns, ∀ y ∈ paramNames ns, x ≤ y → f x ≤ f y) :
    captor (ns.map (NestedRoutes.rename f)) = (captor ns).map f := by
  unfold captor
  rw [paramNames_rename]
  cases hp : paramNames ns with
  | nil => rfl
  | cons x l =>
    rw [hp] at h
    simp [foldl_minName_rename l x h]

/-! ## The reference router -/

/-- Captured values under renamed parameters. -/
def Caps.rename {W : World} (f : Str → Str) (caps : Caps W) : Caps W :=
  caps.map fun pv => (⟨f pv.1.name, pv.1.typ⟩, pv.2)

theorem answer_rename {W : World} (rs : List Resource) (q : List Param) (caps : Caps W) (m : Bytes) :
    answer rs q (caps.rename f) m = (answer rs q caps m).rename f := by
  unfold answer
  cases rs.find? fun r => r.method.bytes = m with
  | none => rfl
  | some r =>
    simp only [Caps.rename, List.map_map]
    split <;> simp [Outcome.rename, Function.comp_def]

theorem atEnd_rename {W : World} (m : Bytes) (r : Routes) (q : List Param) (caps : Caps W) :
    atEnd m (r.rename f) q (caps.rename f) = (atEnd m r q caps).rename f := by
  unfold atEnd
  simp only [Routes.resources_rename, Routes.queryParameters_rename]
  split
  · rfl
  · exact answer_rename _ _ _ _

theorem KeepsOrder.child {r : Routes} (h : KeepsOrder f r) {n : NestedRoutes} (hn : n ∈ r.routes) :
    KeepsOrder f n.routes := by
  intro segs above node hr
  obtain ⟨seg, sub⟩ := n
  exact h _ _ node (.child hn hr)

theorem KeepsCaptor.static {r : Routes} (h : KeepsCaptor f r) {s : Str} {sub : Routes}
    (hn : NestedRoutes.mk (.static s) sub ∈ r.routes) (hp : preferStatic r.routes = true) : KeepsCaptor f sub := by
  intro segs above node ho
  refine h _ _ node (.static hn ?_ ho)
  simp only [preferStatic, Bool.or_eq_true, List.isEmpty_iff, beq_iff_eq] at hp
  refine hp.imp id fun hl => ?_
  have hm : s ∈ staticTexts r.routes := by
    unfold staticTexts
    exact List.mem_filterMap.2 ⟨_, hn, rfl⟩
  obtain ⟨a, ha⟩ := List.length_eq_one_iff.1 hl
  rw [ha] at hm ⊢
  rw [List.mem_singleton.1 hm]

theorem KeepsCaptor.dynamic {r : Routes} (h : KeepsCaptor f r) {p : Param} {sub : Routes}
    (hn : NestedRoutes.mk (.dynamic p) sub ∈ r.routes) (hc : captor r.routes = some p.name) : KeepsCaptor f sub :=
  fun _ _ node ho => h _ _ node (.dynamic hn hc ho)

theorem route_captor (W : World) (m : Bytes) (hf : Function.Injective f) (r : Routes) :
    KeepsCaptor f r → ∀ q (caps : Caps W) bs,
      route W m (r.rename f) q (caps.rename f) bs = (route W m r q caps bs).rename f := by
  induction r using Routes.ind with
  | h rs ns qs ih =>
    intro hk q caps bs
    have hstat : preferStatic ns = true → ∀ ns', (∀ n ∈ ns', n ∈ ns) → ∀ q (caps : Caps W) bs,
        routeStatic W m (renameL f ns') q (caps.rename f) bs =
          (routeStatic W m ns' q caps bs).map (Outcome.rename f) := by
      intro hpref ns'
      induction ns' with
      | nil => intro _ q caps bs; rfl
      | cons n ns' ihn =>
        intro hsub q caps bs
        simp only [renameL, routeStatic]
        have h1 : routeStatic1 W m (n.rename f) q (caps.rename f) bs =
            (routeStatic1 W m n q caps bs).map (Outcome.rename f) := by
          have hmem := hsub n (by simp)
          have ihn' := ih n hmem
          obtain ⟨seg, sub⟩ := n
          cases seg with
          | dynamic p => rfl
          | static s =>
            have ihs := ihn' (hk.static hmem hpref)
            simp only [NestedRoutes.rename, PathSegment.rename, routeStatic1]
            split
            · cases bs.drop s.length with
              | nil => simp [atEnd_rename]
              | cons b rest =>
                simp only
                split
                · simp only [NestedRoutes.routes_mk] at ihs
                  simp [ihs]
                · rfl
            · rfl
        rw [h1]
        cases routeStatic1 W m n q caps bs with
        | some o => rfl
        | none => exact ihn (fun x hx => hsub x (by simp [hx])) q caps bs
    have hparam : ∀ x, captor ns = some x → ∀ ns', (∀ n ∈ ns', n ∈ ns) → ∀ q (caps : Caps W) bs,
        routeParam W m (f x) (renameL f ns') q (caps.rename f) bs =
          (routeParam W m x ns' q caps bs).rename f := by
      intro x hcx ns'
      induction ns' with
      | nil => intro _ q caps bs; rfl
      | cons n ns' ihn =>
        intro hsub q caps bs
        simp only [renameL, routeParam]
        have h1 : routeParam1 W m (f x) (n.rename f) q (caps.rename f) bs =
            (routeParam1 W m x n q caps bs).map (Outcome.rename f) := by
          have hmem := hsub n (by simp)
          have ihn' := ih n hmem
          obtain ⟨seg, sub⟩ := n
          cases seg with
          | static s => rfl
          | dynamic p =>
            simp only [NestedRoutes.rename, PathSegment.rename, routeParam1, hf.eq_iff]
            split
            · rename_i hpx
              have ihs := ihn' (hk.dynamic hmem (by rw [hpx]; exact hcx))
              cases fromUtf8 (bs.takeWhile (· ≠ slash)) with
              | none => rfl
              | some text =>
                cases hp : W.parse p.typ text with
                | error e => simp [hp, Outcome.rename]
                | ok v =>
                  simp only [hp]
                  have hc : caps.rename f ++ [(⟨f p.name, p.typ⟩, v)] = Caps.rename f (caps ++ [(p, v)]) := by
                    simp [Caps.rename]
                  simp only [NestedRoutes.routes_mk] at ihs
                  cases bs.dropWhile (· ≠ slash) with
                  | nil => simp [hc, atEnd_rename]
                  | cons b rest => simp [hc, ihs]
            · rfl
        rw [h1]
        cases routeParam1 W m x n q caps bs with
        | some o => rfl
        | none => exact ihn (fun x hx => hsub x (by simp [hx])) q caps bs
    have hstuck : stuck (renameL f ns) bs = stuck ns bs := by
      unfold stuck
      rw [renameL_eq, staticTexts_rename, paramNames_rename]
      simp
    have hpref : preferStatic (renameL f ns) = preferStatic ns := by
      unfold preferStatic
      rw [renameL_eq, staticTexts_rename, paramNames_rename]
      simp
    have hcap : captor (renameL f ns) = (captor ns).map f := by
      have := hk [] [] _ (.here _); simpa [renameL_eq] using this
    simp only [Routes.rename, route, hstuck, hpref, hcap]
    split
    · exact answer_rename _ _ _ _
    · split
      · rfl
      · have : (if preferStatic ns = true then routeStatic W m (renameL f ns) (q ++ qs) (caps.rename f) bs else none) =
            (if preferStatic ns = true then routeStatic W m ns (q ++ qs) caps bs else none).map
              (Outcome.rename f) := by
          split
          · rename_i hpr
            exact hstat hpr ns (fun n h => h) _ _ _
          · rfl
        rw [this]
        cases (if preferStatic ns = true then routeStatic W m ns (q ++ qs) caps bs else none) with
        | some o => rfl
        | none =>
          cases hcx : captor ns with
          | none => rfl
          | some x => exact hparam x hcx ns (fun n h => h) _ _ _

theorem KeepsOrder.captor {r : Routes} (h : KeepsOrder f r) : KeepsCaptor f r := by
  intro segs above node ho
  have hr : HasRoute r segs above node := by
    induction ho with
    | here => exact .here _
    | static hn _ _ ih => exact .child hn (ih (h.child hn))
    | dynamic hn _ _ ih => exact .child hn (ih (h.child hn))
  rw [Routes.routes_rename]
  exact captor_rename (h _ _ _ hr)

theorem route_rename (W : World) (m : Bytes) (hf : Function.Injective f) (r : Routes) (hk : KeepsOrder f r)
    (q : List Param) (caps : Caps W) (bs : Bytes) :
    route W m (r.rename f) q (caps.rename f) bs = (route W m r q caps bs).rename f :=
  route_captor W m hf r hk.captor q caps bs

/-! ## The code still compiles -/

theorem hasRoute_rename {r : Routes} : ∀ {segs' : List PathSegment} {above : List Param}
    {node' : Routes}, HasRoute (r.rename f) segs' above node' →
    ∃ segs node, segs' = segs.map (PathSegment.rename f) ∧ node' = node.rename f ∧
      HasRoute r segs above node := by
  induction r using Routes.ind with
  | h rs ns qs ih =>
    intro segs' above node' h
    generalize hR : (Routes.mk rs ns qs).rename f = R at h
    cases h with
    | here => exact ⟨[], _, rfl, hR.symm, .here _⟩
    | @child _ _ seg sub segs query hn hr =>
      subst hR
      rw [Routes.routes_rename, List.mem_map] at hn
      obtain ⟨n, hn, he⟩ := hn
      obtain ⟨seg0, sub0⟩ := n
      simp only [NestedRoutes.rename, NestedRoutes.mk.injEq] at he
      obtain ⟨rfl, rfl⟩ := he
      obtain ⟨segs0, node0, rfl, rfl, h0⟩ := ih _ hn hr
      refine ⟨seg0 :: segs0, node0, rfl, rfl, ?_⟩
      rw [Routes.queryParameters_rename]
      exact .child hn h0

theorem liveRoute_rename (hf : Function.Injective f) {r : Routes} : KeepsOrder f r →
    ∀ {segs' : List PathSegment} {above : List Param} {node' : Routes},
    LiveRoute (r.rename f) segs' above node' →
    ∃ segs node, segs' = segs.map (PathSegment.rename f) ∧ node' = node.rename f ∧
      LiveRoute r segs above node := by
  induction r using Routes.ind with
  | h rs ns qs ih =>
    intro hk segs' above node' h
    generalize hR : (Routes.mk rs ns qs).rename f = R at h
    cases h with
    | here => exact ⟨[], _, rfl, hR.symm, .here _⟩
    | @static _ _ s sub segs query hn hr =>
      subst hR
      rw [Routes.routes_rename, List.mem_map] at hn
      obtain ⟨n, hn, he⟩ := hn
      obtain ⟨seg0, sub0⟩ := n
      simp only [NestedRoutes.rename, NestedRoutes.mk.injEq] at he
      obtain ⟨he, rfl⟩ := he
      obtain ⟨segs0, node0, rfl, rfl, h0⟩ := ih _ hn (hk.child hn) hr
      cases seg0 with
      | dynamic p => simp [PathSegment.rename] at he
      | static s0 =>
        simp only [PathSegment.rename, PathSegment.static.injEq] at he
        subst he
        refine ⟨.static s0 :: segs0, node0, rfl, rfl, ?_⟩
        rw [Routes.queryParameters_rename]
        exact .static hn h0
    | @dynamic _ _ p sub segs query hn hc hr =>
      subst hR
      rw [Routes.routes_rename, List.mem_map] at hn
      obtain ⟨n, hn, he⟩ := hn
      obtain ⟨seg0, sub0⟩ := n
      simp only [NestedRoutes.rename, NestedRoutes.mk.injEq] at he
      obtain ⟨he, rfl⟩ := he
      obtain ⟨segs0, node0, rfl, rfl, h0⟩ := ih _ hn (hk.child hn) hr
      cases seg0 with
      | static s => simp [PathSegment.rename] at he
      | dynamic p0 =>
        simp only [PathSegment.rename, PathSegment.dynamic.injEq] at he
        subst he
        refine ⟨.dynamic p0 :: segs0, node0, rfl, rfl, ?_⟩
        rw [Routes.queryParameters_rename]
        refine .dynamic hn ?_ h0
        rw [Routes.routes_rename, captor_rename (hk [] [] _ (.here _))] at hc
        simp only [Option.map_eq_some_iff] at hc
        obtain ⟨x, hx, hxe⟩ := hc
        rw [hx, hf hxe]

theorem LiveRoute.rename {r node : Routes} {segs : List PathSegment} {above : List Param}
    (h : LiveRoute r segs above node) : KeepsOrder f r →
    LiveRoute (r.rename f) (segs.map (PathSegment.rename f)) above (node.rename f) := by
  induction h with
  | here => intro _; exact .here _
  | @static r node s sub segs query hn _ ih =>
    intro hk
    have := LiveRoute.static (r := r.rename f) (s := s) (sub := sub.rename f)
      (by rw [Routes.routes_rename]; exact List.mem_map_of_mem hn) (ih (hk.child hn))
    rwa [Routes.queryParameters_rename] at this
  | @dynamic r node p sub segs query hn hc _ ih =>
    intro hk
    have := LiveRoute.dynamic (r := r.rename f) (p := ⟨f p.name, p.typ⟩) (sub := sub.rename f)
      (by rw [Routes.routes_rename]; exact List.mem_map_of_mem hn)
      (by rw [Routes.routes_rename, captor_rename (hk [] [] _ (.here _)), hc]; rfl)
      (ih (hk.child hn))
    rwa [Routes.queryParameters_rename] at this

theorem routeParams_rename (segs : List PathSegment) :
    routeParams (segs.map (PathSegment.rename f)) =
      (routeParams segs).map fun p => ⟨f p.name, p.typ⟩ := by
  simp only [routeParams, List.filterMap_map, List.map_filterMap]
  congr 1
  funext s
  cases s <;> rfl

theorem SameSlot.of_rename (hf : Function.Injective f) {a b : PathSegment}
    (h : SameSlot (a.rename f) (b.rename f)) : SameSlot a b := by
  cases a <;> cases b <;> simp only [PathSegment.rename, SameSlot] at h ⊢
  · exact h
  · exact hf h

theorem DistinctSiblings.rename {r : Routes} (h : DistinctSiblings r) (hf : Function.Injective f) :
    DistinctSiblings (r.rename f) := by
  intro segs' above node' hr
  obtain ⟨segs, node, rfl, rfl, hr0⟩ := hasRoute_rename hr
  rw [Routes.routes_rename, List.pairwise_map]
  exact (h _ _ node hr0).imp fun hab hs => hab (SameSlot.of_rename hf (by simpa using hs))

/-- With fresh names, fields stay distinct. -/
theorem FieldsDistinct.rename {r : Routes} (h2 : FieldsDistinct r) (hf : Function.Injective f)
    (hfresh : FreshNames f r) (hk : KeepsOrder f r) : FieldsDistinct (r.rename f) := by
  intro segs' above node' hr res hres
  obtain ⟨segs, node, rfl, rfl, hr0⟩ := liveRoute_rename hf hk hr
  rw [Routes.resources_rename] at hres
  have := h2 _ _ node hr0 res hres
  rw [routeParams_rename, Routes.queryParameters_rename]
  simp only [List.append_assoc, List.map_append, List.map_map] at this ⊢
  rw [List.nodup_append] at this ⊢
  refine ⟨?_, this.2.1, ?_⟩
  · have hcomp : (Param.name ∘ fun p : Param => (⟨f p.name, p.typ⟩ : Param)) = f ∘ Param.name := rfl
    rw [hcomp, ← List.map_map]
    exact (List.nodup_map_iff hf).2 this.1
  · rintro a ha b hb rfl
    obtain ⟨p, hp, rfl⟩ := List.mem_map.1 ha
    have hfr := hfresh _ _ node hr0.hasRoute p (mem_routeParams.1 hp)
    simp only [List.mem_append, List.mem_map] at hb
    rcases hb with ⟨q, hq, he⟩ | ⟨q, hq, he⟩ | ⟨q, hq, he⟩
    · exact hfr.2.1 q (by simp [hq]) he.symm
    · exact hfr.2.1 q (by simp [hq]) he.symm
    · exact hfr.2.2 res hres q hq he.symm

/-- Fresh names are unproblematic. -/
theorem FreshNames.names {r : Routes} (hfresh : FreshNames f r) :
    NamesOk (r.rename f) ∧ Hygienic (r.rename f) := by
  refine names_of_fresh fun segs' p above node' hl => ?_
  obtain ⟨segs, node, hs, rfl, hr0⟩ := hasRoute_rename hl.hasRoute
  have hp : PathSegment.dynamic p ∈ segs.map (PathSegment.rename f) := by rw [← hs]; simp
  obtain ⟨s, hs, he⟩ := List.mem_map.1 hp
  cases s with
  | static t => simp [PathSegment.rename] at he
  | dynamic p0 =>
    simp only [PathSegment.rename, PathSegment.dynamic.injEq] at he
    rw [← he]
    exact (hfresh _ _ node hr0 p0 hs).1

/-- When a renamed supported configuration is supported. -/
theorem Supported.rename_iff {r : Routes} {body : List Stmt} (h : Supported r body)
    (hf : Function.Injective f) (hk : KeepsOrder f r) :
    (∃ body', Supported (r.rename f) body') ↔
      FieldsDistinct (r.rename f) ∧ NamesOk (r.rename f) ∧ Hygienic (r.rename f) := by
  constructor
  · rintro ⟨body', h'⟩
    exact ⟨h'.conditions.2.1, h'.conditions.2.2.2, h'.hygienic⟩
  rintro ⟨hfd, hno, hhy⟩
  obtain ⟨body', hb'⟩ := matcherBody_total (h.distinct.rename hf)
  obtain ⟨h1, h2, h3, h4⟩ := h.conditions
  refine ⟨body', hb', (matcherBody_compiles hb').2 ⟨?_, hfd, ?_, hno⟩, hhy⟩
  · intro segs' above node' hr
    obtain ⟨segs, node, rfl, rfl, hr0⟩ := liveRoute_rename hf hk hr
    have := h1 _ _ node hr0
    rw [Routes.routes_rename]
    refine ⟨?_, ?_, ?_, ?_⟩
    · rw [staticTexts_rename]; exact this.ascii
    · rw [staticTexts_rename]; exact this.prefixFree
    · rw [staticTexts_rename, paramNames_rename]
      intro hne hst
      obtain ⟨x, hx⟩ := this.oneParam (fun e => hne (by simp [e])) hst
      exact ⟨f x, by simp [hx]⟩
    · rw [staticTexts_rename, paramNames_rename]
      exact fun hne => this.initial fun e => hne (by simp [e])
  · intro segs' p above node' hr
    obtain ⟨segs, node, hs, rfl, hr⟩ := liveRoute_rename hf hk hr
    rcases List.eq_nil_or_concat segs with rfl | ⟨segs0, s0, rfl⟩
    · simp at hs
    · simp only [List.concat_eq_append, List.map_append, List.map_cons, List.map_nil] at hs
      obtain ⟨_, hs2⟩ := List.append_inj' hs rfl
      simp only [List.cons.injEq, and_true] at hs2
      cases s0 with
      | static t => simp [PathSegment.rename] at hs2
      | dynamic p0 =>
        rw [List.concat_eq_append] at hr
        obtain ⟨segs1, above1, node1, hl, hne⟩ := h3 segs0 p0 above node hr
        have hkn : KeepsOrder f node := fun s q n hn => hk _ _ n (hr.hasRoute.append hn)
        exact ⟨_, _, _, hl.rename hkn, by rwa [Routes.resources_rename]⟩

/-- A configuration renamed to fresh names is supported. -/
theorem Supported.rename {r : Routes} {body : List Stmt} (h : Supported r body)
    (hf : Function.Injective f) (hfresh : FreshNames f r) (hk : KeepsOrder f r) :
    ∃ body', Supported (r.rename f) body' :=
  (h.rename_iff hf hk).2 ⟨h.conditions.2.1.rename hf hfresh hk, hfresh.names⟩

end Wayfinder
