import Verif.Spec.Mounting
import Verif.Props.Mount
import Verif.Props.Generation
/-!
# When mounting breaks the build: C84
-/

namespace Wayfinder

/-! ## Routes of a configuration with one more child -/

/-- The routes of a block with one more static child. -/
theorem hasRoute_added {rs : List Resource} {ns : List NestedRoutes} {qs : List Param} {seg : Str} {sub : Routes}
    {segs : List PathSegment} {above : List Param} {node : Routes}
    (h : HasRoute (.mk rs (ns ++ [.mk (.static seg) sub]) qs) segs above node) :
    segs = [] ∧ node = .mk rs (ns ++ [.mk (.static seg) sub]) qs ∨
    segs ≠ [] ∧ HasRoute (.mk rs ns qs) segs above node ∨
    ∃ segs' above', segs = .static seg :: segs' ∧ above = qs ++ above' ∧ HasRoute sub segs' above' node := by
  cases h with
  | here => exact .inl ⟨rfl, rfl⟩
  | child hn h' =>
    rcases List.mem_append.1 hn with hn | hn
    · exact .inr (.inl ⟨by simp, .child hn h'⟩)
    · simp only [List.mem_singleton, NestedRoutes.mk.injEq] at hn
      obtain ⟨rfl, rfl⟩ := hn
      exact .inr (.inr ⟨_, _, rfl, rfl, h'⟩)

theorem paramNames_added (ns : List NestedRoutes) (seg : Str) (sub : Routes) :
    paramNames (ns ++ [.mk (.static seg) sub]) = paramNames ns := by
  rw [paramNames_append]; simp [paramNames]

theorem staticTexts_added (ns : List NestedRoutes) (seg : Str) (sub : Routes) :
    staticTexts (ns ++ [.mk (.static seg) sub]) = staticTexts ns ++ [seg] := by
  simp [staticTexts]

theorem captor_added (ns : List NestedRoutes) (seg : Str) (sub : Routes) :
    captor (ns ++ [.mk (.static seg) sub]) = captor ns := by
  simp only [captor, paramNames_added]

/-- The routes with code of a block with one more static child. -/
theorem liveRoute_added {rs : List Resource} {ns : List NestedRoutes} {qs : List Param} {seg : Str} {sub : Routes}
    {segs : List PathSegment} {above : List Param} {node : Routes} :
    LiveRoute (.mk rs (ns ++ [.mk (.static seg) sub]) qs) segs above node ↔
    (segs = [] ∧ above = [] ∧ node = .mk rs (ns ++ [.mk (.static seg) sub]) qs) ∨
    segs ≠ [] ∧ LiveRoute (.mk rs ns qs) segs above node ∨
    ∃ segs' above', segs = .static seg :: segs' ∧ above = qs ++ above' ∧ LiveRoute sub segs' above' node := by
  constructor
  · intro h
    cases h with
    | here => exact .inl ⟨rfl, rfl, rfl⟩
    | static hn h' =>
      rcases List.mem_append.1 hn with hn | hn
      · exact .inr (.inl ⟨by simp, .static hn h'⟩)
      · simp only [List.mem_singleton, NestedRoutes.mk.injEq, PathSegment.static.injEq] at hn
        obtain ⟨rfl, rfl⟩ := hn
        exact .inr (.inr ⟨_, _, rfl, rfl, h'⟩)
    | dynamic hn hc h' =>
      rw [Routes.routes_mk, captor_added] at hc
      rcases List.mem_append.1 hn with hn | hn
      · exact .inr (.inl ⟨by simp, .dynamic hn hc h'⟩)
      · simp at hn
  · rintro (⟨rfl, rfl, rfl⟩ | ⟨hne, h⟩ | ⟨segs', above', rfl, rfl, h⟩)
    · exact .here _
    · cases h with
      | here => exact absurd rfl hne
      | static hn h' => exact .static (List.mem_append_left _ hn) h'
      | dynamic hn hc h' =>
        exact .dynamic (List.mem_append_left _ hn) (by rw [Routes.routes_mk, captor_added]; exact hc) h'
    · exact .static (r := .mk rs (ns ++ [.mk (.static seg) sub]) qs) (s := seg) (by simp) h

/-- Siblings are distinct with one more static child exactly if no static sibling has its text. -/
theorem distinctSiblings_added {rs : List Resource} {ns : List NestedRoutes} {qs : List Param} {seg : Str}
    {sub : Routes} : DistinctSiblings (.mk rs (ns ++ [.mk (.static seg) sub]) qs) ↔
    DistinctSiblings (.mk rs ns qs) ∧ DistinctSiblings sub ∧ seg ∉ staticTexts ns := by
  rw [distinctSiblings_mk, distinctSiblings_mk, List.pairwise_append]
  have hslot : (∀ a ∈ ns, ∀ b ∈ [NestedRoutes.mk (.static seg) sub], ¬ SameSlot a.pathSegment b.pathSegment) ↔
      seg ∉ staticTexts ns := by
    rw [mem_staticTexts']
    constructor
    · rintro h ⟨n, hn, hs⟩
      exact h n hn (.mk (.static seg) sub) (by simp) (by rw [hs]; exact rfl)
    · intro h a ha b hb hsame
      simp only [List.mem_singleton] at hb
      subst hb
      obtain ⟨sg, ra⟩ := a
      cases sg with
      | dynamic p => exact hsame
      | static s =>
        have hsame : s = seg := hsame
        exact h ⟨_, ha, by rw [← hsame]; rfl⟩
  rw [hslot]
  simp only [List.pairwise_singleton, true_and, List.mem_append, List.mem_singleton]
  constructor
  · rintro ⟨⟨h1, h2⟩, h3⟩
    exact ⟨⟨h1, fun n hn => h3 n (.inl hn)⟩, h3 _ (.inr rfl), h2⟩
  · rintro ⟨⟨h1, h3⟩, h4, h2⟩
    refine ⟨⟨h1, h2⟩, ?_⟩
    rintro n (hn | rfl)
    · exact h3 n hn
    · exact h4

/-! ## Actions of a configuration with one more child -/

theorem resides_mk {rs : List Resource} {ns : List NestedRoutes} {qs : List Param} {x : Resource} :
    Resides (.mk rs ns qs) x ↔ x ∈ rs ∨ ∃ n ∈ ns, Resides n.routes x := by
  constructor
  · rintro ⟨segs, above, node, h, hx⟩
    cases h with
    | here => exact .inl hx
    | child hn h' => exact .inr ⟨_, hn, _, _, _, h', hx⟩
  · rintro (hx | ⟨⟨sg, sub⟩, hn, segs, above, node, h, hx⟩)
    · exact ⟨_, _, _, .here _, hx⟩
    · exact ⟨_, _, _, .child hn h, hx⟩

mutual
theorem mem_allResources (x : Resource) : ∀ r : Routes, x ∈ r.allResources ↔ Resides r x
  | .mk rs ns qs => by
    rw [resides_mk, Routes.allResources, List.mem_append, mem_allResourcesL x ns]
theorem mem_allResourcesL (x : Resource) : ∀ ns : List NestedRoutes,
    x ∈ allResourcesL ns ↔ ∃ n ∈ ns, Resides n.routes x
  | [] => by simp [allResourcesL]
  | .mk sg sub :: ns => by
    rw [allResourcesL, List.mem_append, mem_allResourcesL x ns, NestedRoutes.allResources, mem_allResources x sub]
    simp
end

theorem allResourcesL_append (ns ns' : List NestedRoutes) :
    allResourcesL (ns ++ ns') = allResourcesL ns ++ allResourcesL ns' := by
  induction ns with
  | nil => rfl
  | cons n ns ih => rw [List.cons_append, allResourcesL, allResourcesL, ih, List.append_assoc]

theorem distinctActions_added {rs : List Resource} {ns : List NestedRoutes} {qs : List Param} {seg : Str}
    {sub : Routes} : DistinctActions (.mk rs (ns ++ [.mk (.static seg) sub]) qs) ↔
    DistinctActions (.mk rs ns qs) ∧ DistinctActions sub ∧ ¬ ShareAction (.mk rs ns qs) sub := by
  have hall : (Routes.mk rs (ns ++ [.mk (.static seg) sub]) qs).allResources =
      (Routes.mk rs ns qs).allResources ++ sub.allResources := by
    simp [Routes.allResources, allResourcesL_append, allResourcesL, NestedRoutes.allResources]
  simp only [DistinctActions]
  rw [hall, List.filter_append, List.map_append, List.nodup_append]
  refine and_congr_right fun _ => and_congr_right fun _ => ?_
  constructor
  · rintro h ⟨x, y, hx, hy, hx', hy', e1, e2⟩
    refine h (x.modules, x.name) ?_ (y.modules, y.name) ?_ (by rw [e1, e2])
    · exact List.mem_map.2 ⟨x, List.mem_filter.2 ⟨(mem_allResources x _).2 hx, by rw [hx']; rfl⟩, rfl⟩
    · exact List.mem_map.2 ⟨y, List.mem_filter.2 ⟨(mem_allResources y _).2 hy, by rw [hy']; rfl⟩, rfl⟩
  · intro h a ha b hb e
    obtain ⟨x, hx, rfl⟩ := List.mem_map.1 ha
    obtain ⟨y, hy, rfl⟩ := List.mem_map.1 hb
    obtain ⟨hx, hx'⟩ := List.mem_filter.1 hx
    obtain ⟨hy, hy'⟩ := List.mem_filter.1 hy
    simp only [Prod.mk.injEq] at e
    exact h ⟨x, y, (mem_allResources x _).1 hx, (mem_allResources y _).1 hy, by simpa using hx', by simpa using hy',
      e.1, e.2⟩

theorem mount_routes (hs : List Header) (rs : List Resource) (ns : List NestedRoutes) (qs : List Param) (seg : Str)
    (sub : RouteConfig) : (RouteConfig.mount ⟨hs, .mk rs ns qs⟩ seg sub).routes =
      .mk rs (ns ++ [.mk (.static seg) sub.routes]) qs := by
  simp only [RouteConfig.mount, Routes.resources_mk, Routes.routes_mk, Routes.queryParameters_mk]

/-! ## C84 -/

/-- **C84, the generator.** It accepts the mounted configuration exactly if it accepts the two (or they are
empty), no static child of the base's root has the text of the mount point, and no action of the mounted
configuration has the module path and name of one of the base. -/
theorem C84_generated (base sub : RouteConfig) (seg : Str) :
    (codegen (base.mount seg sub)).fail = none ↔
      (base.routes = .mk [] [] [] ∨ (codegen base).fail = none) ∧
      (sub.routes = .mk [] [] [] ∨ (codegen sub).fail = none) ∧
      seg ∉ staticTexts base.routes.routes ∧ ¬ ShareAction base.routes sub.routes := by
  have hempty : DistinctSiblings (.mk [] [] []) ∧ DistinctActions (.mk [] [] []) := by
    refine ⟨distinctSiblings_mk.2 ⟨by simp, by simp⟩, ?_⟩
    simp [DistinctActions, Routes.allResources, allResourcesL]
  have hone : ∀ c : RouteConfig, (c.routes = .mk [] [] [] ∨ (codegen c).fail = none) ↔
      DistinctSiblings c.routes ∧ DistinctActions c.routes := by
    intro c
    rw [C20_exact]
    constructor
    · rintro (h | h)
      · rw [h]; exact hempty
      · exact ⟨h.1, h.2.1⟩
    · rintro ⟨h1, h2⟩
      by_cases h : c.routes = .mk [] [] []
      · exact .inl h
      · exact .inr ⟨h1, h2, h⟩
  rw [hone, hone, C20_exact]
  obtain ⟨hs, rs, ns, qs⟩ := base
  rw [mount_routes, distinctSiblings_added, distinctActions_added]
  simp only [Routes.routes_mk, ne_eq, Routes.mk.injEq, List.append_eq_nil_iff, List.cons_ne_nil, and_false, false_and,
    not_false_eq_true, and_true]
  tauto

theorem routeParams_static (s : Str) (segs : List PathSegment) :
    routeParams (.static s :: segs) = routeParams segs := by simp [routeParams]

/-- The fields of an action of the mounted configuration, in another order. -/
theorem fields_perm (a b c d e : List Param) :
    (a ++ (b ++ c) ++ d ++ e).Perm (b ++ a ++ c ++ d ++ e) := by
  simp only [← List.append_assoc]
  exact ((List.perm_append_comm.append_right _).append_right _).append_right _

/-- **C84, rustc.** Mounting a configuration whose function compiles (and whose parameters leave the
function's variables alone) in another such gives a third exactly if the root of the base has room for the
mount point and no action of the mounted configuration gets two fields of the same name. -/
theorem C84_supported {base sub : RouteConfig} {seg : Str} {body : List Stmt} (hb : Supported base.routes body) :
    (∃ body'', Supported (base.mount seg sub).routes body'') ↔
      (∃ body', Supported sub.routes body') ∧ Room base.routes seg ∧
        FieldsFit base.routes.queryParameters sub.routes := by
  obtain ⟨hs', rs, ns, qs⟩ := base
  rw [mount_routes]
  change Supported (.mk rs ns qs) body at hb
  simp only [Routes.queryParameters_mk]
  obtain ⟨hb1, hb2, hb3, hb4⟩ := hb.conditions
  have hok : LocalOk ns := hb1 _ _ _ (.here _)
  constructor
  · rintro ⟨body'', hm⟩
    obtain ⟨hm1, hm2, hm3, hm4⟩ := hm.conditions
    have hok' : LocalOk (ns ++ [.mk (.static seg) sub.routes]) := hm1 _ _ _ (.here _)
    refine ⟨hm.child (liveRoute_added.2 (.inr (.inr ⟨[], [], rfl, rfl, .here _⟩))), ⟨?_, ?_, ?_⟩, ?_⟩
    · exact hok'.ascii seg (by rw [staticTexts_added]; simp)
    · have h := hok'.prefixFree
      rw [staticTexts_added, List.pairwise_append] at h
      exact fun s hs => h.2.2 s hs seg (by simp)
    · intro h
      obtain ⟨c, hc⟩ := hok'.initial (by rw [paramNames_added]; exact h)
      refine ⟨c, fun s hs => hc s ?_⟩
      rw [staticTexts_added]
      simpa [or_comm] using hs
    · intro segs above node hl res hres
      have h := hm2 _ _ _ (liveRoute_added.2 (.inr (.inr ⟨segs, above, rfl, rfl, hl⟩))) res hres
      rw [routeParams_static] at h
      exact (((fields_perm _ _ _ _ _).map Param.name).nodup_iff).1 h
  · rintro ⟨⟨body', hs⟩, hroom, hfit⟩
    obtain ⟨hs1, hs2, hs3, hs4⟩ := hs.conditions
    have hd : DistinctSiblings (.mk rs (ns ++ [.mk (.static seg) sub.routes]) qs) :=
      distinctSiblings_added.2 ⟨hb.distinct, hs.distinct, fun h => (hroom.apart seg h).1 List.prefix_rfl⟩
    obtain ⟨body'', hbody⟩ := matcherBody_total hd
    have hdyn : ∀ {segs1 p segs2 above node},
        LiveRoute (.mk rs (ns ++ [.mk (.static seg) sub.routes]) qs) (segs1 ++ .dynamic p :: segs2) above node →
        LiveRoute (.mk rs ns qs) (segs1 ++ .dynamic p :: segs2) above node ∨
        ∃ segs' above', LiveRoute sub.routes (segs' ++ .dynamic p :: segs2) above' node := by
      intro segs1 p segs2 above node h
      rcases liveRoute_added.1 h with ⟨h1, _⟩ | ⟨_, h⟩ | ⟨segs', above', h1, _, h2⟩
      · simp at h1
      · exact .inl h
      · cases segs1 with
        | nil => cases h1
        | cons s segs1 =>
          simp only [List.cons_append, List.cons.injEq] at h1
          exact .inr ⟨segs1, above', by rw [h1.2]; exact h2⟩
    have hhy : Hygienic (.mk rs (ns ++ [.mk (.static seg) sub.routes]) qs) := by
      intro segs p above node h
      rcases hdyn h with h | ⟨_, _, h⟩
      · exact hb.hygienic _ _ _ _ h
      · exact hs.hygienic _ _ _ _ h
    have hno : NamesOk (.mk rs (ns ++ [.mk (.static seg) sub.routes]) qs) := by
      refine ⟨fun segs p above node h => ?_, fun segs p above node h => ?_, fun segs p segs' above node h => ?_,
        fun segs p above node h => ?_, fun segs p above node h => ?_⟩ <;> rcases hdyn h with h | ⟨_, _, h⟩
      · exact hb4.own _ _ _ _ h
      · exact hs4.own _ _ _ _ h
      · exact hb4.len _ _ _ _ h
      · exact hs4.len _ _ _ _ h
      · exact hb4.text _ _ _ _ _ h
      · exact hs4.text _ _ _ _ _ h
      · exact hb4.startUsed _ _ _ _ h
      · exact hs4.startUsed _ _ _ _ h
      · exact hb4.startType _ _ _ _ h
      · exact hs4.startType _ _ _ _ h
    refine ⟨body'', hbody, (matcherBody_compiles hbody).2 ⟨?_, ?_, ?_, hno⟩, hhy⟩
    · intro segs above node h
      rcases liveRoute_added.1 h with ⟨_, _, rfl⟩ | ⟨_, h⟩ | ⟨_, _, _, _, h⟩
      · refine ⟨?_, ?_, ?_, ?_⟩
        · rw [Routes.routes_mk, staticTexts_added]
          intro s hs
          rcases List.mem_append.1 hs with hs | hs
          · exact hok.ascii s hs
          · simp only [List.mem_singleton] at hs; subst hs; exact hroom.ascii
        · rw [Routes.routes_mk, staticTexts_added]
          refine List.pairwise_append.2 ⟨hok.prefixFree, by simp, ?_⟩
          intro a ha b hb
          simp only [List.mem_singleton] at hb; subst hb
          exact hroom.apart a ha
        · rw [Routes.routes_mk, staticTexts_added]
          intro _ h; simp at h
        · rw [Routes.routes_mk, staticTexts_added, paramNames_added]
          intro h
          obtain ⟨c, hc⟩ := hroom.initial h
          exact ⟨c, fun s hs => hc s (by simpa [or_comm] using hs)⟩
      · exact hb1 _ _ _ h
      · exact hs1 _ _ _ h
    · intro segs above node h res hres
      rcases liveRoute_added.1 h with ⟨rfl, rfl, rfl⟩ | ⟨_, h⟩ | ⟨segs', above', rfl, rfl, hl⟩
      · exact hb2 _ _ _ (.here _) res hres
      · exact hb2 _ _ _ h res hres
      · rw [routeParams_static]
        exact (((fields_perm _ _ _ _ _).map Param.name).nodup_iff).2 (hfit _ _ _ hl res hres)
    · intro segs p above node h
      rcases hdyn h with h | ⟨_, _, h⟩
      · exact hb3 _ _ _ _ h
      · exact hs3 _ _ _ _ h

/-- A base whose root has query parameters of the same name has no room for any action: mounting in it fails
whatever is mounted, and compiles if the base itself has no action. -/
theorem C84_twice {base sub : RouteConfig} {seg : Str} {body : List Stmt} (hb : Supported base.routes body)
    (hq : ¬ (base.routes.queryParameters.map Param.name).Nodup)
    (hres : ∃ segs above node, LiveRoute sub.routes segs above node ∧ node.resources ≠ []) :
    ¬ ∃ body'', Supported (base.mount seg sub).routes body'' := by
  rw [C84_supported hb]
  rintro ⟨_, _, hfit⟩
  obtain ⟨segs, above, node, hl, hne⟩ := hres
  obtain ⟨res, hres⟩ := List.exists_mem_of_ne_nil _ hne
  have h := hfit _ _ _ hl res hres
  simp only [List.append_assoc, List.map_append] at h
  rw [List.nodup_append] at h
  exact hq h.1

end Wayfinder
