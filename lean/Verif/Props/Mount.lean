import Verif.Spec.Mount
import Verif.Props.Siblings
/-!
# Mounting configurations: C19, C36
-/

namespace Wayfinder

/-! ## C36 -/

section unique
variable {α : Type} [DecidableEq α]

theorem mem_uniqueAux {x : α} : ∀ {l seen : List α}, x ∈ uniqueAux seen l ↔ x ∈ l ∧ x ∉ seen
  | [], _ => by simp [uniqueAux]
  | a :: l, seen => by
    simp only [uniqueAux]
    split
    · rename_i h
      rw [mem_uniqueAux]
      constructor
      · rintro ⟨h1, h2⟩; exact ⟨by simp [h1], h2⟩
      · rintro ⟨h1, h2⟩
        rcases List.mem_cons.1 h1 with rfl | h1
        · exact absurd h h2
        · exact ⟨h1, h2⟩
    · rename_i h
      rw [List.mem_cons, mem_uniqueAux, List.mem_cons, List.mem_cons]
      by_cases hx : x = a
      · subst hx; simp [h]
      · simp [hx]

theorem uniqueAux_congr : ∀ {l seen seen' : List α}, (∀ x, x ∈ seen ↔ x ∈ seen') →
    uniqueAux seen l = uniqueAux seen' l
  | [], _, _, _ => rfl
  | a :: l, seen, seen', h => by
    simp only [uniqueAux, h a]
    split
    · exact uniqueAux_congr h
    · rw [uniqueAux_congr (l := l) (seen := a :: seen) (seen' := a :: seen')]
      intro x; simp [h x]

theorem uniqueAux_append : ∀ (l l2 seen : List α),
    uniqueAux seen (l ++ l2) = uniqueAux seen l ++ uniqueAux (l ++ seen) l2
  | [], _, _ => rfl
  | a :: l, l2, seen => by
    simp only [List.cons_append, uniqueAux]
    split
    · rename_i h
      rw [uniqueAux_append l l2 seen]
      congr 1
      apply uniqueAux_congr
      intro x
      simp only [List.mem_append, List.mem_cons]
      constructor
      · exact fun h => .inr h
      · rintro (rfl | h')
        · exact .inr h
        · exact h'
    · rw [uniqueAux_append l l2 (a :: seen), List.cons_append]
      congr 2
      apply uniqueAux_congr
      intro x
      simp only [List.mem_append, List.mem_cons]
      constructor
      · rintro (h | h | h) <;> simp [h]
      · rintro (h | h | h) <;> simp [h]

theorem uniqueAux_idem : ∀ (l seen : List α), uniqueAux seen (uniqueAux seen l) = uniqueAux seen l
  | [], _ => rfl
  | a :: l, seen => by
    by_cases h : a ∈ seen
    · simp only [uniqueAux, h, if_true]; exact uniqueAux_idem l seen
    · simp only [uniqueAux, h, if_false]; rw [uniqueAux_idem l]

theorem unique_append (l l2 : List α) : unique (unique l ++ l2) = unique (l ++ l2) := by
  unfold unique
  rw [uniqueAux_append, uniqueAux_append, uniqueAux_idem]
  congr 1
  apply uniqueAux_congr
  intro x
  simp [mem_uniqueAux]

theorem uniqueAux_idx : ∀ (l seen : List α),
    (uniqueAux seen l).Pairwise fun a b => l.idxOf a < l.idxOf b
  | [], _ => .nil
  | a :: l, seen => by
    have hsub : ∀ seen, (∀ x ∈ uniqueAux seen l, x ≠ a) →
        (uniqueAux seen l).Pairwise fun x y => (a :: l).idxOf x < (a :: l).idxOf y := by
      intro seen hne
      refine (uniqueAux_idx l seen).imp_of_mem ?_
      intro x y hx hy hlt
      have h1 := hne x hx
      have h2 := hne y hy
      rw [List.idxOf_cons_ne _ (Ne.symm h1), List.idxOf_cons_ne _ (Ne.symm h2)]
      omega
    simp only [uniqueAux]
    split
    · rename_i h
      exact hsub seen fun x hx e => (mem_uniqueAux.1 hx).2 (e ▸ h)
    · have hne : ∀ x ∈ uniqueAux (a :: seen) l, x ≠ a := fun x hx e =>
        (mem_uniqueAux.1 hx).2 (by simp [e])
      refine List.pairwise_cons.2 ⟨?_, hsub _ hne⟩
      intro x hx
      rw [List.idxOf_cons_self, List.idxOf_cons_ne _ (Ne.symm (hne x hx))]
      omega

theorem unique_firstSeen (l : List α) : FirstSeen l (unique l) :=
  ⟨fun x => by simp [unique, mem_uniqueAux], uniqueAux_idx l []⟩

/-- `FirstSeen` determines the list. -/
theorem FirstSeen.eq {all : List α} : ∀ {k k' : List α}, FirstSeen all k → FirstSeen all k' → k = k' := by
  intro k k' h h'
  refine List.Perm.eq_of_pairwise (le := fun a b => all.idxOf a < all.idxOf b) ?_ h.2 h'.2 ?_
  · intro a b _ _ h1 h2; omega
  · have hn : ∀ {k : List α}, k.Pairwise (fun a b => all.idxOf a < all.idxOf b) → k.Nodup := by
      intro k hk
      refine List.Pairwise.imp ?_ hk
      intro a b hlt e; subst e; omega
    rw [List.perm_ext_iff_of_nodup (hn h.2) (hn h'.2)]
    intro a; rw [h.1, h'.1]

end unique

theorem mountAll_headers : ∀ (ms : List (Str × RouteConfig)) (base : RouteConfig),
    unique (base.mountAll ms).headers = unique (base.headers ++ ms.flatMap fun m => m.2.headers)
  | [], base => by simp [RouteConfig.mountAll]
  | m :: ms, base => by
    have := mountAll_headers ms (base.mount m.1 m.2)
    simp only [RouteConfig.mountAll, List.foldl_cons, List.flatMap_cons] at this ⊢
    rw [this]
    simp only [RouteConfig.mount]
    rw [unique_append, List.append_assoc]

/-- **C36.** After mounting any non-empty sequence of configurations the headers are the distinct
headers of the base and of all mounted configurations, in order of first occurrence; the children are
those of the base followed by one static child for each mount, in order; resources and query parameters
of the root are those of the base. -/
theorem C36_mount_headers (base : RouteConfig) (ms : List (Str × RouteConfig)) (hne : ms ≠ []) :
    FirstSeen (base.headers ++ ms.flatMap fun m => m.2.headers) (base.mountAll ms).headers ∧
    (base.mountAll ms).routes = .mk base.routes.resources
      (base.routes.routes ++ ms.map fun m => .mk (.static m.1) m.2.routes)
      base.routes.queryParameters := by
  constructor
  · have h1 := mountAll_headers ms base
    have h2 : unique (base.mountAll ms).headers = (base.mountAll ms).headers := by
      obtain ⟨ms', m, rfl⟩ := List.eq_nil_or_concat ms |>.resolve_left hne
      simp only [RouteConfig.mountAll, List.concat_eq_append, List.foldl_append, List.foldl_cons,
        List.foldl_nil]
      exact uniqueAux_idem _ []
    rw [h2] at h1
    rw [h1]
    exact unique_firstSeen _
  · clear hne
    induction ms generalizing base with
    | nil =>
      simp only [RouteConfig.mountAll, List.foldl_nil, List.map_nil, List.append_nil]
      obtain ⟨h, rs, ns, qs⟩ := base; rfl
    | cons m ms ih =>
      have := ih (base.mount m.1 m.2)
      simp only [RouteConfig.mountAll, List.foldl_cons] at this ⊢
      rw [this]
      simp [RouteConfig.mount]

/-- Mounting twice: shared headers are kept once. -/
example : (RouteConfig.mountAll ⟨[⟨c!"use a;"⟩], Demo.people⟩
    [(c!"x", ⟨[⟨c!"use b;"⟩, ⟨c!"use a;"⟩], Demo.commons⟩),
     (c!"y", ⟨[⟨c!"use c;"⟩, ⟨c!"use b;"⟩], Demo.cliff⟩)]).headers =
    [⟨c!"use a;"⟩, ⟨c!"use b;"⟩, ⟨c!"use c;"⟩] := by decide

/-! ## C19 -/

variable {W : World}

/-- The full claim of C19: after mounting `sub` under `seg`, requests behind `seg` are answered by
`sub` (with the query parameters of the root as additional `None` fields), and requests whose path
does not begin with `seg` are answered as before. -/
def Embeds (W : World) (base : RouteConfig) (seg : Str) (sub : RouteConfig)
    (bodyBase bodyMounted : List Stmt) : Prop :=
  Delegates W bodyMounted [] (bytesOf seg) sub.routes [] base.routes.queryParameters ∧
  ∀ path m, stripSlash path ≠ [] → ¬ bytesOf seg <+: stripSlash path →
    callMatchRoute W bodyMounted path m = callMatchRoute W bodyBase path m

theorem staticTexts_append (ns ns' : List NestedRoutes) :
    staticTexts (ns ++ ns') = staticTexts ns ++ staticTexts ns' := by
  simp [staticTexts]

theorem paramNames_append (ns ns' : List NestedRoutes) :
    paramNames (ns ++ ns') = paramNames ns ++ paramNames ns' := by
  simp [paramNames]

/-- Requests behind the mount point go to the mounted configuration, if the root of the base has no
parameter or no static children. -/
theorem C19_mounted {base sub : RouteConfig} {seg : Str} {body : List Stmt}
    (h : Supported (base.mount seg sub).routes body) (hp : PlainTexts (base.mount seg sub).routes)
    (hone : paramNames base.routes.routes = [] ∨ staticTexts base.routes.routes = []) :
    Delegates W body [] (bytesOf seg) sub.routes [] base.routes.queryParameters := by
  have := C11_delegates (W := W) h hp (.here _) (s := seg) (sub := sub.routes)
    (by simp [RouteConfig.mount]) (by
      simp only [RouteConfig.mount, Routes.routes_mk, paramNames_append, staticTexts_append]
      rcases hone with h | h
      · left; rw [h]; rfl
      · right; rw [h]; rfl)
  simpa [RouteConfig.mount] using this

theorem routeStatic_append_none {m : Bytes} {q : List Param} {caps : Caps W} {bs : Bytes}
    {n : NestedRoutes} (hn : routeStatic1 W m n q caps bs = none) : ∀ (ns : List NestedRoutes),
    routeStatic W m (ns ++ [n]) q caps bs = routeStatic W m ns q caps bs
  | [] => by simp [routeStatic, hn]
  | n' :: ns => by
    simp only [List.cons_append, routeStatic]
    rw [routeStatic_append_none hn ns]

theorem routeParam_append_static {m : Bytes} {q : List Param} {caps : Caps W} {bs : Bytes} {x s : Str}
    {sub : Routes} : ∀ (ns : List NestedRoutes),
    routeParam W m x (ns ++ [.mk (.static s) sub]) q caps bs = routeParam W m x ns q caps bs
  | [] => by simp [routeParam, routeParam1]
  | n' :: ns => by
    simp only [List.cons_append, routeParam]
    rw [routeParam_append_static ns]

/-- Requests that do not begin with the mount point are answered as before, unless the root of the base
has a parameter and exactly one static child. -/
theorem C19_elsewhere {base sub : RouteConfig} {seg : Str} {body body' : List Stmt}
    (hb : Supported base.routes body) (hm : Supported (base.mount seg sub).routes body')
    (hone : paramNames base.routes.routes = [] ∨ (staticTexts base.routes.routes).length ≠ 1)
    (path m : Bytes) (hne : stripSlash path ≠ []) (hpre : ¬ bytesOf seg <+: stripSlash path) :
    callMatchRoute W body' path m = callMatchRoute W body path m := by
  rw [call_eq hb, call_eq hm]
  obtain ⟨hs, rs, ns, qs⟩ := base
  generalize stripSlash path = bs at hne hpre
  have hnone : routeStatic1 W m (.mk (.static seg) sub.routes) ([] ++ qs) [] bs = none :=
    routeStatic1_not_prefix rfl hpre _ _
  have hpn : paramNames (ns ++ [.mk (.static seg) sub.routes]) = paramNames ns := by
    simp [paramNames]
  have hcap : captor (ns ++ [.mk (.static seg) sub.routes]) = captor ns := by
    simp only [captor, hpn]
  simp only [RouteConfig.mount, Routes.resources_mk, Routes.routes_mk, Routes.queryParameters_mk]
  change paramNames ns = [] ∨ (staticTexts ns).length ≠ 1 at hone
  have hst : ∀ ns, stuck ns bs = false := fun ns => by
    cases bs with
    | nil => exact absurd rfl hne
    | cons => simp [stuck]
  simp only [route, hst, hne, false_and, if_false, hcap, routeStatic_append_none hnone,
    routeParam_append_static]
  suffices hsel : routeStatic W m ns ([] ++ qs) [] bs = none ∨
      preferStatic (ns ++ [.mk (.static seg) sub.routes]) = preferStatic ns by
    rcases hsel with h | h
    · rw [h]; simp
    · rw [h]
  by_cases hp : paramNames ns = []
  · right; simp [preferStatic, hpn, hp]
  · have h : (staticTexts ns).length ≠ 1 := hone.resolve_left hp
    by_cases h0 : staticTexts ns = []
    · left
      apply routeStatic_eq_none
      intro n hn
      obtain ⟨seg', r'⟩ := n
      cases seg' with
      | dynamic p => exact routeStatic1_dynamic rfl _ _ _
      | static s =>
        have : s ∈ staticTexts ns := mem_staticTexts'.2 ⟨_, hn, rfl⟩
        rw [h0] at this; cases this
    · right
      have he : staticTexts (ns ++ [NestedRoutes.mk (.static seg) sub.routes]) = staticTexts ns ++ [seg] := by
        simp [staticTexts]
      have hpos : 0 < (staticTexts ns).length := List.length_pos_iff.2 h0
      have h1 : ((staticTexts ns).length == 1) = false := by simpa using h
      have h2 : ((staticTexts ns ++ [seg]).length == 1) = false := by
        simp only [List.length_append, List.length_cons, List.length_nil, beq_eq_false_iff_ne]; omega
      simp only [preferStatic, hpn, he, h1, h2]

/-- **C19, partial.** The claim holds if the root of the base has no parameter child or no static child.
Missing: it is false otherwise, see `C19_mount_false`. -/
theorem C19_mount_partial {base sub : RouteConfig} {seg : Str} {body body' : List Stmt}
    (hb : Supported base.routes body) (hm : Supported (base.mount seg sub).routes body')
    (hp : PlainTexts (base.mount seg sub).routes)
    (hone : paramNames base.routes.routes = [] ∨ staticTexts base.routes.routes = []) :
    Embeds W base seg sub body body' :=
  ⟨C19_mounted hm hp hone, fun path m => C19_elsewhere hb hm
    (hone.imp id fun h => by rw [h]; simp) path m⟩

/-- When mounting is safe: no parameter at the root of the base, a mount point that is plain ASCII and
neither begins nor is begun by a sibling, and no field of the mounted configuration named like a query
parameter of the root. -/
theorem C19_supported {base sub : RouteConfig} {seg : Str} {body body' : List Stmt}
    (hb : Supported base.routes body) (hs : Supported sub.routes body')
    (hnp : paramNames base.routes.routes = []) (hseg : ∀ c ∈ seg, byteStrChar c = true)
    (hpre : ∀ s ∈ staticTexts base.routes.routes, ¬ s <+: seg ∧ ¬ seg <+: s)
    (hf : ∀ segs above node, LiveRoute sub.routes segs above node → ∀ res ∈ node.resources,
      ∀ p ∈ base.routes.queryParameters, p.name ∉ (routeParams segs ++ above ++ node.queryParameters ++
        res.queryParameters).map Param.name)
    (hq : (base.routes.queryParameters.map Param.name).Nodup) :
    ∃ body'', Supported (base.mount seg sub).routes body'' := by
  obtain ⟨hs', rs, ns, qs⟩ := base
  change paramNames ns = [] at hnp
  change ∀ s ∈ staticTexts ns, _ at hpre
  change ∀ segs above node, LiveRoute sub.routes segs above node → ∀ res ∈ node.resources, ∀ p ∈ qs, _ at hf
  change (qs.map Param.name).Nodup at hq
  change Supported (.mk rs ns qs) body at hb
  simp only [RouteConfig.mount, Routes.resources_mk, Routes.routes_mk, Routes.queryParameters_mk]
  have hpn : paramNames (ns ++ [.mk (.static seg) sub.routes]) = [] := by
    rw [paramNames_append, hnp]; rfl
  have hst : staticTexts (ns ++ [NestedRoutes.mk (.static seg) sub.routes]) = staticTexts ns ++ [seg] := by
    simp [staticTexts]
  -- routes of the mounted configuration
  have hroute : ∀ {segs above node}, HasRoute (.mk rs (ns ++ [.mk (.static seg) sub.routes]) qs) segs above node →
      segs = [] ∧ node = .mk rs (ns ++ [.mk (.static seg) sub.routes]) qs ∨
      segs ≠ [] ∧ HasRoute (.mk rs ns qs) segs above node ∨
      ∃ segs' above', segs = .static seg :: segs' ∧ above = qs ++ above' ∧ HasRoute sub.routes segs' above' node := by
    intro segs above node h
    cases h with
    | here => exact .inl ⟨rfl, rfl⟩
    | child hn h' =>
      rcases List.mem_append.1 hn with hn | hn
      · exact .inr (.inl ⟨by simp, .child hn h'⟩)
      · simp only [List.mem_singleton, NestedRoutes.mk.injEq] at hn
        obtain ⟨rfl, rfl⟩ := hn
        exact .inr (.inr ⟨_, _, rfl, rfl, h'⟩)
  have hlive : ∀ {segs above node}, LiveRoute (.mk rs (ns ++ [.mk (.static seg) sub.routes]) qs) segs above node →
      (segs = [] ∧ above = [] ∧ node = .mk rs (ns ++ [.mk (.static seg) sub.routes]) qs) ∨
      segs ≠ [] ∧ LiveRoute (.mk rs ns qs) segs above node ∨
      ∃ segs' above', segs = .static seg :: segs' ∧ above = qs ++ above' ∧ LiveRoute sub.routes segs' above' node := by
    intro segs above node h
    cases h with
    | here => exact .inl ⟨rfl, rfl, rfl⟩
    | static hn h' =>
      rcases List.mem_append.1 hn with hn | hn
      · exact .inr (.inl ⟨by simp, .static hn h'⟩)
      · simp only [List.mem_singleton, NestedRoutes.mk.injEq, PathSegment.static.injEq] at hn
        obtain ⟨rfl, rfl⟩ := hn
        exact .inr (.inr ⟨_, _, rfl, rfl, h'⟩)
    | dynamic hn hc h' =>
      simp only [captor, Routes.routes_mk, hpn] at hc
      cases hc
  obtain ⟨hb1, hb2, hb3, hb4⟩ := hb.conditions
  obtain ⟨hs1, hs2, hs3, hs4⟩ := hs.conditions
  have hd : DistinctSiblings (.mk rs (ns ++ [.mk (.static seg) sub.routes]) qs) := by
    intro segs above node h
    rcases hroute h with ⟨_, rfl⟩ | ⟨_, h⟩ | ⟨_, _, _, _, h⟩
    · refine List.pairwise_append.2 ⟨hb.distinct _ _ _ (.here _), by simp, ?_⟩
      intro a ha b hb'
      simp only [List.mem_singleton] at hb'
      subst hb'
      intro hsame
      obtain ⟨sg, ra⟩ := a
      cases sg with
      | dynamic p => exact hsame
      | static s =>
        have hsame : s = seg := hsame
        exact (hpre s (mem_staticTexts'.2 ⟨_, ha, rfl⟩)).1 (hsame ▸ List.prefix_rfl)
    · exact hb.distinct _ _ _ h
    · exact hs.distinct _ _ _ h
  obtain ⟨body'', hbody⟩ := matcherBody_total hd
  have hdyn : ∀ {segs1 p segs2 above node},
      LiveRoute (.mk rs (ns ++ [.mk (.static seg) sub.routes]) qs) (segs1 ++ .dynamic p :: segs2) above node →
      LiveRoute (.mk rs ns qs) (segs1 ++ .dynamic p :: segs2) above node ∨
      ∃ segs' above', LiveRoute sub.routes (segs' ++ .dynamic p :: segs2) above' node := by
    intro segs1 p segs2 above node h
    rcases hlive h with ⟨h1, _⟩ | ⟨_, h⟩ | ⟨segs', above', h1, _, h2⟩
    · simp at h1
    · exact .inl h
    · cases segs1 with
      | nil => cases h1
      | cons s segs1 =>
        simp only [List.cons_append, List.cons.injEq] at h1
        exact .inr ⟨segs1, above', by rw [h1.2]; exact h2⟩
  have hhy : Hygienic (.mk rs (ns ++ [.mk (.static seg) sub.routes]) qs) := by
    intro segs p above node h
    rcases hdyn h with h | ⟨_, _, h⟩
    · exact hb.hygienic _ _ _ _ h
    · exact hs.hygienic _ _ _ _ h
  have hno : NamesOk (.mk rs (ns ++ [.mk (.static seg) sub.routes]) qs) := by
    refine ⟨fun segs p above node h => ?_, fun segs p above node h => ?_, fun segs p segs' above node h => ?_,
      fun segs p above node h => ?_, fun segs p above node h => ?_⟩ <;> rcases hdyn h with h | ⟨_, _, h⟩
    · exact hb4.own _ _ _ _ h
    · exact hs4.own _ _ _ _ h
    · exact hb4.len _ _ _ _ h
    · exact hs4.len _ _ _ _ h
    · exact hb4.text _ _ _ _ _ h
    · exact hs4.text _ _ _ _ _ h
    · exact hb4.startUsed _ _ _ _ h
    · exact hs4.startUsed _ _ _ _ h
    · exact hb4.startType _ _ _ _ h
    · exact hs4.startType _ _ _ _ h
  refine ⟨body'', hbody, (matcherBody_compiles hbody).2 ⟨?_, ?_, ?_, hno⟩, hhy⟩
  · intro segs above node h
    rcases hlive h with ⟨_, _, rfl⟩ | ⟨_, h⟩ | ⟨_, _, _, _, h⟩
    · have hok : LocalOk ns := hb1 _ _ _ (.here _)
      refine ⟨?_, ?_, ?_, ?_⟩
      · rw [Routes.routes_mk, hst]
        intro s hs
        rcases List.mem_append.1 hs with hs | hs
        · exact hok.ascii s hs
        · simp only [List.mem_singleton] at hs; subst hs; exact hseg
      · rw [Routes.routes_mk, hst]
        refine List.pairwise_append.2 ⟨hok.prefixFree, by simp, ?_⟩
        intro a ha b hb
        simp only [List.mem_singleton] at hb; subst hb
        exact hpre a ha
      · intro h; exact absurd hpn h
      · intro h; exact absurd hpn h
    · exact hb1 _ _ _ h
    · exact hs1 _ _ _ h
  · intro segs above node h res hres
    rcases hlive h with ⟨rfl, rfl, rfl⟩ | ⟨_, h⟩ | ⟨segs', above', rfl, rfl, hl⟩
    · exact hb2 _ _ _ (.here _) res hres
    · exact hb2 _ _ _ h res hres
    · have h1 := hs2 _ _ _ hl res hres
      have h2 := hf _ _ _ hl res hres
      have he : routeParams (.static seg :: segs') = routeParams segs' := by simp [routeParams]
      rw [he]
      have hperm : (routeParams segs' ++ (qs ++ above') ++ node.queryParameters ++ res.queryParameters).Perm
          (qs ++ (routeParams segs' ++ above' ++ node.queryParameters ++ res.queryParameters)) := by
        simp only [List.append_assoc]
        rw [← List.append_assoc, ← List.append_assoc qs]
        exact List.perm_append_comm.append_right _
      rw [(hperm.map Param.name).nodup_iff, List.map_append, List.nodup_append]
      refine ⟨hq, h1, ?_⟩
      intro a ha b hb e
      subst e
      obtain ⟨p, hp, rfl⟩ := List.mem_map.1 ha
      exact h2 p hp hb
  · intro segs p above node h
    rcases hlive h with ⟨h, _⟩ | ⟨_, h⟩ | ⟨segs', above', he, rfl, h⟩
    · simp at h
    · exact hb3 _ _ _ _ h
    · cases segs with
      | nil => simp at he
      | cons a segs =>
        simp only [List.cons_append, List.cons.injEq] at he
        obtain ⟨rfl, rfl⟩ := he
        exact hs3 _ _ _ _ h

/-- C19 is false in general.  The base has the children `{x}` and `new`; after mounting another
configuration at `nest` the route `/new` of the base is gone, and `/nest/deep` does not reach the mounted
configuration. -/
theorem C19_mount_false : ∃ (base sub : RouteConfig) (seg : Str) (body body' : List Stmt),
    Supported base.routes body ∧ Supported sub.routes body' ∧
    ∃ body'', Supported (base.mount seg sub).routes body'' ∧ PlainTexts (base.mount seg sub).routes ∧
      ¬ Delegates Demo.world body'' [] (bytesOf seg) sub.routes [] base.routes.queryParameters ∧
      ¬ ∀ path m, stripSlash path ≠ [] → ¬ bytesOf seg <+: stripSlash path →
        callMatchRoute Demo.world body'' path m = callMatchRoute Demo.world body path m := by
  let base : RouteConfig := ⟨[], .mk [] [
    .mk (.dynamic ⟨c!"x", c!"String"⟩) (.mk [Demo.res .get c!"a" c!"X"] [] []),
    .mk (.static c!"new") (.mk [Demo.res .get c!"a" c!"New"] [] [])] []⟩
  let sub : RouteConfig := ⟨[], .mk [Demo.res .get c!"b" c!"Root"] [] []⟩
  refine ⟨base, sub, c!"nest", _, _, supported_of (r := base.routes) (by decide +kernel),
    supported_of (r := sub.routes) (by decide +kernel), _,
    supported_of (r := (base.mount c!"nest" sub).routes) (by decide +kernel), plainTexts_of (by decide), ?_, ?_⟩
  · rintro ⟨body', hb', _, h2⟩
    have h3 := congrArg Demo.shown (h2 (bytesOf c!"GET"))
    have hb : Demo.ask (base.mount c!"nest" sub).routes c!"/nest" c!"GET" =
        .route [c!"a"] c!"X" [(c!"x", c!"nest")] [] := by decide +kernel
    have hleaf : Demo.shown ((callMatchRoute Demo.world body' [slash] (bytesOf c!"GET")).under []
        base.routes.queryParameters) = .route [c!"b"] c!"Root" [] [] := by
      rw [call_eq hb']; decide +kernel
    rw [show slash :: (spell [] ++ bytesOf c!"nest") = bytesOf c!"/nest" by decide,
      if_neg (by simp [sub])] at h3
    rw [show Demo.shown (callMatchRoute Demo.world (bodyOf (base.mount c!"nest" sub).routes) (bytesOf c!"/nest")
      (bytesOf c!"GET")) = _ from hb, hleaf] at h3
    cases h3
  · intro h
    have h3 := congrArg Demo.shown (h (bytesOf c!"/new") (bytesOf c!"GET") (by decide) (by decide))
    have hb : Demo.ask (base.mount c!"nest" sub).routes c!"/new" c!"GET" =
        .route [c!"a"] c!"X" [(c!"x", c!"new")] [] := by decide +kernel
    have hb' : Demo.ask base.routes c!"/new" c!"GET" =
        .route [c!"a"] c!"New" [] [] := by decide +kernel
    unfold Demo.ask at hb hb'
    rw [hb, hb'] at h3
    cases h3

/-- Mounting the unmixed application in the people application. -/
example : ∃ body, Supported (RouteConfig.mount ⟨[], Demo.people⟩ c!"admin" ⟨[], Demo.unmixed⟩).routes body ∧
    PlainTexts (RouteConfig.mount ⟨[], Demo.people⟩ c!"admin" ⟨[], Demo.unmixed⟩).routes ∧
    paramNames Demo.people.routes = [] ∧
    Demo.ask (RouteConfig.mount ⟨[], Demo.people⟩ c!"admin" ⟨[], Demo.unmixed⟩).routes
      c!"/admin/users/7/posts/12" c!"GET" =
      .route [c!"a"] c!"Post" [(c!"id", c!"7"), (c!"post", c!"12")] [c!"lang"] :=
  ⟨_, supported_of (by decide +kernel), plainTexts_of (by decide), by decide, by decide +kernel⟩

end Wayfinder
