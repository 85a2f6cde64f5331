import Verif.Props.Mounting
import Verif.Props.Accept
/-!
# When the file for a mounted configuration is accepted: C84
-/

namespace Wayfinder.Rust

variable {rs : List Resource} {ns : List NestedRoutes} {qs : List Param} {seg : Str} {sub : Routes}

/-- A block with one more static child. -/
local notation "added" => Routes.mk rs (ns ++ [NestedRoutes.mk (PathSegment.static seg) sub]) qs

theorem declares_added {segs : List PathSegment} {query : List Param} {res : Resource} :
    Declares added segs query res ↔ Declares (.mk rs ns qs) segs query res ∨
      ∃ segs' query', segs = .static seg :: segs' ∧ query = qs ++ query' ∧ Declares sub segs' query' res := by
  constructor
  · rintro ⟨node, above, h, hr, rfl⟩
    cases h with
    | here => exact .inl ⟨_, _, .here _, hr, rfl⟩
    | child hn h' =>
      rcases List.mem_append.1 hn with hn | hn
      · exact .inl ⟨_, _, .child hn h', hr, rfl⟩
      · simp only [List.mem_singleton, NestedRoutes.mk.injEq] at hn
        obtain ⟨rfl, rfl⟩ := hn
        exact .inr ⟨_, _, rfl, by simp, _, _, h', hr, rfl⟩
  · rintro (⟨node, above, h, hr, rfl⟩ | ⟨segs', query', rfl, rfl, node, above, h, hr, rfl⟩)
    · cases h with
      | here => exact ⟨added, _, .here _, hr, rfl⟩
      | child hn h' => exact ⟨_, _, .child (r := added) (List.mem_append_left _ hn) h', hr, rfl⟩
    · exact ⟨_, _, .child (r := added) (seg := .static seg) (by simp) h, hr, by simp⟩

theorem action_added {mods : List Str} {x : Str} {params query : List Param} :
    Action added mods x params query ↔ Action (.mk rs ns qs) mods x params query ∨
      ∃ query', query = qs ++ query' ∧ Action sub mods x params query' := by
  constructor
  · rintro ⟨segs, above, res, h, h1, h2, h3, h4, rfl⟩
    replace h := declares_added.1 h
    rcases h with h | ⟨segs', query', rfl, rfl, h⟩
    · exact .inl ⟨segs, above, res, h, h1, h2, h3, h4, rfl⟩
    · exact .inr ⟨_, List.append_assoc _ _ _, segs', query', res, h, h1, h2, h3, by rw [h4, routeParams_static], rfl⟩
  · rintro (⟨segs, above, res, h, h1, h2, h3, h4, rfl⟩ | ⟨_, rfl, segs, above, res, h, h1, h2, h3, h4, rfl⟩)
    · exact ⟨segs, above, res, declares_added.2 (.inl h), h1, h2, h3, h4, rfl⟩
    · exact ⟨_, _, res, declares_added.2 (.inr ⟨_, _, rfl, rfl, h⟩), h1, h2, h3, by rw [h4, routeParams_static],
        (List.append_assoc _ _ _).symm⟩

theorem submodule_added {mods : List Str} {x : Str} :
    Submodule added mods x ↔ Submodule (.mk rs ns qs) mods x ∨ Submodule sub mods x := by
  constructor
  · rintro ⟨rest, y, params, query, h⟩
    replace h := action_added.1 h
    rcases h with h | ⟨_, _, h⟩
    · exact .inl ⟨_, _, _, _, h⟩
    · exact .inr ⟨_, _, _, _, h⟩
  · rintro (⟨rest, y, params, query, h⟩ | ⟨rest, y, params, query, h⟩)
    · exact ⟨_, _, _, _, action_added.2 (.inl h)⟩
    · exact ⟨_, _, _, _, action_added.2 (.inr ⟨_, rfl, h⟩)⟩

theorem emitted_added {segs : List PathSegment} {query : List Param} {res : Resource} :
    Emitted added segs query res ↔ Emitted (.mk rs ns qs) segs query res ∨
      ∃ segs' query', segs = .static seg :: segs' ∧ query = qs ++ query' ∧ Emitted sub segs' query' res := by
  constructor
  · rintro ⟨node, above, h, hr, rfl⟩
    replace h := liveRoute_added.1 h
    rcases h with ⟨rfl, rfl, rfl⟩ | ⟨_, h⟩ | ⟨segs', above', rfl, rfl, h⟩
    · exact .inl ⟨_, _, .here _, hr, rfl⟩
    · exact .inl ⟨_, _, h, hr, rfl⟩
    · exact .inr ⟨_, _, rfl, List.append_assoc _ _ _, _, _, h, hr, rfl⟩
  · rintro (⟨node, above, h, hr, rfl⟩ | ⟨segs', query', rfl, rfl, node, above, h, hr, rfl⟩)
    · by_cases hne : segs = []
      · subst hne
        cases h
        exact ⟨added, _, .here _, hr, rfl⟩
      · exact ⟨_, _, liveRoute_added.2 (.inr (.inl ⟨hne, h⟩)), hr, rfl⟩
    · exact ⟨_, _, liveRoute_added.2 (.inr (.inr ⟨_, _, rfl, rfl, h⟩)), hr, (List.append_assoc _ _ _).symm⟩

/-- An action in a module makes the module. -/
theorem Action.outer {r : Routes} {m : Str} {rest : List Str} {x : Str} {params query : List Param}
    (h : Action r (m :: rest) x params query) : Submodule r [] m := ⟨rest, x, params, query, h⟩

theorem Submodule.outer {r : Routes} {m : Str} {rest : List Str} {x : Str} (h : Submodule r (m :: rest) x) :
    Submodule r [] m := by
  obtain ⟨rest', y, params, query, h⟩ := h
  exact ⟨_, y, params, query, h⟩

/-- No module has parts from both sides. -/
theorem Strangers.none {base : Routes} (h : Strangers base sub) {m : Str} (h1 : Submodule base [] m)
    (h2 : Submodule sub [] m) : False := (h.submodules h2 h1).1 rfl

theorem clearNames_added (hb : ClearNames (.mk rs ns qs)) (hs : ClearNames sub) (hx : Strangers (.mk rs ns qs) sub)
    (hi : Inherits qs sub) : ClearNames added := by
  have haa : ∀ {mods x y params query params' query'}, Action (.mk rs ns qs) mods x params query →
      Action sub mods y params' query' → False := by
    intro mods x y params query params' query' h1 h2
    cases mods with
    | nil => exact hx.inside h2
    | cons m rest => exact hx.none h1.outer h2.outer
  -- what is declared in a module of one side
  have htb : ∀ {mods x params query t}, Action (.mk rs ns qs) mods x params query → TypeName added mods t →
      TypeName (.mk rs ns qs) mods t ∨ mods = [] ∧ ∃ m, Submodule sub [] m ∧ t = toSnakeCase m := by
    intro mods x params query t h ht
    cases ht with
    | enum => exact .inl .enum
    | prelude h1 h2 => exact .inl (.prelude h1 h2)
    | action h1 =>
      rcases action_added.1 h1 with h1 | ⟨_, _, h1⟩
      · exact .inl (.action h1)
      · exact (haa h h1).elim
    | submodule h1 =>
      rcases submodule_added.1 h1 with h1 | h1
      · exact .inl (.submodule h1)
      · cases mods with
        | nil => exact .inr ⟨rfl, _, h1, rfl⟩
        | cons m rest => exact (hx.none h.outer h1.outer).elim
  have hts : ∀ {mods x params query t}, Action sub mods x params query → TypeName added mods t →
      TypeName sub mods t := by
    intro mods x params query t h ht
    cases mods with
    | nil => exact (hx.inside h).elim
    | cons m rest =>
      cases ht with
      | enum => exact .enum
      | prelude h1 h2 => cases h1
      | action h1 =>
        rcases action_added.1 h1 with h1 | ⟨_, _, h1⟩
        · exact (haa h1 h).elim
        · exact .action h1
      | submodule h1 =>
        rcases submodule_added.1 h1 with h1 | h1
        · exact (hx.none h1.outer h.outer).elim
        · exact .submodule h1
  refine ⟨?_, ?_, ?_, ?_, ?_, ?_, ?_, ?_, ?_, ?_, ?_⟩
  · obtain ⟨mods, x, params, query, h⟩ := hb.nonempty
    exact ⟨mods, x, params, query, action_added.2 (.inl h)⟩
  · intro mods x y params query params' query' h1 h2 he
    rcases action_added.1 h1 with h1 | ⟨_, _, h1⟩ <;> rcases action_added.1 h2 with h2 | ⟨_, _, h2⟩
    · exact hb.actions h1 h2 he
    · exact (haa h1 h2).elim
    · exact (haa h2 h1).elim
    · exact hs.actions h1 h2 he
  · intro mods x y h1 h2 he
    rcases submodule_added.1 h1 with h1 | h1 <;> rcases submodule_added.1 h2 with h2 | h2
    · exact hb.submodules h1 h2 he
    · cases mods with
      | nil =>
        have := hx.submodules h2 h1
        rcases he with he | he
        · exact (this.1 he).elim
        · exact (this.2 he).elim
      | cons m rest => exact (hx.none h1.outer h2.outer).elim
    · cases mods with
      | nil =>
        have := hx.submodules h1 h2
        rcases he with he | he
        · exact (this.1 he.symm).elim
        · exact (this.2 he.symm).elim
      | cons m rest => exact (hx.none h2.outer h1.outer).elim
    · exact hs.submodules h1 h2 he
  · intro mods x y params query h1 h2
    rcases action_added.1 h1 with h1 | ⟨_, _, h1⟩ <;> rcases submodule_added.1 h2 with h2 | h2
    · exact hb.apart h1 h2
    · cases mods with
      | nil => exact hx.actions h2 h1
      | cons m rest => exact (hx.none h1.outer h2.outer).elim
    · cases mods with
      | nil => exact (hx.inside h1).elim
      | cons m rest => exact (hx.none h2.outer h1.outer).elim
    · exact hs.apart h1 h2
  · intro mods x params query h
    replace h := action_added.1 h
    rcases h with h | ⟨_, _, h⟩
    · exact hb.actionFree h
    · exact hs.actionFree h
  · intro mods x h
    replace h := submodule_added.1 h
    rcases h with h | h
    · exact hb.submoduleFree h
    · exact hs.submoduleFree h
  · intro mods x params query h hne ht
    replace h := action_added.1 h
    rcases h with h | ⟨query', rfl, h⟩
    · rcases htb h ht with ht | ⟨rfl, m, hm, ht⟩
      · exact hb.option h hne ht
      · exact (hx.types hm h).2 hne ht.symm
    · by_cases hq : qs = []
      · exact hs.option h (by simpa [hq] using hne) (hts h ht)
      · exact hi.option h hq (hts h ht)
  · intro x h
    replace h := action_added.1 h
    rcases h with h | ⟨_, _, h⟩
    · exact hb.values h
    · exact (hx.inside h).elim
  · intro mods x params query h
    replace h := action_added.1 h
    rcases h with h | ⟨query', rfl, h⟩
    · exact hb.fields h
    · have h1 := hi.fields h
      have hp : (params ++ (qs ++ query')).Perm (qs ++ params ++ query') := by
        rw [← List.append_assoc]
        exact List.perm_append_comm.append_right _
      exact ((hp.map Param.name).nodup_iff).2 h1
  · intro mods x params query h p hp ht
    replace h := action_added.1 h
    rcases h with h | ⟨query', rfl, h⟩
    · rcases htb h ht with ht | ⟨rfl, m, hm, ht⟩
      · exact hb.types h p hp ht
      · exact (hx.types hm h).1 p hp ht
    · simp only [List.mem_append] at hp
      rcases hp with hp | hp | hp
      · exact hs.types h p (by simp [hp]) (hts h ht)
      · exact hi.types h p hp (hts h ht)
      · exact hs.types h p (by simp [hp]) (hts h ht)
  · intro mods x params query h p hp
    replace h := action_added.1 h
    rcases h with h | ⟨query', rfl, h⟩
    · refine ⟨(hb.bindable h p hp).1, fun {y} hy => ?_⟩
      rcases action_added.1 hy with hy | ⟨_, _, hy⟩
      · exact (hb.bindable h p hp).2 hy
      · exact (haa h hy).elim
    · have hy' : ∀ {y}, Action added mods y [] [] → qs = [] ∧ Action sub mods y [] [] := by
        intro y hy
        rcases action_added.1 hy with hy | ⟨q, hq, hy⟩
        · exact (haa hy h).elim
        · obtain ⟨h1, rfl⟩ := List.append_eq_nil_iff.1 hq.symm
          exact ⟨h1, hy⟩
      by_cases hq : p ∈ qs
      · refine ⟨hi.names p hq, fun {y} hy => ?_⟩
        rw [(hy' hy).1] at hq
        cases hq
      · have hp : p ∈ params ++ query' := by
          simp only [List.mem_append] at hp ⊢
          tauto
        exact ⟨(hs.bindable h p hp).1, fun {y} hy => (hs.bindable h p hp).2 (hy' hy).2⟩

theorem freeParams_added (hb : FreeParams (.mk rs ns qs)) (hs : FreeParams sub) (hx : Strangers (.mk rs ns qs) sub) :
    FreeParams added := by
  intro segs query node h p hp
  have hy' : ∀ {y}, Action added [] y [] [] → Action (.mk rs ns qs) [] y [] [] := by
    intro y hy
    rcases action_added.1 hy with hy | ⟨_, _, hy⟩
    · exact hy
    · exact (hx.inside hy).elim
  replace h := liveRoute_added.1 h
  rcases h with ⟨rfl, _⟩ | ⟨_, h⟩ | ⟨segs', above', rfl, rfl, h⟩
  · cases hp
  · exact ⟨(hb _ _ _ h p hp).1, fun {y} hy => (hb _ _ _ h p hp).2 (hy' hy)⟩
  · simp only [List.mem_cons, reduceCtorEq, false_or] at hp
    exact ⟨(hs _ _ _ h p hp).1, fun {y} hy => hx.params h p hp y (hy' hy)⟩

theorem redirectsFit_added (hb : RedirectsFit (.mk rs ns qs)) (hs : RedirectsFit sub) : RedirectsFit added := by
  intro segs above res h hr
  replace h := emitted_added.1 h
  rcases h with h | ⟨segs', query', rfl, rfl, h⟩
  · obtain ⟨mods, x, params, query, ha, h1, h2, h3⟩ := hb _ _ _ h hr
    exact ⟨mods, x, params, query, action_added.2 (.inl ha), h1, h2, h3⟩
  · obtain ⟨mods, x, params, query, ha, h1, h2, h3⟩ := hs _ _ _ h hr
    refine ⟨mods, x, params, qs ++ query, action_added.2 (.inr ⟨_, rfl, ha⟩), h1, by rw [routeParams_static]; exact h2, ?_⟩
    rw [List.append_assoc, List.map_append, List.map_append (l₁ := qs)]
    exact h3.append_left _

/-- Actions of the two sides are not written alike. -/
theorem Strangers.alike {base : Routes} (h : Strangers base sub) {mods mods' : List Str} {x x' : Str}
    {params query params' query' : List Param} (h1 : Action base mods x params query)
    (h2 : Action sub mods' x' params' query') : ¬ SameName mods x mods' x' := by
  rintro ⟨e, _, _⟩
  cases mods' with
  | nil => exact h.inside h2
  | cons m' rest' =>
    cases mods with
    | nil => cases e
    | cons m rest =>
      simp only [List.map_cons, List.cons.injEq] at e
      exact (h.submodules h2.outer h1.outer).1 e.1

theorem SameName.symm {mods mods' : List Str} {x x' : Str} (h : SameName mods x mods' x') : SameName mods' x' mods x :=
  ⟨h.1.symm, h.2.1.symm, h.2.2.symm⟩

theorem SameName.trans {mods mods' mods'' : List Str} {x x' x'' : Str} (h : SameName mods x mods' x')
    (h' : SameName mods' x' mods'' x'') : SameName mods x mods'' x'' :=
  ⟨h.1.trans h'.1, h.2.1.trans h'.2.1, h.2.2.trans h'.2.2⟩

theorem redirectTypes_added (hb : RedirectTypes (.mk rs ns qs)) (hs : RedirectTypes sub) (hb' : RedirectsFit (.mk rs ns qs))
    (hs' : RedirectsFit sub) (hx : Strangers (.mk rs ns qs) sub) : RedirectTypes added := by
  intro segs above res h hr mods x params query ha hn
  replace h := emitted_added.1 h
  rcases h with h | ⟨segs', query', rfl, rfl, h⟩
  · rcases action_added.1 ha with ha | ⟨_, _, ha⟩
    · exact hb _ _ _ h hr _ _ _ _ ha hn
    · obtain ⟨mods', x', params', query', ha', h1, -, -⟩ := hb' _ _ _ h hr
      exact (hx.alike ha' ha (h1.trans hn.symm)).elim
  · rw [routeParams_static]
    rcases action_added.1 ha with ha | ⟨_, _, ha⟩
    · obtain ⟨mods', x', params', query', ha', h1, -, -⟩ := hs' _ _ _ h hr
      exact (hx.alike ha ha' (hn.trans h1.symm)).elim
    · exact hs _ _ _ h hr _ _ _ _ ha hn

theorem shared_action {base : Routes} (h : ShareAction base sub) : ∃ mods x params query params' query',
    Action base mods x params query ∧ Action sub mods x params' query' := by
  obtain ⟨x, y, ⟨segs, above, node, h1, h2⟩, ⟨segs', above', node', h3, h4⟩, h5, h6, h7, h8⟩ := h
  exact ⟨x.modules, x.name, _, _, _, _, ⟨segs, _, x, ⟨_, _, h1, h2, rfl⟩, h5, rfl, rfl, rfl, rfl⟩,
    ⟨segs', _, y, ⟨_, _, h3, h4, rfl⟩, h6, h7.symm, h8.symm, rfl, rfl⟩⟩

end Wayfinder.Rust

namespace Wayfinder
open Rust

/-- **C84, the file.** Mounting a configuration with an accepted file in another, its actions in modules of their own,
gives an accepted file again, if the root has room for the mount point and the actions can have its query parameters. -/
theorem C84_file {base sub : RouteConfig} {seg : Str} {body body' : List Stmt}
    (hb : Supported base.routes body) (hs : Supported sub.routes body') (hcb : Clean base) (hcs : Clean sub)
    (hroom : Room base.routes seg) (hseg : ∀ c ∈ seg, textChar c = true ∧ c ∉ [ '{', '}', '"', '\\', '\n'])
    (hx : Strangers base.routes sub.routes) (hi : Inherits base.routes.queryParameters sub.routes) :
    Clean (base.mount seg sub) ∧ (∃ body'', Supported (base.mount seg sub).routes body'') ∧
      ∃ m b, readText (headerToks (base.mount seg sub).headers) (codegen (base.mount seg sub)).text = some (m, b) := by
  have hgen : (codegen (base.mount seg sub)).fail = none := by
    refine (C84_generated base sub seg).2 ⟨.inr hcb.generated, .inr hcs.generated,
      fun h => (hroom.apart seg h).1 List.prefix_rfl, fun h => ?_⟩
    obtain ⟨mods, x, params, query, params', query', h1, h2⟩ := shared_action h
    exact hx.alike h1 h2 ⟨rfl, rfl, rfl⟩
  have hhead : HeadersRead (base.mount seg sub).headers := by
    intro h hh
    have := ((C36_mount_headers base [(seg, sub)] (by simp)).1.1 h).1 hh
    simp only [List.flatMap_cons, List.flatMap_nil, List.append_nil, List.mem_append] at this
    rcases this with h' | h'
    · exact hcb.headers h h'
    · exact hcs.headers h h'
  obtain ⟨hd, rs, ns, qs⟩ := base
  have hroutes := mount_routes hd rs ns qs seg sub
  have hclear := clearNames_added (seg := seg) hcb.names hcs.names hx hi
  have hfit := redirectsFit_added (seg := seg) hcb.redirects hcs.redirects
  have hwords : Words (.mk rs (ns ++ [.mk (.static seg) sub.routes]) qs) := by
    have hw := hcb.words
    have hw' := hcs.words
    refine ⟨?_, ?_, ?_, ?_⟩ <;> intro segs query node h <;> replace h := hasRoute_added h <;>
      rcases h with ⟨rfl, rfl⟩ | ⟨_, h⟩ | ⟨segs', above', rfl, rfl, h⟩
    · simp
    · exact hw.segs h
    · intro s hs
      rcases List.mem_cons.1 hs with rfl | hs
      · exact fun c hc => ⟨(hseg c hc).1, fun e => (hseg c hc).2 (by simp [e])⟩
      · exact hw'.segs h s hs
    · simp
    · exact hw.types h
    · intro p hp
      simp only [List.mem_cons, reduceCtorEq, false_or] at hp
      exact hw'.types h p hp
    · exact fun p hp => hw.query (.here (Routes.mk rs ns qs)) p hp
    · exact hw.query h
    · exact hw'.query h
    · exact fun x hx => hw.resources (.here (Routes.mk rs ns qs)) x hx
    · exact hw.resources h
    · exact hw'.resources h
  have hbr : NoBraces (.mk rs (ns ++ [.mk (.static seg) sub.routes]) qs) := by
    intro segs query node h s hs
    replace h := hasRoute_added h
    rcases h with ⟨rfl, rfl⟩ | ⟨_, h⟩ | ⟨segs', above', rfl, rfl, h⟩
    · cases hs
    · exact hcb.braces _ _ _ h s hs
    · rcases List.mem_cons.1 hs with e | hs
      · cases e
        exact ⟨fun h => (hseg _ h).2 (by simp), fun h => (hseg _ h).2 (by simp), fun h => (hseg _ h).2 (by simp),
          fun h => (hseg _ h).2 (by simp)⟩
      · exact hcs.braces _ _ _ h s hs
  have hclean : Clean (RouteConfig.mount ⟨hd, .mk rs ns qs⟩ seg sub) := by
    refine ⟨hgen, hhead, ?_, ?_, ?_, ?_, ?_, ?_⟩ <;> rw [hroutes]
    · exact hwords
    · exact hbr
    · exact hfit
    · exact redirectTypes_added hcb.types hcs.types hcb.redirects hcs.redirects hx
    · exact hclear
    · exact freeParams_added hcb.params hcs.params hx
  have hsup : ∃ body'', Supported (RouteConfig.mount ⟨hd, .mk rs ns qs⟩ seg sub).routes body'' := by
    refine (C84_supported hb).2 ⟨⟨_, hs⟩, hroom, fun segs above node hl res hres => ?_⟩
    have h := fields_distinct hclear hfit _ _ _ (liveRoute_added.2 (.inr (.inr ⟨segs, above, rfl, rfl, hl⟩))) res hres
    rw [routeParams_static] at h
    exact (((fields_perm _ _ _ _ _).map Param.name).nodup_iff).1 h
  refine ⟨hclean, hsup, ?_⟩
  obtain ⟨body'', hm⟩ := hsup
  obtain ⟨h1, _, h3, h4⟩ := hm.conditions
  exact (C49_agreeing ⟨hclean.generated, hclean.headers, hclean.words, hclean.braces⟩ hclean.types).1.2
    ⟨h1, h3, h4, hclean.names, hclean.params, hclean.redirects⟩

end Wayfinder

/-! ## Examples -/

namespace Wayfinder.Demo
open Rust

/-- Every action is in a module. -/
def insideB (r : Routes) : Bool := (declared r).all fun d => d.2.2.isRedirect || !d.2.2.modules.isEmpty

/-- All names of modules and structs in a configuration, as types. -/
def typesOf (r : Routes) : List Str :=
  [c!"Route", c!"Match", c!"Error", c!"fmt"] ++
    (declared r).flatMap fun d => toCapsCase d.2.2.name :: d.2.2.modules.map toSnakeCase

theorem typeName_mem {r : Routes} {mods : List Str} {t : Str} (h : TypeName r mods t) : t ∈ typesOf r := by
  cases h with
  | enum => simp [typesOf]
  | prelude _ h => simp only [List.mem_cons, List.not_mem_nil, or_false] at h; rcases h with rfl | rfl | rfl <;> simp [typesOf]
  | action h =>
    obtain ⟨segs, above, res, hd, _, _, rfl, _⟩ := h
    exact List.mem_append_right _ (List.mem_flatMap.2 ⟨_, mem_declared.2 hd, by simp⟩)
  | @submodule x h =>
    obtain ⟨rest, y, params, query, segs, above, res, hd, _, hm, _⟩ := h
    refine List.mem_append_right _ (List.mem_flatMap.2 ⟨_, mem_declared.2 hd, List.mem_cons_of_mem _ ?_⟩)
    simp [hm]

/-- The outermost modules. -/
def outermost (r : Routes) : List Str := (declared r).filterMap fun d => if d.2.2.isRedirect then none else d.2.2.modules.head?

theorem mem_outermost {r : Routes} {m : Str} (h : Submodule r [] m) : m ∈ outermost r := by
  obtain ⟨rest, y, params, query, segs, above, res, hd, hr, hm, _⟩ := h
  exact List.mem_filterMap.2 ⟨_, mem_declared.2 hd, by simp [hr, hm]⟩

theorem inside_of {r : Routes} (h : insideB r = true) {x : Str} {params query : List Param} : ¬ Action r [] x params query := by
  rintro ⟨segs, above, res, hd, hr, hm, _⟩
  have := List.all_eq_true.1 h _ (mem_declared.2 hd)
  simp [hr, hm] at this

theorem strangers_of {base sub : Routes} (h1 : insideB base = true) (h2 : insideB sub = true)
    (h3 : ∀ y ∈ outermost base, ∀ m ∈ outermost sub, toSnakeCase y ≠ toSnakeCase m ∧ toCapsCase y ≠ toCapsCase m) :
    Strangers base sub where
  inside := inside_of h2
  submodules hm hy := h3 _ (mem_outermost hy) _ (mem_outermost hm)
  actions _ h := (inside_of h1 h).elim
  types _ h := (inside_of h1 h).elim
  params _ _ _ _ h := (inside_of h1 h).elim

theorem inherits_of {qs : List Param} {sub : Routes}
    (h1 : ∀ d ∈ declared sub, ((qs ++ routeParams d.1 ++ (d.2.1 ++ d.2.2.queryParameters)).map Param.name).Nodup)
    (h2 : ∀ p ∈ qs, p.typ ∉ typesOf sub ∧ p.name ∉ [c!"None", c!"Some", c!"Ok", c!"Err"])
    (h3 : c!"Option" ∉ typesOf sub) : Inherits qs sub where
  fields h := by
    obtain ⟨segs, above, res, hd, _, _, _, rfl, rfl⟩ := h
    exact h1 _ (mem_declared.2 hd)
  types _ p hp ht := (h2 p hp).1 (typeName_mem ht)
  option _ _ ht := h3 (typeName_mem ht)
  names p hp := (h2 p hp).2

/-- An application with a root, a parameter and a redirect. -/
def admin : Routes := .mk [res .get c!"admin" c!"Dash"]
  [.mk (.static c!"users") (.mk [] [.mk (.dynamic ⟨c!"id", c!"u32"⟩) (.mk [res .get c!"admin" c!"User"] [] [])] []),
   .mk (.static c!"old") (.mk [⟨.get, [c!"admin"], c!"Dash", true, []⟩] [] [])] []

/-- Mounting it in the people application, whose root has a query parameter. -/
example : Clean ((conf people).mount c!"admin" (conf admin)) ∧
    (∃ body, Supported ((conf people).mount c!"admin" (conf admin)).routes body) ∧
    ∃ m b, readText (headerToks ((conf people).mount c!"admin" (conf admin)).headers)
      (codegen ((conf people).mount c!"admin" (conf admin))).text = some (m, b) :=
  C84_file (base := conf people) (sub := conf admin) people_supported
    (supported_of (r := admin) (by decide +kernel)) people_clean (clean_of (by decide +kernel))
    ⟨by decide, by decide, fun h => absurd rfl h⟩ (by decide)
    (strangers_of (by decide) (by decide) (by decide +kernel))
    (inherits_of (by decide +kernel) (by decide +kernel) (by decide +kernel))

/-- A root with a parameter. -/
def named : Routes := .mk [] [.mk (.dynamic ⟨c!"name", c!"String"⟩) (.mk [res .get c!"a" c!"X"] [] []),
  .mk (.static c!"new") (.mk [res .get c!"a" c!"New"] [] [])] []

/-- A root with two query parameters of the same name. -/
def doubled : Routes := .mk [] [] [⟨c!"q", c!"String"⟩, ⟨c!"q", c!"u32"⟩]

/-- A configuration with one action, and one parameter named like the query parameter of people. -/
def tongue : Routes := .mk [] [.mk (.dynamic ⟨c!"lang", c!"String"⟩) (.mk [res .get c!"b" c!"Root"] [] [])] []

/-- **C84, each condition is needed.** Mounting at a static text or the beginning of one, at a text with another first
character than the siblings of a parameter, at a text that is not ASCII, an action of the same name, a field of the
same name; and two query parameters of the same name, which do no harm without actions.  In each case both
configurations are supported. -/
theorem C84_needed :
    (codegen (RouteConfig.mount ⟨[], people⟩ c!"people" ⟨[], admin⟩)).fail ≠ none ∧
    (codegen (RouteConfig.mount ⟨[], people⟩ c!"more" ⟨[], people⟩)).fail ≠ none ∧
    (¬ ∃ body, Supported (RouteConfig.mount ⟨[], people⟩ c!"peo" ⟨[], admin⟩).routes body) ∧
    (¬ ∃ body, Supported (RouteConfig.mount ⟨[], named⟩ c!"admin" ⟨[], admin⟩).routes body) ∧
    (∃ body, Supported (RouteConfig.mount ⟨[], named⟩ c!"nadmin" ⟨[], admin⟩).routes body) ∧
    (¬ ∃ body, Supported (RouteConfig.mount ⟨[], people⟩ c!"über" ⟨[], admin⟩).routes body) ∧
    (¬ ∃ body, Supported (RouteConfig.mount ⟨[], people⟩ c!"admin" ⟨[], tongue⟩).routes body) ∧
    (∃ body, Supported doubled body) ∧
    (¬ ∃ body, Supported (RouteConfig.mount ⟨[], doubled⟩ c!"admin" ⟨[], admin⟩).routes body) := by
  have hn : ∃ body, Supported named body := ⟨_, supported_of (by decide +kernel)⟩
  have hd : ∃ body, Supported doubled body := ⟨_, supported_of (by decide +kernel)⟩
  have ha : ∃ body, Supported admin body := ⟨_, supported_of (by decide +kernel)⟩
  obtain ⟨_, hn⟩ := hn
  obtain ⟨_, hd'⟩ := hd
  refine ⟨?_, ?_, ?_, ?_, ?_, ?_, ?_, ⟨_, hd'⟩, ?_⟩
  · rw [ne_eq, C84_generated]
    rintro ⟨_, _, h, _⟩
    exact h (by decide)
  · rw [ne_eq, C84_generated]
    rintro ⟨_, _, _, h⟩
    exact h ⟨res .get c!"home" c!"Index", res .get c!"home" c!"Index", ⟨_, _, _, .here _, by decide⟩,
      ⟨_, _, _, .here _, by decide⟩, rfl, rfl, rfl, rfl⟩
  · rw [C84_supported (base := ⟨[], people⟩) people_supported]
    rintro ⟨_, h, _⟩
    exact absurd (h.apart c!"people" (by decide)).2 (by decide)
  · rw [C84_supported (base := ⟨[], named⟩) hn]
    rintro ⟨_, h, _⟩
    obtain ⟨c, hc⟩ := h.initial (by decide)
    have h1 := hc c!"admin" (by decide)
    have h2 := hc c!"new" (by decide)
    rw [← h2] at h1
    cases h1
  · rw [C84_supported (base := ⟨[], named⟩) hn]
    refine ⟨ha, ⟨by decide, by decide, fun _ => ⟨'n', by decide⟩⟩, ?_⟩
    intro segs above node hl res hres
    obtain ⟨_, ha⟩ := ha
    exact ha.conditions.2.1 _ _ _ hl res hres
  · rw [C84_supported (base := ⟨[], people⟩) people_supported]
    rintro ⟨_, h, _⟩
    exact absurd (h.ascii 'ü' (by decide)) (by decide)
  · rw [C84_supported (base := ⟨[], people⟩) people_supported]
    rintro ⟨_, _, h⟩
    have := h _ _ _ (.dynamic (r := tongue) (by simp [tongue]; rfl) rfl (.here _)) (res .get c!"b" c!"Root") (by decide)
    revert this
    decide
  · exact C84_twice (base := ⟨[], doubled⟩) hd' (by decide) ⟨[], [], admin, .here _, by decide⟩

/-- Two parameters at the root, no static child: not accepted alone, but accepted with something mounted, with all
requests for the second parameter going to the first. -/
theorem C84_mended : ∃ base sub : RouteConfig, (¬ ∃ body, Supported base.routes body) ∧
    ∃ body, Supported (base.mount c!"admin" sub).routes body := by
  refine ⟨⟨[], .mk [] [.mk (.dynamic ⟨c!"x", c!"String"⟩) (.mk [res .get c!"a" c!"X"] [] []),
    .mk (.dynamic ⟨c!"y", c!"u32"⟩) (.mk [res .get c!"a" c!"Y"] [] [])] []⟩, ⟨[], admin⟩, ?_, _,
    supported_of (by decide +kernel)⟩
  rintro ⟨body, h⟩
  obtain ⟨x, hx⟩ := (h.conditions.1 _ _ _ (.here _)).oneParam (by decide) (by decide)
  revert hx
  simp [paramNames]

end Wayfinder.Demo
