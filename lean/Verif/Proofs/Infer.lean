import Verif.Proofs.Accept
import Verif.Proofs.Retype
import Verif.Proofs.Demand
/-!
# The types of the emitted function are those of the declared fields
-/

namespace Wayfinder.Rust

/-- The type of a field of the struct of a literal. -/
def needed (m : Mod) (a : MethodArm) (x : Str) : Str :=
  match m.fieldsAt (snakes a.modules ++ [toCapsCase a.name]) with
  | some fs => fieldType fs x
  | none => []

theorem needed_eq {root : FlattenedModule} {a : MethodArm} {mods : List Str} {act : FlattenedAction} (hg : ModGood root)
    (h : HasAction root mods act) (hn : SameName mods act.name a.modules a.name) {p : Param} (hp : p ∈ act.routeParameters) :
    needed (modOf root) a p.name = p.typ := by
  obtain ⟨sub, h1, h2, h3, h4, -⟩ := struct_found hg h
  rw [hn.2.2] at h4
  rw [snakes_eq hn] at h3
  have hf : (modOf root).fieldsAt (snakes a.modules ++ [toCapsCase a.name]) = some (structOf act).fields := by
    simp only [Mod.fieldsAt, unsnoc_append, h3, h4, Option.bind_eq_bind, Option.bind_some]
    rfl
  rw [needed, hf]
  exact fieldType_mem (h1.fields act h2) hp

theorem needed_fieldType {r : Routes} {root : FlattenedModule} (hr : modulesRoot r = some root) (hg : ModGood root)
    {res : Resource} {x t : Str} (h : FieldType r res x t) (segs : List PathSegment) (query : List Param) :
    needed (modOf root) (armOf segs query res) x = t := by
  obtain ⟨mods, name, params, query', ⟨segs', above, res', hd, hi, rfl, rfl, rfl, rfl⟩, hs, hp⟩ := h
  exact needed_eq hg ((C24_actions hr _ _).2 ⟨segs', above, res', hd, hi, rfl, rfl⟩) hs hp

/-- The struct has one type for a field. -/
theorem fieldType_unique {r : Routes} {root : FlattenedModule} (hr : modulesRoot r = some root) (hg : ModGood root)
    {res : Resource} {x t t' : Str} (h : FieldType r res x t) (h' : FieldType r res x t') : t = t' := by
  rw [← needed_fieldType hr hg h [] [], ← needed_fieldType hr hg h' [] []]

/-- The elaborated statements are those with the types of the fields. -/
theorem demand_elab {root : FlattenedModule} {body b : List Stmt} (hg : ModGood root) (hshape : blockShapeOk body = true)
    (he : elabBlock (modOf root) (eraseBlock body) = some b) : b = emitBlock (demandBlock (needed (modOf root)) body) := by
  have hel := elabBlock_inv body b hshape he
  have := elabBlock_block (m := modOf root) (demandBlock (needed (modOf root)) body) (by rw [demandBlock_shape]; exact hshape)
    (by rw [demandBlock_binds]; exact hel.1) (demandBlock_inferred _) (by
      rw [demandBlock_literals _ hshape]
      intro a' ha'
      obtain ⟨a, ha, rfl⟩ := List.mem_map.1 ha'
      obtain ⟨e, hee⟩ := Option.isSome_iff_exists.1 (hel.2 a ha)
      obtain ⟨mods, act, hf⟩ := elabVerb_inv hg hee
      refine elabVerb_fits hg (a := demandArm (needed (modOf root)) a) (mods := mods) (act := act)
        ⟨hf.has, hf.name, by simpa [demandArm, Function.comp_def] using hf.captures, hf.nones⟩ ?_
      intro p hp p' hp' hn
      obtain ⟨q, hq, rfl⟩ := List.mem_map.1 hp
      simp only at hn ⊢
      rw [hn]
      exact needed_eq hg hf.has hf.name hp')
  rw [demandBlock_erase, he] at this
  exact Option.some.inj this

section
variable {r : Routes} {root : FlattenedModule} {body : List Stmt} (hr : modulesRoot r = some root)
  (hb : matcherBody r = .ok body) (hshape : blockShapeOk body = true)
include hr hb hshape

/-- If the checks pass with the types of the fields, then there is one type for every parameter. -/
theorem oneType_of (hg : ModGood root) (hst : StartTypes r)
    (hc : (checkBlock (demandBlock (needed (modOf root)) body) []).isSome = true) : OneType r := by
  intro pre p segs query res segs' query' res' t t' he he' ht ht'
  have e1 := needed_fieldType hr hg ht (pre ++ .dynamic p :: segs) query
  have e2 := needed_fieldType hr hg ht' (pre ++ .dynamic p :: segs') query'
  obtain ⟨node, above, hl, hres, rfl⟩ := he
  obtain ⟨node', above', hl', hres', rfl⟩ := he'
  by_cases hs : p.name = c!"start" ∧ ∃ segs1 query1 node1, LiveRoute r (pre ++ .dynamic p :: segs1) query1 node1 ∧ routeParams segs1 ≠ []
  · -- both are the type of the parameter
    have own : ∀ {segs above node res t}, LiveRoute r (pre ++ .dynamic p :: segs) above node → res ∈ node.resources →
        FieldType r res p.name t → t = p.typ := by
      intro segs above node res t hl hres ht
      cases hi : res.isRedirect with
      | true => exact hst pre p segs _ res ⟨node, above, hl, hres, rfl⟩ hi hs.1 hs.2 t ht
      | false =>
        refine fieldType_unique hr hg ht ⟨res.modules, res.name, _, _,
          ⟨_, _, res, emitted_declares ⟨node, above, hl, hres, rfl⟩, hi, rfl, rfl, rfl, rfl⟩, ⟨rfl, rfl, rfl⟩, mem_routeParams.2 ?_⟩
        simp
    rw [own hl hres ht, own hl' hres' ht']
  · have := code_agrees (matcherBody_code hb hshape) [] (distinct_of_body hb) hc pre p segs segs'
      ⟨pre ++ .dynamic p :: segs, node.resources, above ++ node.queryParameters⟩
      ⟨pre ++ .dynamic p :: segs', node'.resources, above' ++ node'.queryParameters⟩
      ⟨_, above, node, hl, by simp⟩ ⟨_, above', node', hl', by simp⟩ (by simp [CodeKind.pth]) (by simp [CodeKind.pth])
      (armOf (pre ++ .dynamic p :: segs) (above ++ node.queryParameters) res)
      (by simp only [methodArms, List.mem_map]; exact ⟨res, hres, by simp [armOf, dynamics_eq_routeParams]⟩)
      (armOf (pre ++ .dynamic p :: segs') (above' ++ node'.queryParameters) res')
      (by simp only [methodArms, List.mem_map]; exact ⟨res', hres', by simp [armOf, dynamics_eq_routeParams]⟩)
      (by
        rintro e v t ⟨segs1, above1, node1, hl1, rfl⟩ hp
        simp only [CodeKind.pth, List.nil_append] at hp
        subst hp
        rw [dynamics_eq_routeParams]
        exact Classical.byContradiction fun hne => hs ⟨e, t, above1, node1, hl1, hne⟩)
    rw [← e1, ← e2, this]

omit hr hb hshape in
/-- Then types can be chosen. -/
theorem typed_of (h : OneType r) : ∃ τ, Typed r τ := by
  classical
  let D : List PathSegment → Param → Str → Prop := fun pre p t =>
    ∃ segs query res, Emitted r (pre ++ .dynamic p :: segs) query res ∧ FieldType r res p.name t
  refine ⟨fun pre p => if h : ∃ t, D pre p t then h.choose else p.typ, ?_⟩
  intro segs query res he p hp t ht
  obtain ⟨s1, s2, hs⟩ := List.append_of_mem (mem_routeParams.1 hp)
  obtain ⟨pre, p0, rest, rfl, rfl, rfl, -⟩ := split_retype hs
  simp only [List.nil_append] at ht ⊢
  have hD : ∃ t, D pre p0 t := ⟨t, rest, query, res, he, ht⟩
  rw [dif_pos hD]
  obtain ⟨segs', query', res', he', ht'⟩ := hD.choose_spec
  exact h pre p0 segs' query' res' rest query res _ t he' he ht' ht

omit hr hb hshape in
theorem Typed.oneType {τ : Typing} (h : Typed r τ) : OneType r := by
  intro pre p segs query res segs' query' res' t t' he he' ht ht'
  have mem : ∀ segs, (⟨p.name, τ pre p⟩ : Param) ∈ routeParams (retypeSegs τ [] (pre ++ .dynamic p :: segs)) := by
    intro segs
    rw [mem_routeParams, retypeSegs_append]
    simp [retypeSegs, PathSegment.retype]
  rw [← h _ _ _ he _ (mem segs) t ht, ← h _ _ _ he' _ (mem segs') t' ht']

omit hb hshape in
/-- Literals are accepted with the chosen types. -/
theorem elab_retyped {τ : Typing} {body' : List Stmt} (hb' : matcherBody (r.retype τ) = .ok body') (hshape' : blockShapeOk body' = true)
    (hg : ModGood root) (hred : RedirectsFit r) (ht : Typed r τ) {a : MethodArm} (ha : a ∈ blockLiterals body') :
    elabVerb (modOf root) (eraseVerb a) = some (emitArm a) := by
  obtain ⟨segs', query, res, he', rfl⟩ := (emitted_literals hb' hshape' a).1 ha
  obtain ⟨segs, he, rfl⟩ := emitted_retype he'
  have key : ∃ mods name params query', Action r mods name params query' ∧ SameName mods name res.modules res.name ∧
      ((routeParams segs).map Param.name).Perm (params.map Param.name) ∧
      ((query ++ res.queryParameters).map Param.name).Perm (query'.map Param.name) := by
    cases hi : res.isRedirect with
    | false => exact ⟨_, _, _, _, ⟨segs, query, res, emitted_declares he, hi, rfl, rfl, rfl, rfl⟩, ⟨rfl, rfl, rfl⟩, .refl _, .refl _⟩
    | true => exact hred segs query res he hi
  obtain ⟨mods, name, params, query', hact, hsame, hp, hq⟩ := key
  have hact' := hact
  obtain ⟨segs', above, res', hd, hi', rfl, rfl, rfl, rfl⟩ := hact
  refine elabVerb_fits hg (mods := res'.modules) (act := ⟨res'.name, res'.method, segs', routeParams segs', above ++ res'.queryParameters⟩)
    ⟨(C24_actions hr _ _).2 ⟨segs', above, res', hd, hi', rfl, rfl⟩, hsame, ?_, hq⟩ fun p hp p' hp' hn => ?_
  · simpa only [armOf, routeParams_retype] using hp
  · exact ht segs query res he p hp p'.typ ⟨_, _, _, _, hact', hsame, by rw [hn]; exact hp'⟩

/-- The file is elaborated to the program with the chosen types. -/
theorem retyped_elab {τ : Typing} {body' : List Stmt} (hb' : matcherBody (r.retype τ) = .ok body')
    (hg : ModGood root) (hred : RedirectsFit r) (ht : Typed r τ) (hbinds : ∀ x ∈ blockBinds body', (modOf root).canBind x = true) :
    elabBlock (modOf root) (eraseBlock body) = some (emitBlock body') := by
  have hs : blockShapeOk body' = true := (matcherBody_shape hb').2 (shapely_retype.2 ((matcherBody_shape hb).1 hshape))
  obtain ⟨b2, h1, h2⟩ := matcherBody_retype (τ := τ) hb
  rw [hb'] at h1
  cases h1
  rw [← h2]
  exact elabBlock_block body' hs hbinds (matcherBody_inferred hb') fun a ha => elab_retyped hr hb' hs hg hred ht ha

omit hb hshape in
/-- The variables of the function with the chosen types. -/
theorem binds_retyped {τ : Typing} {body' : List Stmt} (hb' : matcherBody (r.retype τ) = .ok body') (hshape' : blockShapeOk body' = true)
    (hc : (checkBlock body' []).isSome = true) (hf : FreeParams r) {x : Str} (hx : x ∈ blockBinds body') :
    (modOf root).canBind x = true := by
  obtain ⟨sc, hsc⟩ := Option.isSome_iff_exists.1 hc
  obtain ⟨a, ha, p, hp, rfl⟩ := block_used body' [] sc (matcherBody_inferred hb') hsc x hx
  obtain ⟨segs', query, res, he', rfl⟩ := (emitted_literals hb' hshape' a).1 ha
  obtain ⟨segs, ⟨node, above, hl, hres, rfl⟩, rfl⟩ := emitted_retype he'
  have : p.name ∈ (routeParams segs).map Param.name := by
    rw [← routeParams_retype (τ := τ) segs []]
    exact List.mem_map_of_mem hp
  obtain ⟨p0, hp0, e⟩ := List.mem_map.1 this
  rw [← e]
  exact canBind_of hr hf hl (mem_routeParams.1 hp0)

/-- Parameters are variables of the function. -/
theorem free_params' {τ : Typing} {body' : List Stmt} (hb' : matcherBody (r.retype τ) = .ok body') (hshape' : blockShapeOk body' = true)
    (hc : (checkBlock body' []).isSome = true) (h : ∀ x ∈ blockBinds body', (modOf root).canBind x = true) :
    FreeParams r := by
  intro segs query node hl p hp
  obtain ⟨-, hu, -⟩ := (matcherBody_typed hb' hshape').1 hc
  obtain ⟨s1, s2, rfl⟩ := List.append_of_mem hp
  obtain ⟨q1, q2, mid, h1, h2⟩ := LiveRoute.split (segs := s1 ++ [.dynamic p]) (segs' := s2) (by simpa using hl)
  obtain ⟨segs', above', node', h3, h4⟩ := paramsUsed_retype.1 hu s1 p q1 mid h1
  obtain ⟨res, hres⟩ := List.exists_mem_of_ne_nil _ h4
  have hlive := (h1.trans h3).retype (τ := τ) []
  obtain ⟨sc, hsc⟩ := Option.isSome_iff_exists.1 hc
  have hlit := (emitted_literals hb' hshape' _).2 ⟨_, _, res, ⟨_, _, hlive, by simpa using hres, rfl⟩, rfl⟩
  have hmem := block_bound body' [] sc hsc _ hlit ⟨p.name, τ s1 p⟩ (mem_routeParams.2 (by
    simp [retypeSegs_append, retypeSegs, PathSegment.retype]))
  simp only [Scope.vars, List.map_nil, List.nil_append, List.mem_append] at hmem
  rcases hmem with hmem | hmem
  · obtain ⟨g1, g2⟩ := canBind_iff.1 (h _ hmem)
    exact ⟨g1, fun hy e => g2 ((unit_iff hr (.here _)).2 ⟨_, hy, e⟩)⟩
  · simp only [ownVars, List.mem_cons, List.not_mem_nil, or_false] at hmem
    rcases hmem with e | e <;> rw [e] <;>
      exact ⟨by decide, fun _ e' => caps_head e'.symm (by decide)⟩

end

section
variable {c : RouteConfig} (hl : Legible c)
  {root : FlattenedModule} {body : List Stmt} (hr : modulesRoot c.routes = some root) (hb : matcherBody c.routes = .ok body)
include hl hr hb

/-- The emitted file means the program with the chosen types. -/
theorem retyped_readText {τ : Typing} {body' : List Stmt} (hb' : matcherBody (c.routes.retype τ) = .ok body')
    (ht : Typed c.routes τ) (hred : RedirectsFit c.routes) (hf : FreeParams c.routes)
    (hc : Wayfinder.compiles body' = true) (hok : (modOf root).ok true = true) :
    readText (headerToks c.headers) (codegen c).text = some (modOf root, emitBlock body') := by
  have hc' := hc
  simp only [Wayfinder.compiles, Bool.and_eq_true] at hc'
  have hs : blockShapeOk body = true := (matcherBody_shape hb).2 (shapely_retype.1 ((matcherBody_shape hb').1 hc'.1))
  have he := retyped_elab hr hb hs hb' (modGood_of hok) hred ht fun x hx => binds_retyped hr hb' hc'.1 hc'.2 hf hx
  rw [hl.readText hr hb]
  simp only [Option.bind_some, hs, if_true, he, hok, emit_compiles, hc, Bool.and_self]

/-- What the emitted file means if it is accepted. -/
theorem retyped_meaning {m : Mod} {b : List Stmt} (e : readText (headerToks c.headers) (codegen c).text = some (m, b))
    {τ : Typing} (ht : Typed c.routes τ) :
    ∃ body', matcherBody (c.routes.retype τ) = .ok body' ∧ Wayfinder.compiles body' = true ∧ m = modOf root ∧ b = emitBlock body' ∧
      RedirectsFit c.routes ∧ FreeParams c.routes := by
  obtain ⟨hs, rfl, hok, he, hc⟩ := readText_some hl hr hb e
  have hg := modGood_of hok
  have hred := redirects_fit hr hb hs hg (elabBlock_inv body b hs he).2
  obtain ⟨body', hb', her⟩ := matcherBody_retype (τ := τ) hb
  have hs' : blockShapeOk body' = true := (matcherBody_shape hb').2 (shapely_retype.2 ((matcherBody_shape hb).1 hs))
  have hel' := elabBlock_inv body' b hs' (by rw [her]; exact he)
  have he' := retyped_elab hr hb hs hb' hg hred ht hel'.1
  rw [he] at he'
  cases he'
  rw [emit_compiles] at hc
  have hc' := hc
  simp only [Wayfinder.compiles, Bool.and_eq_true] at hc'
  exact ⟨body', hb', hc, rfl, rfl, hred, free_params' hr hb hs hb' hs' hc'.2 hel'.1⟩

/-- In an accepted file every parameter has one type. -/
theorem accepted_oneType (hst : StartTypes c.routes) {m : Mod} {b : List Stmt}
    (e : readText (headerToks c.headers) (codegen c).text = some (m, b)) : OneType c.routes := by
  obtain ⟨hs, rfl, hok, he, hc⟩ := readText_some hl hr hb e
  have hg := modGood_of hok
  rw [demand_elab hg hs he, emit_compiles] at hc
  simp only [Wayfinder.compiles, Bool.and_eq_true] at hc
  exact oneType_of hr hb hs hg hst hc.2

/-- The emitted file is accepted. -/
theorem retyped_accepted (hbr : TemplatesOk root) (hst : StartTypes c.routes) :
    (∃ m b, readText (headerToks c.headers) (codegen c).text = some (m, b)) ↔
      Shapely c.routes ∧ FieldsDistinct c.routes ∧ ParamsUsed c.routes ∧ ClearNames c.routes ∧
      FreeParams c.routes ∧ RedirectsFit c.routes ∧ ∃ τ, Typed c.routes τ ∧ NamesOk (c.routes.retype τ) := by
  constructor
  · rintro ⟨m, b, e⟩
    obtain ⟨τ, ht⟩ := typed_of (accepted_oneType hl hr hb hst e)
    obtain ⟨body', hb', hc, rfl, rfl, hred, hf⟩ := retyped_meaning hl hr hb e ht
    obtain ⟨h1, h2, h3, h4⟩ := (matcherBody_compiles hb').1 hc
    exact ⟨shapely_retype.1 h1, fieldsDistinct_retype.1 h2, paramsUsed_retype.1 h3,
      (ok_iff_clear' hr hbr).1 (readText_some hl hr hb e).2.2.1, hf, hred, τ, ht, h4⟩
  · rintro ⟨h1, h2, h3, h4, h5, h6, τ, ht, hno⟩
    obtain ⟨body', hb', her⟩ := matcherBody_retype (τ := τ) hb
    exact ⟨_, _, retyped_readText hl hr hb hb' ht h6 h5 ((matcherBody_compiles hb').2
      ⟨shapely_retype.2 h1, fieldsDistinct_retype.2 h2, paramsUsed_retype.2 h3, hno⟩) ((ok_iff_clear' hr hbr).2 h4)⟩

end

theorem _root_.Wayfinder.PlainRoute.params {r node : Routes} {segs : List PathSegment} (h : PlainRoute r segs node) :
    routeParams segs = [] := by
  induction h with
  | here => rfl
  | static _ _ _ ih => simpa [routeParams] using ih

/-- Without a parameter named `start` in front of another one, nothing is assumed. -/
theorem startTypes_of {r : Routes} (h : Hygienic r) : StartTypes r := by
  rintro pre p segs query res _ _ hs ⟨segs', query', node', hl, hne⟩
  refine absurd ?_ hne
  obtain ⟨q1, q2, mid, h1, h2⟩ := LiveRoute.split (segs := pre ++ [.dynamic p]) (segs' := segs') (by simpa using hl)
  exact (h2.plain ((h _ _ _ _ h1).2 hs)).params

theorem startTypes_of_types {r : Routes} (h : RedirectTypes r) : StartTypes r := by
  rintro pre p segs query res he hi - - t ⟨mods, name, params, query', ha, hs, hp⟩
  exact (h _ _ _ he hi _ _ _ _ ha hs p (mem_routeParams.2 (by simp)) _ hp rfl).symm

/-! ## Redirects with the types of their targets -/

/-- The types of the configuration. -/
def ownTypes : Typing := fun _ p => p.typ

theorem retypeSegs_own : ∀ segs pre : List PathSegment, retypeSegs ownTypes pre segs = segs
  | [], _ => rfl
  | .static s :: segs, pre => by simp [retypeSegs, PathSegment.retype, retypeSegs_own segs]
  | .dynamic p :: segs, pre => by simp [retypeSegs, PathSegment.retype, ownTypes, retypeSegs_own segs]

mutual
theorem retypeRoutes_own : ∀ (r : Routes) (pre : List PathSegment), retypeRoutes ownTypes pre r = r
  | .mk rs ns qs, pre => by simp [retypeRoutes, retypeNesteds_own ns]
theorem retypeNesteds_own : ∀ (ns : List NestedRoutes) (pre : List PathSegment), retypeNesteds ownTypes pre ns = ns
  | [], _ => rfl
  | n :: ns, pre => by simp [retypeNesteds, retypeNested_own n, retypeNesteds_own ns]
theorem retypeNested_own : ∀ (n : NestedRoutes) (pre : List PathSegment), retypeNested ownTypes pre n = n
  | .mk (.static s) r, pre => by simp [retypeNested, PathSegment.retype, retypeRoutes_own r]
  | .mk (.dynamic p) r, pre => by simp [retypeNested, PathSegment.retype, ownTypes, retypeRoutes_own r]
end

theorem retype_own (r : Routes) : r.retype ownTypes = r := retypeRoutes_own r []

/-- If redirects have the types of their targets, then the types of the configuration are those of the fields. -/
theorem typed_own {r : Routes} {root : FlattenedModule} (hr : modulesRoot r = some root) (hg : ModGood root) (h : RedirectTypes r) :
    Typed r ownTypes := by
  intro segs query res he p hp t ht
  rw [retypeSegs_own] at hp
  cases hi : res.isRedirect with
  | true =>
    obtain ⟨mods, name, params, query', ha, hs, hm⟩ := ht
    exact h _ _ _ he hi _ _ _ _ ha hs p hp _ hm rfl
  | false =>
    exact fieldType_unique hr hg ⟨res.modules, res.name, _, _, ⟨_, _, res, emitted_declares he, hi, rfl, rfl, rfl, rfl⟩, ⟨rfl, rfl, rfl⟩, hp⟩ ht

end Wayfinder.Rust
