import Verif.Proofs.Clear
import Verif.Proofs.Ascii
import Verif.Proofs.Emit
/-!
# When the emitted file is accepted
-/

namespace Wayfinder

/-- The arm emitted for a resource. -/
def armOf (segs : List PathSegment) (query : List Param) (res : Resource) : MethodArm :=
  { method := res.method, isRedirect := res.isRedirect, modules := res.modules, name := res.name,
    captures := routeParams segs, nones := (query ++ res.queryParameters).map Param.name }

/-- The literals of the emitted function are those of the resources for which code is emitted. -/
theorem emitted_literals {r : Routes} {body : List Stmt} (hb : matcherBody r = .ok body) (hshape : blockShapeOk body = true)
    (a : MethodArm) : a ∈ blockLiterals body ↔ ∃ segs query res, Rust.Emitted r segs query res ∧ a = armOf segs query res := by
  rw [code_literals (matcherBody_code hb hshape) (distinct_of_body hb)]
  constructor
  · rintro ⟨v, ⟨segs, above, node, hl, rfl⟩, ha⟩
    simp only [methodArms, List.mem_map, List.nil_append] at ha
    obtain ⟨res, hres, rfl⟩ := ha
    exact ⟨segs, above ++ node.queryParameters, res, ⟨node, above, hl, hres, rfl⟩, by simp [armOf, dynamics_eq_routeParams]⟩
  · rintro ⟨segs, query, res, ⟨node, above, hl, hres, rfl⟩, rfl⟩
    refine ⟨_, ⟨segs, above, node, hl, rfl⟩, ?_⟩
    simp only [methodArms, List.mem_map, List.nil_append]
    exact ⟨res, hres, by simp [armOf, dynamics_eq_routeParams]⟩

namespace Rust

theorem emitted_declares {r : Routes} {segs : List PathSegment} {query : List Param} {res : Resource}
    (h : Emitted r segs query res) : Declares r segs query res := by
  obtain ⟨node, above, hl, hres, rfl⟩ := h
  exact ⟨node, above, hl.hasRoute, hres, rfl⟩

section
variable {r : Routes} {root : FlattenedModule} {body : List Stmt} (hr : modulesRoot r = some root)
  (hb : matcherBody r = .ok body) (hshape : blockShapeOk body = true)
include hr hb hshape

/-- Literals are accepted with the types of the route, if redirects have those of their targets. -/
theorem elab_literal (hg : ModGood root) (hred : RedirectsFit r) (ht : RedirectTypes r) {a : MethodArm} (ha : a ∈ blockLiterals body) :
    elabVerb (modOf root) (eraseVerb a) = some (emitArm a) := by
  obtain ⟨segs, query, res, he, rfl⟩ := (emitted_literals hb hshape a).1 ha
  cases hi : res.isRedirect with
  | false =>
    refine elabVerb_fits hg (mods := res.modules) (act := ⟨res.name, res.method, segs, routeParams segs, query ++ res.queryParameters⟩)
      ⟨(C24_actions hr _ _).2 ⟨segs, query, res, emitted_declares he, hi, rfl, rfl⟩, ⟨rfl, rfl, rfl⟩, .refl _, .refl _⟩
      fun p hp p' hp' hn => ?_
    obtain ⟨sub, h1, h2, _⟩ := struct_found hg ((C24_actions hr _ _).2 ⟨segs, query, res, emitted_declares he, hi, rfl, rfl⟩)
    have hd := h1.fields _ h2
    simp only [List.map_append] at hd
    have := key_inj (List.nodup_append.1 hd).1 p hp p' hp' hn
    rw [this]
  | true =>
    obtain ⟨mods, x, params, query', hact, hsame, hp, hq⟩ := hred segs query res he hi
    have hty := ht segs query res he hi mods x params query' hact hsame
    obtain ⟨segs', above, res', hd, hi', rfl, rfl, rfl, rfl⟩ := hact
    exact elabVerb_fits hg (mods := res'.modules) (act := ⟨res'.name, res'.method, segs', routeParams segs', above ++ res'.queryParameters⟩)
      ⟨(C24_actions hr _ _).2 ⟨segs', above, res', hd, hi', rfl, rfl⟩, hsame, hp, hq⟩ hty

/-- Redirects have the parameters of their targets if the literals are accepted. -/
theorem redirects_fit (hg : ModGood root) (h : ∀ a ∈ blockLiterals body, (elabVerb (modOf root) (eraseVerb a)).isSome = true) :
    RedirectsFit r := by
  intro segs query res he hi
  obtain ⟨b, hb'⟩ := Option.isSome_iff_exists.1 (h _ ((emitted_literals hb hshape _).2 ⟨segs, query, res, he, rfl⟩))
  obtain ⟨mods, act, hf⟩ := elabVerb_inv hg hb'
  obtain ⟨segs', query', res', hd, hi', hm, rfl⟩ := (C24_actions hr _ _).1 hf.has
  exact ⟨mods, res'.name, _, _, ⟨segs', query', res', hd, hi', hm.symm, rfl, rfl, rfl⟩, hf.name, hf.captures, hf.nones⟩

/-- The variables of the function. -/
theorem binds_live (hc : (checkBlock body []).isSome = true) (hf : FreeParams r) {x : Str} (hx : x ∈ blockBinds body) :
    (modOf root).canBind x = true := by
  obtain ⟨sc, hsc⟩ := Option.isSome_iff_exists.1 hc
  obtain ⟨a, ha, p, hp, rfl⟩ := block_used body [] sc (matcherBody_inferred hb) hsc x hx
  obtain ⟨segs, query, res, ⟨node, above, hl, hres, rfl⟩, rfl⟩ := (emitted_literals hb hshape a).1 ha
  exact canBind_of hr hf hl (mem_routeParams.1 hp)

omit hr hb hshape in
/-- No name in the case of structs begins with a small letter. -/
theorem caps_head {y : Str} {d : Char} {rest : Str} (h : toCapsCase y = d :: rest) : ¬ AsciiLower d := by
  cases y with
  | nil => cases h
  | cons c y =>
    simp only [toCapsCase] at h
    unfold capsLoop at h
    split at h
    · cases h
    · cases h
    · simp only [List.cons.injEq] at h
      rw [← h.1]; exact toUpper_not_lower _
    · rename_i he
      simp only [List.cons.injEq] at h he
      rw [← h.1, ← he.1]; exact toUpper_not_lower _

/-- Parameters are variables of the function. -/
theorem free_params (hc : (checkBlock body []).isSome = true) (h : ∀ x ∈ blockBinds body, (modOf root).canBind x = true) :
    FreeParams r := by
  intro segs query node hl p hp
  obtain ⟨-, hu, -⟩ := (matcherBody_typed hb hshape).1 hc
  obtain ⟨s1, s2, rfl⟩ := List.append_of_mem hp
  obtain ⟨q1, q2, mid, h1, h2⟩ := LiveRoute.split (segs := s1 ++ [.dynamic p]) (segs' := s2) (by simpa using hl)
  obtain ⟨segs', above', node', h3, h4⟩ := hu s1 p q1 mid h1
  obtain ⟨res, hres⟩ := List.exists_mem_of_ne_nil _ h4
  have hlive := h1.trans h3
  obtain ⟨sc, hsc⟩ := Option.isSome_iff_exists.1 hc
  have hlit := (emitted_literals hb hshape _).2 ⟨_, _, res, ⟨node', _, hlive, hres, rfl⟩, rfl⟩
  have hmem := block_bound body [] sc hsc _ hlit p (mem_routeParams.2 (by simp))
  simp only [Scope.vars, List.map_nil, List.nil_append, List.mem_append] at hmem
  rcases hmem with hmem | hmem
  · obtain ⟨g1, g2⟩ := canBind_iff.1 (h _ hmem)
    exact ⟨g1, fun hy e => g2 ((unit_iff hr (.here _)).2 ⟨_, hy, e⟩)⟩
  · simp only [ownVars, List.mem_cons, List.not_mem_nil, or_false] at hmem
    rcases hmem with e | e <;> rw [e] <;>
      exact ⟨by decide, fun _ e' => caps_head e'.symm (by decide)⟩

end

section
variable {c : RouteConfig} (hl : Legible c)
  {root : FlattenedModule} {body : List Stmt} (hr : modulesRoot c.routes = some root) (hb : matcherBody c.routes = .ok body)
include hl hr hb

/-- The emitted file means what the generator intended. -/
theorem codegen_readText (hred : RedirectsFit c.routes) (ht : RedirectTypes c.routes) (hf : FreeParams c.routes)
    (hc : Wayfinder.compiles body = true) (hok : (modOf root).ok true = true) :
    readText (headerToks c.headers) (codegen c).text = some (modOf root, emitBlock body) := by
  have hc' := hc
  simp only [Wayfinder.compiles, Bool.and_eq_true] at hc'
  have he : elabBlock (modOf root) (eraseBlock body) = some (emitBlock body) :=
    elabBlock_block body hc'.1 (fun x hx => binds_live hr hb hc'.1 hc'.2 hf hx) (matcherBody_inferred hb)
      fun a ha => elab_literal hr hb hc'.1 (modGood_of hok) hred ht ha
  rw [hl.readText hr hb]
  simp only [Option.bind_some, hc'.1, if_true, he, hok, emit_compiles, hc, Bool.and_self]

/-- What is known when the emitted file is accepted. -/
theorem readText_some {m : Mod} {b : List Stmt} (e : readText (headerToks c.headers) (codegen c).text = some (m, b)) :
    blockShapeOk body = true ∧ m = modOf root ∧ (modOf root).ok true = true ∧ elabBlock (modOf root) (eraseBlock body) = some b ∧
      Wayfinder.compiles b = true := by
  rw [hl.readText hr hb] at e
  split at e
  · rename_i hs
    simp only [Option.bind_some, Option.bind_eq_some_iff] at e
    obtain ⟨b', h1, h2⟩ := e
    split at h2
    · rename_i h3
      simp only [Bool.and_eq_true] at h3
      cases h2
      exact ⟨hs, rfl, h3.1, h1, h3.2⟩
    · cases h2
  · cases e

/-- The emitted file is accepted. -/
theorem codegen_accepted (hbr : NoBraces c.routes) (ht : RedirectTypes c.routes) :
    (∃ m b, readText (headerToks c.headers) (codegen c).text = some (m, b)) ↔
      Shapely c.routes ∧ FieldsDistinct c.routes ∧ ParamsUsed c.routes ∧ NamesOk c.routes ∧ ClearNames c.routes ∧
      FreeParams c.routes ∧ RedirectsFit c.routes := by
  constructor
  · rintro ⟨m, b, e⟩
    obtain ⟨hs, rfl, hok, he, hc⟩ := readText_some hl hr hb e
    have hel := elabBlock_inv body b hs he
    have hred := redirects_fit hr hb hs (modGood_of hok) hel.2
    have he' := elabBlock_block body hs hel.1 (matcherBody_inferred hb) fun a ha => elab_literal hr hb hs (modGood_of hok) hred ht ha
    rw [he] at he'
    cases he'
    rw [emit_compiles] at hc
    obtain ⟨h1, h2, h3, h4⟩ := (matcherBody_compiles hb).1 hc
    simp only [Wayfinder.compiles, Bool.and_eq_true] at hc
    exact ⟨h1, h2, h3, h4, (ok_iff_clear hr hbr).1 hok, free_params hr hb hs hc.2 hel.1, hred⟩
  · rintro ⟨h1, h2, h3, hno, h4, h5, h6⟩
    exact ⟨_, _, codegen_readText hl hr hb h6 ht h5 ((matcherBody_compiles hb).2 ⟨h1, h2, h3, hno⟩)
      ((ok_iff_clear hr hbr).2 h4)⟩

end

end Rust

end Wayfinder
