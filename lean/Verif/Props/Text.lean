import Verif.Proofs.Emit
import Verif.Proofs.Clear
import Verif.Props.Reach
import Verif.Tests.Check
/-!
# The text of the emitted file

Until here `match_route` was the program handed to the writer of `gen.rs`.  The properties of this file
are about the text that is written: it is split into tokens (`Spec/Lex.lean`), read as Rust
(`Spec/Read.lean`), checked and given a meaning (`Spec/Elab.lean`).
-/

namespace Wayfinder.Rust

variable {W : World}

theorem Clean.reads {c : RouteConfig} (h : Clean c) {body : List Stmt} (hb : matcherBody c.routes = .ok body)
    (hc : Wayfinder.compiles body = true) : ∃ root, modulesRoot c.routes = some root ∧
      readText (headerToks c.headers) (codegen c).text = some (modOf root, emitBlock body) := by
  obtain ⟨root, body', hr, hb', -⟩ := codegen_text h.generated
  rw [hb] at hb'
  cases hb'
  exact ⟨root, hr, codegen_readText (legible_of h.generated h.headers h.words) hr hb h.redirects h.types h.params hc
    ((ok_iff_clear hr h.braces).2 h.names)⟩

theorem Clean.read {c : RouteConfig} (h : Clean c) {body : List Stmt} (hs : Supported c.routes body) :
    ∃ root, modulesRoot c.routes = some root ∧
      readText (headerToks c.headers) (codegen c).text = some (modOf root, emitBlock body) :=
  h.reads hs.generated hs.compiles

/-! ## C42 -/

/-- **C42.** The emitted file is accepted, and `match_route` called on it returns what the program given
to the writer returns, with the names converted to the case used in Rust. -/
theorem C42_program {c : RouteConfig} (h : Clean c) {body : List Stmt} (hb : matcherBody c.routes = .ok body)
    (hc : Wayfinder.compiles body = true) (path m : Bytes) :
    callText W (headerToks c.headers) (codegen c).text path m = Outcome.inRust (callMatchRoute W body path m) := by
  obtain ⟨root, hr, e⟩ := h.reads hb hc
  simp only [callText, e, emit_call]

theorem isMatch_inRust {o : Outcome W} {red : Bool} {v : RouteVal W} (h : (Outcome.inRust o).isMatch red v) :
    ∃ v', o.isMatch red v' ∧ v = RouteVal.inRust v' := by
  cases o <;> cases red <;> simp [Outcome.inRust, Outcome.isMatch] at h ⊢ <;> exact h.symm

theorem inRust_isMatch {o : Outcome W} {red : Bool} {v : RouteVal W} (h : o.isMatch red v) :
    (Outcome.inRust o).isMatch red (RouteVal.inRust v) := by
  cases o <;> cases red <;> simp_all [Outcome.inRust, Outcome.isMatch]

/-- **C42, soundness.** A match returned by the emitted file names a declared resource, in the case used in
Rust; the verb is that of the resource and the path spells its route. -/
theorem C42_sound {c : RouteConfig} (h : Clean c) {body : List Stmt} (hs : Supported c.routes body) {path m : Bytes}
    {red : Bool} {v : RouteVal W} (hv : (callText W (headerToks c.headers) (codegen c).text path m).isMatch red v) :
    ∃ segs query res caps parts, Declares c.routes segs query res ∧ res.isRedirect = red ∧
      v.modules = res.modules.map toCapsCase ∧ v.name = toCapsCase res.name ∧ m = verbBytes res.method ∧
      Fits W segs caps parts ∧ Spells parts (stripSlash path) := by
  rw [C42_program h hs.generated hs.compiles] at hv
  obtain ⟨v', h1, rfl⟩ := isMatch_inRust hv
  obtain ⟨segs, query, res, caps, parts, h2, h3, h4, h5, h6, h7, h8⟩ := C16_redirects hs h1
  exact ⟨segs, query, res, caps, parts, h2, h8, by rw [h3]; rfl, by rw [h4]; rfl, h5, h6, h7⟩

/-- **C42, completeness** for configurations without competing siblings: every resource is found at its
route by the emitted file, with the values of its parameters. -/
theorem C42_complete {c : RouteConfig} (h : Clean c) {body : List Stmt} (hs : Supported c.routes body)
    (hp : PlainTexts c.routes) (ht : Tame c.routes) {segs : List PathSegment} {above : List Param} {caps : Caps W}
    {parts : List Bytes} {node : Routes} (hw : Writes W c.routes segs above caps parts node)
    {before after : List Resource} {res : Resource} (hres : node.resources = before ++ res :: after)
    (hfirst : ∀ o ∈ before, o.method ≠ res.method) {path : Bytes} (hpath : Spells parts (stripSlash path)) :
    (callText W (headerToks c.headers) (codegen c).text path (verbBytes res.method)).isMatch res.isRedirect
      (RouteVal.inRust (matchOf res caps (above ++ node.queryParameters))) := by
  rw [C42_program h hs.generated hs.compiles]
  exact inRust_isMatch (C02_completeness_partial hs hp ht segs above caps parts node hw before res after hres hfirst path hpath)

end Wayfinder.Rust

namespace Wayfinder.Demo
open Rust

/-- A configuration with a header. -/
def conf (r : Routes) : RouteConfig := ⟨[⟨c!"use uuid::Uuid;"⟩], r⟩

/-- Request a path from the emitted file. -/
def askText (r : Routes) (path m : Str) : Shown :=
  shown (callText world (headerToks (conf r).headers) (codegen (conf r)).text (bytesOf path) (bytesOf m))

theorem people_clean : Clean (conf people) := clean_of (by decide +kernel)

/-- The emitted file at work. -/
example : askText people c!"/people/17/edit/" c!"GET" =
    .route [c!"People"] c!"Edit" [(c!"id", c!"17")] [c!"lang", c!"verbose", c!"tab"] := by
  rw [askText, C42_program people_clean people_supported.generated people_supported.compiles]
  decide +kernel

/-- A redirect whose route has a parameter of another type than its target:

```
/
  a
    {id: u32}
      GET x::Show
  b
    {id: String}
      GET -> x::Show
```
-/
def mistyped : Routes :=
  .mk [] [
    .mk (.static c!"a") (.mk [] [.mk (.dynamic ⟨c!"id", c!"u32"⟩) (.mk [res .get c!"x" c!"Show"] [] [])] []),
    .mk (.static c!"b") (.mk [] [.mk (.dynamic ⟨c!"id", c!"String"⟩) (.mk [⟨.get, [c!"x"], c!"Show", true, []⟩] [] [])] [])] []

theorem mistyped_supported : Supported mistyped (bodyOf mistyped) := supported_of (by decide +kernel)

/-- The program that is read from the emitted file. -/
def mistypedRead : List Stmt := (elabBlock (modOf (rootOf mistyped)) (eraseBlock (bodyOf mistyped))).getD []

end Wayfinder.Demo

namespace Wayfinder.Rust

theorem demo_headers (r : Routes) : HeadersRead (Demo.conf r).headers := by
  intro h hh
  simp only [Demo.conf, List.mem_singleton] at hh
  subst hh
  decide +kernel

theorem mistyped_root : modulesRoot Demo.mistyped = some (rootOf Demo.mistyped) := by
  have : (modulesRoot Demo.mistyped).isSome = true := by decide +kernel
  obtain ⟨root, h⟩ := Option.isSome_iff_exists.1 this
  rw [rootOf, h]
  rfl

theorem mistyped_words : Words Demo.mistyped := words_of (by decide +kernel)

theorem mistyped_generated : (codegen (Demo.conf Demo.mistyped)).fail = none := by decide +kernel

theorem readText_eq {headers : List Tok} {text : Str} {m : Mod} {lines : List Line} {body : List Stmt}
    (h1 : (lex text).bind (readFile headers) = some (m, lines)) (h2 : elabBlock m lines = some body) (h3 : m.ok true = true)
    (h4 : Wayfinder.compiles body = true) : readText headers text = some (m, body) := by
  unfold readText
  cases hl : lex text with
  | none => simp [hl] at h1
  | some ts =>
    simp only [hl, Option.bind_some] at h1
    simp only [Option.bind_eq_bind, Option.bind_some, h1, h2, h3, h4, Bool.and_self, if_true]
    rfl

theorem mistyped_elab : elabBlock (modOf (rootOf Demo.mistyped)) (eraseBlock (bodyOf Demo.mistyped)) = some Demo.mistypedRead := by
  have : (elabBlock (modOf (rootOf Demo.mistyped)) (eraseBlock (bodyOf Demo.mistyped))).isSome = true := by decide +kernel
  obtain ⟨b, e⟩ := Option.isSome_iff_exists.1 this
  rw [Demo.mistypedRead, e]
  rfl

theorem mistyped_shape : blockShapeOk (bodyOf Demo.mistyped) = true := by decide +kernel

theorem mistyped_compiles : Wayfinder.compiles Demo.mistypedRead = true := by decide +kernel

theorem mistyped_ok : (modOf (rootOf Demo.mistyped)).ok true = true := by decide +kernel

theorem mistyped_ask : Demo.shown (callMatchRoute Demo.world Demo.mistypedRead (bytesOf c!"/b/zz") (bytesOf c!"GET")) =
    .err c!"id" c!"invalid digit" := by decide +kernel

theorem mistyped_read : readText (headerToks (Demo.conf Demo.mistyped).headers) (codegen (Demo.conf Demo.mistyped)).text =
    some (modOf (rootOf Demo.mistyped), Demo.mistypedRead) :=
  readText_eq (codegen_read (c := Demo.conf Demo.mistyped) mistyped_generated (demo_headers _) mistyped_words mistyped_root
    Demo.mistyped_supported.generated |>.trans (if_pos mistyped_shape)) mistyped_elab mistyped_ok mistyped_compiles

/-- C42 needs the condition on the types of redirects: a parameter of a redirect is parsed with the type it has in the
target, not with the one declared on its route. -/
theorem C42_redirect_false : ∃ (c : RouteConfig) (body : List Stmt) (path m : Bytes), Supported c.routes body ∧
    (codegen c).fail = none ∧ HeadersRead c.headers ∧ Words c.routes ∧ NoBraces c.routes ∧ ClearNames c.routes ∧
    FreeParams c.routes ∧ RedirectsFit c.routes ∧
    callText Demo.world (headerToks c.headers) (codegen c).text path m ≠
      Outcome.inRust (callMatchRoute Demo.world body path m) := by
  have hb : NoBraces Demo.mistyped := noBraces_of (by decide)
  refine ⟨Demo.conf Demo.mistyped, bodyOf Demo.mistyped, bytesOf c!"/b/zz", bytesOf c!"GET", Demo.mistyped_supported,
    mistyped_generated, demo_headers _, mistyped_words, hb, (ok_iff_clear mistyped_root hb).1 mistyped_ok,
    params_of (by decide +kernel), redirects_of (by decide +kernel), fun h => ?_⟩
  have h2 : Demo.shown (Outcome.inRust (callMatchRoute Demo.world (bodyOf Demo.mistyped) (bytesOf c!"/b/zz") (bytesOf c!"GET"))) =
      .redirect [c!"X"] c!"Show" [(c!"id", c!"zz")] [] := by decide +kernel
  rw [callText, mistyped_read] at h
  have h1 := mistyped_ask
  simp only at h
  rw [h, h2] at h1
  cases h1

/-! ## C43 -/

/-- **C43.** If everything else is in order, the emitted file is accepted exactly if no names clash. -/
theorem C43_accepted {c : RouteConfig} {body : List Stmt} (hs : Supported c.routes body) (hg : (codegen c).fail = none)
    (hh : HeadersRead c.headers) (hw : Words c.routes) (hb : NoBraces c.routes) (hr : RedirectsFit c.routes)
    (ht : RedirectTypes c.routes) (hf : FreeParams c.routes) :
    (∃ m b, readText (headerToks c.headers) (codegen c).text = some (m, b)) ↔ ClearNames c.routes := by
  constructor
  · rintro ⟨m, b, e⟩
    obtain ⟨root, body', hroot, hb', -⟩ := codegen_text hg
    rw [← ok_iff_clear hroot hb]
    exact (readText_some (legible_of hg hh hw) hroot hb' e).2.2.1
  · intro hn
    obtain ⟨root, _, e⟩ := Clean.read ⟨hg, hh, hw, hb, hr, ht, hn, hf⟩ hs
    exact ⟨_, _, e⟩

end Wayfinder.Rust

namespace Wayfinder.Demo
open Rust

/-- A configuration with one route for each of the actions. -/
def flat (actions : List (List Str × Str)) : Routes :=
  .mk [] (actions.zipIdx.map fun a => .mk (.static ['a', Char.ofNat (97 + a.2)]) (.mk [⟨.get, a.1.1, a.1.2, false, []⟩] [] [])) []

/-- Configurations with names that clash. -/
def clashes : List Routes := [
  -- an action named like the enum of its module
  flat [([c!"people"], c!"Route")],
  -- two actions that differ in case only
  flat [([c!"people"], c!"show"), ([c!"people"], c!"Show")],
  -- two modules that differ in case only
  flat [([c!"People"], c!"show"), ([c!"people"], c!"list")],
  -- an action and a module of the same name
  flat [([], c!"People"), ([c!"people"], c!"List")],
  -- an action named like the type of the result
  flat [([], c!"Match")],
  -- an action that hides a type
  flat [([c!"people"], c!"String")],
  -- an action that hides a value
  flat [([], c!"None")],
  -- a module that hides a crate
  flat [([c!"std"], c!"List")],
  -- a parameter whose type is an action of the module
  .mk [] [.mk (.dynamic ⟨c!"id", c!"Show"⟩) (.mk [res .get c!"people" c!"Show"] [] [])] [],
  -- no action at all
  .mk [] [.mk (.static c!"about") (.mk [] [] [])] []]

/-- All conditions but the one on names, which is violated. -/
def clashB (r : Routes) : Bool :=
  supportedB r && (codegen (conf r)).fail.isNone && wordsB r && segsAll bracelessSeg r && redirectsB r && typesB r && paramsB r &&
  (modulesRoot r).isSome && !(modOf (rootOf r)).ok true

end Wayfinder.Demo

namespace Wayfinder.Rust

/-- Names do clash: for all of these configurations code is generated, but the file is rejected. -/
theorem C43_clashes : ∀ r ∈ Demo.clashes, ∃ body, Supported r body ∧ (codegen (Demo.conf r)).fail = none ∧ Words r ∧
    NoBraces r ∧ RedirectsFit r ∧ RedirectTypes r ∧ FreeParams r ∧ ¬ ClearNames r ∧
    readText (headerToks (Demo.conf r).headers) (codegen (Demo.conf r)).text = none := by
  intro r hr
  have hall : Demo.clashes.all Demo.clashB = true := by decide +kernel
  have h := List.all_eq_true.1 hall r hr
  simp only [Demo.clashB, Bool.and_eq_true, Option.isNone_iff_eq_none, Bool.not_eq_true'] at h
  obtain ⟨⟨⟨⟨⟨⟨⟨⟨h1, h2⟩, h3⟩, h4⟩, h5⟩, h5'⟩, h6⟩, h7⟩, h8⟩ := h
  obtain ⟨root, hroot⟩ := Option.isSome_iff_exists.1 h7
  simp only [rootOf, hroot, Option.getD_some] at h8
  have hb := noBraces_of h4
  have hh := demo_headers r
  have hn : ¬ ClearNames r := by rw [← ok_iff_clear hroot hb, h8]; simp
  refine ⟨_, supported_of h1, h2, words_of h3, hb, redirects_of h5, types_of h5', params_of h6, hn, ?_⟩
  cases e : readText (headerToks (Demo.conf r).headers) (codegen (Demo.conf r)).text with
  | none => rfl
  | some x =>
    exact absurd ((C43_accepted (c := Demo.conf r) (supported_of h1) h2 hh (words_of h3) hb (redirects_of h5)
      (types_of h5') (params_of h6)).1 ⟨x.1, x.2, e⟩) hn

/-! ## C44 -/

/-- The fields of the struct of an action. -/
def fieldsOf (params query : List Param) : List Field :=
  params.map (fun p => ⟨p.name, false, p.typ⟩) ++ query.map fun p => ⟨p.name, true, p.typ⟩

theorem at_modules {root : FlattenedModule} (hg : ∀ mods node, HasModule root mods node →
      (node.modules.map fun x => toSnakeCase x.name).Nodup) {mods : List Str} {node : FlattenedModule}
    (h : HasModule root mods node) : (modOf root).at (mods.map toSnakeCase) = some (modOf node) := by
  induction h with
  | here => simp [Mod.at]
  | @inside m sub node mods hs hn ih =>
    have hl : lookupVar (toSnakeCase sub.name) (modOf m).subs = some (modOf sub) := by
      have := hg [] m (.here _)
      obtain ⟨name, actions, modules⟩ := m
      simp only [modOf, Mod.subs, modsOf_eq]
      refine lookupVar_mem ?_ (List.mem_map.2 ⟨sub, hs, rfl⟩)
      simpa only [List.map_map, Function.comp_def, FlattenedModule.modules] using this
    simp only [List.map_cons, Mod.at, hl, Option.bind_some]
    exact ih fun mods' node' h' => hg _ _ (.inside hs h')

theorem at_some {sub : Mod} : ∀ {p : List Str} {root : FlattenedModule}, (modOf root).at p = some sub →
    ∃ mods node, HasModule root mods node ∧ p = mods.map toSnakeCase ∧ sub = modOf node
  | [], root, h => by
    simp only [Mod.at, Option.some.injEq] at h
    exact ⟨[], root, .here _, rfl, h.symm⟩
  | x :: p, root, h => by
    simp only [Mod.at] at h
    cases hl : lookupVar x (modOf root).subs with
    | none => simp [hl] at h
    | some m =>
      simp only [hl, Option.bind_some] at h
      have := lookupVar_some hl
      obtain ⟨name, actions, modules⟩ := root
      simp only [modOf, Mod.subs, modsOf_eq, List.mem_map, Prod.mk.injEq] at this
      obtain ⟨s, hs, rfl, rfl⟩ := this
      obtain ⟨mods, node, h1, rfl, rfl⟩ := at_some h
      exact ⟨s.name :: mods, node, .inside hs h1, rfl, rfl⟩

/-- **C44.** The emitted file declares one struct for every action that is not a redirect, in the module of
its path, with a field for every path parameter and an optional one for every query parameter; and nothing
else. -/
theorem C44_structs {c : RouteConfig} (h : Clean c) {body : List Stmt} (hs : Supported c.routes body) :
    ∃ m b, readText (headerToks c.headers) (codegen c).text = some (m, b) ∧
      (∀ mods x params query, Action c.routes mods x params query → ∃ sub s,
        m.at (mods.map toSnakeCase) = some sub ∧ sub.struct (toCapsCase x) = some s ∧ s.fields = fieldsOf params query) ∧
      ∀ p sub, m.at p = some sub → ∀ s ∈ sub.structs, ∃ mods x params query, Action c.routes mods x params query ∧
        p = mods.map toSnakeCase ∧ s.name = toCapsCase x ∧ s.fields = fieldsOf params query := by
  obtain ⟨root, hr, e⟩ := h.read hs
  refine ⟨_, _, e, fun mods x params query ha => ?_, fun p sub hp s hsm => ?_⟩
  · obtain ⟨node, hn⟩ := action_module hr ha
    obtain ⟨a, ha', rfl, rfl, rfl⟩ := (action_iff hr hn).1 ha
    have hat := hn.action (hasAction_nil.2 ha')
    rw [List.append_nil] at hat
    obtain ⟨sub, h1, h2, h3, h4, h5⟩ := struct_found (modGood_of ((ok_iff_clear hr h.braces).2 h.names)) hat
    exact ⟨_, _, h3, h4, rfl⟩
  · obtain ⟨mods, node, hn, rfl, rfl⟩ := at_some hp
    have : ∃ a ∈ node.actions, s = structOf a := by
      obtain ⟨name, actions, modules⟩ := node
      simp only [modOf, Mod.structs, List.mem_map] at hsm
      obtain ⟨a, ha, rfl⟩ := hsm
      exact ⟨a, ha, rfl⟩
    obtain ⟨a, ha, rfl⟩ := this
    exact ⟨mods, a.name, a.routeParameters, a.queryParameters, (action_iff hr hn).2 ⟨a, ha, rfl, rfl, rfl⟩, rfl, rfl, rfl⟩

/-- **C44, variants.** The enum of the module `mods` has a variant for every action and every submodule of
it, and `to_path` handles each of them. -/
theorem C44_variants {c : RouteConfig} (h : Clean c) {body : List Stmt} (hs : Supported c.routes body) :
    ∃ m b, readText (headerToks c.headers) (codegen c).text = some (m, b) ∧
      ∀ mods, (mods = [] ∨ ∃ x params query, Action c.routes mods x params query ∨ Submodule c.routes mods x) →
        ∃ sub, m.at (mods.map toSnakeCase) = some sub ∧ sub.handled = sub.variants.map Prod.fst ∧
        ∀ v, v ∈ sub.variants ↔ (∃ x params query, Action c.routes mods x params query ∧ v = (toCapsCase x, [toCapsCase x])) ∨
          ∃ x, Submodule c.routes mods x ∧ v = (toCapsCase x, [toSnakeCase x, c!"Route"]) := by
  obtain ⟨root, hr, e⟩ := h.read hs
  refine ⟨_, _, e, fun mods hm => ?_⟩
  have hn : ∃ node, HasModule root mods node := by
    rcases hm with rfl | ⟨x, params, query, hm | hm⟩
    · exact ⟨root, .here _⟩
    · exact action_module hr hm
    · exact submodule_module hr hm
  obtain ⟨node, hn⟩ := hn
  refine ⟨modOf node, at_modules (fun mods' node' hn' => ?_) hn, ?_, fun v => ?_⟩
  · have := (C24_once hr hn').2
    rw [nodup_map_key toSnakeCase this]
    exact (local_of_clear hr h.names hn').snakes
  · obtain ⟨name, actions, modules⟩ := node
    simp only [modOf, Mod.handled, Mod.variants, variantsOf, handledOf, List.map_append, List.map_map, Function.comp_def]
  · have hv : v ∈ (modOf node).variants ↔ (∃ a ∈ node.actions, (toCapsCase a.name, [toCapsCase a.name]) = v) ∨
        ∃ a ∈ node.modules, (toCapsCase a.name, [toSnakeCase a.name, c!"Route"]) = v := by
      obtain ⟨name, actions, modules⟩ := node
      simp only [modOf, Mod.variants, variantsOf, List.mem_append, List.mem_map, FlattenedModule.actions, FlattenedModule.modules]
    rw [hv]
    constructor
    · rintro (⟨a, ha, rfl⟩ | ⟨a, ha, rfl⟩)
      · exact .inl ⟨_, _, _, (action_iff hr hn).2 ⟨a, ha, rfl, rfl, rfl⟩, rfl⟩
      · exact .inr ⟨_, (submodule_iff hr hn).2 ⟨a, ha, rfl⟩, rfl⟩
    · rintro (⟨x, params, query, hx, rfl⟩ | ⟨x, hx, rfl⟩)
      · obtain ⟨a, ha, rfl, _, _⟩ := (action_iff hr hn).1 hx
        exact .inl ⟨a, ha, rfl⟩
      · obtain ⟨a, ha, rfl⟩ := (submodule_iff hr hn).1 hx
        exact .inr ⟨a, ha, rfl⟩

/-! ## C45 -/

/-- **C45.** The `to_path` of the emitted file, called on the struct of a declared action with the values
`caps` of its path parameters, returns the segments of its route, with the `Display` texts of the values,
each behind a `/`. -/
theorem C45_to_path {c : RouteConfig} (h : Clean c) {body : List Stmt} (hs : Supported c.routes body)
    {segs : List PathSegment} {query : List Param} {res : Resource} (hd : Declares c.routes segs query res)
    (hred : res.isRedirect = false) {display : W.V → Str} {caps : Caps W} {texts : List Str}
    (ht : Texts display segs caps texts) :
    callToPath display (headerToks c.headers) (codegen c).text (res.modules.map toSnakeCase) (toCapsCase res.name)
      (caps.map fun pv => (pv.1.name, pv.2)) = some (c!"/" ++ List.intercalate c!"/" texts) := by
  obtain ⟨root, hr, e⟩ := h.read hs
  have ha := (C24_actions hr res.modules _).2 ⟨segs, query, res, hd, hred, rfl, rfl⟩
  obtain ⟨sub, h1, h2, h3, h4, h5⟩ := struct_found (modGood_of ((ok_iff_clear hr h.braces).2 h.names)) ha
  have hf := h1.fields _ h2
  have := C15_to_path h.braces hr ha ht (by
    simp only [List.map_append] at hf
    exact (List.nodup_append.1 hf).1)
  simp only [callToPath, e, Option.bind_eq_bind, Option.bind_some]
  rw [show res.modules.map toSnakeCase = snakes res.modules from rfl, h3]
  simp only [Option.bind_some, h4]
  simp only [FlattenedAction.toPath] at this
  simp only [structOf]
  revert this
  generalize literal _ = l
  generalize argTexts _ _ _ _ = a
  cases l <;> cases a <;> simp

end Wayfinder.Rust
