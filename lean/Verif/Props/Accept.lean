import Verif.Proofs.Infer
import Verif.Props.Text
/-!
# C49: when the emitted file is accepted

`C13_compilable_partial` says when the statements of `match_route` are accepted and `C43_accepted` when the
declarations are.  Here both are put together for the text of the file, and nothing is assumed about the
statements.
-/

namespace Wayfinder.Rust

/-- What is assumed about a configuration to say whether the emitted file is accepted: generation succeeds
and the words of the configuration are words of Rust. -/
structure Ready (c : RouteConfig) : Prop where
  /-- generation succeeds -/
  generated : (codegen c).fail = none
  /-- the copied headers are complete lines of Rust -/
  headers : HeadersRead c.headers
  /-- all names are names in Rust -/
  words : Words c.routes
  /-- the templates of paths have no braces or quotes of their own -/
  braces : NoBraces c.routes

theorem Ready.legible {c : RouteConfig} (h : Ready c) : Legible c := legible_of h.generated h.headers h.words

theorem fields_distinct {r : Routes} (hn : ClearNames r) (hr : RedirectsFit r) : FieldsDistinct r := by
  intro segs above node hl res hres
  have he : Emitted r segs (above ++ node.queryParameters) res := ⟨node, above, hl, hres, rfl⟩
  cases hi : res.isRedirect with
  | false =>
    have := hn.fields (mods := res.modules) (x := res.name) ⟨segs, _, res, emitted_declares he, hi, rfl, rfl, rfl, rfl⟩
    simpa using this
  | true =>
    obtain ⟨mods, x, params, query, ha, _, h1, h2⟩ := hr segs _ res he hi
    have := hn.fields ha
    rw [List.map_append, ← (h1.append h2).nodup_iff] at this
    simpa using this

/-- **C49.** The emitted file is accepted exactly if: no block has static texts of which one begins another, or
other siblings that the generator cannot handle; behind every parameter there is a resource; no names clash, nor do they with
the variables for parameters; every redirect has the parameters of the action it names; and types can be chosen for the path
parameters that are those of the fields for which they are used, such that parameters named like variables of `match_route` do
no harm (`NamesOk`).  Assumed is `StartTypes`, which says something about parameters named `start` only. -/
theorem C49_accepted {c : RouteConfig} (h : Ready c) (hst : StartTypes c.routes) :
    (∃ m b, readText (headerToks c.headers) (codegen c).text = some (m, b)) ↔
      Shapely c.routes ∧ ParamsUsed c.routes ∧ ClearNames c.routes ∧ FreeParams c.routes ∧
      RedirectsFit c.routes ∧ ∃ τ, Typed c.routes τ ∧ NamesOk (c.routes.retype τ) := by
  obtain ⟨root, body, hr, hb, -⟩ := codegen_text h.generated
  rw [retyped_accepted h.legible hr hb (templates_ok hr h.braces) hst]
  constructor
  · rintro ⟨h1, _, h3, h5, h6, h7, h4⟩
    exact ⟨h1, h3, h5, h6, h7, h4⟩
  · rintro ⟨h1, h3, h5, h6, h7, h4⟩
    exact ⟨h1, fields_distinct h5 h7, h3, h5, h6, h7, h4⟩

/-- **C49, choice of types.** They can be chosen exactly if all structs that are returned behind a parameter have
the same type for it. -/
theorem C49_typed (r : Routes) : (∃ τ, Typed r τ) ↔ OneType r :=
  ⟨fun ⟨_, h⟩ => h.oneType, typed_of⟩

/-- **C49, no parameter named `len`, or `start` with a parameter behind it.** Then nothing is assumed about types, and the
emitted file is accepted exactly under these conditions on the configuration. -/
theorem C49_hygienic {c : RouteConfig} (h : Ready c) (hh : Hygienic c.routes) :
    (∃ m b, readText (headerToks c.headers) (codegen c).text = some (m, b)) ↔
      Shapely c.routes ∧ ParamsUsed c.routes ∧ NamesOk c.routes ∧ ClearNames c.routes ∧ FreeParams c.routes ∧
      RedirectsFit c.routes ∧ OneType c.routes := by
  rw [C49_accepted h (startTypes_of hh), ← C49_typed]
  constructor
  · rintro ⟨h1, h3, h5, h6, h7, τ, ht, h4⟩
    exact ⟨h1, h3, (namesOk_retype hh).1 h4, h5, h6, h7, τ, ht⟩
  · rintro ⟨h1, h3, h4, h5, h6, h7, τ, ht⟩
    exact ⟨h1, h3, h5, h6, h7, τ, ht, (namesOk_retype hh).2 h4⟩

/-- **C49, redirects with the types of their targets.** Then the types of the configuration can be chosen. -/
theorem C49_agreeing {c : RouteConfig} (h : Ready c) (ht : RedirectTypes c.routes) :
    ((∃ m b, readText (headerToks c.headers) (codegen c).text = some (m, b)) ↔
      Shapely c.routes ∧ ParamsUsed c.routes ∧ NamesOk c.routes ∧ ClearNames c.routes ∧ FreeParams c.routes ∧
      RedirectsFit c.routes) ∧
    (ClearNames c.routes → Typed c.routes ownTypes ∧ c.routes.retype ownTypes = c.routes) := by
  obtain ⟨root, body, hr, hb, -⟩ := codegen_text h.generated
  refine ⟨?_, fun hn => ⟨typed_own hr (modGood_of ((ok_iff_clear hr h.braces).2 hn)) ht, retype_own _⟩⟩
  rw [codegen_accepted h.legible hr hb h.braces ht]
  constructor
  · rintro ⟨h1, _, h3, h4, h5, h6, h7⟩
    exact ⟨h1, h3, h4, h5, h6, h7⟩
  · rintro ⟨h1, h3, h4, h5, h6, h7⟩
    exact ⟨h1, fields_distinct h5 h7, h3, h4, h5, h6, h7⟩

/-- **C49, meaning.** If the file is accepted and the types are those of the fields, then `match_route` in it is the
program for the configuration with these types, so all properties of that program are properties of the file; the properties
of `Supported` ones if no parameter is named `len`, or `start` with a parameter behind it. -/
theorem C49_meaning {c : RouteConfig} (h : Ready c) {m : Mod} {b : List Stmt}
    (e : readText (headerToks c.headers) (codegen c).text = some (m, b)) {τ : Typing} (ht : Typed c.routes τ) :
    ∃ body, matcherBody (c.routes.retype τ) = .ok body ∧ compiles body = true ∧
      (Hygienic c.routes → Supported (c.routes.retype τ) body) ∧ ∀ (W : World) (path verb : Bytes),
        callText W (headerToks c.headers) (codegen c).text path verb = Outcome.inRust (callMatchRoute W body path verb) := by
  obtain ⟨root, body, hr, hb, -⟩ := codegen_text h.generated
  obtain ⟨body', hb', hc, rfl, rfl, -, -⟩ := retyped_meaning h.legible hr hb e ht
  refine ⟨body', hb', hc, fun hh => ⟨hb', hc, hygienic_retype.2 hh⟩, fun W path verb => ?_⟩
  simp only [callText, e]
  exact emit_call path verb body'

/-- **C49, meaning, redirects with the types of their targets.** Then it is the program for the configuration. -/
theorem C49_clean {c : RouteConfig} (h : Ready c) (ht : RedirectTypes c.routes) {m : Mod} {b : List Stmt}
    (e : readText (headerToks c.headers) (codegen c).text = some (m, b)) :
    ∃ body, matcherBody c.routes = .ok body ∧ compiles body = true ∧ (Hygienic c.routes → Supported c.routes body) ∧
      Clean c ∧ ∀ (W : World) (path verb : Bytes),
        callText W (headerToks c.headers) (codegen c).text path verb = Outcome.inRust (callMatchRoute W body path verb) := by
  obtain ⟨h1, h3, h4, h5, h6, h7⟩ := (C49_agreeing h ht).1.1 ⟨m, b, e⟩
  obtain ⟨g1, g2⟩ := (C49_agreeing h ht).2 h5
  obtain ⟨body, hb, hc, hs, hcall⟩ := C49_meaning h e g1
  rw [g2] at hb hs
  exact ⟨body, hb, hc, hs, ⟨h.generated, h.headers, h.words, h.braces, h7, ht, h5, h6⟩, hcall⟩

end Wayfinder.Rust

namespace Wayfinder.Demo
open Rust

/-- Check for `Ready`. -/
def readyB (r : Routes) : Bool :=
  (codegen (conf r)).fail.isNone && wordsB r && segsAll bracelessSeg r

theorem ready_of {r : Routes} (h : readyB r = true) : Ready (conf r) := by
  simp only [readyB, Bool.and_eq_true, Option.isNone_iff_eq_none] at h
  obtain ⟨⟨h1, h2⟩, h3⟩ := h
  exact ⟨h1, demo_headers r, words_of h2, noBraces_of h3⟩

/-- The emitted file of the example is accepted. -/
example : Ready (conf people) ∧ ∃ m b, readText (headerToks (conf people).headers) (codegen (conf people)).text = some (m, b) :=
  ⟨ready_of (by decide +kernel), let ⟨_, _, e⟩ := people_clean.read people_supported; ⟨_, _, e⟩⟩

/-- A file that is rejected because of its blocks: `a` next to `ab`. -/
def unshapely : Routes :=
  .mk [] [.mk (.static c!"a") (.mk [res .get c!"x" c!"A"] [] []), .mk (.static c!"ab") (.mk [res .get c!"x" c!"B"] [] [])] []

/-- A file that is rejected because a parameter is not used. -/
def unused : Routes :=
  .mk [res .get c!"x" c!"Home"] [.mk (.dynamic ⟨c!"id", c!"u32"⟩) (.mk [] [] [])] []

/-- A file that is rejected because of a variable that cannot be bound: `Home` is a struct without fields in the
outermost module and the name of a parameter. -/
def unbindable : Routes :=
  .mk [⟨.get, [], c!"Home", false, []⟩] [.mk (.dynamic ⟨c!"Home", c!"u32"⟩) (.mk [res .get c!"x" c!"Show"] [] [])] []

/-- A file that is rejected because of a parameter with the name of a variable: the inner `text` is the text of `id`. -/
def misnamed : Routes :=
  .mk [] [.mk (.dynamic ⟨c!"text", c!"u32"⟩) (.mk [] [.mk (.dynamic ⟨c!"id", c!"u32"⟩) (.mk [res .get c!"x" c!"Show"] [] [])] [])] []

/-- A file that is rejected because a redirect names no action. -/
def dangling : Routes :=
  .mk [res .get c!"x" c!"Home"] [.mk (.static c!"old") (.mk [⟨.get, [c!"x"], c!"Gone", true, []⟩] [] [])] []

/-- A file that is rejected because a redirect lacks a parameter of its target. -/
def lacking : Routes :=
  .mk [⟨.get, [c!"x"], c!"Show", true, []⟩] [.mk (.dynamic ⟨c!"id", c!"u32"⟩) (.mk [res .get c!"x" c!"Show"] [] [])] []

/-- A file that is rejected because of types: behind `{id}` the action `Show` needs a `u32` and the redirect to `Other` a
`String`. -/
def disputed : Routes :=
  .mk [] [
    .mk (.static c!"b") (.mk [] [.mk (.dynamic ⟨c!"id", c!"String"⟩) (.mk [res .get c!"x" c!"Other"] [] [])] []),
    .mk (.static c!"a") (.mk [] [.mk (.dynamic ⟨c!"id", c!"u32"⟩) (.mk [res .get c!"x" c!"Show"] [
      .mk (.static c!"old") (.mk [⟨.get, [c!"x"], c!"Other", true, []⟩] [] [])] [])] [])] []

/-- A file that is accepted although two types are needed for `{start}`: the redirect gets the index into the path instead. -/
def started : Routes :=
  .mk [] [
    .mk (.static c!"b") (.mk [] [.mk (.dynamic ⟨c!"start", c!"usize"⟩) (.mk [res .get c!"x" c!"Third"] [
      .mk (.dynamic ⟨c!"id", c!"u32"⟩) (.mk [res .get c!"x" c!"Other"] [] [])] [])] []),
    .mk (.static c!"a") (.mk [] [.mk (.dynamic ⟨c!"start", c!"u32"⟩) (.mk [res .get c!"x" c!"Show"] [
      .mk (.dynamic ⟨c!"id", c!"u32"⟩) (.mk [⟨.get, [c!"x"], c!"Other", true, []⟩] [] [])] [])] [])] []

end Wayfinder.Demo

namespace Wayfinder.Rust

/-- The file emitted for a configuration is rejected. -/
def Rejected (c : RouteConfig) : Prop :=
  Ready c ∧ readText (headerToks c.headers) (codegen c).text = none

theorem rejected_of {c : RouteConfig} (h : Ready c) (hh : Hygienic c.routes)
    (hn : ¬ (Shapely c.routes ∧ ParamsUsed c.routes ∧ NamesOk c.routes ∧ ClearNames c.routes ∧ FreeParams c.routes ∧
      RedirectsFit c.routes ∧ OneType c.routes)) :
    Rejected c := by
  refine ⟨h, ?_⟩
  cases e : readText (headerToks c.headers) (codegen c).text with
  | none => rfl
  | some x => exact absurd ((C49_hygienic h hh).1 ⟨x.1, x.2, e⟩) hn

/-- **C49, each condition is needed**: generation succeeds for these configurations, but rustc rejects the result.
The last one is a name that clashes (`C43_clashes` has more of these). -/
theorem C49_needed :
    (Rejected (Demo.conf Demo.unshapely) ∧ ¬ Shapely Demo.unshapely) ∧
    (Rejected (Demo.conf Demo.unused) ∧ ¬ ParamsUsed Demo.unused) ∧
    (Rejected (Demo.conf Demo.misnamed) ∧ ClearNames Demo.misnamed ∧ ¬ NamesOk Demo.misnamed) ∧
    (Rejected (Demo.conf Demo.unbindable) ∧ ClearNames Demo.unbindable ∧ ¬ FreeParams Demo.unbindable) ∧
    (Rejected (Demo.conf Demo.dangling) ∧ ClearNames Demo.dangling ∧ ¬ RedirectsFit Demo.dangling) ∧
    (Rejected (Demo.conf Demo.lacking) ∧ ClearNames Demo.lacking ∧ ¬ RedirectsFit Demo.lacking) ∧
    (Rejected (Demo.conf Demo.disputed) ∧ RedirectsFit Demo.disputed ∧ ¬ OneType Demo.disputed) ∧
    Rejected (Demo.conf (Demo.flat [([c!"people"], c!"show"), ([c!"people"], c!"Show")])) := by
  have clear : ∀ {r : Routes}, (segsAll bracelessSeg r && (modulesRoot r).isSome && (modOf (rootOf r)).ok true) = true → ClearNames r := by
    intro r h
    simp only [Bool.and_eq_true] at h
    obtain ⟨⟨h1, h2⟩, h3⟩ := h
    obtain ⟨root, hroot⟩ := Option.isSome_iff_exists.1 h2
    rw [rootOf, hroot] at h3
    exact (ok_iff_clear hroot (noBraces_of h1)).1 h3
  have n1 : ¬ Shapely Demo.unshapely := by
    intro h
    have := (h [] [] _ (.here _)).prefixFree
    revert this
    decide
  have n2 : ¬ ParamsUsed Demo.unused := by
    intro h
    obtain ⟨segs, above, node, h1, h2⟩ := h [] ⟨c!"id", c!"u32"⟩ _ _ (.dynamic (List.mem_singleton.2 rfl) rfl (.here _))
    cases h1 with
    | here => exact h2 rfl
    | static hn => cases hn
    | dynamic hn => cases hn
  have n7 : ¬ NamesOk Demo.misnamed := by
    intro h
    have := h.text [] ⟨c!"text", c!"u32"⟩ [.dynamic ⟨c!"id", c!"u32"⟩] _ _
      (.dynamic (List.mem_singleton.2 rfl) rfl (.dynamic (List.mem_singleton.2 rfl) rfl (.here _))) (by simp) rfl
    cases this
  have n3 : ¬ FreeParams Demo.unbindable := by
    intro h
    have := (h _ _ _ (.dynamic (List.mem_singleton.2 rfl) rfl (.here _)) ⟨c!"Home", c!"u32"⟩ (List.mem_singleton.2 rfl)).2
      (y := c!"Home") ⟨[], [], ⟨.get, [], c!"Home", false, []⟩, ⟨_, _, .here _, List.mem_singleton.2 rfl, rfl⟩, rfl, rfl, rfl, rfl, rfl⟩
    exact this (by decide)
  have fits : ∀ {r : Routes} {segs above res}, Emitted r segs above res → res.isRedirect = true →
      ((declared r).all fun d' => d'.2.2.isRedirect || !sameNameB d'.2.2 res ||
        !((routeParams segs).map Param.name).isPerm ((routeParams d'.1).map Param.name)) = true → ¬ RedirectsFit r := by
    intro r segs above res he hi hall h
    obtain ⟨_, _, _, _, ⟨segs', above', res', hd, hi', rfl, rfl, rfl, rfl⟩, h1, h2, h3⟩ := h segs above res he hi
    have := List.all_eq_true.1 hall _ (mem_declared.2 hd)
    simp [hi', sameNameB_iff.2 h1, List.isPerm_iff.2 h2] at this
  have n4 : ¬ RedirectsFit Demo.dangling :=
    fits ⟨_, _, .static (List.mem_singleton.2 rfl) (.here _), List.mem_singleton.2 rfl, rfl⟩ rfl (by decide +kernel)
  have n5 : ¬ RedirectsFit Demo.lacking :=
    fits ⟨_, _, .here _, List.mem_singleton.2 rfl, rfl⟩ rfl (by decide +kernel)
  have n8 : ¬ OneType Demo.disputed := by
    intro h
    have hother : Action Demo.disputed [c!"x"] c!"Other" [⟨c!"id", c!"String"⟩] [] :=
      ⟨[.static c!"b", .dynamic ⟨c!"id", c!"String"⟩], [], Demo.res .get c!"x" c!"Other", mem_declared.1 (by decide), rfl, rfl, rfl, rfl, rfl⟩
    have hshow : Action Demo.disputed [c!"x"] c!"Show" [⟨c!"id", c!"u32"⟩] [] :=
      ⟨[.static c!"a", .dynamic ⟨c!"id", c!"u32"⟩], [], Demo.res .get c!"x" c!"Show", mem_declared.1 (by decide), rfl, rfl, rfl, rfl, rfl⟩
    have := h [.static c!"a"] ⟨c!"id", c!"u32"⟩ [] [] (Demo.res .get c!"x" c!"Show") [.static c!"old"] []
      ⟨.get, [c!"x"], c!"Other", true, []⟩ c!"u32" c!"String"
      ⟨_, _, .static (List.mem_cons_of_mem _ (List.mem_singleton.2 rfl)) (.dynamic (List.mem_singleton.2 rfl) rfl (.here _)),
        List.mem_singleton.2 rfl, rfl⟩
      ⟨_, _, .static (List.mem_cons_of_mem _ (List.mem_singleton.2 rfl)) (.dynamic (List.mem_singleton.2 rfl) rfl
        (.static (List.mem_singleton.2 rfl) (.here _))), List.mem_singleton.2 rfl, rfl⟩
      ⟨_, _, _, _, hshow, ⟨rfl, rfl, rfl⟩, List.mem_singleton.2 rfl⟩
      ⟨_, _, _, _, hother, ⟨rfl, rfl, rfl⟩, List.mem_singleton.2 rfl⟩
    revert this
    decide
  have n6 : ¬ ClearNames (Demo.flat [([c!"people"], c!"show"), ([c!"people"], c!"Show")]) := by
    intro h
    obtain ⟨_, _, _, _, _, _, _, _, hn, _⟩ :=
      C43_clashes (Demo.flat [([c!"people"], c!"show"), ([c!"people"], c!"Show")]) (by simp [Demo.clashes])
    exact hn h
  exact ⟨⟨rejected_of (Demo.ready_of (by decide +kernel)) (hygienic_of (by decide +kernel)) fun h => n1 h.1, n1⟩,
    ⟨rejected_of (Demo.ready_of (by decide +kernel)) (hygienic_of (by decide +kernel)) fun h => n2 h.2.1, n2⟩,
    ⟨rejected_of (Demo.ready_of (by decide +kernel)) (hygienic_of (by decide +kernel)) fun h => n7 h.2.2.1, clear (by decide +kernel), n7⟩,
    ⟨rejected_of (Demo.ready_of (by decide +kernel)) (hygienic_of (by decide +kernel)) fun h => n3 h.2.2.2.2.1, clear (by decide +kernel), n3⟩,
    ⟨rejected_of (Demo.ready_of (by decide +kernel)) (hygienic_of (by decide +kernel)) fun h => n4 h.2.2.2.2.2.1, clear (by decide +kernel), n4⟩,
    ⟨rejected_of (Demo.ready_of (by decide +kernel)) (hygienic_of (by decide +kernel)) fun h => n5 h.2.2.2.2.2.1, clear (by decide +kernel), n5⟩,
    ⟨rejected_of (Demo.ready_of (by decide +kernel)) (hygienic_of (by decide +kernel)) fun h => n8 h.2.2.2.2.2.2,
      redirects_of (by decide +kernel), n8⟩,
    rejected_of (Demo.ready_of (by decide +kernel)) (hygienic_of (by decide +kernel)) fun h => n6 h.2.2.2.1⟩

/-- Check that the file emitted for a configuration is accepted. -/
def acceptedB (r : Routes) : Bool :=
  Demo.readyB r && (modulesRoot r).isSome && (match matcherBody r with | .ok _ => true | .error _ => false) &&
  blockShapeOk (bodyOf r) && (modOf (rootOf r)).ok true &&
  match elabBlock (modOf (rootOf r)) (eraseBlock (bodyOf r)) with
  | some b => compiles b
  | none => false

theorem accepted_of {r : Routes} (h : acceptedB r = true) :
    Ready (Demo.conf r) ∧ ∃ m b, readText (headerToks (Demo.conf r).headers) (codegen (Demo.conf r)).text = some (m, b) := by
  simp only [acceptedB, Bool.and_eq_true] at h
  obtain ⟨⟨⟨⟨⟨h1, h2⟩, h3⟩, h4⟩, h5⟩, h6⟩ := h
  have hready := Demo.ready_of h1
  refine ⟨hready, ?_⟩
  obtain ⟨root, hroot⟩ := Option.isSome_iff_exists.1 h2
  have hb : matcherBody r = .ok (bodyOf r) := by
    cases e : matcherBody r with
    | error _ => simp [e] at h3
    | ok b => simp [bodyOf, e]
  rw [rootOf, hroot] at h5 h6
  simp only [Option.getD_some] at h5 h6
  cases e : elabBlock (modOf root) (eraseBlock (bodyOf r)) with
  | none => simp [e] at h6
  | some b =>
    simp only [e] at h6
    exact ⟨_, _, readText_eq (codegen_read (c := Demo.conf r) hready.generated hready.headers hready.words hroot hb |>.trans
      (if_pos h4)) e h5 h6⟩

/-- The types that a configuration gives to the parameters of redirects need not be those of their targets, for the file
to be accepted; in this example `{id: String}` becomes a `u32`. -/
example : Ready (Demo.conf Demo.mistyped) ∧ Hygienic Demo.mistyped ∧ OneType Demo.mistyped ∧ ¬ RedirectTypes Demo.mistyped := by
  obtain ⟨h1, h2⟩ := accepted_of (r := Demo.mistyped) (by decide +kernel)
  have hh : Hygienic Demo.mistyped := hygienic_of (by decide +kernel)
  refine ⟨h1, hh, ((C49_hygienic h1 hh).1 h2).2.2.2.2.2.2, fun h => ?_⟩
  have := h [.static c!"b", .dynamic ⟨c!"id", c!"String"⟩] [] ⟨.get, [c!"x"], c!"Show", true, []⟩
    ⟨_, _, .static (List.mem_cons_of_mem _ (List.mem_singleton.2 rfl)) (.dynamic (List.mem_singleton.2 rfl) rfl (.here _)),
      List.mem_singleton.2 rfl, rfl⟩ rfl [c!"x"] c!"Show" [⟨c!"id", c!"u32"⟩] []
    ⟨[.static c!"a", .dynamic ⟨c!"id", c!"u32"⟩], [], Demo.res .get c!"x" c!"Show", mem_declared.1 (by decide), rfl, rfl, rfl, rfl, rfl⟩
    ⟨rfl, rfl, rfl⟩ ⟨c!"id", c!"String"⟩ (List.mem_singleton.2 rfl) ⟨c!"id", c!"u32"⟩ (List.mem_singleton.2 rfl) rfl
  revert this
  decide

/-- **C49, `StartTypes` is needed**: a file that is accepted although no types can be chosen. -/
theorem C49_start_needed : ∃ c : RouteConfig, Ready c ∧
    (∃ m b, readText (headerToks c.headers) (codegen c).text = some (m, b)) ∧ ¬ StartTypes c.routes ∧ ¬ ∃ τ, Typed c.routes τ := by
  obtain ⟨h1, h2⟩ := accepted_of (r := Demo.started) (by decide +kernel)
  have hn : ¬ OneType Demo.started := by
    intro h
    have hother : Action Demo.started [c!"x"] c!"Other" [⟨c!"start", c!"usize"⟩, ⟨c!"id", c!"u32"⟩] [] :=
      ⟨[.static c!"b", .dynamic ⟨c!"start", c!"usize"⟩, .dynamic ⟨c!"id", c!"u32"⟩], [], Demo.res .get c!"x" c!"Other",
        mem_declared.1 (by decide), rfl, rfl, rfl, rfl, rfl⟩
    have hshow : Action Demo.started [c!"x"] c!"Show" [⟨c!"start", c!"u32"⟩] [] :=
      ⟨[.static c!"a", .dynamic ⟨c!"start", c!"u32"⟩], [], Demo.res .get c!"x" c!"Show", mem_declared.1 (by decide), rfl, rfl, rfl, rfl, rfl⟩
    have := h [.static c!"a"] ⟨c!"start", c!"u32"⟩ [] [] (Demo.res .get c!"x" c!"Show") [.dynamic ⟨c!"id", c!"u32"⟩] []
      ⟨.get, [c!"x"], c!"Other", true, []⟩ c!"u32" c!"usize"
      ⟨_, _, .static (List.mem_cons_of_mem _ (List.mem_singleton.2 rfl)) (.dynamic (List.mem_singleton.2 rfl) rfl (.here _)),
        List.mem_singleton.2 rfl, rfl⟩
      ⟨_, _, .static (List.mem_cons_of_mem _ (List.mem_singleton.2 rfl)) (.dynamic (List.mem_singleton.2 rfl) rfl
        (.dynamic (List.mem_singleton.2 rfl) rfl (.here _))), List.mem_singleton.2 rfl, rfl⟩
      ⟨_, _, _, _, hshow, ⟨rfl, rfl, rfl⟩, List.mem_singleton.2 rfl⟩
      ⟨_, _, _, _, hother, ⟨rfl, rfl, rfl⟩, List.mem_cons_self ..⟩
    revert this
    decide
  refine ⟨Demo.conf Demo.started, h1, h2, fun hs => ?_, fun ht => hn ((C49_typed _).1 ht)⟩
  obtain ⟨-, -, -, -, -, τ, ht, -⟩ := (C49_accepted h1 hs).1 h2
  exact hn ht.oneType

end Wayfinder.Rust
