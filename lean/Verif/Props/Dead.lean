import Verif.Spec.Dead
import Verif.Props.Config
import Verif.Props.Flow
import Verif.Props.Shipped
import Verif.Props.Accept
/-!
# C92: actions that no request leads to
-/

namespace Wayfinder

variable {r : Routes} {body : List Stmt}

theorem mem_firstPerVerb {res : Resource} : ∀ {l : List Resource},
    res ∈ firstPerVerb l ↔ ∃ before after, l = before ++ res :: after ∧ ∀ x ∈ before, x.method ≠ res.method
  | [] => by simp [firstPerVerb]
  | y :: l => by
    simp only [firstPerVerb, List.mem_cons, List.mem_filter, mem_firstPerVerb (l := l), decide_eq_true_eq]
    constructor
    · rintro (rfl | ⟨⟨before, after, rfl, h⟩, hne⟩)
      · exact ⟨[], l, rfl, by simp⟩
      · exact ⟨y :: before, after, rfl, by
          intro x hx
          rcases List.mem_cons.1 hx with rfl | hx
          · exact hne.symm
          · exact h x hx⟩
    · rintro ⟨before, after, he, h⟩
      cases before with
      | nil => simp only [List.nil_append, List.cons.injEq] at he; exact .inl he.1.symm
      | cons b before =>
        simp only [List.cons_append, List.cons.injEq] at he
        obtain ⟨rfl, rfl⟩ := he
        exact .inr ⟨⟨before, after, rfl, fun x hx => h x (by simp [hx])⟩, (h y (by simp)).symm⟩

theorem mem_answeringIn {res : Resource} {siblings : List NestedRoutes} : ∀ {ns : List NestedRoutes},
    res ∈ answeringIn siblings ns ↔ ∃ seg sub, NestedRoutes.mk seg sub ∈ ns ∧ canEnter siblings seg = true ∧ res ∈ answering sub
  | [] => by simp [answeringIn]
  | .mk seg sub :: ns => by
    simp only [answeringIn, List.mem_append, mem_answeringIn (ns := ns), List.mem_cons, NestedRoutes.mk.injEq]
    constructor
    · rintro (h | ⟨seg', sub', h1, h2, h3⟩)
      · cases he : canEnter siblings seg with
        | false => simp [he] at h
        | true => exact ⟨seg, sub, .inl ⟨rfl, rfl⟩, he, by simpa [he] using h⟩
      · exact ⟨seg', sub', .inr h1, h2, h3⟩
    · rintro ⟨seg', sub', ⟨rfl, rfl⟩ | h1, h2, h3⟩
      · exact .inl (by simpa [h2] using h3)
      · exact .inr ⟨seg', sub', h1, h2, h3⟩

/-- The list has the resources on open routes that are first for their verb. -/
theorem mem_answering {res : Resource} : ∀ {r : Routes}, res ∈ answering r ↔ ∃ segs above node before after,
    Open r segs above node ∧ node.resources = before ++ res :: after ∧ ∀ x ∈ before, x.method ≠ res.method := by
  intro r
  induction r using Routes.ind with
  | h rs ns qs ih =>
    simp only [answering, List.mem_append, mem_firstPerVerb, mem_answeringIn]
    constructor
    · rintro (⟨before, after, h1, h2⟩ | ⟨seg, sub, h1, h2, h3⟩)
      · exact ⟨[], [], _, before, after, .here _, h1, h2⟩
      · obtain ⟨segs, above, node, before, after, h4, h5⟩ := (ih _ h1).1 h3
        cases seg with
        | static s =>
          simp only [canEnter, Bool.or_eq_true, decide_eq_true_eq] at h2
          exact ⟨_, _, node, before, after, .static (r := .mk rs ns qs) h1 h2 h4, h5⟩
        | dynamic p =>
          simp only [canEnter, decide_eq_true_eq] at h2
          exact ⟨_, _, node, before, after, .dynamic (r := .mk rs ns qs) h1 h2 h4, h5⟩
    · rintro ⟨segs, above, node, before, after, h1, h2, h3⟩
      cases h1 with
      | here => exact .inl ⟨before, after, h2, h3⟩
      | static hn h4 h5 =>
        exact .inr ⟨_, _, hn, by simpa [canEnter] using h4, (ih _ hn).2 ⟨_, _, _, _, _, h5, h2, h3⟩⟩
      | dynamic hn h4 h5 =>
        exact .inr ⟨_, _, hn, by simpa [canEnter] using h4, (ih _ hn).2 ⟨_, _, _, _, _, h5, h2, h3⟩⟩

theorem mem_resourcesOfIn {res : Resource} : ∀ {ns : List NestedRoutes},
    res ∈ resourcesOfIn ns ↔ ∃ seg sub, NestedRoutes.mk seg sub ∈ ns ∧ res ∈ resourcesOf sub
  | [] => by simp [resourcesOfIn]
  | .mk seg sub :: ns => by
    simp only [resourcesOfIn, List.mem_append, mem_resourcesOfIn (ns := ns), List.mem_cons, NestedRoutes.mk.injEq]
    constructor
    · rintro (h | ⟨seg', sub', h1, h2⟩)
      · exact ⟨seg, sub, .inl ⟨rfl, rfl⟩, h⟩
      · exact ⟨seg', sub', .inr h1, h2⟩
    · rintro ⟨seg', sub', ⟨rfl, rfl⟩ | h1, h2⟩
      · exact .inl h2
      · exact .inr ⟨seg', sub', h1, h2⟩

theorem mem_resourcesOf {res : Resource} : ∀ {r : Routes}, res ∈ resourcesOf r ↔ ∃ segs query, Declares r segs query res := by
  intro r
  induction r using Routes.ind with
  | h rs ns qs ih =>
    simp only [resourcesOf, List.mem_append, mem_resourcesOfIn]
    constructor
    · rintro (h | ⟨seg, sub, h1, h2⟩)
      · exact ⟨[], _, _, _, .here _, h, rfl⟩
      · obtain ⟨segs, query, node, above, h3, h4, -⟩ := (ih _ h1).1 h2
        exact ⟨seg :: segs, _, node, _, .child (r := .mk rs ns qs) h1 h3, h4, rfl⟩
    · rintro ⟨segs, query, node, above, h1, h2, -⟩
      cases h1 with
      | here => exact .inl h2
      | child hn h3 => exact .inr ⟨_, _, hn, (ih _ hn).2 ⟨_, _, _, _, h3, h2, rfl⟩⟩

/-- **C92.** Which actions and redirects `match_route` can return at all, for any types of the parameters and any request, can be read off
the configuration: exactly those in the list `answering`. -/
theorem C92_answering (h : Supported r body) (hp : PlainTexts r) (red : Bool) (mods : List Str) (x : Str) :
    (∃ (W : World) (path verb : Bytes) (v : RouteVal W), (callMatchRoute W body path verb).isMatch red v ∧ v.modules = mods ∧ v.name = x) ↔
      ∃ res ∈ answering r, res.isRedirect = red ∧ res.modules = mods ∧ res.name = x := by
  constructor
  · rintro ⟨W, path, verb, v, hv, rfl, rfl⟩
    obtain ⟨segs, above, caps, node, rest, before, res, after, h1, -, h3, -, h5, rfl, rfl⟩ := (C47_match h hp path verb red v).1 hv
    exact ⟨res, mem_answering.2 ⟨_, _, _, _, _, h1.open, h3, h5⟩, rfl, rfl, rfl⟩
  · rintro ⟨res, hres, rfl, rfl, rfl⟩
    obtain ⟨segs, above, node, before, after, h1, h2, h3⟩ := mem_answering.1 hres
    obtain ⟨caps, texts, h4, h5⟩ := h1.follows (h.sound hp) echo_lenient
    exact ⟨echo, slash :: spell (texts.map utf8), _, _, C02_follows h hp h4 h2 h3 (by
      simp only [stripSlash, if_true]; exact .inl rfl), rfl, rfl⟩

/-- **C92, dead actions.** The list `deadActions` has exactly the declared actions that no request is answered with, whatever the types
of the parameters. -/
theorem C92_dead (h : Supported r body) (hp : PlainTexts r) (mods : List Str) (x : Str) :
    (mods, x) ∈ deadActions r ↔ (∃ segs query res, Declares r segs query res ∧ res.isRedirect = false ∧ res.modules = mods ∧ res.name = x) ∧
      ∀ (W : World) (path verb : Bytes) (v : RouteVal W), callMatchRoute W body path verb = .route v → (v.modules, v.name) ≠ (mods, x) := by
  have h1 : (mods, x) ∈ actionNames (resourcesOf r) ↔
      ∃ segs query res, Declares r segs query res ∧ res.isRedirect = false ∧ res.modules = mods ∧ res.name = x := by
    simp only [actionNames, List.mem_map, List.mem_filter, mem_resourcesOf, Bool.not_eq_true', Prod.mk.injEq]
    constructor
    · rintro ⟨res, ⟨⟨segs, query, g1⟩, g2⟩, g3, g4⟩; exact ⟨segs, query, res, g1, g2, g3, g4⟩
    · rintro ⟨segs, query, res, g1, g2, g3, g4⟩; exact ⟨res, ⟨⟨segs, query, g1⟩, g2⟩, g3, g4⟩
  have h2 : (mods, x) ∈ actionNames (answering r) ↔
      ∃ (W : World) (path verb : Bytes) (v : RouteVal W), callMatchRoute W body path verb = .route v ∧ (v.modules, v.name) = (mods, x) := by
    simp only [actionNames, List.mem_map, List.mem_filter, Bool.not_eq_true', Prod.mk.injEq]
    refine Iff.trans ?_ (C92_answering h hp false mods x).symm
    constructor
    · rintro ⟨res, ⟨g1, g2⟩, g3⟩; exact ⟨res, g1, g2, g3⟩
    · rintro ⟨res, g1, g2, g3⟩; exact ⟨res, ⟨g1, g2⟩, g3⟩
  simp only [deadActions, List.mem_filter, decide_eq_true_eq, h1, h2]
  refine and_congr_right fun _ => ?_
  constructor
  · intro hn W path verb v hv he
    exact hn ⟨W, path, verb, v, hv, he⟩
  · rintro hn ⟨W, path, verb, v, hv, he⟩
    exact hn W path verb v hv he

end Wayfinder

namespace Wayfinder.Demo
open Rust

/-- **C92, no warning.** Three of the four actions of `commons.routes` are dead.  Yet the emitted file is accepted, and rustc reports no
statement or pattern of it as unreachable: what it reports are only second resources for a verb (`C77_lints`). -/
theorem C92_silent : deadActions commons = [([c!"Foo"], c!"Bar"), ([c!"Fomo"], c!"AsUsual"), ([c!"Foosh"], c!"Ball")] ∧
    acceptedB commons = true ∧ blockLive (bodyOf commons) = true := by
  decide +kernel

/-- A case of `C92_dead`: nothing leads to the action `Foo::Bar`. -/
example (W : World) (path verb : Bytes) (v : RouteVal W) (h : callMatchRoute W (bodyOf commons) path verb = .route v) :
    (v.modules, v.name) ≠ ([c!"Foo"], c!"Bar") :=
  ((C92_dead commons_supported commons_plain _ _).1 (by rw [C92_silent.1]; decide)).2 W path verb v h

/-- The configurations of the examples have no dead actions. -/
theorem C92_shipped : deadActions Shipped.cli.routes = [] ∧ deadActions Shipped.structured.routes = [] ∧
    deadActions Shipped.nesting.routes = [] := by decide +kernel

end Wayfinder.Demo
