import Verif.Props.Offset
import Verif.Props.Guarded
import Verif.Props.Siblings
import Verif.Props.Path
import Verif.Props.Mount
import Verif.Props.Trie
import Verif.Props.Cost
import Verif.Props.Size
import Verif.Props.Opaque
import Verif.Props.Verb
import Verif.Props.Sums
import Verif.Props.Asks
import Verif.Props.Relabel
import Verif.Props.Flow
import Verif.Props.FileSize
import Verif.Props.Names
import Verif.Props.Text
import Verif.Props.Traits
import Verif.Props.Shadow
import Verif.Props.Rename
import Verif.Props.Ascii
import Verif.Props.Split
import Verif.Props.Spell
import Verif.Props.Accept
/-!
# Theorems applied to the demonstration configurations

Where the cases beside a theorem show its conclusion, the theorem itself is applied here, so that its hypotheses are met.
-/

namespace Wayfinder

open Demo

/-- An answer that is shown as a route is a match. -/
theorem match_of_shown {o : Outcome world} {mods : List Str} {name : Str} {ps : List (Str × Str)} {ns : List Str}
    (h : Demo.shown o = .route mods name ps ns) : ∃ v, o = .route v ∧ v.modules = mods ∧ v.name = name ∧ v.nones = ns ∧
      v.params.map (fun f => (f.1, showVal f.2)) = ps := by
  cases o <;> simp [Demo.shown] at h
  rename_i v
  exact ⟨v, rfl, h.1, h.2.1, h.2.2.2, h.2.2.1⟩

/-- An answer that is shown as not found is that. -/
theorem notFound_of_shown {o : Outcome world} (h : Demo.shown o = .notFound) : o = .notFound := by
  cases o <;> simp [Demo.shown] at h ⊢

/-- `GET /people/17/edit/`. -/
theorem edit_found : ∃ v, callMatchRoute world (bodyOf people) (bytesOf c!"/people/17/edit/") (bytesOf c!"GET") = .route v ∧
    v.modules = [c!"people"] ∧ v.name = c!"Edit" ∧ v.nones = [c!"lang", c!"verbose", c!"tab"] ∧
    v.params.map (fun f => (f.1, showVal f.2)) = [(c!"id", c!"17")] :=
  match_of_shown (show ask people c!"/people/17/edit/" c!"GET" = _ by decide +kernel)

/-- What the theorems on matches say about that answer. -/
example : ∃ v, callMatchRoute world (bodyOf people) (bytesOf c!"/people/17/edit/") (bytesOf c!"GET") = .route v ∧
    ∃ segs query res caps parts, Declares people segs query res ∧ res.modules = v.modules ∧ res.name = v.name ∧
      bytesOf c!"GET" = verbBytes res.method ∧ Fits world segs caps parts ∧ Spells parts (stripSlash (bytesOf c!"/people/17/edit/")) := by
  obtain ⟨v, hv, _⟩ := edit_found
  exact ⟨v, hv, C01_soundness people_supported (red := false) hv⟩

section
variable {v : RouteVal world}
  (hv : (callMatchRoute world (bodyOf people) (bytesOf c!"/people/17/edit/") (bytesOf c!"GET")).isMatch false v)
include hv

example := C07_parameters people_supported hv
example := C10_query_none people_supported hv
example := C16_redirects people_supported hv
example := C17_first_wins people_supported hv
example := C75_values people_supported _ _ (.inl hv)
example := C72_values people_supported _ _ _ hv hv
end

/-- Static routes of `people` are found. -/
example := C04_static_partial (W := world) people_supported people_plain people_tame

/-- Its routing never panics. -/
example : NoPanic world (bodyOf people) := C09_no_panic_partial people_supported fun _ _ _ hr => noCliff_of (by decide) hr

/-- It prefers static segments. -/
example : StaticFirst world people (bodyOf people) :=
  C11_precedence_partial people_supported people_plain fun segs above node hr hne => by
    have := nodesAll_route (f := fun node => decide ((staticTexts node.routes).length ≤ 1) || (paramNames node.routes).isEmpty) hr (by decide)
    simp at this
    exact this.resolve_right hne

example := fun path m => C05_leading_slash (W := world) people_supported path m
example := fun path m => C53_linear (W := world) people_supported.generated people_supported.compiles path m
example := fun path m => C53_returns (W := world) people_supported.generated people_supported.compiles path m
example := C61_twice people_supported.generated people_supported.compiles
example := fun path m => C71_opaque (W := world) people_supported List.length List.length path m
example := fun path => C72_path (W := world) people_supported path
example := fun path m => C75_count (W := world) people_supported path m
example := fun path m => C75_stops (W := world) people_supported.compiles path m
example := C76_actions (fun mods name red => (c!"api" :: mods, name, !red)) people_supported
example := fun s => C77_sound (body := bodyOf people) (by decide +kernel) world (bytesOf c!"/people") (bytesOf c!"GET") s

/-- C04: a configuration in which parameters have no siblings, and a request that is not found. -/
example : ¬ IsInstance world unmixed (stripSlash (bytesOf c!"/nowhere/at/all/to/be/found")) := by
  refine C04_unmixed_not_found unmixed_supported unmixed_plain unmixed_unmixed _ (bytesOf c!"GET") ?_
  exact notFound_of_shown (show ask unmixed c!"/nowhere/at/all/to/be/found" c!"GET" = _ by decide +kernel)

/-- `people` satisfies what the compiler asks for, and its answers are the reference's. -/
example : compiles (bodyOf people) = true ↔ NamesOk people :=
  C52_compiles people_supported.generated people_supported.conditions.1 people_supported.conditions.2.1 people_supported.conditions.2.2.1
example := C52_routes people_supported.generated people_supported.compiles people_supported.hygienic world

/-- Which of the answers of `startBlock` are not matches is known although one of its fields is not. -/
example := fun path m => C98_kinds startBlock_generated (by decide +kernel) (lenFree_of (by decide +kernel)) world path m
  (o := .notAllowed) (by intro red v h; cases red <;> simp [Outcome.isMatch] at h)
example : ∃ v : RouteVal indexWorld, (callMatchRoute indexWorld (bodyOf startBlock) (bytesOf c!"/70/5") (bytesOf c!"POST")).isMatch false v ∧
    ∃ segs caps parts, Fits indexWorld segs caps parts ∧ Spells parts (stripSlash (bytesOf c!"/70/5")) ∧
      List.Forall₂ (FieldNear (bytesOf c!"/70/5")) caps v.params := by
  have h := C98_cases.2.1
  unfold askIndex at h
  generalize ho : callMatchRoute indexWorld (bodyOf startBlock) (bytesOf c!"/70/5") (bytesOf c!"POST") = o at h
  cases o <;> simp [shownIndex] at h
  rename_i v
  obtain ⟨segs, _, _, caps, parts, _, _, h2, h3, _, _, _, _, _, h4, _⟩ := C98_matches startBlock_generated (by decide +kernel)
    (lenFree_of (by decide +kernel)) (W := indexWorld) (path := bytesOf c!"/70/5") (m := bytesOf c!"POST") (red := false) (v := v) ho
  exact ⟨v, rfl, segs, caps, parts, h2, h3, h4⟩

/-- What the file of `people` declares. -/
example := Rust.C44_variants people_clean people_supported
example := fun path m v hv => Rust.C42_sound (W := world) people_clean people_supported (path := path) (m := m) (red := false) (v := v) hv

/-- The counter of `people` after every prefix of its body. -/
example := fun path m pre post hb s hx =>
  C74_counter (W := world) people_supported.generated people_supported.compiles path m (pre := pre) (post := post) hb (s := s) hx

/-- The size of the file of `people`. -/
example : lineCount (codegen (conf people)).text ≤ declarationLines (conf people) + 6 + 47 * people.nestedCount
    + sumOver MethodArm.lineCount (people.ownLiterals [] []) + 2 * sumOver MethodArm.lineCount (people.literalsBelow [] []) :=
  C90_bound people_clean.generated people_supported.generated people_supported.compiles (by decide +kernel)

/-- The tree of the routes of `people` holds them, sorted. -/
example {t : RouteTrie} {es : List (List Charlike × FlattenedRoute)} (h : Grown Charlike.cmp es t) :=
  C26_contents Charlike.orderCmp h
example : ∃ t, Grown (V := Nat) Charlike.cmp [([.static 'a', .separator], 1), ([.dynamic c!"id", .separator], 2), ([], 3)] t :=
  (C26_history Charlike.orderCmp _).2 (by decide)

/-- The order of the children of the root of `people` does not matter to the program. -/
example : ∃ r', r'.routes.map NestedRoutes.pathSegment = [.static c!"old", .static c!"people"] ∧
    ∀ W path m, Rust.callText W (Rust.headerToks (conf people).headers) (codegen (conf people)).text path m =
      Rust.callText W (Rust.headerToks (conf r').headers) (codegen (conf r')).text path m := by
  obtain ⟨r', h, e⟩ : ∃ r', Reordered people r' ∧ r'.routes.map NestedRoutes.pathSegment = [.static c!"old", .static c!"people"] :=
    ⟨_, .swap _ [] _ _ [] _, rfl⟩
  exact ⟨r', e, (C86_program (c := conf people) (c' := conf r') rfl h people_clean.generated (Rust.demo_headers _)
    people_clean.words).1⟩

end Wayfinder
