import Verif.Model.Shipped
import Verif.Props.Guarded
import Verif.Props.Edit
import Verif.Props.Doc
import Verif.Props.Text
/-!
# C59: the configurations that the project ships
-/

namespace Wayfinder.Shipped

/-- What `/repo/example.routes` says. -/
def cli : RouteConfig where
  headers := [⟨c!"use uuid::Uuid;"⟩]
  routes := .mk [] [.mk (.static c!"users") (.mk [⟨.get, [c!"People"], c!"Index", true, []⟩] [] []),
    .mk (.static c!"people") people.routes, .mk (.static c!"books") books.routes] [⟨c!"lang", c!"String"⟩]

/-- What `/repo/commons.routes` says. -/
def commons : RouteConfig := ⟨[], Demo.commons⟩

/-- What `/repo/wayfinder-tests/cases/nesting/routes.routes` says. -/
def nesting : RouteConfig where
  headers := [⟨c!"use uuid::Uuid;"⟩]
  routes := .mk [⟨.get, [], c!"Index", false, []⟩]
    [.mk (.dynamic ⟨c!"id", c!"Uuid"⟩) (.mk [⟨.get, [c!"Admin", c!"People"], c!"Show", false, []⟩] [] [])] []

set_option maxRecDepth 100000 in
theorem C59_files (cfg : ParseCfg) : routeConfig cfg exampleText = .ok [] cli ∧ routeConfig cfg commonsText = .ok [] commons ∧
    routeConfig cfg nestingText = .ok [] nesting := by
  obtain ⟨u, a, e⟩ := cfg
  cases e <;> exact ⟨rfl, rfl, rfl⟩

theorem cli_supported : Supported cli.routes (bodyOf cli.routes) := supported_of (by decide +kernel)
theorem cli_plain : PlainTexts cli.routes := plainTexts_of (by decide)
theorem nesting_supported : Supported nesting.routes (bodyOf nesting.routes) := supported_of (by decide +kernel)
theorem nesting_plain : PlainTexts nesting.routes := plainTexts_of (by decide)

theorem root_exists {r : Routes} (h : modulesRoot r ≠ none) : ∃ root, modulesRoot r = some root := Option.ne_none_iff_exists'.1 h

theorem cli_ascii : AsciiTexts cli.routes := asciiTexts_of (by decide)
theorem cli_braces : NoBraces cli.routes := noBraces_of (by decide)
theorem cli_open : AllOpen cli.routes := by decide +kernel

/-- **C59, the example.** Whatever `FromStr` does, the matcher for `/repo/example.routes` answers every declared route (written with texts
that do not begin like a static sibling), does not panic, gives precedence to static segments, and never answers `NotFound` for
a declared route without parameters.  But whether its parameters capture all other segments, and its paths are answered with the
same action, depends on `FromStr`. -/
theorem C59_example : (∀ W, Complete W cli.routes (bodyOf cli.routes)) ∧ (∀ W, NoPanic W (bodyOf cli.routes)) ∧
    (∀ W, StaticFirst W cli.routes (bodyOf cli.routes)) ∧ (∀ W, StaticFound W cli.routes (bodyOf cli.routes)) ∧
    (¬ ∀ W, ParamElse W cli.routes (bodyOf cli.routes)) ∧
    ∃ root, modulesRoot cli.routes = some root ∧ ¬ ∀ (W : World) (display : W.V → Str), RoundTrip W display (bodyOf cli.routes) root := by
  refine ⟨(C02_config cli_supported cli_plain cli_ascii).2 cli_open, (C09_config cli_supported cli_plain).2 (by decide +kernel),
    (C11_config cli_supported cli_plain).2 (by decide +kernel), (C04_config cli_supported cli_plain cli_ascii).2 (by decide +kernel),
    fun h => absurd ((C12_config cli_supported cli_plain).1 h) (by decide +kernel), ?_⟩
  obtain ⟨root, hroot⟩ := root_exists (r := cli.routes) (by decide +kernel)
  exact ⟨root, hroot, fun h => absurd ((C15_config cli_supported cli_plain cli_braces hroot (by decide +kernel)).1 h) (by decide +kernel)⟩

/-- **C59, the example with UUIDs.** All that the example needs of `FromStr` is that it fails, for `Uuid`, on texts that begin with `new`.
Then its parameters capture all segments that are UUIDs, every action is recovered from its path, and `NotFound` is only answered
to paths that are no instance of a declared route. -/
theorem C59_uuid {W : World} (hu : Rejects W c!"Uuid" c!"new") : ParamElse W cli.routes (bodyOf cli.routes) ∧
    (∃ root, modulesRoot cli.routes = some root ∧ ∀ display : W.V → Str, RoundTrip W display (bodyOf cli.routes) root) ∧
    ∀ path m, callMatchRoute W (bodyOf cli.routes) path m = .notFound →
      ¬ ∃ segs above node caps parts, HasRoute cli.routes segs above node ∧ node.resources ≠ [] ∧ Fits W segs caps parts ∧ [] ∉ parts ∧
        Spells parts (stripSlash path) := by
  have ht : Guarded W cli.routes := by
    rw [guarded_iff]
    intro x hx
    have : ∀ x ∈ (walks opens cli.routes).flatMap fun x => rivalsIn x.2.2.routes, x = (c!"Uuid", c!"new") := by decide +kernel
    rw [this x hx]
    exact hu
  obtain ⟨root, hroot⟩ := root_exists (r := cli.routes) (by decide +kernel)
  exact ⟨C12_guarded cli_supported cli_plain ht, ⟨root, hroot, C15_guarded cli_supported cli_plain cli_braces hroot (by decide +kernel) ht
    (by decide +kernel)⟩, fun path m => C04_guarded cli_supported cli_plain cli_open ht⟩

/-- **C59, the commons.** The matcher for `/repo/commons.routes` does not answer all declared routes, gives no precedence to static
segments, and answers the paths of some actions with another one; but it does not panic, its parameter captures all segments, and
it answers `NotFound` only to paths that are no instance of a declared route. -/
theorem C59_commons : (¬ ∀ W, Complete W commons.routes (bodyOf commons.routes)) ∧ (∀ W, NoPanic W (bodyOf commons.routes)) ∧
    (¬ ∀ W, StaticFirst W commons.routes (bodyOf commons.routes)) ∧ (∀ W, ParamElse W commons.routes (bodyOf commons.routes)) ∧
    (∀ W path m, callMatchRoute W (bodyOf commons.routes) path m = .notFound → ¬ IsInstance W commons.routes (stripSlash path)) ∧
    ∃ root, modulesRoot commons.routes = some root ∧
      ¬ ∀ (W : World) (display : W.V → Str), RoundTrip W display (bodyOf commons.routes) root := by
  have hs : Supported commons.routes (bodyOf commons.routes) := Demo.commons_supported
  have hp : PlainTexts commons.routes := Demo.commons_plain
  have ha : AsciiTexts commons.routes := asciiTexts_of (by decide)
  refine ⟨fun h => absurd ((C02_config hs hp ha).1 h) (by decide +kernel), (C09_config hs hp).2 (by decide +kernel),
    fun h => absurd ((C11_config hs hp).1 h) (by decide +kernel), (C12_config hs hp).2 (by decide +kernel),
    (C04_instances hs hp ha).2 (by decide +kernel), ?_⟩
  obtain ⟨root, hroot⟩ := root_exists (r := commons.routes) (by decide +kernel)
  exact ⟨root, hroot, fun h => absurd ((C15_config hs hp (noBraces_of (by decide)) hroot (by decide +kernel)).1 h) (by decide +kernel)⟩

/-- **C59, nesting.** The matcher for `/repo/wayfinder-tests/cases/nesting/routes.routes` has all these properties. -/
theorem C59_nesting : (∀ W, Complete W nesting.routes (bodyOf nesting.routes)) ∧ (∀ W, NoPanic W (bodyOf nesting.routes)) ∧
    (∀ W, StaticFirst W nesting.routes (bodyOf nesting.routes)) ∧ (∀ W, ParamElse W nesting.routes (bodyOf nesting.routes)) ∧
    (∀ W path m, callMatchRoute W (bodyOf nesting.routes) path m = .notFound → ¬ IsInstance W nesting.routes (stripSlash path)) ∧
    ∃ root, modulesRoot nesting.routes = some root ∧
      ∀ (W : World) (display : W.V → Str), RoundTrip W display (bodyOf nesting.routes) root := by
  have hs := nesting_supported
  have hp := nesting_plain
  have ha : AsciiTexts nesting.routes := asciiTexts_of (by decide)
  refine ⟨(C02_config hs hp ha).2 (by decide +kernel), (C09_config hs hp).2 (by decide +kernel),
    (C11_config hs hp).2 (by decide +kernel), (C12_config hs hp).2 (by decide +kernel),
    (C04_instances hs hp ha).2 (by decide +kernel), ?_⟩
  obtain ⟨root, hroot⟩ := root_exists (r := nesting.routes) (by decide +kernel)
  exact ⟨root, hroot, (C15_config hs hp (noBraces_of (by decide)) hroot (by decide +kernel)).2 (by decide +kernel)⟩

theorem structured_supported : Supported structured.routes (bodyOf structured.routes) := supported_of (by decide +kernel)
theorem structured_plain : PlainTexts structured.routes := plainTexts_of (by decide)

/-- The blocks of `/users` in the two examples. -/
def usersOf (name : Str) : Routes := .mk [⟨.get, [c!"People"], name, true, []⟩] [] []

theorem structured_edited : Edited cli.routes [.static c!"users"] (usersOf c!"Index") (usersOf c!"New") structured.routes :=
  .child (before := []) (.here _ _)

theorem no_takes {r sub : Routes} (hp : paramNames r.routes = []) {p : Param} {part : Bytes} {more : List Bytes} : ¬ Takes r p sub part more := by
  intro h
  have := captor_mem h.first
  rw [hp] at this
  cases this

/-- The answers to requests that go to a block with one redirect and no children. -/
theorem users_answers {W : World} {r : Routes} {body : List Stmt} (h : Supported r body) (hp : PlainTexts r) {name : Str}
    (hn : NestedRoutes.mk (.static c!"users") (usersOf name) ∈ r.routes) (hnone : paramNames r.routes = [])
    (hq : r.queryParameters = [⟨c!"lang", c!"String"⟩]) {path m : Bytes} {more : List Bytes}
    (hm : cut (stripSlash path) = bytesOf c!"users" :: more) :
    (Finished more → m = verbBytes .get → callMatchRoute W body path m = .redirect ⟨[c!"People"], name, [], [c!"lang"]⟩) ∧
    (Finished more → m ≠ verbBytes .get → callMatchRoute W body path m = .notAllowed) ∧
    (¬ Finished more → callMatchRoute W body path m = .notFound) := by
  have hs := h.sound hp
  have ha : Arrives W r [.static c!"users"] (r.queryParameters ++ []) [] (cut (stripSlash path)) (usersOf name) more := by
    rw [hm]
    exact .static hn (.inl hnone) (.here _ _)
  refine ⟨fun hf hg => ?_, fun hf hg => ?_, fun hf => ?_⟩
  · rw [call_go h, go_answered ha hs (cut_slash _) hf (by simp [usersOf]), hg, hq, verbBytes_eq]
    simp [answer, usersOf]
  · rw [call_go h, go_answered ha hs (cut_slash _) hf (by simp [usersOf])]
    rw [verbBytes_eq] at hg
    simp [answer, usersOf, Ne.symm hg]
  · rw [C47_not_found h hp]
    intro segs above caps node rest har
    rw [hm] at har
    generalize hb : bytesOf c!"users" = b at har
    cases har with
    | here =>
      subst hb
      refine ⟨fun ⟨hf, _⟩ => ?_, fun ⟨hf, _⟩ => ?_, fun _ _ _ _ _ ht => absurd ht (no_takes hnone)⟩
      · rcases hf with h | h <;> revert h <;> simp [bytesOf]
      · revert hf; simp [bytesOf]
    | dynamic ht _ _ _ => exact absurd ht (no_takes hnone)
    | @static _ sub _ s segs above _ _ _ hn' _ har =>
      have hsh := hs.shapely _ _ _ (.here _)
      obtain rfl := bytesOf_inj (hsh.lt (mem_staticTexts'.2 ⟨_, hn, rfl⟩)) (hsh.lt (mem_staticTexts'.2 ⟨_, hn', rfl⟩)) hb
      obtain ⟨-, rfl⟩ := same_child hs.distinct hn hn' rfl
      cases har with
      | here =>
        exact ⟨fun h => hf h.1, fun h => h.2.2.1 rfl, fun _ _ _ _ _ ht => absurd ht (no_takes rfl)⟩
      | static hn _ _ => cases hn
      | dynamic ht _ _ _ => exact absurd ht (no_takes rfl)

/-- **C59, the structured example.** The configuration that `examples/structured` puts together from three files has the headers of
`/repo/example.routes`, and its matcher gives the same answers to all requests that do not go to `/users`.  For these, GET redirects
to the form for new people and not to the list; all other verbs are not allowed, as before. -/
theorem C59_structured {W : World} (path m : Bytes) : structured.headers = cli.headers ∧
    ((∀ more, cut (stripSlash path) ≠ bytesOf c!"users" :: more) →
      callMatchRoute W (bodyOf structured.routes) path m = callMatchRoute W (bodyOf cli.routes) path m) ∧
    (∀ more, cut (stripSlash path) = bytesOf c!"users" :: more →
      (Finished more → m = verbBytes .get →
        callMatchRoute W (bodyOf structured.routes) path m = .redirect ⟨[c!"People"], c!"New", [], [c!"lang"]⟩ ∧
        callMatchRoute W (bodyOf cli.routes) path m = .redirect ⟨[c!"People"], c!"Index", [], [c!"lang"]⟩) ∧
      (Finished more → m ≠ verbBytes .get →
        callMatchRoute W (bodyOf structured.routes) path m = .notAllowed ∧ callMatchRoute W (bodyOf cli.routes) path m = .notAllowed) ∧
      (¬ Finished more →
        callMatchRoute W (bodyOf structured.routes) path m = .notFound ∧ callMatchRoute W (bodyOf cli.routes) path m = .notFound)) := by
  refine ⟨by decide, fun h => ?_, fun more hm => ?_⟩
  · refine C58_elsewhere structured_edited cli_supported cli_plain structured_supported structured_plain path m ?_
    intro above caps node rest hc
    unfold ComesBy at hc
    generalize hcut : cut (stripSlash path) = pieces at hc
    cases hc with
    | static _ _ _ => exact h _ hcut
  · obtain ⟨h1, h2, h3⟩ := users_answers (W := W) structured_supported structured_plain (name := c!"New") (List.mem_cons_self ..) rfl rfl (m := m) hm
    obtain ⟨h4, h5, h6⟩ := users_answers (W := W) cli_supported cli_plain (name := c!"Index") (List.mem_cons_self ..) rfl rfl (m := m) hm
    exact ⟨fun a b => ⟨h1 a b, h4 a b⟩, fun a b => ⟨h2 a b, h5 a b⟩, fun a => ⟨h3 a, h6 a⟩⟩

/-- **C59, the files emitted.** The file emitted for each of the configurations is accepted, and answers requests as its matcher does. -/
theorem C59_text {c : RouteConfig} (hc : c = cli ∨ c = structured ∨ c = commons ∨ c = nesting) (W : World) (path m : Bytes) :
    Rust.callText W (Rust.headerToks c.headers) (codegen c).text path m =
      Rust.Outcome.inRust (callMatchRoute W (bodyOf c.routes) path m) := by
  rcases hc with rfl | rfl | rfl | rfl
  · exact Rust.C42_program (Rust.clean_of (by decide +kernel)) cli_supported.1 cli_supported.2 path m
  · exact Rust.C42_program (Rust.clean_of (by decide +kernel)) structured_supported.1 structured_supported.2 path m
  · exact Rust.C42_program (Rust.clean_of (by decide +kernel)) Demo.commons_supported.1 Demo.commons_supported.2 path m
  · exact Rust.C42_program (Rust.clean_of (by decide +kernel)) nesting_supported.1 nesting_supported.2 path m

/-! ### Examples -/

/-- `FromStr` that takes 32 hexadecimal digits for a UUID, and every text for any other type. -/
def uuids : World where
  V := Str
  E := Str
  parse := fun typ text =>
    if typ = c!"Uuid" then
      (if text.length = 32 ∧ text.all (fun c => c.isDigit || c!"abcdefABCDEF".contains c) then .ok text else .error c!"invalid character")
    else .ok text
  asUsize := fun _ => none

theorem uuids_reject : Rejects uuids c!"Uuid" c!"new" := by
  intro t v h
  simp [uuids] at h

/-- So all of `C59_uuid` holds for them. -/
example : ParamElse uuids cli.routes (bodyOf cli.routes) := (C59_uuid uuids_reject).1

/-- A request for `/people/newton` is answered with `NotFound` and not with an error. -/
example : (match callMatchRoute uuids (bodyOf cli.routes) (bytesOf c!"/people/newton") (verbBytes .get) with
    | .notFound => true
    | _ => false) = true := by decide +kernel

/-- In the structured example, `/users/` redirects to the form. -/
example : callMatchRoute uuids (bodyOf structured.routes) (bytesOf c!"/users/") (verbBytes .get) =
    .redirect ⟨[c!"People"], c!"New", [], [c!"lang"]⟩ :=
  (((C59_structured (W := uuids) (bytesOf c!"/users/") (verbBytes .get)).2.2 [[]] (by decide)).1 (.inr rfl) rfl).1

end Wayfinder.Shipped
