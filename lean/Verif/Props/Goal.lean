import Verif.Model.Goal
import Verif.Proofs.Format
import Verif.Props.Shipped
/-!
# C62: the router of wayfinder-goal
-/

namespace Wayfinder.Goal
open Rust

theorem formatted_call {W : World} {c : RouteConfig} {body body' : List Stmt} {s : Str} {ts : List Tok} (h : Clean c)
    (hs : Supported c.routes body) (h1 : lex s = some ts) (h2 : lex (codegen c).text = some (canon ts))
    (he : emitBlock body = emitBlock body') (path m : Bytes) :
    callFormatted W (headerToks c.headers) s path m = Outcome.inRust (callMatchRoute W body' path m) := by
  obtain ⟨root, hr, e⟩ := h.read hs
  rw [← readFormatted_eq h1 h2] at e
  unfold callFormatted
  rw [e, he]
  exact emit_call path m body'

/-- What `/repo/wayfinder-tests/cases/example/routes.routes` says. -/
def config : RouteConfig where
  headers := [⟨c!"use uuid::Uuid;"⟩]
  routes := .mk [] [.mk (.static c!"users") (.mk [⟨.get, [c!"People"], c!"Index", true, []⟩] [] []),
    .mk (.static c!"people") Shipped.people.routes,
    .mk (.static c!"books") (.mk [Shipped.plain .get c!"Books" c!"Index", Shipped.plain .post c!"Books" c!"Create"]
      [.mk (.static c!"new") (.mk [Shipped.plain .get c!"Books" c!"New"] [] []),
       .mk (.dynamic ⟨c!"id", c!"Uuid"⟩)
         (.mk [Shipped.plain .get c!"Books" c!"Show", Shipped.plain .put c!"Books" c!"update",
             Shipped.plain .delete c!"Books" c!"Destroy"]
           [.mk (.static c!"edit") (.mk [Shipped.plain .get c!"Books" c!"Edit"] [] [])] [])]
      [])] [⟨c!"lang", c!"String"⟩]

theorem config_supported : Supported config.routes (bodyOf config.routes) := supported_of (by decide +kernel)
theorem config_clean : Clean config := clean_of (by decide +kernel)

theorem same : sameToks .neutral ⟨[], .op [], .nothing⟩ text
    (fileToks (headerToks config.headers) (rootOf config.routes) (bodyOf config.routes)) = true := by decide +kernel

theorem config_root : modulesRoot config.routes = some (rootOf config.routes) := by
  obtain ⟨root, h⟩ := Shipped.root_exists (r := config.routes) (by decide +kernel)
  simp [rootOf, h]

set_option maxRecDepth 100000 in
/-- **C62, the file.** `wayfinder-goal/src/routes.rs` has, up to the changes of rustfmt, the tokens of the file that the generator writes
for `wayfinder-tests/cases/example/routes.routes`. -/
theorem C62_file : (∀ cfg, routeConfig cfg source = .ok [] config) ∧
    ∃ ts, lex text = some ts ∧ lex (codegen config).text = some (canon ts) := by
  refine ⟨?_, ?_⟩
  · intro cfg
    obtain ⟨u, a, e⟩ := cfg
    cases e <;> rfl
  · obtain ⟨ts, h1, h2⟩ := canon_of same
    exact ⟨ts, h1, by rw [codegen_toks config_clean.generated config_clean.headers config_clean.words config_root config_supported.generated
      ((matcherBody_shape config_supported.generated).2 config_supported.conditions.1), h2]⟩

/-- **C62, what rustfmt may have changed.** Files that agree up to these changes have the same tokens apart from commas and braces. -/
theorem C62_layout {s s' : Str} {ts : List Tok} (h : lex s = some ts) (h' : lex s' = some (canon ts)) :
    (toks s).filter Tok.solid = (toks s').filter Tok.solid := by
  simp only [toks, h, h', Option.getD_some]
  exact (canonFrom_solid ts _).symm

set_option maxRecDepth 100000 in
/-- **C62, the documentation.** The comment in the file shows these routes. -/
theorem C62_shown (cfg : ParseCfg) : ∃ shown, shownConfig text = some shown ∧ routeConfig cfg shown = .ok [] ⟨[], config.routes⟩ := by
  refine ⟨RouteConfig.stringify ⟨[], config.routes⟩, by decide +kernel, ?_⟩
  obtain ⟨u, a, e⟩ := cfg
  cases e <;> rfl

/-- **C62, the declarations and the statements.** Both files declare the same and have the same statements in `match_route`. -/
theorem C62_reads : ∃ m body, readFormatted (headerToks config.headers) text = some (m, body) ∧
    readText (headerToks config.headers) (codegen config).text = some (m, body) := by
  obtain ⟨root, hr, e⟩ := config_clean.read config_supported
  obtain ⟨-, ts, h1, h2⟩ := C62_file
  exact ⟨_, _, (readFormatted_eq h1 h2).trans e, e⟩

theorem emitted_same : emitBlock (bodyOf config.routes) = emitBlock (bodyOf Shipped.cli.routes) :=
  sameBlock_eq _ _ (by decide +kernel)

/-- **C62, the answers.** The `match_route` of the file answers all requests as the matcher for `/repo/example.routes` does. -/
theorem C62_answers (W : World) (path m : Bytes) : callFormatted W (headerToks config.headers) text path m =
    Outcome.inRust (callMatchRoute W (bodyOf Shipped.cli.routes) path m) := by
  obtain ⟨-, ts, h1, h2⟩ := C62_file
  exact formatted_call config_clean config_supported h1 h2 emitted_same path m

/-- **C62, its tests.** For the list of people, with or without slashes at both ends, it returns the action that
`wayfinder-goal/src/lib.rs:11-33` expects; and so for all other requests to it. -/
theorem C62_tests (W : World) {path : Bytes} {more : List Bytes} (hp : cut (stripSlash path) = bytesOf c!"people" :: more) (hf : Finished more) :
    callFormatted W (headerToks config.headers) text path (verbBytes .get) = .route ⟨[c!"People"], c!"Index", [], [c!"lang"]⟩ ∧
    callFormatted W (headerToks config.headers) text path (verbBytes .post) = .route ⟨[c!"People"], c!"Create", [], [c!"lang"]⟩ ∧
    ∀ m, m ≠ verbBytes .get → m ≠ verbBytes .post → callFormatted W (headerToks config.headers) text path m = .notAllowed := by
  have hs := Shipped.cli_supported.sound Shipped.cli_plain
  have ha : Arrives W Shipped.cli.routes [.static c!"people"] (Shipped.cli.routes.queryParameters ++ []) [] (cut (stripSlash path))
      Shipped.people.routes more := by
    rw [hp]
    exact .static (.tail _ (.head _)) (.inl rfl) (.here _ _)
  have hgo := fun m => go_answered ha hs (cut_slash _) hf (by decide) m
  refine ⟨?_, ?_, fun m h1 h2 => ?_⟩
  · rw [C62_answers, call_go Shipped.cli_supported, hgo, verbBytes_eq]; rfl
  · rw [C62_answers, call_go Shipped.cli_supported, hgo, verbBytes_eq]; rfl
  · rw [C62_answers, call_go Shipped.cli_supported, hgo]
    rw [verbBytes_eq] at h1 h2
    simp [answer, Shipped.people, Shipped.plain, Ne.symm h1, Ne.symm h2, Outcome.inRust]

/-- The two tests. -/
example (W : World) : callFormatted W (headerToks config.headers) text (bytesOf c!"/people") (verbBytes .get) =
    .route ⟨[c!"People"], c!"Index", [], [c!"lang"]⟩ := (C62_tests W (by decide) (.inl rfl)).1
example (W : World) : callFormatted W (headerToks config.headers) text (bytesOf c!"/people/") (verbBytes .get) =
    .route ⟨[c!"People"], c!"Index", [], [c!"lang"]⟩ := (C62_tests W (more := [[]]) (by decide) (.inr rfl)).1

end Wayfinder.Goal
