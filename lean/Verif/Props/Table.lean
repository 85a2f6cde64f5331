import Verif.Spec.Table
import Verif.Props.Shipped
import Verif.Props.Goal
/-!
# C63: the answers of the examples, as a table; their tests
-/

namespace Wayfinder

variable {W : World}

/-- A piece that no child takes is not found. -/
theorem go_lost {r : Routes} (hs : Sound r) {part : Bytes} {more : List Bytes} (hc : Clear (part :: more))
    (h1 : ∀ s sub, NestedRoutes.mk (.static s) sub ∈ r.routes → bytesOf s ≠ part) (h2 : ∀ p sub, ¬ Takes r p sub part more)
    (h3 : part = [] → more = [] → r.resources = []) (h4 : ¬ Cliff r) (m : Bytes) (q : List Param) (caps : Caps W) :
    go W m r q caps (part :: more) = .notFound := by
  have key : ∀ {segs above caps node rest}, Arrives W r segs above caps (part :: more) node rest → node = r ∧ rest = part :: more := by
    intro segs above caps node rest h
    generalize he : part :: more = ps at h
    cases h with
    | here => exact ⟨rfl, rfl⟩
    | static hn _ _ => exact absurd (List.cons.inj he).1.symm (h1 _ _ hn)
    | dynamic ht _ _ _ =>
      obtain ⟨rfl, rfl⟩ := List.cons.inj he
      exact absurd ht (h2 _ _)
  cases exactly_all W r hs _ hc with
  | answered h hf hr =>
    obtain ⟨rfl, rfl⟩ := key h
    rcases hf with hf | hf
    · cases hf
    · simp only [List.cons.injEq] at hf
      exact absurd (h3 hf.1 hf.2) hr
  | fails h ht _ _ =>
    obtain ⟨rfl, he⟩ := key h
    obtain ⟨rfl, rfl⟩ := List.cons.inj he
    exact absurd ht (h2 _ _)
  | badText h ht _ =>
    obtain ⟨rfl, he⟩ := key h
    obtain ⟨rfl, rfl⟩ := List.cons.inj he
    exact absurd ht (h2 _ _)
  | cliff h hcl =>
    obtain ⟨rfl, -⟩ := key h
    exact absurd hcl h4
  | notFound h => exact h m q caps

namespace Shipped

/-- The block behind an id. -/
def oneBlock (module : Str) (uq : List Param) : Routes :=
  .mk [plain .get module c!"Show", ⟨.put, [module], c!"Update", false, uq⟩, plain .delete module c!"Destroy"]
    [.mk (.static c!"edit") (.mk [plain .get module c!"Edit"] [] [])] []

/-- The block of a kind of things. -/
def kindBlock (module : Str) (uq : List Param) : Routes :=
  .mk [plain .get module c!"Index", plain .post module c!"Create"]
    [.mk (.static c!"new") (.mk [plain .get module c!"New"] [] []), .mk (.dynamic ⟨c!"id", c!"Uuid"⟩) (oneBlock module uq)] []

theorem answer_verbs (q : List Param) (caps : Caps W) (m : Bytes) : ∀ rs : List Resource, answer rs q caps m =
    verbs m (rs.map fun r => (r.method.display, if r.isRedirect then .redirect (matchOf r caps q) else .route (matchOf r caps q)))
  | [] => rfl
  | r :: rs => by
    have ih := answer_verbs q caps m rs
    have hb : bytesOf r.method.display = r.method.bytes := by cases r.method <;> decide
    simp only [List.map_cons, verbs, hb]
    by_cases h : r.method.bytes = m
    · rw [if_pos h.symm]
      simp [answer, h, matchOf]
    · rw [if_neg (Ne.symm h), ← ih]
      simp [answer, h]

theorem go_leaf (x : Resource) (hs : Sound (.mk [x] [] [])) {rest : List Bytes} (hc : Clear rest) (hf : ¬ Finished rest)
    (m : Bytes) (q : List Param) (caps : Caps W) : go W m (.mk [x] [] []) q caps rest = .notFound := by
  cases rest with
  | nil => exact absurd (.inl rfl) hf
  | cons part more =>
    refine go_lost hs hc (fun s sub h => by cases h) (fun p sub => no_takes rfl) (fun h1 h2 => ?_) (fun h => h.2.1 rfl) m q caps
    subst h1 h2
    exact absurd (.inr rfl) hf

/-- The one query parameter that everything inherits. -/
def lang : Param := ⟨c!"lang", c!"String"⟩
/-- The one parameter. -/
def uuid : Param := ⟨c!"id", c!"Uuid"⟩

theorem go_one {module : Str} {uq : List Param} (hs : Sound (oneBlock module uq)) {ps : List Bytes} (hc : Clear ps)
    (m : Bytes) (v : W.V) : go W m (oneBlock module uq) [lang] [(uuid, v)] ps =
      oneTable W module (c!"lang" :: uq.map Param.name) m v ps := by
  unfold oneTable
  split
  · rename_i hf
    rw [go_finished hf (by simp [oneBlock]), answer_verbs]
    rfl
  · rename_i hf
    cases ps with
    | nil => exact absurd (.inl rfl) hf
    | cons piece more =>
      by_cases he : piece = bytesOf c!"edit"
      · have hn : NestedRoutes.mk (.static c!"edit") (.mk [plain .get module c!"Edit"] [] []) ∈ (oneBlock module uq).routes :=
          List.mem_singleton.2 rfl
        subst he
        rw [go_static hs hn (.inl rfl)]
        by_cases hfm : Finished more
        · rw [if_pos ⟨rfl, hfm⟩, go_finished hfm (by simp), answer_verbs]
          rfl
        · rw [if_neg (fun h => hfm h.2)]
          exact go_leaf _ (hs.child (.static hn (.here _))) hc.tail hfm m _ _
      · rw [if_neg (by rintro ⟨h, -⟩; exact he (Option.some.inj h))]
        refine go_lost hs hc (fun s sub h => ?_) (fun p sub => no_takes rfl) (fun h1 h2 => ?_) (fun h => h.2.1 rfl) m _ _
        · simp only [oneBlock, Routes.routes_mk, List.mem_singleton, NestedRoutes.mk.injEq, PathSegment.static.injEq] at h
          rw [h.1]; exact Ne.symm he
        · subst h1 h2
          exact absurd (.inr rfl) hf

theorem go_kind {module : Str} {uq : List Param} (hs : Sound (kindBlock module uq)) {ps : List Bytes} (hc : Clear ps)
    (m : Bytes) : go W m (kindBlock module uq) [lang] [] ps = kindTable W module (c!"lang" :: uq.map Param.name) m ps := by
  unfold kindTable
  split
  · rename_i hf
    rw [go_finished hf (by simp [kindBlock]), answer_verbs]
    rfl
  · rename_i hf
    cases ps with
    | nil => exact absurd (.inl rfl) hf
    | cons piece more =>
      have hn : NestedRoutes.mk (.static c!"new") (.mk [plain .get module c!"New"] [] []) ∈ (kindBlock module uq).routes :=
        List.mem_cons_self ..
      have hd : NestedRoutes.mk (.dynamic uuid) (oneBlock module uq) ∈ (kindBlock module uq).routes :=
        List.mem_cons_of_mem _ (List.mem_singleton.2 rfl)
      by_cases hp : bytesOf c!"new" <+: piece
      · simp only [if_pos hp]
        by_cases he : piece = bytesOf c!"new"
        · subst he
          rw [go_static hs hn (.inr rfl)]
          by_cases hfm : Finished more
          · rw [if_pos ⟨rfl, hfm⟩, go_finished hfm (by simp), answer_verbs]
            rfl
          · rw [if_neg (fun h => hfm h.2)]
            exact go_leaf _ (hs.child (.static hn (.here _))) hc.tail hfm m _ _
        · rw [if_neg (fun h => he h.1)]
          refine go_lost hs hc (fun s sub h => ?_) (fun p sub ht => ht.free c!"new" rfl hp) (fun h1 h2 => ?_) (fun h => ?_) m _ _
          · simp [kindBlock] at h
            rw [h.1]; exact Ne.symm he
          · subst h1 h2
            exact absurd (.inr rfl) hf
          · exact absurd h.1 (by simp [kindBlock])
      · simp only [if_neg hp]
        have ht : Takes (kindBlock module uq) uuid (oneBlock module uq) piece more := by
          refine ⟨hd, rfl, fun s h => ?_, fun h1 h2 => ?_⟩
          · have : [c!"new"] = [s] := h
            rw [← List.head_eq_of_cons_eq this]
            exact hp
          · subst h1 h2
            exact absurd (.inr rfl) hf
        rw [go_takes hs ht hc.head]
        cases fromUtf8 piece with
        | none => rfl
        | some text =>
          simp only
          have hty : uuid.typ = c!"Uuid" := rfl
          rw [hty]
          cases W.parse c!"Uuid" text with
          | error e => rfl
          | ok v => exact go_one (hs.child (.dynamic hd rfl (.here _))) hc.tail m v

/-- The configuration of the example, with the action to which `/users` redirects. -/
def exampleBlock (users : Str) : Routes :=
  .mk [] [.mk (.static c!"users") (usersOf users), .mk (.static c!"people") (kindBlock c!"People" [⟨c!"name", c!"String"⟩]),
    .mk (.static c!"books") (kindBlock c!"Books" [])] [lang]

theorem go_example {users : Str} (hs : Sound (exampleBlock users)) {ps : List Bytes} (hc : Clear ps) (m : Bytes) :
    go W m (exampleBlock users) [] [] ps = table W users m ps := by
  cases ps with
  | nil => rfl
  | cons piece more =>
    have hn : ∀ {s sub}, NestedRoutes.mk (.static s) sub ∈ (exampleBlock users).routes →
        go W m (exampleBlock users) [] [] (bytesOf s :: more) = go W m sub [lang] [] more := fun h => go_static hs h (.inl rfl) more [] []
    simp only [table]
    by_cases h1 : piece = bytesOf c!"users"
    · have hm : NestedRoutes.mk (.static c!"users") (usersOf users) ∈ (exampleBlock users).routes := List.mem_cons_self ..
      rw [if_pos h1, h1, hn hm]
      split
      · rename_i hf
        rw [go_finished hf (by simp [usersOf]), answer_verbs]
        rfl
      · rename_i hf
        exact go_leaf _ (hs.child (.static hm (.here _))) hc.tail hf m _ _
    · rw [if_neg h1]
      by_cases h2 : piece = bytesOf c!"people"
      · have hm : NestedRoutes.mk (.static c!"people") (kindBlock c!"People" [⟨c!"name", c!"String"⟩]) ∈ (exampleBlock users).routes :=
          .tail _ (.head _)
        rw [if_pos h2, h2, hn hm]
        exact go_kind (hs.child (.static hm (.here _))) hc.tail m
      · rw [if_neg h2]
        by_cases h3 : piece = bytesOf c!"books"
        · have hm : NestedRoutes.mk (.static c!"books") (kindBlock c!"Books" []) ∈ (exampleBlock users).routes :=
            .tail _ (.tail _ (.head _))
          rw [if_pos h3, h3, hn hm]
          exact go_kind (hs.child (.static hm (.here _))) hc.tail m
        · rw [if_neg h3]
          refine go_lost hs hc (fun s sub h => ?_) (fun p sub => no_takes rfl) (fun _ _ => rfl) (fun h => h.2.1 rfl) m _ _
          have : s = c!"users" ∨ s = c!"people" ∨ s = c!"books" := by
            simp only [exampleBlock, Routes.routes_mk, List.mem_cons, NestedRoutes.mk.injEq, PathSegment.static.injEq, List.not_mem_nil,
              or_false] at h
            rcases h with h | h | h
            · exact .inl h.1
            · exact .inr (.inl h.1)
            · exact .inr (.inr h.1)
          rcases this with rfl | rfl | rfl
          · exact Ne.symm h1
          · exact Ne.symm h2
          · exact Ne.symm h3

theorem verbs_inRust (m : Bytes) : ∀ os : List (Str × Outcome W), Rust.Outcome.inRust (verbs m os) =
    verbs m (os.map fun x => (x.1, Rust.Outcome.inRust x.2))
  | [] => rfl
  | (v, o) :: os => by
    simp only [verbs, List.map_cons]
    split
    · rfl
    · exact verbs_inRust m os

/-- The names of the table are those used in Rust. -/
theorem table_inRust {users : Str} (hu : toCapsCase users = users) (m : Bytes) (ps : List Bytes) :
    Rust.Outcome.inRust (table W users m ps) = table W users m ps := by
  have hone : ∀ {module : Str} {q : List Str} {v : W.V} {ps}, toCapsCase module = module →
      Rust.Outcome.inRust (oneTable W module q m v ps) = oneTable W module q m v ps := by
    intro module q v ps hm
    unfold oneTable
    split
    · rw [verbs_inRust]
      simp only [List.map_cons, List.map_nil, act, Rust.Outcome.inRust, Rust.RouteVal.inRust, hm]
      rfl
    · split
      · rw [verbs_inRust]
        simp only [List.map_cons, List.map_nil, act, Rust.Outcome.inRust, Rust.RouteVal.inRust, hm]
        rfl
      · rfl
  have hkind : ∀ {module : Str} {q : List Str} {ps}, toCapsCase module = module →
      Rust.Outcome.inRust (kindTable W module q m ps) = kindTable W module q m ps := by
    intro module q ps hm
    unfold kindTable
    split
    · rw [verbs_inRust]
      simp only [List.map_cons, List.map_nil, act, Rust.Outcome.inRust, Rust.RouteVal.inRust, hm]
      rfl
    · split
      · rfl
      · split
        · split
          · rw [verbs_inRust]
            simp only [List.map_cons, List.map_nil, act, Rust.Outcome.inRust, Rust.RouteVal.inRust, hm]
            rfl
          · rfl
        · split
          · rfl
          · split
            · rfl
            · exact hone hm
  unfold table
  split
  · rfl
  · split
    · split
      · rw [verbs_inRust]
        simp only [List.map_cons, List.map_nil, Rust.Outcome.inRust, Rust.RouteVal.inRust, hu]
        rfl
      · rfl
    · split
      · exact hkind (by decide)
      · split
        · exact hkind (by decide)
        · rfl

/-- **C63, the example.** The file emitted for `/repo/example.routes` answers every request as the table says. -/
theorem C63_example (W : World) (path m : Bytes) :
    Rust.callText W (Rust.headerToks cli.headers) (codegen cli).text path m = table W c!"Index" m (cut (stripSlash path)) := by
  rw [C59_text (.inl rfl), call_go cli_supported, show cli.routes = exampleBlock c!"Index" from rfl,
    go_example (cli_supported.sound cli_plain) (cut_slash _), table_inRust (by decide)]

/-- **C63, the structured example.** So does the file emitted for `examples/structured`, where `/users` redirects elsewhere. -/
theorem C63_structured (W : World) (path m : Bytes) :
    Rust.callText W (Rust.headerToks structured.headers) (codegen structured).text path m = table W c!"New" m (cut (stripSlash path)) := by
  rw [C59_text (.inr (.inl rfl)), call_go structured_supported, show structured.routes = exampleBlock c!"New" from rfl,
    go_example (structured_supported.sound structured_plain) (cut_slash _), table_inRust (by decide)]

/-- **C63, the goal.** So does the router of `wayfinder-goal`, with the redirection of the former. -/
theorem C63_goal (W : World) (path m : Bytes) :
    Rust.callFormatted W (Rust.headerToks Goal.config.headers) Goal.text path m = table W c!"Index" m (cut (stripSlash path)) := by
  rw [Goal.C62_answers, ← C59_text (.inl rfl), C63_example]

theorem kind_id {v : W.V} (hv : W.parse c!"Uuid" testId = .ok v) (module : Str) (q : List Str) (m : Bytes) (more : List Bytes) :
    kindTable W module q m (bytesOf testId :: more) = oneTable W module q m v more := by
  have h1 : ¬ Finished (bytesOf testId :: more) := by simp [Finished, testId, bytesOf]
  have h2 : ¬ bytesOf c!"new" <+: bytesOf testId := by decide
  have h3 : fromUtf8 (bytesOf testId) = some testId := by decide +kernel
  simp only [kindTable, if_neg h1, if_neg h2, h3, hv]

theorem people_id {v : W.V} (hv : W.parse c!"Uuid" testId = .ok v) (users : Str) {path m : Bytes} (more : List Bytes)
    (hp : cut (stripSlash path) = bytesOf c!"people" :: bytesOf testId :: more) :
    table W users m (cut (stripSlash path)) = oneTable W c!"People" [c!"lang", c!"name"] m v more := by
  rw [hp]
  exact kind_id hv _ _ m more

theorem books_id {v : W.V} (hv : W.parse c!"Uuid" testId = .ok v) (users : Str) {path m : Bytes} (more : List Bytes)
    (hp : cut (stripSlash path) = bytesOf c!"books" :: bytesOf testId :: more) :
    table W users m (cut (stripSlash path)) = oneTable W c!"Books" [c!"lang"] m v more := by
  rw [hp]
  exact kind_id hv _ _ m more

/-- **C63, the test of the example.** All cases of the test in `examples/cli/src/main.rs` pass, whatever else `FromStr` does, if the
UUID of the test parses. -/
theorem C63_tests {W : World} {v : W.V} (hv : W.parse c!"Uuid" testId = .ok v) : ∀ t ∈ cliTests W v,
    Rust.callText W (Rust.headerToks cli.headers) (codegen cli).text (bytesOf t.1) (verbBytes t.2.1) = t.2.2 := by
  intro t ht
  rw [C63_example]
  revert t
  simp only [cliTests, List.forall_mem_cons, List.not_mem_nil, false_imp_iff, implies_true, and_true]
  refine ⟨rfl, rfl, rfl, rfl, rfl, rfl, rfl, rfl, rfl, rfl, rfl,
    people_id hv _ [] (by decide), people_id hv _ [[]] (by decide), people_id hv _ [] (by decide), people_id hv _ [[]] (by decide),
    people_id hv _ [] (by decide), people_id hv _ [[]] (by decide), people_id hv _ [bytesOf c!"edi"] (by decide),
    people_id hv _ [bytesOf c!"edit"] (by decide), people_id hv _ [bytesOf c!"edit", []] (by decide),
    rfl, rfl, rfl, rfl, rfl, rfl,
    books_id hv _ [] (by decide), books_id hv _ [[]] (by decide), books_id hv _ [] (by decide), books_id hv _ [[]] (by decide),
    books_id hv _ [] (by decide), books_id hv _ [[]] (by decide), books_id hv _ [bytesOf c!"edit"] (by decide),
    books_id hv _ [bytesOf c!"edit", []] (by decide), people_id hv _ [] (by decide)⟩

/-- **C63, the tests of the structured example.** The three tests in `examples/structured/src/main.rs` pass as well. -/
theorem C63_structured_tests {W : World} {v : W.V} (hv : W.parse c!"Uuid" testId = .ok v) :
    Rust.callText W (Rust.headerToks structured.headers) (codegen structured).text (bytesOf c!"/people") (verbBytes .get) =
      act c!"People" c!"Index" [] [c!"lang"] ∧
    Rust.callText W (Rust.headerToks structured.headers) (codegen structured).text (bytesOf (c!"/people/" ++ testId)) (verbBytes .delete) =
      act c!"People" c!"Destroy" [(c!"id", v)] [c!"lang"] ∧
    Rust.callText W (Rust.headerToks structured.headers) (codegen structured).text (bytesOf (c!"/people/" ++ testId)) (verbBytes .post) =
      .notAllowed := by
  simp only [C63_structured]
  exact ⟨rfl, people_id hv _ [] (by decide), people_id hv _ [] (by decide)⟩

/-- 32 hexadecimal digits are a UUID. -/
example : uuids.parse c!"Uuid" testId = .ok testId := rfl

/-- The table says more than the tests: a piece that begins with `new` is no id, a piece that is no UUID is an error. -/
example : table uuids c!"Index" (verbBytes .get) (cut (stripSlash (bytesOf c!"/books/newton/edit"))) = .notFound := rfl
example : table uuids c!"Index" (verbBytes .get) (cut (stripSlash (bytesOf c!"/books/42/edit"))) = .err c!"id" c!"invalid character" := rfl

end Shipped
end Wayfinder
