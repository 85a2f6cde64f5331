import Verif.Spec.Exact
import Verif.Spec.Elab
/-!
# Specification vocabulary: the answers of the example, as a table

Written down by hand from `/repo/example.routes`, without the model of the generator.
-/

namespace Wayfinder.Shipped

variable {W : World}

instance (ps : List Bytes) : Decidable (Finished ps) := by unfold Finished; exact inferInstance

/-- The answer of a place with these actions: that of the action with the verb of the request. -/
def verbs (m : Bytes) : List (Str × Outcome W) → Outcome W
  | [] => .notAllowed
  | (verb, o) :: more => if m = bytesOf verb then o else verbs m more

/-- An action of the module, with the id of the request if it has one, and with fields for the query parameters. -/
def act (module name : Str) (id : List (Str × W.V)) (query : List Str) : Outcome W :=
  .route ⟨[module], name, id.map fun x => (x.1, .user x.2), query⟩

/-- What may be behind the id of a thing: nothing, or `edit`. -/
def oneTable (W : World) (module : Str) (updateQuery : List Str) (m : Bytes) (v : W.V) (ps : List Bytes) : Outcome W :=
  if Finished ps then verbs m
    [(c!"GET", act module c!"Show" [(c!"id", v)] [c!"lang"]), (c!"PUT", act module c!"Update" [(c!"id", v)] updateQuery),
     (c!"DELETE", act module c!"Destroy" [(c!"id", v)] [c!"lang"])]
  else if ps.head? = some (bytesOf c!"edit") ∧ Finished ps.tail then
    verbs m [(c!"GET", act module c!"Edit" [(c!"id", v)] [c!"lang"])]
  else .notFound

/-- What may be behind the name of a kind of things: nothing, `new`, or an id.  Ids are not looked for in pieces that begin
with `new`. -/
def kindTable (W : World) (module : Str) (updateQuery : List Str) (m : Bytes) (ps : List Bytes) : Outcome W :=
  if Finished ps then
    verbs m [(c!"GET", act module c!"Index" [] [c!"lang"]), (c!"POST", act module c!"Create" [] [c!"lang"])]
  else match ps with
  | [] => .notFound
  | piece :: more =>
    if bytesOf c!"new" <+: piece then
      if piece = bytesOf c!"new" ∧ Finished more then verbs m [(c!"GET", act module c!"New" [] [c!"lang"])] else .notFound
    else
      match fromUtf8 piece with
      | none => .panic
      | some text =>
        match W.parse c!"Uuid" text with
        | .error e => .err c!"id" e
        | .ok v => oneTable W module updateQuery m v more

/-- The whole table, on the pieces of the path; `users` is the action to which `/users` redirects. -/
def table (W : World) (users : Str) (m : Bytes) : List Bytes → Outcome W
  | [] => .notFound
  | piece :: more =>
    if piece = bytesOf c!"users" then
      if Finished more then verbs m [(c!"GET", .redirect ⟨[c!"People"], users, [], [c!"lang"]⟩)] else .notFound
    else if piece = bytesOf c!"people" then kindTable W c!"People" [c!"lang", c!"name"] m more
    else if piece = bytesOf c!"books" then kindTable W c!"Books" [c!"lang"] m more
    else .notFound

/-- The UUID of the tests. -/
def testId : Str := c!"12345678901234567890123456789012"

/-- `examples/cli/src/main.rs:31-266`: the cases of its test, path, verb and expected answer; `v` is the id that the UUID parses to. -/
def cliTests (W : World) (v : W.V) : List (Str × Method × Outcome W) :=
  [(c!"", .get, .notFound),
   (c!"/", .get, .notFound),
   (c!"/user", .get, .notFound),
   (c!"/users", .get, .redirect ⟨[c!"People"], c!"Index", [], [c!"lang"]⟩),
   (c!"/users/", .get, .redirect ⟨[c!"People"], c!"Index", [], [c!"lang"]⟩),
   (c!"/people", .get, act c!"People" c!"Index" [] [c!"lang"]),
   (c!"/people/", .get, act c!"People" c!"Index" [] [c!"lang"]),
   (c!"/people", .post, act c!"People" c!"Create" [] [c!"lang"]),
   (c!"/people/", .post, act c!"People" c!"Create" [] [c!"lang"]),
   (c!"/people/new", .get, act c!"People" c!"New" [] [c!"lang"]),
   (c!"/people/new/", .get, act c!"People" c!"New" [] [c!"lang"]),
   (c!"/people/" ++ testId, .get, act c!"People" c!"Show" [(c!"id", v)] [c!"lang"]),
   (c!"/people/" ++ testId ++ c!"/", .get, act c!"People" c!"Show" [(c!"id", v)] [c!"lang"]),
   (c!"/people/" ++ testId, .put, act c!"People" c!"Update" [(c!"id", v)] [c!"lang", c!"name"]),
   (c!"/people/" ++ testId ++ c!"/", .put, act c!"People" c!"Update" [(c!"id", v)] [c!"lang", c!"name"]),
   (c!"/people/" ++ testId, .delete, act c!"People" c!"Destroy" [(c!"id", v)] [c!"lang"]),
   (c!"/people/" ++ testId ++ c!"/", .delete, act c!"People" c!"Destroy" [(c!"id", v)] [c!"lang"]),
   (c!"/people/" ++ testId ++ c!"/edi", .get, .notFound),
   (c!"/people/" ++ testId ++ c!"/edit", .get, act c!"People" c!"Edit" [(c!"id", v)] [c!"lang"]),
   (c!"/people/" ++ testId ++ c!"/edit/", .get, act c!"People" c!"Edit" [(c!"id", v)] [c!"lang"]),
   (c!"/books", .get, act c!"Books" c!"Index" [] [c!"lang"]),
   (c!"/books/", .get, act c!"Books" c!"Index" [] [c!"lang"]),
   (c!"/books", .post, act c!"Books" c!"Create" [] [c!"lang"]),
   (c!"/books/", .post, act c!"Books" c!"Create" [] [c!"lang"]),
   (c!"/books/new", .get, act c!"Books" c!"New" [] [c!"lang"]),
   (c!"/books/new/", .get, act c!"Books" c!"New" [] [c!"lang"]),
   (c!"/books/" ++ testId, .get, act c!"Books" c!"Show" [(c!"id", v)] [c!"lang"]),
   (c!"/books/" ++ testId ++ c!"/", .get, act c!"Books" c!"Show" [(c!"id", v)] [c!"lang"]),
   (c!"/books/" ++ testId, .put, act c!"Books" c!"Update" [(c!"id", v)] [c!"lang"]),
   (c!"/books/" ++ testId ++ c!"/", .put, act c!"Books" c!"Update" [(c!"id", v)] [c!"lang"]),
   (c!"/books/" ++ testId, .delete, act c!"Books" c!"Destroy" [(c!"id", v)] [c!"lang"]),
   (c!"/books/" ++ testId ++ c!"/", .delete, act c!"Books" c!"Destroy" [(c!"id", v)] [c!"lang"]),
   (c!"/books/" ++ testId ++ c!"/edit", .get, act c!"Books" c!"Edit" [(c!"id", v)] [c!"lang"]),
   (c!"/books/" ++ testId ++ c!"/edit/", .get, act c!"Books" c!"Edit" [(c!"id", v)] [c!"lang"]),
   (c!"/people/" ++ testId, .post, .notAllowed)]

/-- The users in the configuration of the documentation of the crate, with `typ` for the type of the id. -/
def manualUsers (W : World) (typ : Str) (m : Bytes) (ps : List Bytes) : Outcome W :=
  if Finished ps then verbs m [(c!"GET", act c!"Users" c!"List" [] []), (c!"POST", act c!"Users" c!"Create" [] [])]
  else match ps with
  | [] => .notFound
  | piece :: more =>
    match fromUtf8 piece with
    | none => .panic
    | some text =>
      match W.parse typ text with
      | .error e => .err c!"id" e
      | .ok v => if Finished more then verbs m [(c!"GET", act c!"Users" c!"Show" [(c!"id", v)] [])] else .notFound

/-- The answers of the configuration in the documentation of the crate. -/
def manualTable (W : World) (typ : Str) (m : Bytes) (ps : List Bytes) : Outcome W :=
  if Finished ps then verbs m [(c!"GET", .route ⟨[], c!"Index", [], []⟩)]
  else match ps with
  | [] => .notFound
  | piece :: more => if piece = bytesOf c!"users" then manualUsers W typ m more else .notFound

end Wayfinder.Shipped
