import Verif.Model.Core
/-!
# The configurations that the project ships
-/

namespace Wayfinder.Shipped

/-- `/repo/example.routes`, which `examples/cli/build.rs:5` builds. -/
def exampleText : Str :=
  c!"use uuid::Uuid;\n\n/\n  [lang: String]\n\n" ++
  c!"  users\n    GET -> People::Index\n\n" ++
  c!"  people\n    GET People::Index\n    POST People::Create\n\n" ++
  c!"    new\n      GET People::New\n\n" ++
  c!"    {id: Uuid}\n      GET People::Show\n      PUT People::Update\n" ++
  c!"        [name: String]\n      DELETE People::Destroy\n\n" ++
  c!"      edit\n        GET People::Edit\n\n" ++
  c!"  books\n    GET Books::Index\n    POST Books::Create\n\n" ++
  c!"    new\n      GET Books::New\n\n" ++
  c!"    {id: Uuid}\n      GET Books::Show\n      PUT Books::Update\n" ++
  c!"      DELETE Books::Destroy\n\n" ++
  c!"      edit\n        GET Books::Edit\n"

/-- `/repo/README.markdown:30-52`: the route file in the README. -/
def readmeText : Str :=
  c!"use uuid::Uuid;\n\n/\n  [lang: String]\n\n" ++
  c!"  users\n    GET -> People::Index\n\n" ++
  c!"  people\n    GET People::Index\n    POST People::Create\n\n" ++
  c!"    new\n      GET People::New\n\n" ++
  c!"    {id: Uuid}\n      GET People::Show\n      PUT People::Update\n" ++
  c!"        [name: String]\n      DELETE People::Destroy\n\n" ++
  c!"      edit\n        GET People::Edit\n"

/-- `/repo/commons.routes`, the same file as `/repo/wayfinder-tests/cases/commons/routes.routes`. -/
def commonsText : Str :=
  c!"/\n  foobar\n    GET Foo::Bar\n  fomo\n    GET Fomo::AsUsual\n" ++
  c!"  foosh\n    GET Foosh::Ball\n  {a: String}\n    GET Bar::Dyn\n"

/-- `/repo/wayfinder-tests/cases/nesting/routes.routes`. -/
def nestingText : Str :=
  c!"use uuid::Uuid;\n\n/\n  GET Index\n\n  {id: Uuid}\n" ++
  c!"    GET Admin::People::Show\n"

/-- `get!(module::name)` and its like. -/
def plain (m : Method) (module name : Str) : Resource := ⟨m, [module], name, false, []⟩

/-- `examples/structured/routes/base.rs:3-18`. -/
def base : RouteConfig where
  headers := []
  routes := .mk [] [.mk (.static c!"users") (.mk [⟨.get, [c!"People"], c!"New", true, []⟩] [] [])] [⟨c!"lang", c!"String"⟩]

/-- `examples/structured/routes/people.rs:3-40`.  The header is the one of the doc test of `header!` (`core/macros.rs:1-9`). -/
def people : RouteConfig where
  headers := [⟨c!"use uuid::Uuid;"⟩]
  routes := .mk [plain .get c!"People" c!"Index", plain .post c!"People" c!"Create"]
    [.mk (.static c!"new") (.mk [plain .get c!"People" c!"New"] [] []),
     .mk (.dynamic ⟨c!"id", c!"Uuid"⟩)
       (.mk [plain .get c!"People" c!"Show", ⟨.put, [c!"People"], c!"Update", false, [⟨c!"name", c!"String"⟩]⟩,
           plain .delete c!"People" c!"Destroy"]
         [.mk (.static c!"edit") (.mk [plain .get c!"People" c!"Edit"] [] [])] [])]
    []

/-- `examples/structured/routes/books.rs:3-40`. -/
def books : RouteConfig where
  headers := [⟨c!"use uuid::Uuid;"⟩]
  routes := .mk [plain .get c!"Books" c!"Index", plain .post c!"Books" c!"Create"]
    [.mk (.static c!"new") (.mk [plain .get c!"Books" c!"New"] [] []),
     .mk (.dynamic ⟨c!"id", c!"Uuid"⟩)
       (.mk [plain .get c!"Books" c!"Show", plain .put c!"Books" c!"Update", plain .delete c!"Books" c!"Destroy"]
         [.mk (.static c!"edit") (.mk [plain .get c!"Books" c!"Edit"] [] [])] [])]
    []

/-- `examples/structured/routes/mod.rs:7-11`: the configuration that `examples/structured/build.rs` builds. -/
def structured : RouteConfig := (base.mount c!"people" people).mount c!"books" books

/-- `wayfinder/src/lib.rs:11-22`: the route file in the documentation of the crate. -/
def manualText : Str :=
  c!"use uuid::Uuid;\n\n/\n  GET Index\n\n  users\n    GET Users::List\n" ++
  c!"    POST Users::Create\n\n    {id: uuid}\n      GET Users::Show\n"

/-- `wayfinder/src/lib.rs:57-88`: the code that the documentation of the crate calls equivalent. -/
def manualCode : RouteConfig where
  headers := [⟨c!"use uuid::Uuid;"⟩]
  routes := .mk [⟨.get, [], c!"Index", false, []⟩]
    [.mk (.static c!"users") (.mk [plain .get c!"Users" c!"List", plain .post c!"Users" c!"Create"]
      [.mk (.dynamic ⟨c!"id", c!"Uuid"⟩) (.mk [plain .get c!"Users" c!"Show"] [] [])] [])] []

end Wayfinder.Shipped
