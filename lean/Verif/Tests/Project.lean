import Verif.Tests.Demo
import Verif.Tests.Golden
import Verif.Model.Macros
import Verif.Spec.Lex
/-!
# The project's own tests, run on the model (generated by `tools/mkproject.py`)

`/repo/examples/cli/src/main.rs:66-266` (requests to the matcher of `/repo/example.routes`) and
`/repo/wayfinder-tests/src/lib.rs` (printing and parsing), the documentation tests of
`/repo/wayfinder/src/core/macros.rs` and the test of `/repo/wayfinder/src/gen/trie.rs`.  These are tests of the fidelity of the model, not
proofs.
-/

namespace Wayfinder.Tests

/-- `/repo/example.routes` -/
def cliSrc : String :=
  "use uuid::Uuid;\n\n/\n  [lang: String]\n\n  users\n    GET -> People::Index\n\n  people\n    GET People::Index\n    POST People::Create\n\n    new\n      GET People::New\n\n    {id: Uuid}\n      GET People::Show\n      PUT People::Update\n        [name: String]\n      DELETE People::Destroy\n\n      edit\n        GET People::Edit\n\n  books\n    GET Books::Index\n    POST Books::Create\n\n    new\n      GET Books::New\n\n    {id: Uuid}\n      GET Books::Show\n      PUT Books::Update\n      DELETE Books::Destroy\n\n      edit\n        GET Books::Edit\n"

/-- The body generated for `/repo/example.routes`. -/
def exampleBody : List Stmt :=
  match routeConfig (testCfg false) cliSrc.toList with
  | .ok _ c => bodyOf c.routes
  | _ => []

/-- A request to it. -/
def askExample (path m : String) : Demo.Shown :=
  Demo.shown (callMatchRoute Demo.world exampleBody (bytesOf path.toList) (bytesOf m.toList))

#guard askExample "" "GET" = .notFound
#guard askExample "/" "GET" = .notFound
#guard askExample "/user" "GET" = .notFound
#guard askExample "/users" "GET" = .redirect [c!"People"] c!"Index" [] [c!"lang"]
#guard askExample "/users/" "GET" = .redirect [c!"People"] c!"Index" [] [c!"lang"]
#guard askExample "/people" "GET" = .route [c!"People"] c!"Index" [] [c!"lang"]
#guard askExample "/people/" "GET" = .route [c!"People"] c!"Index" [] [c!"lang"]
#guard askExample "/people" "POST" = .route [c!"People"] c!"Create" [] [c!"lang"]
#guard askExample "/people/" "POST" = .route [c!"People"] c!"Create" [] [c!"lang"]
#guard askExample "/people/new" "GET" = .route [c!"People"] c!"New" [] [c!"lang"]
#guard askExample "/people/new/" "GET" = .route [c!"People"] c!"New" [] [c!"lang"]
#guard askExample "/people/12345678901234567890123456789012" "GET" = .route [c!"People"] c!"Show" [(c!"id", c!"12345678901234567890123456789012")] [c!"lang"]
#guard askExample "/people/12345678901234567890123456789012/" "GET" = .route [c!"People"] c!"Show" [(c!"id", c!"12345678901234567890123456789012")] [c!"lang"]
#guard askExample "/people/12345678901234567890123456789012" "PUT" = .route [c!"People"] c!"Update" [(c!"id", c!"12345678901234567890123456789012")] [c!"lang", c!"name"]
#guard askExample "/people/12345678901234567890123456789012/" "PUT" = .route [c!"People"] c!"Update" [(c!"id", c!"12345678901234567890123456789012")] [c!"lang", c!"name"]
#guard askExample "/people/12345678901234567890123456789012" "DELETE" = .route [c!"People"] c!"Destroy" [(c!"id", c!"12345678901234567890123456789012")] [c!"lang"]
#guard askExample "/people/12345678901234567890123456789012/" "DELETE" = .route [c!"People"] c!"Destroy" [(c!"id", c!"12345678901234567890123456789012")] [c!"lang"]
#guard askExample "/people/12345678901234567890123456789012/edi" "GET" = .notFound
#guard askExample "/people/12345678901234567890123456789012/edit" "GET" = .route [c!"People"] c!"Edit" [(c!"id", c!"12345678901234567890123456789012")] [c!"lang"]
#guard askExample "/people/12345678901234567890123456789012/edit/" "GET" = .route [c!"People"] c!"Edit" [(c!"id", c!"12345678901234567890123456789012")] [c!"lang"]
#guard askExample "/books" "GET" = .route [c!"Books"] c!"Index" [] [c!"lang"]
#guard askExample "/books/" "GET" = .route [c!"Books"] c!"Index" [] [c!"lang"]
#guard askExample "/books" "POST" = .route [c!"Books"] c!"Create" [] [c!"lang"]
#guard askExample "/books/" "POST" = .route [c!"Books"] c!"Create" [] [c!"lang"]
#guard askExample "/books/new" "GET" = .route [c!"Books"] c!"New" [] [c!"lang"]
#guard askExample "/books/new/" "GET" = .route [c!"Books"] c!"New" [] [c!"lang"]
#guard askExample "/books/12345678901234567890123456789012" "GET" = .route [c!"Books"] c!"Show" [(c!"id", c!"12345678901234567890123456789012")] [c!"lang"]
#guard askExample "/books/12345678901234567890123456789012/" "GET" = .route [c!"Books"] c!"Show" [(c!"id", c!"12345678901234567890123456789012")] [c!"lang"]
#guard askExample "/books/12345678901234567890123456789012" "PUT" = .route [c!"Books"] c!"Update" [(c!"id", c!"12345678901234567890123456789012")] [c!"lang"]
#guard askExample "/books/12345678901234567890123456789012/" "PUT" = .route [c!"Books"] c!"Update" [(c!"id", c!"12345678901234567890123456789012")] [c!"lang"]
#guard askExample "/books/12345678901234567890123456789012" "DELETE" = .route [c!"Books"] c!"Destroy" [(c!"id", c!"12345678901234567890123456789012")] [c!"lang"]
#guard askExample "/books/12345678901234567890123456789012/" "DELETE" = .route [c!"Books"] c!"Destroy" [(c!"id", c!"12345678901234567890123456789012")] [c!"lang"]
#guard askExample "/books/12345678901234567890123456789012/edit" "GET" = .route [c!"Books"] c!"Edit" [(c!"id", c!"12345678901234567890123456789012")] [c!"lang"]
#guard askExample "/books/12345678901234567890123456789012/edit/" "GET" = .route [c!"Books"] c!"Edit" [(c!"id", c!"12345678901234567890123456789012")] [c!"lang"]
#guard askExample "/people/12345678901234567890123456789012" "POST" = .notAllowed

deriving instance BEq for Header, Param, PathSegment, Method, Resource
deriving instance BEq for Routes, NestedRoutes
deriving instance BEq for RouteConfig

/-- The outcome of a parser of the model, in both variants of nom, is `v` with the rest `rest`. -/
def parses {α : Type} [BEq α] (p : ParseCfg → Parser α) (text : Str) (v : α) (rest : Str) : Bool :=
  [false, true].all fun b => match p (testCfg b) text with
    | .ok i x => x == v && i == rest
    | _ => false

/-- The text moved two blanks to the right, as in the tests. -/
def moved (text : Str) : Str := c!"  " ++ text.flatMap fun c => if c = '\n' then c!"\n  " else [c]

#guard (⟨c!"id", c!"Uuid"⟩ : Param).display = "id: Uuid".toList
#guard (PathSegment.dynamic (⟨c!"id", c!"Uuid"⟩ : Param)).display = "id: Uuid".toList
#guard parses pParam "id: Uuid".toList (⟨c!"id", c!"Uuid"⟩ : Param) []
#guard parses (pPathSegment · 1) (c!"  {" ++ "id: Uuid".toList ++ c!"}") (PathSegment.dynamic (⟨c!"id", c!"Uuid"⟩ : Param)) []
#guard parses (pQueryParameter · 1) (c!"  [" ++ "id: Uuid".toList ++ c!"]") (⟨c!"id", c!"Uuid"⟩ : Param) []
#guard (⟨c!"x", c!"isize"⟩ : Param).display = "x: isize".toList
#guard (PathSegment.dynamic (⟨c!"x", c!"isize"⟩ : Param)).display = "x: isize".toList
#guard parses pParam "x: isize".toList (⟨c!"x", c!"isize"⟩ : Param) []
#guard parses (pPathSegment · 1) (c!"  {" ++ "x: isize".toList ++ c!"}") (PathSegment.dynamic (⟨c!"x", c!"isize"⟩ : Param)) []
#guard parses (pQueryParameter · 1) (c!"  [" ++ "x: isize".toList ++ c!"]") (⟨c!"x", c!"isize"⟩ : Param) []
#guard (⟨c!"name", c!"String"⟩ : Param).display = "name: String".toList
#guard (PathSegment.dynamic (⟨c!"name", c!"String"⟩ : Param)).display = "name: String".toList
#guard parses pParam "name: String".toList (⟨c!"name", c!"String"⟩ : Param) []
#guard parses (pPathSegment · 1) (c!"  {" ++ "name: String".toList ++ c!"}") (PathSegment.dynamic (⟨c!"name", c!"String"⟩ : Param)) []
#guard parses (pQueryParameter · 1) (c!"  [" ++ "name: String".toList ++ c!"]") (⟨c!"name", c!"String"⟩ : Param) []
#guard (⟨.get, [c!"person"], c!"show", false, []⟩ : Resource).stringify 0 = "GET person::show\n".toList
#guard parses (pResource · 1) (moved "GET person::show\n".toList) (⟨.get, [c!"person"], c!"show", false, []⟩ : Resource) c!"  "
#guard (⟨.get, [c!"person"], c!"show", true, []⟩ : Resource).stringify 0 = "GET -> person::show\n".toList
#guard parses (pResource · 1) (moved "GET -> person::show\n".toList) (⟨.get, [c!"person"], c!"show", true, []⟩ : Resource) c!"  "
#guard (⟨.get, [c!"person"], c!"show", false, [⟨c!"id", c!"usize"⟩]⟩ : Resource).stringify 0 = "GET person::show\n  [id: usize]\n".toList
#guard parses (pResource · 1) (moved "GET person::show\n  [id: usize]\n".toList) (⟨.get, [c!"person"], c!"show", false, [⟨c!"id", c!"usize"⟩]⟩ : Resource) c!"  "
#guard (⟨.get, [], c!"index", false, []⟩ : Resource).stringify 0 = "GET index\n".toList
#guard parses (pResource · 1) (moved "GET index\n".toList) (⟨.get, [], c!"index", false, []⟩ : Resource) c!"  "
#guard (⟨.get, [c!"admin", c!"person"], c!"show", false, []⟩ : Resource).stringify 0 = "GET admin::person::show\n".toList
#guard parses (pResource · 1) (moved "GET admin::person::show\n".toList) (⟨.get, [c!"admin", c!"person"], c!"show", false, []⟩ : Resource) c!"  "
#guard ((.mk [⟨.get, [c!"People"], c!"Index", false, []⟩, ⟨.post, [c!"People"], c!"New", false, []⟩] [] []) : Routes).stringify 0 = "GET People::Index\nPOST People::New\n".toList
#guard parses (pRoutes · 1) (moved "GET People::Index\nPOST People::New\n".toList) ((.mk [⟨.get, [c!"People"], c!"Index", false, []⟩, ⟨.post, [c!"People"], c!"New", false, []⟩] [] []) : Routes) c!"  "
#guard ((.mk [⟨.get, [c!"People"], c!"Index", false, []⟩] [] [⟨c!"lang", c!"String"⟩]) : Routes).stringify 0 = "[lang: String]\nGET People::Index\n".toList
#guard parses (pRoutes · 1) (moved "[lang: String]\nGET People::Index\n".toList) ((.mk [⟨.get, [c!"People"], c!"Index", false, []⟩] [] [⟨c!"lang", c!"String"⟩]) : Routes) c!"  "
#guard ((.mk [⟨.get, [c!"People"], c!"Index", false, []⟩] [(.mk (.dynamic ⟨c!"id", c!"Uuid"⟩) (.mk [⟨.get, [c!"People"], c!"Show", false, []⟩] [] []))] []) : Routes).stringify 0 = "GET People::Index\n{id: Uuid}\n  GET People::Show\n".toList
#guard parses (pRoutes · 1) (moved "GET People::Index\n{id: Uuid}\n  GET People::Show\n".toList) ((.mk [⟨.get, [c!"People"], c!"Index", false, []⟩] [(.mk (.dynamic ⟨c!"id", c!"Uuid"⟩) (.mk [⟨.get, [c!"People"], c!"Show", false, []⟩] [] []))] []) : Routes) c!"  "
#guard ((.mk (.static c!"people") (.mk [⟨.get, [c!"People"], c!"Index", false, []⟩] [] [])) : NestedRoutes).stringify 0 = "people\n  GET People::Index\n".toList
#guard parses (fun cfg => pNestedRoutes cfg 100 1) (moved "people\n  GET People::Index\n".toList) ((.mk (.static c!"people") (.mk [⟨.get, [c!"People"], c!"Index", false, []⟩] [] [])) : NestedRoutes) c!"  "
#guard ((.mk (.dynamic ⟨c!"id", c!"Uuid"⟩) (.mk [⟨.get, [c!"People"], c!"Show", false, []⟩, ⟨.put, [c!"People"], c!"Update", false, [⟨c!"name", c!"String"⟩]⟩] [] [])) : NestedRoutes).stringify 0 = "{id: Uuid}\n  GET People::Show\n  PUT People::Update\n    [name: String]\n".toList
#guard parses (fun cfg => pNestedRoutes cfg 100 1) (moved "{id: Uuid}\n  GET People::Show\n  PUT People::Update\n    [name: String]\n".toList) ((.mk (.dynamic ⟨c!"id", c!"Uuid"⟩) (.mk [⟨.get, [c!"People"], c!"Show", false, []⟩, ⟨.put, [c!"People"], c!"Update", false, [⟨c!"name", c!"String"⟩]⟩] [] [])) : NestedRoutes) c!"  "
#guard (⟨[⟨c!"use uuid::Uuid;"⟩], (.mk [] [(.mk (.static c!"people") (.mk [⟨.get, [c!"People"], c!"Index", false, []⟩] [(.mk (.dynamic ⟨c!"id", c!"Uuid"⟩) (.mk [⟨.get, [c!"People"], c!"Show", false, []⟩, ⟨.put, [c!"People"], c!"Update", false, [⟨c!"name", c!"String"⟩]⟩] [] []))] []))] [⟨c!"lang", c!"String"⟩])⟩ : RouteConfig).stringify = "use uuid::Uuid;\n\n/\n  [lang: String]\n  people\n    GET People::Index\n    {id: Uuid}\n      GET People::Show\n      PUT People::Update\n        [name: String]\n".toList
#guard parses routeConfig "use uuid::Uuid;\n\n/\n  [lang: String]\n  people\n    GET People::Index\n    {id: Uuid}\n      GET People::Show\n      PUT People::Update\n        [name: String]\n".toList (⟨[⟨c!"use uuid::Uuid;"⟩], (.mk [] [(.mk (.static c!"people") (.mk [⟨.get, [c!"People"], c!"Index", false, []⟩] [(.mk (.dynamic ⟨c!"id", c!"Uuid"⟩) (.mk [⟨.get, [c!"People"], c!"Show", false, []⟩, ⟨.put, [c!"People"], c!"Update", false, [⟨c!"name", c!"String"⟩]⟩] [] []))] []))] [⟨c!"lang", c!"String"⟩])⟩ : RouteConfig) []
#guard (⟨[], (.mk [] [(.mk (.static c!"one") (.mk [⟨.get, [c!"One"], c!"Show", false, []⟩, ⟨.post, [c!"One"], c!"Make", false, []⟩] [] [])), (.mk (.static c!"two") (.mk [⟨.get, [c!"Two"], c!"Show", false, []⟩, ⟨.post, [c!"Two"], c!"Make", false, []⟩] [] []))] [])⟩ : RouteConfig).stringify = "/\n  one\n    GET One::Show\n    POST One::Make\n  two\n    GET Two::Show\n    POST Two::Make\n".toList
#guard parses routeConfig "/\n  one\n    GET One::Show\n    POST One::Make\n  two\n    GET Two::Show\n    POST Two::Make\n".toList (⟨[], (.mk [] [(.mk (.static c!"one") (.mk [⟨.get, [c!"One"], c!"Show", false, []⟩, ⟨.post, [c!"One"], c!"Make", false, []⟩] [] [])), (.mk (.static c!"two") (.mk [⟨.get, [c!"Two"], c!"Show", false, []⟩, ⟨.post, [c!"Two"], c!"Make", false, []⟩] [] []))] [])⟩ : RouteConfig) []
#guard Method.get.display = c!"GET"
#guard parses pMethod c!"GET" Method.get []
#guard Method.post.display = c!"POST"
#guard parses pMethod c!"POST" Method.post []
#guard Method.put.display = c!"PUT"
#guard parses pMethod c!"PUT" Method.put []
#guard Method.delete.display = c!"DELETE"
#guard parses pMethod c!"DELETE" Method.delete []
#guard (PathSegment.static c!"people").display = c!"people"
#guard parses (pPathSegment · 1) c!"  people" (PathSegment.static c!"people") []
#guard (PathSegment.static c!"accounts").display = c!"accounts"
#guard parses (pPathSegment · 1) c!"  accounts" (PathSegment.static c!"accounts") []
#guard (PathSegment.static c!"posts").display = c!"posts"
#guard parses (pPathSegment · 1) c!"  posts" (PathSegment.static c!"posts") []
#guard verbMacro .get (Rust.toks c!"People::Show") = some ⟨.get, [c!"People"], c!"Show", false, []⟩
#guard verbMacro .get (Rust.toks c!"-> People::Show") = some ⟨.get, [c!"People"], c!"Show", true, []⟩
#guard verbMacro .get (Rust.toks c!"Search, param!(q: String)") = some ⟨.get, [], c!"Search", false, [⟨c!"q", c!"String"⟩]⟩
#guard verbMacro .post (Rust.toks c!"People::Create") = some ⟨.post, [c!"People"], c!"Create", false, []⟩
#guard verbMacro .post (Rust.toks c!"-> People::Create") = some ⟨.post, [c!"People"], c!"Create", true, []⟩
#guard verbMacro .post (Rust.toks c!"Search, param!(q: String)") = some ⟨.post, [], c!"Search", false, [⟨c!"q", c!"String"⟩]⟩
#guard verbMacro .put (Rust.toks c!"People::Update") = some ⟨.put, [c!"People"], c!"Update", false, []⟩
#guard verbMacro .put (Rust.toks c!"-> People::Update") = some ⟨.put, [c!"People"], c!"Update", true, []⟩
#guard verbMacro .put (Rust.toks c!"Person::Update, param!(id: i32)") = some ⟨.put, [c!"Person"], c!"Update", false, [⟨c!"id", c!"i32"⟩]⟩
#guard verbMacro .delete (Rust.toks c!"People::Destroy") = some ⟨.delete, [c!"People"], c!"Destroy", false, []⟩
#guard verbMacro .delete (Rust.toks c!"-> People::Destroy") = some ⟨.delete, [c!"People"], c!"Destroy", true, []⟩
#guard verbMacro .delete (Rust.toks c!"Person::Destroy, param!(id: i32)") = some ⟨.delete, [c!"Person"], c!"Destroy", false, [⟨c!"id", c!"i32"⟩]⟩
#guard paramMacro (Rust.toks c!"username: String") = some ⟨c!"username", c!"String"⟩
#guard ((Trie.add Charlike.cmp Trie.new (c!"foo".map Charlike.static) 42).toOption.bind fun t => (t.add Charlike.cmp (c!"foobar".map Charlike.static) 0).toOption).isSome

end Wayfinder.Tests
