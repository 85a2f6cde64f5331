import Verif.Spec.Read
import Verif.Spec.Shape
import Verif.Spec.Path
import Verif.Model.Gen
/-!
# Specification vocabulary: configurations whose words are words of Rust

The names of parameters, types, modules and actions are copied into the emitted file, some of them with
another case; static segments are copied into strings and comments.
-/

namespace Wayfinder.Rust

/-- A word after `to_caps_case`: it satisfies `N`, or nothing is left of it, which happens to `_`. -/
def CapsIn (N : Str → Prop) (s : Str) : Prop := N s ∨ (s = [] ∧ N c!"_")

/-- A static segment can be copied into a string and a comment. -/
def SegNamed (N : Str → Prop) : PathSegment → Prop
  | .static s => ∀ c ∈ s, textChar c = true ∧ c ≠ '\n'
  | .dynamic p => N p.name

/-- Name and type of a parameter. -/
def ParamNamed (N : Str → Prop) (p : Param) : Prop := N p.name ∧ N p.typ

/-- The words of a resource. -/
def ResNamed (N : Str → Prop) (x : Resource) : Prop :=
  (∀ m ∈ x.modules, N (toSnakeCase m) ∧ CapsIn N (toCapsCase m)) ∧ CapsIn N (toCapsCase x.name) ∧
  ∀ p ∈ x.queryParameters, ParamNamed N p

/-- All words of a configuration satisfy `N` where they are written. -/
structure WordsIn (N : Str → Prop) (r : Routes) : Prop where
  /-- path segments -/
  segs : ∀ {segs query node}, HasRoute r segs query node → ∀ s ∈ segs, SegNamed N s
  /-- types of parameters -/
  types : ∀ {segs query node}, HasRoute r segs query node → ∀ p, .dynamic p ∈ segs → N p.typ
  /-- query parameters of blocks -/
  query : ∀ {segs query node}, HasRoute r segs query node → ∀ p ∈ node.queryParameters, ParamNamed N p
  /-- resources -/
  resources : ∀ {segs query node}, HasRoute r segs query node → ∀ x ∈ node.resources, ResNamed N x

/-- All words of a configuration are words of Rust. -/
abbrev Words (r : Routes) : Prop := WordsIn Name r

/-- Every header can be read on a line of its own. -/
def HeadersRead (headers : List Header) : Prop := ∀ h ∈ headers, (run .neutral (h.text ++ c!"\n")).2 = .neutral

/-- The tokens of the headers. -/
def headerToks (headers : List Header) : List Tok := headers.flatMap fun h => (run .neutral (h.text ++ c!"\n")).1

/-! ## Names that do not clash -/

/-- The configuration declares the action `x` in the module `mods`, with these path and query parameters. -/
def Action (r : Routes) (mods : List Str) (x : Str) (params query : List Param) : Prop :=
  ∃ segs above res, Declares r segs above res ∧ res.isRedirect = false ∧ res.modules = mods ∧ res.name = x ∧
    params = routeParams segs ∧ query = above ++ res.queryParameters

/-- Code is emitted for the resource `res` on the route `segs`. -/
def Emitted (r : Routes) (segs : List PathSegment) (query : List Param) (res : Resource) : Prop :=
  ∃ node above, LiveRoute r segs above node ∧ res ∈ node.resources ∧ query = above ++ node.queryParameters

/-- Two actions in modules are written alike in Rust. -/
def SameName (mods : List Str) (x : Str) (mods' : List Str) (x' : Str) : Prop :=
  mods.map toSnakeCase = mods'.map toSnakeCase ∧ mods.map toCapsCase = mods'.map toCapsCase ∧ toCapsCase x = toCapsCase x'

/-- Every redirect names a declared action, and its route has the parameters of that action: path and query
parameters of the same names, in any order. -/
def RedirectsFit (r : Routes) : Prop :=
  ∀ segs above res, Emitted r segs above res → res.isRedirect = true →
    ∃ mods x params query, Action r mods x params query ∧ SameName mods x res.modules res.name ∧
      ((routeParams segs).map Param.name).Perm (params.map Param.name) ∧
      ((above ++ res.queryParameters).map Param.name).Perm (query.map Param.name)

/-- A path parameter has the same type on the route of a redirect and in the action that the redirect names. -/
def RedirectTypes (r : Routes) : Prop :=
  ∀ segs above res, Emitted r segs above res → res.isRedirect = true →
    ∀ mods x params query, Action r mods x params query → SameName mods x res.modules res.name →
      ∀ p ∈ routeParams segs, ∀ p' ∈ params, p.name = p'.name → p.typ = p'.typ

/-- The module `mods` has a submodule `x`. -/
def Submodule (r : Routes) (mods : List Str) (x : Str) : Prop :=
  ∃ rest y params query, Action r (mods ++ x :: rest) y params query

/-- Names with a meaning in the emitted code of a module: its enum and `String`; in the outermost module
the declarations of the prelude and the names used in them and in `match_route`. -/
def reserved (mods : List Str) : List Str :=
  c!"Route" :: c!"String" :: if mods = [] then
    [c!"Match", c!"Error", c!"fmt", c!"std", c!"str", c!"u8", c!"Result", c!"Box", c!"AsRef"] else []

/-- The types that have a name in a module. -/
inductive TypeName (r : Routes) (mods : List Str) : Str → Prop where
  | enum : TypeName r mods c!"Route"
  | prelude {t : Str} : mods = [] → t ∈ [c!"Match", c!"Error", c!"fmt"] → TypeName r mods t
  | action {x : Str} {params query : List Param} : Action r mods x params query → TypeName r mods (toCapsCase x)
  | submodule {x : Str} : Submodule r mods x → TypeName r mods (toSnakeCase x)

/-- The names of actions, modules and parameters do not clash with each other after the conversions of case,
nor with the names used in the emitted code. -/
structure ClearNames (r : Routes) : Prop where
  /-- there is an action -/
  nonempty : ∃ mods x params query, Action r mods x params query
  /-- the structs of a module have different names -/
  actions : ∀ {mods x y params query params' query'}, Action r mods x params query → Action r mods y params' query' →
    toCapsCase x = toCapsCase y → x = y
  /-- so have its submodules and their variants -/
  submodules : ∀ {mods x y}, Submodule r mods x → Submodule r mods y →
    toSnakeCase x = toSnakeCase y ∨ toCapsCase x = toCapsCase y → x = y
  /-- and no struct is named like a submodule or the variant of a submodule -/
  apart : ∀ {mods x y params query}, Action r mods x params query → Submodule r mods y →
    toCapsCase x ≠ toSnakeCase y ∧ toCapsCase x ≠ toCapsCase y
  /-- no struct hides a name used by the emitted code -/
  actionFree : ∀ {mods x params query}, Action r mods x params query → toCapsCase x ∉ reserved mods
  /-- nor does a submodule -/
  submoduleFree : ∀ {mods x}, Submodule r mods x → toSnakeCase x ∉ reserved mods
  /-- nothing is called `Option` where query parameters are used -/
  option : ∀ {mods x params query}, Action r mods x params query → query ≠ [] → ¬ TypeName r mods c!"Option"
  /-- no struct without fields hides a value used in `match_route` -/
  values : ∀ {x}, Action r [] x [] [] → toCapsCase x ∉ [c!"Ok", c!"None"]
  /-- the parameters of an action have different names -/
  fields : ∀ {mods x params query}, Action r mods x params query → ((params ++ query).map Param.name).Nodup
  /-- their types are not declared in the module -/
  types : ∀ {mods x params query}, Action r mods x params query → ∀ p ∈ params ++ query, ¬ TypeName r mods p.typ
  /-- and their names can be names of variables -/
  bindable : ∀ {mods x params query}, Action r mods x params query → ∀ p ∈ params ++ query,
    p.name ∉ [c!"None", c!"Some", c!"Ok", c!"Err"] ∧ ∀ {y}, Action r mods y [] [] → p.name ≠ toCapsCase y

/-- The parameters of paths can be variables of `match_route`. -/
def FreeParams (r : Routes) : Prop :=
  ∀ segs query node, LiveRoute r segs query node → ∀ p, .dynamic p ∈ segs →
    p.name ∉ [c!"None", c!"Some", c!"Ok", c!"Err"] ∧ ∀ {y}, Action r [] y [] [] → p.name ≠ toCapsCase y

/-- What is assumed about a configuration to say what the file emitted for it means. -/
structure Clean (c : RouteConfig) : Prop where
  /-- generation succeeds -/
  generated : (codegen c).fail = none
  /-- the copied headers are complete lines of Rust -/
  headers : HeadersRead c.headers
  /-- all names are names in Rust -/
  words : Words c.routes
  /-- the templates of paths have no braces or quotes of their own -/
  braces : NoBraces c.routes
  /-- redirects have the parameters of their targets -/
  redirects : RedirectsFit c.routes
  /-- and the types of these -/
  types : RedirectTypes c.routes
  /-- names do not clash -/
  names : ClearNames c.routes
  /-- nor do the variables of `match_route` -/
  params : FreeParams c.routes

end Wayfinder.Rust
