import Verif.Model.Basic
/-!
# Model of `/repo/wayfinder/src/core/mod.rs`

Data types of a route configuration, their printing (`stringify`, `Display`), `mount`,
and `Resource::make`.
-/

namespace Wayfinder

/-- `core/mod.rs:44-47` `struct Header { text }`. -/
structure Header where
  text : Str
deriving DecidableEq, Repr

/-- `core/mod.rs:224-227` `struct Param { name, typ }`. -/
structure Param where
  name : Str
  typ  : Str
deriving DecidableEq, Repr

/-- `core/mod.rs:247-253` `enum Method`. -/
inductive Method where
  | get | post | put | delete
deriving DecidableEq, Repr

/-- `core/mod.rs:196-199` `enum PathSegment`. -/
inductive PathSegment where
  | static (s : Str)
  | dynamic (p : Param)
deriving DecidableEq, Repr

/-- `core/mod.rs:105-111` `struct Resource`. -/
structure Resource where
  method : Method
  modules : List Str
  name : Str
  isRedirect : Bool
  queryParameters : List Param
deriving DecidableEq, Repr

mutual
/-- `core/mod.rs:58-62` `struct Routes { resources, routes, query_parameters }`. -/
inductive Routes where
  | mk (resources : List Resource) (routes : List NestedRoutes) (queryParameters : List Param)
/-- `core/mod.rs:168-171` `struct NestedRoutes { path_segment, routes }`. -/
inductive NestedRoutes where
  | mk (pathSegment : PathSegment) (routes : Routes)
end

/-- Field access `routes.resources`. -/
def Routes.resources : Routes → List Resource | .mk rs _ _ => rs
/-- Field access `routes.routes`. -/
def Routes.routes : Routes → List NestedRoutes | .mk _ ns _ => ns
/-- Field access `routes.query_parameters`. -/
def Routes.queryParameters : Routes → List Param | .mk _ _ qs => qs
/-- Field access `nested.path_segment`. -/
def NestedRoutes.pathSegment : NestedRoutes → PathSegment | .mk s _ => s
/-- Field access `nested.routes`. -/
def NestedRoutes.routes : NestedRoutes → Routes | .mk _ r => r

@[simp] theorem Routes.resources_mk (a b c) : (Routes.mk a b c).resources = a := rfl
@[simp] theorem Routes.routes_mk (a b c) : (Routes.mk a b c).routes = b := rfl
@[simp] theorem Routes.queryParameters_mk (a b c) : (Routes.mk a b c).queryParameters = c := rfl
@[simp] theorem NestedRoutes.pathSegment_mk (a b) : (NestedRoutes.mk a b).pathSegment = a := rfl
@[simp] theorem NestedRoutes.routes_mk (a b) : (NestedRoutes.mk a b).routes = b := rfl

/-- `core/mod.rs:7` `#[derive(Default)]` on `Routes`. -/
def Routes.default : Routes := .mk [] [] []

/-- `core/mod.rs:8-11` `struct RouteConfig { headers, routes }`. -/
structure RouteConfig where
  headers : List Header
  routes : Routes

/-- `core/mod.rs:7` `#[derive(Default)]` on `RouteConfig`. -/
def RouteConfig.default : RouteConfig := ⟨[], Routes.default⟩

/-- `core/mod.rs:64-76` `fn indent(level) -> &'static str`: a table with eight entries; every
deeper level gives fourteen spaces followed by `--`. -/
def indent (level : Nat) : Str :=
  match level with
  | 0 => c!""
  | 1 => c!"  "
  | 2 => c!"    "
  | 3 => c!"      "
  | 4 => c!"        "
  | 5 => c!"          "
  | 6 => c!"            "
  | 7 => c!"              "
  | _ => c!"              --"

/-- `core/mod.rs:237-243` `impl Display for Param`. -/
def Param.display (p : Param) : Str := p.name ++ c!": " ++ p.typ

/-- `core/mod.rs:261-270` `impl Display for Method`. -/
def Method.display : Method → Str
  | .get => c!"GET"
  | .post => c!"POST"
  | .put => c!"PUT"
  | .delete => c!"DELETE"

/-- `core/mod.rs:255-259` `Method::byte_str`: the Rust source text `b"GET"`. -/
def Method.byteStr (m : Method) : Str := c!"b\"" ++ m.display ++ c!"\""

/-- `core/mod.rs:213-220` `impl Display for PathSegment`. -/
def PathSegment.display : PathSegment → Str
  | .static s => s
  | .dynamic p => p.display

/-- `core/mod.rs:139-163` `Resource::stringify`. -/
def Resource.stringify (r : Resource) (level : Nat) : Str :=
  let params := (r.queryParameters.map fun param =>
    c!"\n" ++ indent (level + 1) ++ c!"[" ++ param.display ++ c!"]").flatten
  let modules := (r.modules.map fun m => m ++ c!"::").flatten
  indent level ++ r.method.display ++ (if r.isRedirect then c!" ->" else c!"") ++ c!" "
    ++ modules ++ r.name ++ params ++ c!"\n"

/-- `core/mod.rs:80-85`: the query parameter lines of `Routes::stringify`. -/
def stringifyParams (ps : List Param) (level : Nat) : Str :=
  (ps.map fun param => indent level ++ c!"[" ++ param.display ++ c!"]\n").flatten

/-- `core/mod.rs:86-91`: the resource lines of `Routes::stringify`. -/
def stringifyResources (rs : List Resource) (level : Nat) : Str :=
  (rs.map fun r => r.stringify level).flatten

/-- `core/mod.rs:185-188`: how a path segment is printed on its own line. -/
def PathSegment.stringify : PathSegment → Str
  | .static p => p
  | .dynamic p => c!"{" ++ p.display ++ c!"}"

mutual
/-- `core/mod.rs:79-100` `Routes::stringify`. -/
def Routes.stringify : Routes → Nat → Str
  | .mk rs ns qs, level =>
    stringifyParams qs level ++ stringifyResources rs level ++ stringifyNested ns level
/-- `core/mod.rs:92-97`: `self.routes.iter().map(|r| r.stringify(level)).concat()`. -/
def stringifyNested : List NestedRoutes → Nat → Str
  | [], _ => []
  | n :: ns, level => n.stringify level ++ stringifyNested ns level
/-- `core/mod.rs:181-191` `NestedRoutes::stringify`. -/
def NestedRoutes.stringify : NestedRoutes → Nat → Str
  | .mk seg r, level => indent level ++ seg.stringify ++ c!"\n" ++ r.stringify (level + 1)
end

/-- `core/mod.rs:14-28` `RouteConfig::stringify`. -/
def RouteConfig.stringify (c : RouteConfig) : Str :=
  let headers := (c.headers.map fun h => h.text ++ c!"\n").flatten
  headers ++ (if headers ≠ c!"" then c!"\n" else c!"") ++ c!"/\n" ++ c.routes.stringify 1

/-- itertools `unique()`: keep the first occurrence of each element, in order.  `seen` are the
elements already yielded. -/
def uniqueAux {α} [DecidableEq α] : List α → List α → List α
  | _, [] => []
  | seen, x :: xs => if x ∈ seen then uniqueAux seen xs else x :: uniqueAux (x :: seen) xs

/-- itertools `unique()`. -/
def unique {α} [DecidableEq α] (xs : List α) : List α := uniqueAux [] xs

/-- `core/mod.rs:30-40` `RouteConfig::mount` (with `NestedRoutes::new` of `core/mod.rs:174-179`
and `PathSegment::from` of `core/mod.rs:201-205`: the mount point is always a static segment). -/
def RouteConfig.mount (self : RouteConfig) (at_ : Str) (config : RouteConfig) : RouteConfig :=
  { headers := unique (self.headers ++ config.headers)
    routes := .mk self.routes.resources
                (self.routes.routes ++ [NestedRoutes.mk (.static at_) config.routes])
                self.routes.queryParameters }

/-- `Vec::remove(i)`: the element at an index and the remaining vector; `none` is the panic. -/
def vecRemove {α} (xs : List α) (i : Nat) : Option (α × List α) :=
  match xs[i]? with
  | none => none
  | some x => some (x, xs.eraseIdx i)

/-- `core/mod.rs:119-137` `Resource::make`; `none` is the panic.  On an empty handler `ms.len() - 1`
overflows: a panic with overflow checks, and without them `remove` panics on the index `2^64 - 1`. -/
def Resource.make (method : Method) (handler : List Str) (isRedirect : Bool)
    (queryParameters : List Param) : Option Resource :=
  if handler.length = 0 then none
  else
    match vecRemove handler (handler.length - 1) with
    | none => none
    | some (name, modules) => some { method, modules, name, isRedirect, queryParameters }

end Wayfinder
