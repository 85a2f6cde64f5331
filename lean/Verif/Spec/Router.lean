import Verif.Model.Core
import Verif.Model.Rust
/-!
# Reference router

What a generated `match_route` computes, written directly on the configuration, segment by
segment, without tries, programs or indices.  It is deliberately the *actual* behaviour of the
generated programs that compile, including the oddities (see `preferStatic`, `stuck`); the
declarative properties in `Props/` are derived from it.
-/

namespace Wayfinder

/-- Values captured so far, outermost parameter first. -/
abbrev Caps (W : World) := List (Param × W.V)

/-- The bytes of a text consisting of ASCII characters. -/
def bytesOf (s : Str) : Bytes := s.map asciiByte

/-- The byte `/`. -/
abbrev slash : UInt8 := asciiByte '/'

/-- The bytes of a verb. -/
def Method.bytes (m : Method) : Bytes := bytesOf m.display

/-- The answer of a route with resources `rs` and query parameters `query` in scope: the first
resource declared for the verb. -/
def answer {W : World} (rs : List Resource) (query : List Param) (caps : Caps W) (m : Bytes) :
    Outcome W :=
  match rs.find? (fun r => r.method.bytes = m) with
  | none => .notAllowed
  | some r =>
    let v : RouteVal W :=
      { modules := r.modules, name := r.name,
        params := caps.map fun pv => (pv.1.name, .user pv.2),
        nones := query.map Param.name ++ r.queryParameters.map Param.name }
    if r.isRedirect then .redirect v else .route v

/-- Texts of the static children. -/
def staticTexts (ns : List NestedRoutes) : List Str :=
  ns.filterMap fun n => match n.pathSegment with
    | .static s => some s
    | .dynamic _ => none

/-- Names of the parameter children. -/
def paramNames (ns : List NestedRoutes) : List Str :=
  ns.filterMap fun n => match n.pathSegment with
    | .static _ => none
    | .dynamic p => some p.name

/-- The alphabetically smaller of two names. -/
def minName (a b : Str) : Str := if a ≤ b then a else b

/-- The parameter child that captures: normally the only one; if there are several, the
alphabetically first. -/
def captor (ns : List NestedRoutes) : Option Str :=
  match paramNames ns with
  | [] => none
  | x :: xs => some (xs.foldl minName x)

/-- Are static children looked at?  Next to a parameter only if there is exactly one of them. -/
def preferStatic (ns : List NestedRoutes) : Bool :=
  (paramNames ns).isEmpty || (staticTexts ns).length == 1

/-- The generated code indexes past the end of the path: the path ends at a block without
resources whose children are a parameter and one static segment of one character. -/
def stuck (ns : List NestedRoutes) (bs : Bytes) : Bool :=
  bs.isEmpty && !(paramNames ns).isEmpty && (staticTexts ns).map List.length == [1]

/-- The path ends right behind the segment of a block. -/
def atEnd {W : World} (m : Bytes) (r : Routes) (query : List Param) (caps : Caps W) : Outcome W :=
  if r.resources = [] then .notFound
  else answer r.resources (query ++ r.queryParameters) caps m

mutual
/-- `route m r query caps bs`: answer for the rest `bs` of the path inside the block `r`. -/
def route (W : World) (m : Bytes) : Routes → List Param → Caps W → Bytes → Outcome W
  | .mk rs ns qs, query, caps, bs =>
    if bs = [] ∧ rs ≠ [] then answer rs (query ++ qs) caps m
    else if stuck ns bs then .panic
    else
      match (if preferStatic ns then routeStatic W m ns (query ++ qs) caps bs else none) with
      | some o => o
      | none =>
        match captor ns with
        | none => .notFound
        | some x => routeParam W m x ns (query ++ qs) caps bs
/-- Try the static children: the first whose text begins the path is committed to. -/
def routeStatic (W : World) (m : Bytes) :
    List NestedRoutes → List Param → Caps W → Bytes → Option (Outcome W)
  | [], _, _, _ => none
  | n :: ns, query, caps, bs =>
    match routeStatic1 W m n query caps bs with
    | some o => some o
    | none => routeStatic W m ns query caps bs
/-- One static child: after its text the path must end or go on with `/`. -/
def routeStatic1 (W : World) (m : Bytes) :
    NestedRoutes → List Param → Caps W → Bytes → Option (Outcome W)
  | .mk (.static s) r, query, caps, bs =>
    if (bytesOf s).isPrefixOf bs then
      match bs.drop s.length with
      | [] => some (atEnd m r query caps)
      | b :: rest => if b = slash then some (route W m r query caps rest) else some .notFound
    else none
  | .mk (.dynamic _) _, _, _, _ => none
/-- Capture with the parameter child named `x`. -/
def routeParam (W : World) (m : Bytes) (x : Str) :
    List NestedRoutes → List Param → Caps W → Bytes → Outcome W
  | [], _, _, _ => .notFound
  | n :: ns, query, caps, bs =>
    match routeParam1 W m x n query caps bs with
    | some o => o
    | none => routeParam W m x ns query caps bs
/-- A parameter takes everything up to the next `/`; it must be UTF-8 (else the call panics) and
parse as the declared type (else the call returns the error). -/
def routeParam1 (W : World) (m : Bytes) (x : Str) :
    NestedRoutes → List Param → Caps W → Bytes → Option (Outcome W)
  | .mk (.static _) _, _, _, _ => none
  | .mk (.dynamic p) r, query, caps, bs =>
    if p.name = x then
      match fromUtf8 (bs.takeWhile (· ≠ slash)) with
      | none => some .panic
      | some text =>
        match W.parse p.typ text with
        | .error e => some (.err p.name e)
        | .ok v =>
          match bs.dropWhile (· ≠ slash) with
          | [] => some (atEnd m r query (caps ++ [(p, v)]))
          | _ :: rest => some (route W m r query (caps ++ [(p, v)]) rest)
    else none
end

/-- The reference router: one leading `/` is dropped. -/
def referenceRouter (W : World) (r : Routes) (path m : Bytes) : Outcome W :=
  route W m r [] [] (if path.take 1 = [slash] then path.drop 1 else path)

end Wayfinder
