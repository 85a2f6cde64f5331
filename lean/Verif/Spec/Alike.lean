import Verif.Spec.Open
/-!
# Specification vocabulary: what can be seen of a configuration from outside

Only about the tree: no requests, no parsing, no generated code.
-/

namespace Wayfinder

/-- One line of a table of routes: requests for the route `segs` with the verb are answered with the action `name` of the module
`modules`, or a redirection to it, whose query parameters are called `query`. -/
structure Serving where
  segs : List PathSegment
  verb : Method
  redirect : Bool
  modules : List Str
  name : Str
  query : List Str
deriving DecidableEq

/-- The line of a resource on a route whose blocks have the query parameters `query`. -/
def Resource.serving (res : Resource) (segs : List PathSegment) (query : List Str) : Serving :=
  ⟨segs, res.method, res.isRedirect, res.modules, res.name, query ++ res.queryParameters.map Param.name⟩

/-- The line `x` is in the table of `r`: it is that of the first resource for its verb in a block that requests can get to.
`query` are the query parameters of blocks around `r`. -/
def Serves (r : Routes) (query : List Str) (x : Serving) : Prop :=
  ∃ above node before res after, Open r x.segs above node ∧ node.resources = before ++ res :: after ∧
    (∀ o ∈ before, o.method ≠ res.method) ∧
    x = res.serving x.segs (query ++ (above ++ node.queryParameters).map Param.name)

/-- Every block has resources or children (as everything read from a route file). -/
def Full (r : Routes) : Prop :=
  ∀ segs above node, HasRoute r segs above node → node.resources ≠ [] ∨ node.routes ≠ []

/-- The first resource for each verb. -/
def firstOf : List Method → List Resource → List Resource
  | _, [] => []
  | seen, res :: more => if res.method ∈ seen then firstOf seen more else res :: firstOf (res.method :: seen) more

mutual
/-- The table of a block, computed; `segs` leads to it. -/
def tableOf (segs : List PathSegment) (query : List Str) : Routes → List Serving
  | .mk resources children params =>
    (firstOf [] resources).map (fun res => res.serving segs (query ++ params.map Param.name)) ++
      tableOfAll (paramNames children) (staticTexts children) (captor children) segs (query ++ params.map Param.name) children
/-- The table of a list of children; the first arguments are about all children of the block. -/
def tableOfAll (ps ts : List Str) (cap : Option Str) (segs : List PathSegment) (query : List Str) : List NestedRoutes → List Serving
  | [] => []
  | n :: ns => tableOfChild ps ts cap segs query n ++ tableOfAll ps ts cap segs query ns
/-- The table of a child, if requests can get to it. -/
def tableOfChild (ps ts : List Str) (cap : Option Str) (segs : List PathSegment) (query : List Str) : NestedRoutes → List Serving
  | .mk (.static s) sub => if ps = [] ∨ ts = [s] then tableOf (segs ++ [.static s]) query sub else []
  | .mk (.dynamic p) sub => if cap = some p.name then tableOf (segs ++ [.dynamic p]) query sub else []
end

/-- The two tables have the same lines. -/
def sameTable (r r' : Routes) : Bool :=
  (tableOf [] [] r).all (fun x => x ∈ tableOf [] [] r') && (tableOf [] [] r').all (fun x => x ∈ tableOf [] [] r)

end Wayfinder
