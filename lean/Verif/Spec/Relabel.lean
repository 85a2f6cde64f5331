import Verif.Spec.Shape
/-!
# Specification vocabulary: other labels

What is written behind a verb (the action, its module, its query parameters, the arrow of a redirect) and the query parameters of a block
are exchanged; paths, path parameters and verbs are not.
-/

namespace Wayfinder

/-- An exchange of labels: a resource becomes one for the same verb, a query parameter of a block becomes any number of them. -/
structure Labels where
  res : Resource → Resource
  query : Param → List Param
  verb : ∀ x, (res x).method = x.method

mutual
/-- A configuration with other labels. -/
def Routes.relabel (L : Labels) : Routes → Routes
  | .mk rs ns qs => .mk (rs.map L.res) (relabelL L ns) (qs.flatMap L.query)
/-- The children of a block with other labels. -/
def relabelL (L : Labels) : List NestedRoutes → List NestedRoutes
  | [] => []
  | n :: ns => n.relabel L :: relabelL L ns
/-- A child with other labels. -/
def NestedRoutes.relabel (L : Labels) : NestedRoutes → NestedRoutes
  | .mk seg r => .mk seg (r.relabel L)
end

/-- What a router finds out about a request, before labels are looked at. -/
inductive Verdict (W : World) where
  | notFound
  | notAllowed
  | err (param : Str) (what : W.E)
  | panic
  /-- the resource, the query parameters in scope and the values of the path parameters -/
  | found (res : Resource) (query : List Param) (caps : List (Param × W.V))

/-- The answer to a request. -/
def Verdict.outcome {W : World} : Verdict W → Outcome W
  | .notFound => .notFound
  | .notAllowed => .notAllowed
  | .err x e => .err x e
  | .panic => .panic
  | .found res query caps =>
    let v : RouteVal W :=
      { modules := res.modules, name := res.name, params := caps.map fun pv => (pv.1.name, .user pv.2),
        nones := query.map Param.name ++ res.queryParameters.map Param.name }
    if res.isRedirect then .redirect v else .route v

/-- The same with other labels. -/
def Verdict.relabel {W : World} (L : Labels) : Verdict W → Verdict W
  | .found res query caps => .found (L.res res) (query.flatMap L.query) caps
  | d => d

end Wayfinder
