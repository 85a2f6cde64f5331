import Verif.Spec.Instance
import Verif.Spec.Shape
/-!
# Specification vocabulary: paths that follow a route, and composition of answers
-/

namespace Wayfinder

/-- Every static segment is a non-empty text without `/` (as everything read from a route file). -/
def PlainTexts (r : Routes) : Prop :=
  ∀ segs query node, HasRoute r segs query node → ∀ s, PathSegment.static s ∈ segs →
    s ≠ [] ∧ '/' ∉ s

/-- `Follows W r segs above caps parts node`: the segments `parts` are an instance of the route
`segs` of `r`, which leads to `node`, and no step is taken over by a sibling:

* a static segment has no parameter sibling, or it is the only static child next to it;
* the text of a parameter is not empty and does not begin with the static sibling, if there is
  exactly one; of several parameter siblings, the alphabetically first is followed.

`caps` are the values of the parameters, `above` the query parameters of the blocks passed. -/
inductive Follows (W : World) :
    Routes → List PathSegment → List Param → Caps W → List Bytes → Routes → Prop where
  | here (r : Routes) : Follows W r [] [] [] [] r
  | static {r sub node : Routes} {s : Str} {segs : List PathSegment} {above : List Param}
      {caps : Caps W} {parts : List Bytes} :
      NestedRoutes.mk (.static s) sub ∈ r.routes →
      (paramNames r.routes = [] ∨ staticTexts r.routes = [s]) →
      Follows W sub segs above caps parts node →
      Follows W r (.static s :: segs) (r.queryParameters ++ above) caps (bytesOf s :: parts) node
  | dynamic {r sub node : Routes} {p : Param} {segs : List PathSegment} {above : List Param}
      {caps : Caps W} {parts : List Bytes} {v : W.V} {part : Bytes} {text : Str} :
      NestedRoutes.mk (.dynamic p) sub ∈ r.routes → captor r.routes = some p.name →
      part ≠ [] → slash ∉ part → (∀ s, staticTexts r.routes = [s] → ¬ bytesOf s <+: part) →
      fromUtf8 part = some text → W.parse p.typ text = .ok v →
      Follows W sub segs above caps parts node →
      Follows W r (.dynamic p :: segs) (r.queryParameters ++ above) ((p, v) :: caps) (part :: parts)
        node

/-- The answer `o` of an embedded configuration, seen from outside: the fields of the parameters
captured before it and of the query parameters declared around it come first. -/
def Outcome.under {W : World} (caps : Caps W) (query : List Param) : Outcome W → Outcome W
  | .route v => .route
      { v with params := caps.map (fun pv => (pv.1.name, .user pv.2)) ++ v.params,
               nones := query.map Param.name ++ v.nones }
  | .redirect v => .redirect
      { v with params := caps.map (fun pv => (pv.1.name, .user pv.2)) ++ v.params,
               nones := query.map Param.name ++ v.nones }
  | o => o

end Wayfinder
