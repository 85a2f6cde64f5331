import Verif.Spec.Reach
/-!
# Specification vocabulary: the exact answer to every request

A request path is cut at its slashes and its pieces are consumed step by step.  At most one step is possible
in every situation (`Arrives` is a relation, but no choice is ever left; see `Props/Exact.lean`).
-/

namespace Wayfinder

/-- The path cut at every `/`; a path without `/` is one piece, and `a/` has two, the second empty. -/
def cut : Bytes → List Bytes
  | [] => [[]]
  | b :: bs => if b = slash then [] :: cut bs
    else match cut bs with
      | [] => [[b]]
      | p :: ps => (b :: p) :: ps

/-- In the block `r`, the parameter child `p` (with the block `sub`) takes the piece `part`, behind which come
the pieces `more`:

* of several parameter siblings it is the alphabetically first;
* if there is exactly one static sibling, `part` does not begin with its text;
* if the path ends with the `/` before an empty `part`, then the block has no resources (otherwise it answers
  itself), and it is not one where the generated code fails. -/
structure Takes (r : Routes) (p : Param) (sub : Routes) (part : Bytes) (more : List Bytes) : Prop where
  child : NestedRoutes.mk (.dynamic p) sub ∈ r.routes
  first : captor r.routes = some p.name
  free : ∀ s, staticTexts r.routes = [s] → ¬ bytesOf s <+: part
  goes : part = [] → more = [] → r.resources = [] ∧ ∀ c, staticTexts r.routes ≠ [[c]]

/-- `Arrives W r segs above caps pieces node rest`: from `r`, the pieces of a path lead along the route `segs` to
the block `node`, where the pieces `rest` are left.  A static child is entered if it is equal to the piece
and has no parameter sibling, or no static one; a parameter child if it takes the piece and its text parses.

`caps` are the values of the parameters, `above` the query parameters of the blocks passed. -/
inductive Arrives (W : World) :
    Routes → List PathSegment → List Param → Caps W → List Bytes → Routes → List Bytes → Prop where
  | here (r : Routes) (pieces : List Bytes) : Arrives W r [] [] [] pieces r pieces
  | static {r sub node : Routes} {s : Str} {segs : List PathSegment} {above : List Param}
      {caps : Caps W} {pieces rest : List Bytes} :
      NestedRoutes.mk (.static s) sub ∈ r.routes →
      (paramNames r.routes = [] ∨ staticTexts r.routes = [s]) →
      Arrives W sub segs above caps pieces node rest →
      Arrives W r (.static s :: segs) (r.queryParameters ++ above) caps (bytesOf s :: pieces) node rest
  | dynamic {r sub node : Routes} {p : Param} {segs : List PathSegment} {above : List Param}
      {caps : Caps W} {part : Bytes} {pieces rest : List Bytes} {v : W.V} {text : Str} :
      Takes r p sub part pieces → fromUtf8 part = some text → W.parse p.typ text = .ok v →
      Arrives W sub segs above caps pieces node rest →
      Arrives W r (.dynamic p :: segs) (r.queryParameters ++ above) ((p, v) :: caps) (part :: pieces) node rest

/-- Nothing is left of the path, except possibly a trailing `/`. -/
def Finished (rest : List Bytes) : Prop := rest = [] ∨ rest = [[]]

end Wayfinder
