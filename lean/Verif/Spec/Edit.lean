import Verif.Spec.Exact
/-!
# Specification vocabulary: edits of a configuration
-/

namespace Wayfinder

/-- `Edited r segs old new r'`: `r'` is `r` with the block `old` on the route `segs` replaced by `new`. -/
inductive Edited : Routes → List PathSegment → Routes → Routes → Routes → Prop where
  | here (old new : Routes) : Edited old [] old new new
  | child {rs : List Resource} {before after : List NestedRoutes} {qs : List Param} {seg : PathSegment} {sub sub' old new : Routes}
      {segs : List PathSegment} : Edited sub segs old new sub' →
      Edited (.mk rs (before ++ .mk seg sub :: after) qs) (seg :: segs) old new (.mk rs (before ++ .mk seg sub' :: after) qs)

/-- `ComesBy W r segs above caps path node rest`: the request follows the route `segs` to the block `node`, where `rest` is left
of its path. -/
def ComesBy (W : World) (r : Routes) (segs : List PathSegment) (above : List Param) (caps : Caps W) (path : Bytes) (node : Routes)
    (rest : List Bytes) : Prop :=
  Arrives W r segs above caps (cut (stripSlash path)) node rest

/-- `new` is `old` with the resource `x` added somewhere. -/
inductive AddsResource (x : Resource) : Routes → Routes → Prop where
  | mk (before after : List Resource) (ns : List NestedRoutes) (qs : List Param) :
      AddsResource x (.mk (before ++ after) ns qs) (.mk (before ++ x :: after) ns qs)

/-- `new` is `old` with the child `n` added somewhere. -/
inductive AddsChild (n : NestedRoutes) : Routes → Routes → Prop where
  | mk (rs : List Resource) (before after : List NestedRoutes) (qs : List Param) :
      AddsChild n (.mk rs (before ++ after) qs) (.mk rs (before ++ n :: after) qs)

end Wayfinder
