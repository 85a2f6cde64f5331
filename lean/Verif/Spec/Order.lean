import Verif.Model.Core
/-!
# Specification vocabulary: the order of siblings
-/

namespace Wayfinder

/-- `Reordered r r'`: `r'` is `r` with sibling routes in another order, at any levels. -/
inductive Reordered : Routes → Routes → Prop where
  | refl (r : Routes) : Reordered r r
  | trans {r r' r'' : Routes} : Reordered r r' → Reordered r' r'' → Reordered r r''
  /-- two neighbours change places -/
  | swap (rs : List Resource) (pre : List NestedRoutes) (a b : NestedRoutes)
      (post : List NestedRoutes) (qs : List Param) :
      Reordered (.mk rs (pre ++ a :: b :: post) qs) (.mk rs (pre ++ b :: a :: post) qs)
  /-- reordering below a child -/
  | inner (rs : List Resource) (pre : List NestedRoutes) (seg : PathSegment) {sub sub' : Routes}
      (post : List NestedRoutes) (qs : List Param) : Reordered sub sub' →
      Reordered (.mk rs (pre ++ .mk seg sub :: post) qs) (.mk rs (pre ++ .mk seg sub' :: post) qs)

end Wayfinder
