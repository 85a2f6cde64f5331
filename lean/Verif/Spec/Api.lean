import Verif.Spec.Words
/-!
# Specification vocabulary: configurations that grow
-/

namespace Wayfinder

mutual
/-- Resources and children are added to blocks; nothing else changes. -/
inductive Grows : Routes → Routes → Prop where
  | mk {rs rs' : List Resource} {ns ns' : List NestedRoutes} (qs : List Param) :
      List.Sublist rs rs' → GrowsL ns ns' → Grows (.mk rs ns qs) (.mk rs' ns' qs)
/-- The same for the children of a block. -/
inductive GrowsL : List NestedRoutes → List NestedRoutes → Prop where
  | nil : GrowsL [] []
  | added {ns ns' : List NestedRoutes} (n : NestedRoutes) : GrowsL ns ns' → GrowsL ns (n :: ns')
  | kept {ns ns' : List NestedRoutes} {r r' : Routes} (seg : PathSegment) :
      Grows r r' → GrowsL ns ns' → GrowsL (.mk seg r :: ns) (.mk seg r' :: ns')
end

end Wayfinder
