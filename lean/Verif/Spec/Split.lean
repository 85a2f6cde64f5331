import Verif.Spec.Doc
import Verif.Spec.Mount
import Verif.Spec.Order
/-!
# Specification vocabulary: configurations put together by mounting
-/

namespace Wayfinder

/-- The lines of the emitted file that are not inner documentation of the module. -/
def codeOf (text : Str) : List Str := (textLines text).filter fun l => !(c!"    //!").isPrefixOf l

/-- `c` is `base` with blocks at its root, in some order among the others. -/
structure SplitInto (c base : RouteConfig) (ms : List (Str × RouteConfig)) : Prop where
  resources : c.routes.resources = base.routes.resources
  query : c.routes.queryParameters = base.routes.queryParameters
  blocks : c.routes.routes.Perm (base.routes.routes ++ ms.map fun m => .mk (.static m.1) m.2.routes)

/-- Parts that differ in the order of siblings only, mounted at the same places. -/
inductive SameParts : List (Str × RouteConfig) → List (Str × RouteConfig) → Prop where
  | nil : SameParts [] []
  | cons {x : Str} {c c' : RouteConfig} {ms ms' : List (Str × RouteConfig)} : Reordered c.routes c'.routes → SameParts ms ms' →
      SameParts ((x, c) :: ms) ((x, c') :: ms')

end Wayfinder
