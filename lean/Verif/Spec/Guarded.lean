import Verif.Spec.Open
import Verif.Spec.Instance
/-!
# Specification vocabulary: parameters whose type keeps clear of their static sibling
-/

namespace Wayfinder

/-- `FromStr` of the type fails on all texts that begin with `s`. -/
def Rejects (W : World) (typ s : Str) : Prop := ∀ t v, W.parse typ (s ++ t) ≠ .ok v

/-- In the blocks that requests can reach, a parameter with exactly one static sibling has a type that rejects all texts that
begin like the sibling. -/
def Guarded (W : World) (r : Routes) : Prop :=
  ∀ segs above node, Open r segs above node → ∀ p sub, NestedRoutes.mk (.dynamic p) sub ∈ node.routes →
    ∀ s, staticTexts node.routes = [s] → Rejects W p.typ s

/-- Every route with resources is open. -/
def AllOpen (r : Routes) : Prop :=
  ∀ segs above node, HasRoute r segs above node → node.resources ≠ [] → Open r segs above node

end Wayfinder
