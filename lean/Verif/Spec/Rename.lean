import Verif.Spec.Config
import Verif.Spec.Router
/-!
# Specification vocabulary: renaming path parameters
-/

namespace Wayfinder

/-- A path segment with its parameter renamed. -/
def PathSegment.rename (f : Str → Str) : PathSegment → PathSegment
  | .static s => .static s
  | .dynamic p => .dynamic ⟨f p.name, p.typ⟩

mutual
/-- A configuration with all path parameters renamed; query parameters keep their names. -/
def Routes.rename (f : Str → Str) : Routes → Routes
  | .mk rs ns qs => .mk rs (renameL f ns) qs
/-- The children of a block with all path parameters renamed. -/
def renameL (f : Str → Str) : List NestedRoutes → List NestedRoutes
  | [] => []
  | n :: ns => n.rename f :: renameL f ns
/-- A child with all path parameters renamed. -/
def NestedRoutes.rename (f : Str → Str) : NestedRoutes → NestedRoutes
  | .mk seg r => .mk (seg.rename f) (r.rename f)
end

/-- An outcome with the names of path parameters renamed. -/
def Outcome.rename {W : World} (f : Str → Str) : Outcome W → Outcome W
  | .route v => .route { v with params := v.params.map fun x => (f x.1, x.2) }
  | .redirect v => .redirect { v with params := v.params.map fun x => (f x.1, x.2) }
  | .err p e => .err (f p) e
  | o => o

/-- The new names are fresh: not names of local variables of the generated function, and not names of
query parameters. -/
def FreshNames (f : Str → Str) (r : Routes) : Prop :=
  ∀ segs above node, HasRoute r segs above node → ∀ p, PathSegment.dynamic p ∈ segs →
    f p.name ∉ reservedNames ∧
    (∀ q ∈ above ++ node.queryParameters, f p.name ≠ q.name) ∧
    ∀ res ∈ node.resources, ∀ q ∈ res.queryParameters, f p.name ≠ q.name

/-- The renaming keeps the alphabetical order of parameters that are siblings. -/
def KeepsOrder (f : Str → Str) (r : Routes) : Prop :=
  ∀ segs above node, HasRoute r segs above node → ∀ x ∈ paramNames node.routes,
    ∀ y ∈ paramNames node.routes, x ≤ y → f x ≤ f y

end Wayfinder
