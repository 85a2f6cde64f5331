import Verif.Model.Core
/-!
# Specification vocabulary about configurations

Small, independent notions used to state properties: which resources a configuration declares and
where, and when its siblings are distinct.
-/

namespace Wayfinder

/-- Two segments occupy the same slot: the same static text or the same parameter name. -/
def SameSlot : PathSegment → PathSegment → Prop
  | .static a, .static b => a = b
  | .dynamic p, .dynamic q => p.name = q.name
  | _, _ => False

instance : DecidableRel SameSlot := fun a b => by
  cases a <;> cases b <;> simp only [SameSlot] <;> infer_instance

/-- `HasRoute r segs query node`: following the segments `segs` from `r` leads to the block `node`;
`query` are the query parameters declared by the blocks passed on the way, `node` excluded. -/
inductive HasRoute : Routes → List PathSegment → List Param → Routes → Prop where
  | here (r : Routes) : HasRoute r [] [] r
  | child {r node : Routes} {seg : PathSegment} {sub : Routes} {segs : List PathSegment}
      {query : List Param} :
      NestedRoutes.mk seg sub ∈ r.routes → HasRoute sub segs query node →
      HasRoute r (seg :: segs) (r.queryParameters ++ query) node

/-- `Declares r segs query res`: the configuration `r` declares the resource `res` on the route
with segments `segs`; `query` are the query parameters of all enclosing blocks, outermost first. -/
def Declares (r : Routes) (segs : List PathSegment) (query : List Param) (res : Resource) : Prop :=
  ∃ node above, HasRoute r segs above node ∧ res ∈ node.resources ∧
    query = above ++ node.queryParameters

/-- No block of the configuration has two children in the same slot. -/
def DistinctSiblings (r : Routes) : Prop :=
  ∀ segs query node, HasRoute r segs query node →
    node.routes.Pairwise fun a b => ¬ SameSlot a.pathSegment b.pathSegment

/-- The names of the local variables of a generated `match_route`. -/
def reservedNames : List Str := [c!"i", c!"len", c!"path", c!"method", c!"start", c!"text"]

end Wayfinder
