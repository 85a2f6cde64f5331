import Verif.Spec.Open
/-!
# Specification vocabulary: configurations in which no declared route is lost

Only about the tree: no texts of requests, no parsing, no generated code.
-/

namespace Wayfinder

/-- `Enters n s sub`: in the block `n`, a segment `s` of a request goes to the child `sub`: to the static one of this
text, if the block has no parameter or no other static child, or to the alphabetically first parameter,
if `s` does not begin with the only static child. -/
inductive Enters (n : Routes) (s : Str) : Routes → Prop where
  | static {sub : Routes} : NestedRoutes.mk (.static s) sub ∈ n.routes →
      (paramNames n.routes = [] ∨ staticTexts n.routes = [s]) → Enters n s sub
  | dynamic {sub : Routes} {p : Param} : NestedRoutes.mk (.dynamic p) sub ∈ n.routes → captor n.routes = some p.name →
      (∀ s', staticTexts n.routes = [s'] → ¬ s' <+: s) → Enters n s sub

/-- Some resource is declared in the block or below; `params` says whether on the way parameters are allowed. -/
def Bears (params : Bool) (t : Routes) : Prop :=
  ∃ segs above node, HasRoute t segs above node ∧ node.resources ≠ [] ∧ (params = true ∨ routeParams segs = [])

mutual
/-- `Covers params n t`: requests for the routes declared in the block `t` (if `params` is false: for those without
parameters), when they get to the block `n`, end at a block with resources.  That is so if `n` has resources if `t` has
some, if the texts of static children of `t` enter a child of `n` that covers them, and if for a parameter child of `t`
there is a parameter in `n` that covers it, and this has not exactly one static sibling. -/
def Covers (params : Bool) (n : Routes) : Routes → Prop
  | .mk resources children _ => (resources ≠ [] → n.resources ≠ []) ∧ CoversAll params n children
/-- The same for a list of children of `t`. -/
def CoversAll (params : Bool) (n : Routes) : List NestedRoutes → Prop
  | [] => True
  | c :: cs => CoversChild params n c ∧ CoversAll params n cs
/-- The same for a child of `t`. -/
def CoversChild (params : Bool) (n : Routes) : NestedRoutes → Prop
  | .mk (.static s) t => Bears params t → ∃ n', Enters n s n' ∧ Covers params n' t
  | .mk (.dynamic _) t => Bears params t → params = true →
      ∃ p n', NestedRoutes.mk (.dynamic p) n' ∈ n.routes ∧ captor n.routes = some p.name ∧
        (staticTexts n.routes).length ≠ 1 ∧ Covers params n' t
end

end Wayfinder
