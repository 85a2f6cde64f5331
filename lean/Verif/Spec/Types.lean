import Verif.Spec.Words
/-!
# Specification vocabulary: the types of path parameters in the emitted file

The statement that captures a parameter does not name its type: rustc takes it from the declared fields
for which the variable is used.  These are the fields of the struct of an action, also for a redirect, so
the type that the configuration gives to the parameter of a redirect is not in the file.
-/

namespace Wayfinder

/-- A choice of types for the path parameters of a configuration, by the segments in front of the parameter. -/
abbrev Typing := List PathSegment → Param → Str

/-- A segment behind `pre` with the chosen type. -/
def PathSegment.retype (τ : Typing) (pre : List PathSegment) : PathSegment → PathSegment
  | .static s => .static s
  | .dynamic p => .dynamic ⟨p.name, τ pre p⟩

/-- The segments of a route, behind `pre`, with the chosen types. -/
def retypeSegs (τ : Typing) : List PathSegment → List PathSegment → List PathSegment
  | _, [] => []
  | pre, s :: segs => s.retype τ pre :: retypeSegs τ (pre ++ [s]) segs

mutual
/-- The block behind `pre` with the chosen types. -/
def retypeRoutes (τ : Typing) (pre : List PathSegment) : Routes → Routes
  | .mk rs ns qs => .mk rs (retypeNesteds τ pre ns) qs
/-- Its children with the chosen types. -/
def retypeNesteds (τ : Typing) (pre : List PathSegment) : List NestedRoutes → List NestedRoutes
  | [] => []
  | n :: ns => retypeNested τ pre n :: retypeNesteds τ pre ns
/-- A child with the chosen types. -/
def retypeNested (τ : Typing) (pre : List PathSegment) : NestedRoutes → NestedRoutes
  | .mk seg r => .mk (seg.retype τ pre) (retypeRoutes τ (pre ++ [seg]) r)
end

/-- A configuration with the chosen types of path parameters. -/
def Routes.retype (r : Routes) (τ : Typing) : Routes := retypeRoutes τ [] r

namespace Rust

/-- The struct that is returned for a resource has a field `x` of type `t` for a path parameter. -/
def FieldType (r : Routes) (res : Resource) (x t : Str) : Prop :=
  ∃ mods name params query, Action r mods name params query ∧ SameName mods name res.modules res.name ∧
    ⟨x, t⟩ ∈ params

/-- The chosen types are those of the fields for which the parameters are used. -/
def Typed (r : Routes) (τ : Typing) : Prop :=
  ∀ segs query res, Emitted r segs query res → ∀ p ∈ routeParams (retypeSegs τ [] segs),
    ∀ t, FieldType r res p.name t → p.typ = t

/-- All structs that are returned behind a parameter have the same type for it. -/
def OneType (r : Routes) : Prop :=
  ∀ pre p segs query res segs' query' res' t t', Emitted r (pre ++ .dynamic p :: segs) query res →
    Emitted r (pre ++ .dynamic p :: segs') query' res' → FieldType r res p.name t → FieldType r res' p.name t' → t = t'

/-- A parameter named `start`, with a further parameter somewhere behind it, has the same type on the route of a redirect
and in the action that the redirect names. -/
def StartTypes (r : Routes) : Prop :=
  ∀ pre p segs query res, Emitted r (pre ++ .dynamic p :: segs) query res → res.isRedirect = true → p.name = c!"start" →
    (∃ segs' query' node', LiveRoute r (pre ++ .dynamic p :: segs') query' node' ∧ routeParams segs' ≠ []) →
    ∀ t, FieldType r res p.name t → t = p.typ

end Rust

end Wayfinder
