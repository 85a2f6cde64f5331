import Verif.Spec.Reach
import Verif.Spec.Rename
/-!
# Specification vocabulary: routes that some request can follow
-/

namespace Wayfinder

/-- `Open r segs above node`: a route of the configuration on which no step is always taken over by a sibling: a static
segment has no parameter sibling, or no other static one; of several parameter siblings, the alphabetically first is
followed. -/
inductive Open : Routes → List PathSegment → List Param → Routes → Prop where
  | here (r : Routes) : Open r [] [] r
  | static {r sub node : Routes} {s : Str} {segs : List PathSegment} {above : List Param} :
      NestedRoutes.mk (.static s) sub ∈ r.routes →
      (paramNames r.routes = [] ∨ staticTexts r.routes = [s]) →
      Open sub segs above node →
      Open r (.static s :: segs) (r.queryParameters ++ above) node
  | dynamic {r sub node : Routes} {p : Param} {segs : List PathSegment} {above : List Param} :
      NestedRoutes.mk (.dynamic p) sub ∈ r.routes → captor r.routes = some p.name →
      Open sub segs above node →
      Open r (.dynamic p :: segs) (r.queryParameters ++ above) node

/-- `Wide r segs above node`: an open route on which no parameter has exactly one static sibling, so that no text is
withheld from it. -/
inductive Wide : Routes → List PathSegment → List Param → Routes → Prop where
  | here (r : Routes) : Wide r [] [] r
  | static {r sub node : Routes} {s : Str} {segs : List PathSegment} {above : List Param} :
      NestedRoutes.mk (.static s) sub ∈ r.routes →
      (paramNames r.routes = [] ∨ staticTexts r.routes = [s]) →
      Wide sub segs above node →
      Wide r (.static s :: segs) (r.queryParameters ++ above) node
  | dynamic {r sub node : Routes} {p : Param} {segs : List PathSegment} {above : List Param} :
      NestedRoutes.mk (.dynamic p) sub ∈ r.routes → captor r.routes = some p.name →
      (staticTexts r.routes).length ≠ 1 →
      Wide sub segs above node →
      Wide r (.dynamic p :: segs) (r.queryParameters ++ above) node

/-- The renaming keeps the parameter that captures, in every block that a request can reach. -/
def KeepsCaptor (f : Str → Str) (r : Routes) : Prop :=
  ∀ segs above node, Open r segs above node → captor (node.rename f).routes = (captor node.routes).map f

/-- All static segments are ASCII (the generator does not work with others, but only those on live routes reach it). -/
def AsciiTexts (r : Routes) : Prop :=
  ∀ segs above node, HasRoute r segs above node → ∀ s ∈ staticTexts node.routes, ∀ c ∈ s, c.toNat < 128

end Wayfinder
