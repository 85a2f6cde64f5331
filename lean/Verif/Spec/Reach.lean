import Verif.Spec.Follow
/-!
# Specification vocabulary: declared routes written out as paths
-/

namespace Wayfinder

/-- `Writes W r segs above caps parts node`: the route `segs` of `r`, leading to `node`, written out
with some texts for its parameters gives the segments `parts`.  The text of a parameter is not
empty, has no `/`, does not begin with the text of a static sibling, and parses. -/
inductive Writes (W : World) :
    Routes → List PathSegment → List Param → Caps W → List Bytes → Routes → Prop where
  | here (r : Routes) : Writes W r [] [] [] [] r
  | static {r sub node : Routes} {s : Str} {segs : List PathSegment} {above : List Param}
      {caps : Caps W} {parts : List Bytes} :
      NestedRoutes.mk (.static s) sub ∈ r.routes → Writes W sub segs above caps parts node →
      Writes W r (.static s :: segs) (r.queryParameters ++ above) caps (bytesOf s :: parts) node
  | dynamic {r sub node : Routes} {p : Param} {segs : List PathSegment} {above : List Param}
      {caps : Caps W} {parts : List Bytes} {v : W.V} {part : Bytes} {text : Str} :
      NestedRoutes.mk (.dynamic p) sub ∈ r.routes → part ≠ [] → slash ∉ part →
      (∀ s ∈ staticTexts r.routes, ¬ bytesOf s <+: part) →
      fromUtf8 part = some text → W.parse p.typ text = .ok v →
      Writes W sub segs above caps parts node →
      Writes W r (.dynamic p :: segs) (r.queryParameters ++ above) ((p, v) :: caps) (part :: parts)
        node

/-- A parameter has no parameter sibling and at most one static sibling. -/
def Tame (r : Routes) : Prop :=
  ∀ segs query node, HasRoute r segs query node → paramNames node.routes ≠ [] →
    (paramNames node.routes).length = 1 ∧ (staticTexts node.routes).length ≤ 1

/-- No parameter has a static sibling. -/
def Unmixed (r : Routes) : Prop :=
  ∀ segs query node, HasRoute r segs query node →
    paramNames node.routes = [] ∨ staticTexts node.routes = []

/-- The path `bs` is an instance of a declared route with resources. -/
def IsInstance (W : World) (r : Routes) (bs : Bytes) : Prop :=
  ∃ segs above node caps parts, HasRoute r segs above node ∧ node.resources ≠ [] ∧
    Fits W segs caps parts ∧ Spells parts bs

/-- A block at whose end the generated code may index past the path: no resources, a parameter
child and exactly one static child, of one character. -/
def Cliff (node : Routes) : Prop :=
  node.resources = [] ∧ paramNames node.routes ≠ [] ∧ ∃ c, staticTexts node.routes = [[c]]

/-- Some answer that is a match or `NotAllowed`. -/
def Outcome.answered {W : World} : Outcome W → Bool
  | .route _ | .redirect _ | .notAllowed => true
  | _ => false

end Wayfinder
