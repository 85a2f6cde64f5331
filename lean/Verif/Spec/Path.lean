import Verif.Spec.Reach
import Verif.Proofs.Utf8
/-!
# Specification vocabulary: routes printed with values
-/

namespace Wayfinder

/-- No static segment contains a brace, a quote or a backslash (as everything read from a route
file). -/
def NoBraces (r : Routes) : Prop :=
  ∀ segs query node, HasRoute r segs query node → ∀ s, PathSegment.static s ∈ segs →
    '{' ∉ s ∧ '}' ∉ s ∧ '"' ∉ s ∧ '\\' ∉ s

/-- The texts of the segments of a route, with values for its parameters. -/
inductive Texts {W : World} (display : W.V → Str) : List PathSegment → Caps W → List Str → Prop where
  | nil : Texts display [] [] []
  | static {segs caps texts} (s : Str) : Texts display segs caps texts →
      Texts display (.static s :: segs) caps (s :: texts)
  | dynamic {segs caps texts} (p : Param) (v : W.V) : Texts display segs caps texts →
      Texts display (.dynamic p :: segs) ((p, v) :: caps) (display v :: texts)

/-- The segments `parts` are the texts of the route with the values `caps`, as bytes. -/
def Printed {W : World} (display : W.V → Str) (segs : List PathSegment) (caps : Caps W)
    (parts : List Bytes) : Prop :=
  ∃ texts, Texts display segs caps texts ∧ parts = texts.map utf8

end Wayfinder
