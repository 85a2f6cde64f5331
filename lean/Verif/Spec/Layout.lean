import Verif.Spec.Grammar
/-!
# Specification vocabulary: route files line by line

The route section of a file as a sequence of lines with levels of indentation, and a machine with one number that says which sequences
are in order.
-/

namespace Wayfinder

/-- What a line of the route section says. -/
inductive RouteLine where
  | query (p : Param)
  | resource (m : Method) (redirect : Bool) (modules : List Str) (name : Str)
  | segment (s : PathSegment)

/-- How it is written. -/
inductive LineText (cfg : ParseCfg) (level : Nat) : RouteLine → Str → Prop where
  | query {p : Param} {t : Str} : ParamText cfg p t → LineText cfg level (.query p) (spaces level ++ c!"[" ++ t ++ c!"]")
  | resource {m : Method} {b : Bool} {ms : List Str} {x v a t : Str} : VerbText m v → ArrowText b a → TargetText cfg ms x t →
      LineText cfg level (.resource m b ms x) (spaces level ++ v ++ c!" " ++ a ++ t)
  | segment {s : PathSegment} {t : Str} : SegmentText cfg s t → LineText cfg level (.segment s) (spaces level ++ t)

/-- Lines with their levels, one after the other, with any number of empty lines between them. -/
inductive LinesText (cfg : ParseCfg) : List (Nat × RouteLine) → Str → Prop where
  | nil : LinesText cfg [] []
  | cons {level : Nat} {l : RouteLine} {ls : List (Nat × RouteLine)} {t e u : Str} : LineText cfg level l t → Eols e → e ≠ [] →
      LinesText cfg ls u → LinesText cfg ((level, l) :: ls) (t ++ e ++ u)

/-- Where a reader is: in a block of the given level without resources and children so far, or in one whose last line was a resource or a
query parameter of it. -/
inductive Spot where
  | fresh (level : Nat)
  | filled (level : Nat)

/-- What may come next.  `base` is the level of the outermost block. -/
def Spot.next (base : Nat) : Spot → Nat × RouteLine → Option Spot
  | .fresh k, (j, .query _) => if j = k then some (.fresh k) else none
  | .fresh k, (j, .resource ..) => if j = k then some (.filled k) else none
  | .fresh k, (j, .segment _) => if j = k then some (.fresh (k + 1)) else none
  | .filled k, (j, .query _) => if j = k + 1 then some (.filled k) else none
  | .filled k, (j, .resource ..) => if j = k then some (.filled k) else none
  | .filled k, (j, .segment _) => if base ≤ j ∧ j ≤ k then some (.fresh (j + 1)) else none

/-- The lines can be read from here, and the last block is not left without a resource. -/
def Spot.accepts (base : Nat) : Spot → List (Nat × RouteLine) → Prop
  | .fresh _, [] => False
  | .filled _, [] => True
  | s, l :: ls => ∃ s', s.next base l = some s' ∧ s'.accepts base ls

/-- The lines of a resource. -/
def Resource.lines (level : Nat) (x : Resource) : List (Nat × RouteLine) :=
  (level, .resource x.method x.isRedirect x.modules x.name) :: x.queryParameters.map fun p => (level + 1, .query p)

mutual
/-- The lines of a block: its query parameters, its resources, its children. -/
def Routes.lines : Routes → Nat → List (Nat × RouteLine)
  | .mk rs ns qs, level => qs.map (fun p => (level, .query p)) ++ rs.flatMap (Resource.lines level) ++ childLines ns level
/-- The lines of children. -/
def childLines : List NestedRoutes → Nat → List (Nat × RouteLine)
  | [], _ => []
  | n :: ns, level => n.lines level ++ childLines ns level
/-- The lines of a child. -/
def NestedRoutes.lines : NestedRoutes → Nat → List (Nat × RouteLine)
  | .mk s r, level => (level, .segment s) :: r.lines (level + 1)
end

/-- The place in "query parameters, resources, and nested routes". -/
def RouteLine.rank : RouteLine → Nat
  | .query _ => 0
  | .resource .. => 1
  | .segment _ => 2

/-- A line of a file without its line ending. -/
def OneLine (x : Str) : Prop := ∀ c ∈ x, c ≠ '\n' ∧ c ≠ '\r'

end Wayfinder
