import Verif.Spec.Layout
import Verif.Spec.Edit
/-!
# Specification vocabulary: lines that are inserted into a route file
-/

namespace Wayfinder

/-- The level of the block that a reader is in behind these lines: one more than the level of the last segment. -/
def blockLevel : Nat → List (Nat × RouteLine) → Nat
  | k, [] => k
  | _, (j, .segment _) :: ls => blockLevel (j + 1) ls
  | k, (_, .query _) :: ls => blockLevel k ls
  | k, (_, .resource ..) :: ls => blockLevel k ls

/-- The segments above a reader, with their levels: each line of a segment ends those of its level and deeper ones. -/
def trail : List (Nat × PathSegment) → List (Nat × RouteLine) → List (Nat × PathSegment)
  | acc, [] => acc
  | acc, (j, .segment s) :: ls => trail (acc.filter (fun x => decide (x.1 < j)) ++ [(j, s)]) ls
  | acc, (_, .query _) :: ls => trail acc ls
  | acc, (_, .resource ..) :: ls => trail acc ls

/-- The route of the block of level `k` that a reader is in behind these lines. -/
def routeBehind (k : Nat) (ls : List (Nat × RouteLine)) : List PathSegment :=
  ((trail [] ls).filter (fun x => decide (x.1 < k))).map Prod.snd

/-- The next line, if there is one, is a segment of level `k` or lower. -/
def SegmentNext (k : Nat) (ls : List (Nat × RouteLine)) : Prop := ls = [] ∨ ∃ j s more, ls = (j, .segment s) :: more ∧ j ≤ k

/-- The next line, if there is one, is a resource of level `k`, or a segment of level `k` or lower. -/
def ResourceNext (k : Nat) (ls : List (Nat × RouteLine)) : Prop :=
  SegmentNext k ls ∨ ∃ m b ms x more, ls = (k, .resource m b ms x) :: more

end Wayfinder
