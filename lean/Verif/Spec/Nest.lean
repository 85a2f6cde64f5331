import Verif.Model.Gen
import Verif.Spec.Doc
/-!
# Specification vocabulary: how far to the right the lines of a text begin, and how crowded a configuration is
-/

namespace Wayfinder

/-- The number of spaces at the beginning of a line. -/
def margin (l : Str) : Nat := (l.takeWhile (· = ' ')).length

mutual
/-- The number of siblings one meets on the way to a route, for the route where it is greatest: of every block on
the way the number of children besides the one that is entered. -/
def Routes.crowd : Routes → Nat
  | .mk _ ns _ => (ns.length - 1) + nestedCrowd ns
/-- The same below the children in a list. -/
def nestedCrowd : List NestedRoutes → Nat
  | [] => 0
  | n :: ns => max n.crowd (nestedCrowd ns)
/-- The same below a child. -/
def NestedRoutes.crowd : NestedRoutes → Nat
  | .mk _ r => r.crowd
end

end Wayfinder
