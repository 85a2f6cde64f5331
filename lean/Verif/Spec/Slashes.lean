import Verif.Model.Core
/-!
# Specification vocabulary: blocks inside each other
-/

namespace Wayfinder

/-- Blocks inside each other, with nothing but the next one in each, and `r` inside the last one. -/
def nested : List Str → Routes → Routes
  | [], r => r
  | s :: more, r => .mk [] [.mk (.static s) (nested more r)] []

/-- The texts with slashes between them. -/
def slashed (s : Str) : List Str → Str
  | [] => s
  | t :: more => s ++ '/' :: slashed t more

end Wayfinder
