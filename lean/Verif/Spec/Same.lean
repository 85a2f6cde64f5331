import Verif.Model.Derive
/-!
# Specification vocabulary: results of `match_route` that are the same
-/

namespace Wayfinder
open Rust

/-- Two routes are the same, up to `R` on the values of parameters: the same action in the same modules, and values for
the same parameters. -/
structure SameValue {W : World} (R : W.V → W.V → Prop) (v v' : RouteVal W) : Prop where
  modules : v.modules = v'.modules
  name : v.name = v'.name
  there : ∀ x a, (x, Val.user a) ∈ v.params → ∃ b, (x, Val.user b) ∈ v'.params ∧ R a b
  back : ∀ x b, (x, Val.user b) ∈ v'.params → ∃ a, (x, Val.user a) ∈ v.params ∧ R a b

/-- Two results of `match_route` are the same, up to `R` on the values of parameters and `E` on parse errors. -/
inductive Outcome.Same {W : World} (R : W.V → W.V → Prop) (E : W.E → W.E → Prop) : Outcome W → Outcome W → Prop where
  | notFound : Outcome.Same R E .notFound .notFound
  | notAllowed : Outcome.Same R E .notAllowed .notAllowed
  | route {v v'} : SameValue R v v' → Outcome.Same R E (.route v) (.route v')
  | redirect {v v'} : SameValue R v v' → Outcome.Same R E (.redirect v) (.redirect v')
  | err {x e e'} : E e e' → Outcome.Same R E (.err x e) (.err x e')

/-- The `Debug` text of a value shows which value of its type it is, and where it ends, if a comma or a blank follows (as in the
text of a struct).  So it is for integers, and for strings, which are quoted. -/
def Printer.Delimits {W : World} (pr : Printer W) : Prop :=
  ∀ typ t t' v v' s s', W.parse typ t = .ok v → W.parse typ t' = .ok v' → (s.head? = some ',' ∨ s.head? = some ' ') →
    (s'.head? = some ',' ∨ s'.head? = some ' ') → pr.debug v ++ s = pr.debug v' ++ s' → v = v'

end Wayfinder
