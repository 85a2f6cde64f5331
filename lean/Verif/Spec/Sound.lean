import Verif.Model.Rust
import Mathlib.Data.List.Forall2
/-!
# Types and values

What it means that a value has a type, and that the value in the answer of `match_route` has the types declared for its
fields.
-/

namespace Wayfinder

/-- `FromStr` for `usize` gives integers. -/
def World.Sound (W : World) : Prop := ∀ text v, W.parse c!"usize" text = .ok v → (W.asUsize v).isSome

/-- The value is of type `t`: it was parsed as `t`, or it is an index and `t` is `usize`. -/
def HasType (W : World) (t : Str) : Val W → Prop
  | .user v => ∃ text, W.parse t text = .ok v
  | .usize _ => t = c!"usize"
  | .str _ => False

/-- The fields have the names and types of the parameters, in the same order. -/
def FieldsOf (W : World) (ps : List Param) (fields : List (Str × Val W)) : Prop :=
  List.Forall₂ (fun p f => f.1 = p.name ∧ HasType W p.typ f.2) ps fields

end Wayfinder
