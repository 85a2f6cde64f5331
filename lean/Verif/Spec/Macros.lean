import Verif.Spec.Read
/-!
# Specification vocabulary: the words that macros take
-/

namespace Wayfinder
open Rust

/-- A word that stands for an identifier, or for a keyword, in the argument of a macro. -/
def IdentWord (x : Str) : Prop := ∃ c rest, x = c :: rest ∧ c.isDigit = false ∧ x ≠ c!"_" ∧ ∀ d ∈ x, d.toNat < 128

/-- A word that stands for a type: an identifier that is no keyword, or one of five others. -/
def TypeWord (x : Str) : Prop :=
  (IdentWord x ∧ x ∉ keywords) ∨ x = c!"_" ∨ x = c!"self" ∨ x = c!"Self" ∨ x = c!"super" ∨ x = c!"crate"

/-- The name is an identifier, and the type is a type. -/
def Param.macroOk (p : Param) : Prop := IdentWord p.name ∧ TypeWord p.typ

end Wayfinder
