import Verif.Spec.Grammar
/-!
# Specification vocabulary: pieces of route files

`wayfinder::parse` is public and `wayfinder-tests` calls the parsers for the pieces of a file.
-/

namespace Wayfinder

/-- The text does not go on with a character of names. -/
def WordEnds (cfg : ParseCfg) (rest : Str) : Prop := ∀ c, rest.head? = some c → ¬ WordChar cfg c

/-- Where a block at `level` ends: less indentation than its lines have, then something that is not blank and not a colon; or nothing but
blanks up to the end of the text. -/
def PieceEnds (level : Nat) (rest : Str) : Prop :=
  ∃ n r, rest = List.replicate n ' ' ++ r ∧ (n < 2 * level ∨ r = []) ∧ ∀ c, r.head? = some c → c ∉ [' ', '\t', '\r', '\n', ':']

/-- A text with every line moved to the right by `level`, as in `wayfinder-tests/src/lib.rs`; also the last, empty one. -/
def movedText (level : Nat) (t : Str) : Str := spaces level ++ t.flatMap fun c => if c = '\n' then '\n' :: spaces level else [c]

/-- The lines printed at `level` are indented by at most 14 blanks. -/
def ShallowAt (level : Nat) (r : Routes) : Prop :=
  ∀ segs query node, HasRoute r segs query node →
    segs.length + level ≤ 7 ∧ ∀ x ∈ node.resources, x.queryParameters ≠ [] → segs.length + level + 1 ≤ 7

end Wayfinder
