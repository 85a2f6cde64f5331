import Verif.Model.Basic
/-!
# Specification vocabulary: places in a text and what is printed about them
-/

namespace Wayfinder

/-- A place in a text: `above` are the complete lines before it, `left` and `right` the parts of its own
line before and after it, `below` the rest. -/
structure Place where
  above : Str
  left : Str
  right : Str
  below : Str

/-- The four parts are what they are called. -/
structure Place.Sound (p : Place) : Prop where
  above : p.above = [] ∨ ∃ s, p.above = s ++ c!"\n"
  left : '\n' ∉ p.left
  right : '\n' ∉ p.right
  below : p.below = [] ∨ ∃ s, p.below = '\n' :: s

/-- The text. -/
def Place.text (p : Place) : Str := p.above ++ p.left ++ p.right ++ p.below

/-- What follows the place. -/
def Place.rest (p : Place) : Str := p.right ++ p.below

/-- The line number, from one. -/
def Place.line (p : Place) : Nat := p.above.count '\n' + 1

/-- The number, right-aligned in four columns. -/
def lineLabel (n : Nat) : Str :=
  let d := (toString n).toList
  List.replicate (4 - d.length) ' ' ++ d

/-- The report on a place: its line number and line, and below a caret after as many blanks as there are
characters to the left, with the message. -/
def Place.report (p : Place) (msg pre : Str) : Str :=
  pre ++ lineLabel p.line ++ c!":" ++ p.left ++ p.right ++ c!"\n" ++
  pre ++ c!"     " ++ List.replicate p.left.length ' ' ++ c!"^ " ++ msg ++ c!"\n"

end Wayfinder
