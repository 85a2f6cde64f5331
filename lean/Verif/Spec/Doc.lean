import Verif.Model.Core
/-!
# Specification vocabulary: the documentation in the emitted file
-/

namespace Wayfinder

/-- The lines of a text; what follows the last newline is a line too. -/
def textLines : Str → List Str
  | [] => [[]]
  | c :: s => if c = '\n' then [] :: textLines s
    else match textLines s with
      | [] => [[c]]
      | l :: ls => (c :: l) :: ls

/-- The text of a line of inner documentation of the module `routes`. -/
def docLine (l : Str) : Option Str := if c!"    //! " <+: l then some (l.drop 8) else none

/-- The documentation lines up to the end of a code block. -/
def codeBlock : List Str → Option Str
  | [] => none
  | l :: ls => if l = c!"    //! ```" then some []
    else match docLine l, codeBlock ls with
      | some t, some u => some (t ++ '\n' :: u)
      | _, _ => none

/-- The text of the first code block marked `ignore` in the documentation of the module. -/
def shownConfig (text : Str) : Option Str :=
  match (textLines text).dropWhile (fun l => l ≠ c!"    //! ```ignore") with
  | [] => none
  | _ :: ls => codeBlock ls

/-- A route as the documentation of a struct shows it: `/people/{id}`; the root is `/`. -/
def shownRoute : List PathSegment → Str
  | [] => c!"/"
  | segs => segs.flatMap fun
    | .static s => '/' :: s
    | .dynamic p => c!"/{" ++ p.name ++ c!"}"

/-- The documentation line of a struct, the attribute and the head of its declaration, at a given depth. -/
def documentedStruct (depth : Nat) (method : Method) (segs : List PathSegment) (struct : Str) : Str :=
  List.replicate (4 * depth) ' ' ++ c!"/// Renders for `" ++ method.display ++ c!" " ++ shownRoute segs ++ c!"`.\n"
  ++ List.replicate (4 * depth) ' ' ++ c!"#[derive(Debug, PartialEq, Eq)]\n"
  ++ List.replicate (4 * depth) ' ' ++ c!"pub struct " ++ struct

end Wayfinder
