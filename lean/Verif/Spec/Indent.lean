import Verif.Model.Gen
import Verif.Spec.Doc
/-!
# Specification vocabulary: text that is indented as its brackets nest

Nothing here looks at how the text is made.  The reader goes through the lines with a stack; an entry of the
stack are the brackets that one line has left open.
-/

namespace Wayfinder.Layout

/-- Opening brackets. -/
def isOpen (c : Char) : Bool := c == '(' || c == '[' || c == '{'

/-- Closing brackets. -/
def isClose (c : Char) : Bool := c == ')' || c == ']' || c == '}'

/-- The closing bracket belongs to the opening one. -/
def pair (o c : Char) : Bool := (o == '(' && c == ')') || (o == '[' && c == ']') || (o == '{' && c == '}')

/-- Reads brackets: the flag says whether the text begins inside a string, `o` are the open brackets, the last
opened first.  The result is `none` if a bracket is closed that is not the last open one. -/
def brackets : Bool → Str → Str → Option (Bool × Str)
  | q, o, [] => some (q, o)
  | q, o, c :: s =>
    if c = '"' then brackets (!q) o s
    else if q then brackets q o s
    else if isOpen c then brackets q (c :: o) s
    else if isClose c then
      match o with
      | [] => none
      | d :: o => if pair d c then brackets q o s else none
    else brackets q o s

/-- The stack after the closing brackets at the beginning of a line: they close exactly what an earlier line
has left open. -/
def closeTop (k : Str) (st : List Str) : Option (List Str) :=
  if k = [] then some st
  else match st with
    | [] => none
    | o :: st => if brackets false o k = some (false, []) then some st else none

/-- The stack after the rest of a line, which must not end in a string. -/
def openTop (s : Str) (st : List Str) : Option (List Str) :=
  match brackets false [] s with
  | some (false, []) => some st
  | some (false, c :: o) => some ((c :: o) :: st)
  | _ => none

/-- One line, of `n` spaces and the text `t`: comments stand at the level of the stack, a line that begins with
a dot (it continues the line above) one level deeper, all others at the level of the stack after their leading
closing brackets. -/
def layText (n : Nat) (t : Str) (st : List Str) : Option (List Str) :=
  if t = [] then none
  else if c!"//" <+: t then (if n = 4 * st.length then some st else none)
  else
    match closeTop (t.takeWhile isClose) st with
    | none => none
    | some st' =>
      if n = 4 * (st'.length + if t.head? = some '.' then 1 else 0) then openTop (t.dropWhile isClose) st' else none

/-- One line; empty lines do not matter. -/
def layLine (l : Str) (st : List Str) : Option (List Str) :=
  if l = [] then some st
  else layText (l.takeWhile (· = ' ')).length (l.dropWhile (· = ' ')) st

/-- The lines of a text. -/
def layLines : List Str → List Str → Option (List Str)
  | [], st => some st
  | l :: ls, st =>
    match layLine l st with
    | none => none
    | some st' => layLines ls st'

/-- The text is indented as its brackets nest, four spaces for every line with brackets still open, and all
brackets are closed at the end. -/
def LaidOut (text : Str) : Prop := layLines (textLines text) [] = some []

/-- A header that can stand in such a text: one line with balanced brackets that begins with a character other
than a space, a slash, a dot or a closing bracket. -/
structure TidyHeader (h : Header) : Prop where
  line : '\n' ∉ h.text
  head : ∃ c s, h.text = c :: s ∧ c ∉ [' ', '/', '.', ')', ']', '}']
  balanced : brackets false [] h.text = some (false, [])

mutual
/-- No statements stand in the place of an arm. -/
def NoStray : Stmt → Prop
  | .ifThen _ body => NoStrays body
  | .matchPath _ arms => NoStrayArms arms
  | _ => True
/-- The same for a block. -/
def NoStrays : List Stmt → Prop
  | [] => True
  | s :: ss => NoStray s ∧ NoStrays ss
/-- The same for an arm. -/
def NoStrayArm : Arm → Prop
  | .bytes _ body => NoStrays body
  | .stray _ => False
  | _ => True
/-- The same for arms. -/
def NoStrayArms : List Arm → Prop
  | [] => True
  | a :: as => NoStrayArm a ∧ NoStrayArms as
end

end Wayfinder.Layout
