import Verif.Model.Basic
/-!
# Specification vocabulary: texts up to blank lines and line-ending style
-/

namespace Wayfinder

/-- The characters of a text, with every run of line endings (`\n` or `\r\n`) as one mark `none`. -/
def marks : Str → List (Option Char)
  | [] => []
  | '\n' :: r =>
    match marks r with
    | none :: t => none :: t
    | t => none :: t
  | '\r' :: '\n' :: r =>
    match marks r with
    | none :: t => none :: t
    | t => none :: t
  | c :: r => some c :: marks r

/-- Two texts differ only in blank lines and in the style of line endings. -/
def SameLines (i j : Str) : Prop := marks i = marks j

/-- One text arises from the other by adding or removing empty lines and by switching line endings
between `\n` and `\r\n`. -/
inductive Reline : Str → Str → Prop where
  /-- an empty line after a line -/
  | blank (a b : Str) : Reline (a ++ '\n' :: b) (a ++ '\n' :: '\n' :: b)
  /-- an empty line at the beginning -/
  | leading (b : Str) : Reline b ('\n' :: b)
  /-- a different line ending -/
  | style (a b : Str) : a.getLast? ≠ some '\r' → Reline (a ++ '\n' :: b) (a ++ '\r' :: '\n' :: b)
  | refl (i : Str) : Reline i i
  | symm {i j : Str} : Reline i j → Reline j i
  | trans {i j k : Str} : Reline i j → Reline j k → Reline i k

end Wayfinder
