import Verif.Model.Diff
/-!
# What a report has to say

A report is a list of hunks.  Each names a place in the old and in the new text, by line number from 1
and number of lines, the lines removed there and the lines put in their place.
-/

namespace Wayfinder.Diff

/-- The lines of the old text an operation covers. -/
def DiffOp.old : DiffOp → List Str
  | .insert _ => []
  | .remove a => a
  | .replace a _ => a
  | .equal a => a

/-- The lines of the new text an operation covers. -/
def DiffOp.new : DiffOp → List Str
  | .insert a => a
  | .remove _ => []
  | .replace _ b => b
  | .equal a => a

/-- The operations lead from the lines `old` to the lines `new` (what `diff_lines` promises). -/
def Script (ops : List DiffOp) (old new : List Str) : Prop :=
  (ops.map DiffOp.old).flatten = old ∧ (ops.map DiffOp.new).flatten = new

/-- Apply hunks to the lines `rest` of the old text, of which the first has number `o`, when the next line
written has number `n`.  `none` if a hunk lies behind the place reached, if its place in the new text is
not where its lines come to stand, if a number of lines is wrong, or if the lines to be removed are not
there. -/
def patch : Nat → Nat → List Str → List Chunk → Option (List Str)
  | _, _, rest, [] => some rest
  | o, n, rest, c :: cs =>
    let removed := (c.diff.map DiffOp.old).flatten
    let added := (c.diff.map DiffOp.new).flatten
    if o ≤ c.oldLine ∧ n + (c.oldLine - o) = c.newLine ∧ c.oldCount = removed.length ∧
        c.newCount = added.length ∧ removed <+: rest.drop (c.oldLine - o) then
      (patch (c.oldLine + c.oldCount) (c.newLine + c.newCount) (rest.drop (c.oldLine - o + c.oldCount)) cs).map
        fun out => rest.take (c.oldLine - o) ++ added ++ out
    else none

/-- The operation with the two texts exchanged. -/
def DiffOp.swap : DiffOp → DiffOp
  | .insert a => .remove a
  | .remove a => .insert a
  | .replace a b => .replace b a
  | .equal a => .equal a

/-- The hunk with the two texts exchanged. -/
def Chunk.swap (c : Chunk) : Chunk :=
  ⟨c.newName, c.newLine, c.newCount, c.oldName, c.oldLine, c.oldCount, c.diff.map DiffOp.swap⟩

/-- The escape character. -/
def esc : Char := Char.ofNat 27

/-- The text without its colours: everything from an escape character to the next `m` is left out. -/
def plainFrom : Bool → Str → Str
  | _, [] => []
  | true, ch :: s => if ch = 'm' then plainFrom false s else plainFrom true s
  | false, ch :: s => if ch = esc then plainFrom true s else ch :: plainFrom false s

/-- The lines of a hunk in a report. -/
def Chunk.lines (c : Chunk) : List Str :=
  [c!"--- " ++ c.oldName, c!"+++ " ++ c.newName,
    c!"@@ -" ++ natStr c.oldLine ++ c!"," ++ natStr c.oldCount ++ c!" +" ++ natStr c.newLine ++ c!"," ++
      natStr c.newCount ++ c!" @@"] ++
    ((c.diff.map DiffOp.old).flatten.map (c!"-" ++ ·)) ++ ((c.diff.map DiffOp.new).flatten.map (c!"+" ++ ·)) ++ [[]]

end Wayfinder.Diff
