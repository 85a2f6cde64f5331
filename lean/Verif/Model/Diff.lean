import Verif.Model.Rust
/-!
# Model of `/repo/wayfinder-tests/src/diff.rs` (the report of a failed golden test)

`prettydiff::text::diff_lines` is a dependency and not modelled: the model starts from its result, a
list of edit operations on lines.
-/

namespace Wayfinder.Diff

/-- `prettydiff::basic::DiffOp<&str>` (used in `diff.rs:74-81,102-150`). -/
inductive DiffOp where
  | insert (a : List Str)
  | remove (a : List Str)
  | replace (a b : List Str)
  | equal (a : List Str)
deriving DecidableEq

/-- `diff.rs:28-36` `DiffChunk`. -/
structure Chunk where
  oldName : Str
  oldLine : Nat
  oldCount : Nat
  newName : Str
  newLine : Nat
  newCount : Nat
  diff : List DiffOp
deriving DecidableEq

/-- One turn of the loop of `diff.rs:102-151`: the chunk pushed, if any, and the new line numbers. -/
def step (oldName newName : Str) (oldLine newLine : Nat) : DiffOp → Option Chunk × Nat × Nat
  | .equal a => (none, oldLine + a.length, newLine + a.length)
  | .insert a => (some ⟨oldName, oldLine, 0, newName, newLine, a.length, [.insert a]⟩, oldLine, newLine + a.length)
  | .remove a => (some ⟨oldName, oldLine, a.length, newName, newLine, 0, [.remove a]⟩, oldLine + a.length, newLine)
  | .replace a b =>
    (some ⟨oldName, oldLine, a.length, newName, newLine, b.length, [.replace a b]⟩, oldLine + a.length,
      newLine + b.length)

/-- The loop of `diff.rs:102-151`. -/
def chunksFrom (oldName newName : Str) : Nat → Nat → List DiffOp → List Chunk
  | _, _, [] => []
  | oldLine, newLine, op :: ops =>
    match step oldName newName oldLine newLine op with
    | (none, o, n) => chunksFrom oldName newName o n ops
    | (some c, o, n) => c :: chunksFrom oldName newName o n ops

/-- `diff.rs:97-154` `TestDiff::to_chunks`. -/
def toChunks (oldName newName : Str) (ops : List DiffOp) : List Chunk := chunksFrom oldName newName 1 1 ops

/-- `ansi_term::Colour::X.bold().paint(s).to_string()`: the text between the escape sequence of the style
(`1;33`, `1;31`, `1;32`) and the reset. -/
def paint (colour : Str) (s : Str) : Str :=
  Char.ofNat 27 :: (c!"[1;" ++ colour ++ c!"m" ++ s ++ Char.ofNat 27 :: c!"[0m")

/-- `[T]::join`. -/
def joined (sep : Str) : List Str → Str
  | [] => []
  | [l] => l
  | l :: ls => l ++ sep ++ joined sep ls

/-- `diff.rs:39-52` `header`. -/
def Chunk.header (c : Chunk) : Str :=
  paint c!"33" (c!"--- " ++ c.oldName ++ c!"\n+++ " ++ c.newName ++ c!"\n@@ -" ++ natStr c.oldLine ++ c!"," ++
    natStr c.oldCount ++ c!" +" ++ natStr c.newLine ++ c!"," ++ natStr c.newCount ++ c!" @@")

/-- `diff.rs:54-59` `removal`. -/
def removal (a : List Str) : Str := paint c!"31" (c!"-" ++ joined c!"\n-" a)

/-- `diff.rs:61-66` `insertion`. -/
def insertion (a : List Str) : Str := paint c!"32" (c!"+" ++ joined c!"\n+" a)

/-- `diff.rs:73-84`: one operation of a chunk. -/
def DiffOp.display : DiffOp → Str
  | .equal _ => []
  | .insert a => insertion a ++ c!"\n"
  | .remove a => removal a ++ c!"\n"
  | .replace a b => removal a ++ c!"\n" ++ insertion b ++ c!"\n"

/-- `diff.rs:69-88`: `Display` of a chunk. -/
def Chunk.display (c : Chunk) : Str := c.header ++ c!"\n" ++ (c.diff.map DiffOp.display).flatten

/-- `diff.rs:157-165`: `Display` of a diff. -/
def display (oldName newName : Str) (ops : List DiffOp) : Str :=
  ((toChunks oldName newName ops).map fun c => c.display ++ c!"\n").flatten

/-- `diff.rs:14-25` `TestResult::assert`: nothing happens, or the report is printed (with a line feed, by
`eprintln!`) and the call panics. -/
def assertSame (diffLines : Str → Str → List DiffOp) (expected actual : Str) : Option Str :=
  if expected ≠ actual then some (display c!"expected" c!"actual" (diffLines expected actual) ++ c!"\n") else none

end Wayfinder.Diff
