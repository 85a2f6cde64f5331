/-!
# Basic conventions

Text is modelled as `List Char`; request paths and methods as `List UInt8`.
-/

namespace Wayfinder

/-- Text (`&str` / `String` in the code). -/
abbrev Str := List Char

/-- Byte strings (`&[u8]` in the code). -/
abbrev Bytes := List UInt8

open Lean in
/-- `c!"abc"` is the literal list `['a', 'b', 'c']`. -/
macro:max "c!" s:str : term => do
  let cs := s.getString.toList.map (fun c => (Syntax.mkCharLit c : TSyntax `char))
  `(([$(cs.toArray),*] : List Char))

/-- The byte a character stands for inside a `b"…"` literal (ASCII characters only). -/
def asciiByte (c : Char) : UInt8 := UInt8.ofNat c.toNat

end Wayfinder
