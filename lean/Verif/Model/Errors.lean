import Verif.Model.Gen
import Verif.Model.Nom
/-!
# Model of `/repo/wayfinder/src/parse/errors.rs`

Byte offsets into a text count UTF-8 bytes (`utf8Len`); slicing at an offset that is out of range or
inside a character panics, which is `none` here.  The writer `out` is modelled as accepting
everything (`errors.rs:104` unwraps the result of the write).
-/

namespace Wayfinder

/-! ## Registered messages -/

/-- `errors.rs:32-34` `ERRORS`. -/
abbrev Registry := List Str

/-- `errors.rs:18-23` `def_error`: the new registry and the code; `n as u32` truncates. -/
def defError (reg : Registry) (msg : Str) : Registry × Nat := (reg ++ [msg], reg.length % 2 ^ 32)

/-- `errors.rs:25-30` `get_error` (a poisoned lock is not modelled: nothing panics while holding it). -/
def getError (reg : Registry) (n : Nat) : Option Str := reg[n]?

/-- The state behind `err_str!`: the registry and, for every place in the source where the macro is
used, the code that its `lazy_static` holds once it has been evaluated. -/
structure ErrState where
  reg : Registry
  memo : Nat → Option Nat

/-- Before anything has been evaluated. -/
def ErrState.init : ErrState := ⟨[], fun _ => none⟩

/-- `errors.rs:7-16` `err_str!` at the place `site` with the message `msg`. -/
def errStr (st : ErrState) (site : Nat) (msg : Str) : ErrState × Nat :=
  match st.memo site with
  | some n => (st, n)
  | none =>
    let r := defError st.reg msg
    (⟨r.1, fun s => if s = site then some r.2 else st.memo s⟩, r.2)

/-- The `Debug` names of the error kinds that are not custom. -/
def Kind.debug : Kind → Str
  | .tag => c!"Tag"
  | .char => c!"Char"
  | .eof => c!"Eof"
  | .crlf => c!"CrLf"
  | .not => c!"Not"
  | .takeWhile1 => c!"TakeWhile1"
  | .many1 => c!"Many1"
  | .count => c!"Count"
  | .alt => c!"Alt"
  | .custom _ => c!"Custom"

/-- Decimal digits. -/
def natText (n : Nat) : Str := (Nat.toDigits 10 n)

/-- `errors.rs:73-81` `get_message` on the code of a custom error. -/
def customMessage (reg : Registry) (n : Nat) : Str :=
  match getError reg n with
  | some msg => msg
  | none => c!"Unknown error #" ++ natText n

/-- `errors.rs:73-81` `get_message`.  Custom kinds carry their message instead of the code;
`customMessage` recovers it from the code (C32). -/
def getMessage : Kind → Str
  | .custom msg => msg
  | k => k.debug

/-! ## Positions -/

/-- `&buf[0..n]`. -/
def takeBytes : Nat → Str → Option Str
  | 0, _ => some []
  | _ + 1, [] => none
  | n + 1, c :: s => if c.utf8Size ≤ n + 1 then (takeBytes (n + 1 - c.utf8Size) s).map (c :: ·) else none

/-- `&buf[n..]`. -/
def dropBytes : Nat → Str → Option Str
  | 0, s => some s
  | _ + 1, [] => none
  | n + 1, c :: s => if c.utf8Size ≤ n + 1 then dropBytes (n + 1 - c.utf8Size) s else none

/-- `&buf[a..b]`. -/
def sliceBytes (a b : Nat) (s : Str) : Option Str :=
  if a ≤ b then (dropBytes a s).bind (takeBytes (b - a)) else none

/-- `rsplitn(2, '\n')`: the second piece, if there is one. -/
def beforeLastNewline (s : Str) : Option Str :=
  match s.reverse.dropWhile (fun c => c != '\n') with
  | [] => none
  | _ :: t => some t.reverse

/-- `splitn(2, '\n').next()`: the first piece. -/
def firstLine (s : Str) : Str := s.takeWhile fun c => c != '\n'

/-- `{:>n$}`. -/
def padLeft (n : Nat) (s : Str) : Str := List.replicate (n - s.length) ' ' ++ s

/-- `errors.rs:107-109` `what_line`. -/
def whatLine (buf : Str) (pos : Nat) : Option Nat :=
  (takeBytes pos buf).map fun s => 1 + (s.filter fun c => c == '\n').length

/-- `errors.rs:83-105` `show_error`. -/
def showError (buf : Str) (pos : Nat) (msg pre : Str) : Option Str := do
  let head ← takeBytes pos buf
  let lineStart := ((beforeLastNewline head).map fun s => utf8Len s + 1).getD 0
  let line := firstLine (← dropBytes lineStart buf)
  let lineNo ← whatLine buf lineStart
  let posInLine := (← sliceBytes lineStart pos buf).length + 1
  return pre ++ padLeft 4 (natText lineNo) ++ c!":" ++ line ++ c!"\n" ++
    pre ++ c!"     " ++ padLeft posInLine c!"^" ++ c!" " ++ msg ++ c!"\n"

/-- `errors.rs:52-57`, `59-64`: one entry after the other.  `buf.len() - i.len()` overflows if the
recorded input is longer than the text. -/
def showList (buf pre : Str) : List (Str × Kind) → Option Str
  | [] => some []
  | (i, k) :: v => do
    let pos ← if utf8Len i ≤ utf8Len buf then some (utf8Len buf - utf8Len i) else none
    let a ← showError buf pos (getMessage k) pre
    let b ← showList buf pre v
    return a ++ b

/-- `errors.rs:42-71` `show_errors`: the text written, or `none` for a panic.  `dbg` is the `Debug`
form of an error context, which is printed verbatim as message. -/
def showErrors {α : Type} (dbg : Ctx → Str) (buf : Str) (r : Res α) (pre : Str) : Option Str :=
  match r with
  | .ok _ _ => some []
  | .error (.code _ k) => showError buf 0 (c!"error " ++ k.debug) pre
  | .error (.list v) => showList buf pre v.reverse
  | .failure (.list v) => showList buf pre v.reverse
  | .failure c => showError buf 0 (c!"failure " ++ dbg c) pre

end Wayfinder
