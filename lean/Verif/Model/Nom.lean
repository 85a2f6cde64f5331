import Verif.Model.Basic
/-!
# Model of the nom 4.1 combinators used by `/repo/wayfinder/src/parse/mod.rs:6-12`

nom is a dependency whose source is not available in the sandbox.  The combinators are modelled
from its documented behaviour for the input type `CompleteStr` with the feature
`verbose-errors` (`/repo/wayfinder/Cargo.toml`), see `DESIGN.md` ("Trusted base").
`CompleteStr` never yields `Incomplete`, so `complete!` is the identity.
-/

namespace Wayfinder

/-- `nom::ErrorKind`, the kinds that the grammar can produce. -/
inductive Kind where
  | tag | char | eof | crlf | not | takeWhile1 | many1 | count | alt
  | custom (msg : Str)
deriving DecidableEq, Repr

/-- `nom::Context` with verbose errors; inputs are remaining suffixes. -/
inductive Ctx where
  | code (i : Str) (k : Kind)
  | list (v : List (Str × Kind))
deriving DecidableEq, Repr

/-- `nom::IResult<CompleteStr, A>`. -/
inductive Res (α : Type) where
  | ok (rest : Str) (a : α)
  | error (c : Ctx)
  | failure (c : Ctx)
deriving DecidableEq, Repr

/-- A parser. -/
abbrev Parser (α : Type) := Str → Res α

/-- What the parser of the configuration file depends on besides the text: how
`char::is_alphanumeric` classifies non-ASCII characters, whether `alt_complete!` goes on to
the next alternative after an `Err::Failure`, and whether `return_error!` returns from the function
around it (`early`).  The last two are readings of nom 4.1's macros; every theorem holds for all of
them. -/
structure ParseCfg where
  uni : Char → Bool
  altFail : Bool
  early : Bool

/-- `do_parse!`/`preceded!`/`terminated!`/`pair!`/`delimited!`: sequencing. -/
def pBind {α β : Type} (p : Parser α) (f : α → Parser β) : Parser β := fun i =>
  match p i with
  | .ok rest a => f a rest
  | .error c => .error c
  | .failure c => .failure c

/-- Result of a `do_parse!`. -/
def pPure {α : Type} (a : α) : Parser α := fun i => .ok i a

/-- Apply a function to the result. -/
def pMap {α β : Type} (f : α → β) (p : Parser α) : Parser β := pBind p fun a => pPure (f a)

/-- `preceded!`. -/
def pPreceded {α β : Type} (p : Parser α) (q : Parser β) : Parser β := pBind p fun _ => q

/-- `terminated!`. -/
def pTerminated {α β : Type} (p : Parser α) (q : Parser β) : Parser α :=
  pBind p fun a => pBind q fun _ => pPure a

/-- `tag!`. -/
def pTag (t : Str) : Parser Str := fun i =>
  if t.isPrefixOf i then .ok (i.drop t.length) t else .error (.code i .tag)

/-- ASCII lower-casing of a character. -/
def asciiLower (c : Char) : Char :=
  if 'A' ≤ c ∧ c ≤ 'Z' then Char.ofNat (c.toNat + 32) else c

/-- `tag_no_case!` for an ASCII tag. -/
def pTagNoCase (t : Str) : Parser Str := fun i =>
  if (t.map asciiLower).isPrefixOf (i.map asciiLower) then .ok (i.drop t.length) (i.take t.length)
  else .error (.code i .tag)

/-- `char!`. -/
def pChar (c : Char) : Parser Char := fun i =>
  match i with
  | c' :: rest => if c' = c then .ok rest c else .error (.code i .char)
  | [] => .error (.code i .char)

/-- `eof!`. -/
def pEof : Parser Unit := fun i =>
  match i with
  | [] => .ok [] ()
  | _ :: _ => .error (.code i .eof)

/-- `take_while1!`. -/
def pTakeWhile1 (f : Char → Bool) : Parser Str := fun i =>
  match i.takeWhile f with
  | [] => .error (.code i .takeWhile1)
  | s => .ok (i.dropWhile f) s

/-- `line_ending`. -/
def pLineEnding : Parser Unit := fun i =>
  match i with
  | '\n' :: rest => .ok rest ()
  | '\r' :: '\n' :: rest => .ok rest ()
  | _ => .error (.code i .crlf)

/-- Not a line-ending character. -/
def notEol (c : Char) : Bool := !(c == '\n' || c == '\r')

/-- `not_line_ending`: everything up to the line ending; a carriage return which is not followed
by a line feed is an error. -/
def pNotLineEnding : Parser Str := fun i =>
  match i.dropWhile notEol with
  | [] => .ok [] i
  | '\n' :: rest => .ok ('\n' :: rest) (i.takeWhile notEol)
  | '\r' :: '\n' :: rest => .ok ('\r' :: '\n' :: rest) (i.takeWhile notEol)
  | _ => .error (.code i .tag)

/-- `not!`. -/
def pNot {α : Type} (p : Parser α) : Parser Unit := fun i =>
  match p i with
  | .ok _ _ => .error (.code i .not)
  | .error _ => .ok i ()
  | .failure c => .failure c

/-- `recognize!`: the consumed text. -/
def pRecognize {α : Type} (p : Parser α) : Parser Str := fun i =>
  match p i with
  | .ok rest _ => .ok rest (i.take (i.length - rest.length))
  | .error c => .error c
  | .failure c => .failure c

/-- Loop of `many0!`; `fuel` bounds the number of turns (`many0` gives it one per character). -/
def many0Loop {α : Type} (p : Parser α) : Nat → Str → List α → Res (List α)
  | 0, i, acc => .ok i acc
  | fuel + 1, i, acc =>
    match p i with
    | .error _ => .ok i acc
    | .failure c => .failure c
    | .ok rest a =>
      -- no progress: stop (`CompleteStr` is always at the end of its input)
      if rest = i then .ok i acc else many0Loop p fuel rest (acc ++ [a])

/-- `many0!`. -/
def pMany0 {α : Type} (p : Parser α) : Parser (List α) := fun i =>
  many0Loop p (i.length + 1) i []

/-- `many1!`: the first element is required; after that as `many0!`. -/
def pMany1 {α : Type} (p : Parser α) : Parser (List α) := fun i =>
  match p i with
  | .error _ => .error (.code i .many1)
  | .failure _ => .failure (.code i .many1)
  | .ok rest a => many0Loop p (rest.length + 1) rest [a]

/-- Loop of `count!`. -/
def countLoop {α : Type} (p : Parser α) (start : Str) : Nat → Str → List α → Res (List α)
  | 0, i, acc => .ok i acc
  | n + 1, i, acc =>
    match p i with
    | .ok rest a => countLoop p start n rest (acc ++ [a])
    | .error _ => .error (.code start .count)
    | .failure c => .failure c

/-- `count!`. -/
def pCount {α : Type} (p : Parser α) (n : Nat) : Parser (List α) := fun i => countLoop p i n i []

/-- `return_error!`: every error becomes a failure that records this position. -/
def pReturnError {α : Type} (k : Kind) (p : Parser α) : Parser α := fun i =>
  match p i with
  | .ok rest a => .ok rest a
  | .error (.code j k') => .failure (.list [(j, k'), (i, k)])
  | .error (.list v) => .failure (.list (v ++ [(i, k)]))
  | .failure (.code j k') => .failure (.list [(j, k'), (i, k)])
  | .failure (.list v) => .failure (.list (v ++ [(i, k)]))

/-- `alt_complete!`. -/
def pAlt {α : Type} (altFail : Bool) : List (Parser α) → Parser α
  | [] => fun i => .error (.code i .alt)
  | p :: ps => fun i =>
    match p i with
    | .ok rest a => .ok rest a
    | .error _ => pAlt altFail ps i
    | .failure c => if altFail then pAlt altFail ps i else .failure c

/-- An `alt_complete!` with a `return_error!` inside one of its alternatives, in the same function: if `early`, a failure
of the `return_error!` is the result of the function, whatever `alt_complete!` does with failures.  `before` is what comes
before the `return_error!` in the alternative `p`. -/
def pReturning {α β γ : Type} (early : Bool) (before : Parser α) (p : Parser β) (alt : Parser γ) : Parser γ := fun i =>
  if early then
    match before i, p i with
    | .ok _ _, .failure c => .failure c
    | _, _ => alt i
  else alt i

/-- The separators skipped by `ws!`. -/
def isWs (c : Char) : Bool := c == ' ' || c == '\t' || c == '\r' || c == '\n'

/-- `ws!`: skip blanks and newlines before and after. -/
def pWs {α : Type} (p : Parser α) : Parser α := fun i =>
  match p (i.dropWhile isWs) with
  | .ok rest a => .ok (rest.dropWhile isWs) a
  | .error c => .error c
  | .failure c => .failure c

end Wayfinder
