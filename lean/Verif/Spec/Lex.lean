import Verif.Model.Basic
/-!
# Specification vocabulary: tokens of Rust

A lexer for the Rust that the generator emits, written as a machine that reads one character after the
other.  Numbers are words.  Not covered: character literals (their quotes are read as operators), raw
strings; the beginning of a block comment makes the whole text unreadable, and so does a string with a
carriage return and a byte string with a character beyond ASCII.  Elsewhere characters beyond ASCII are
taken to be part of words.
-/

namespace Wayfinder.Rust

/-- Tokens. -/
inductive Tok where
  /-- a name, a keyword or a number -/
  | word (s : Str)
  /-- `"…"` or `b"…"`; escape sequences are kept as written -/
  | str (bytes : Bool) (s : Str)
  /-- operators and brackets -/
  | op (s : Str)
deriving DecidableEq, Repr

/-- What has been read since the last complete token. -/
inductive LexState where
  | neutral
  | word (acc : Str)
  | op (c : Char)
  | comment
  | block
  | str (bytes : Bool) (acc : Str)
  | escape (bytes : Bool) (acc : Str)
deriving DecidableEq, Repr

/-- Characters of words. -/
def isWordChar (c : Char) : Bool := c.isAlphanum || c == '_' || 128 ≤ c.toNat

/-- Blanks. -/
def isBlank (c : Char) : Bool := c == ' ' || c == '\n' || c == '\t' || c == '\r'

/-- Operators of two characters. -/
def joined (a b : Char) : Bool :=
  [a, b] ∈ [c!"::", c!"=>", c!"->", c!"..", c!"==", c!"!=", c!"<=", c!">=", c!"&&", c!"||", c!"+="]

/-- A character that stands for itself in a byte string. -/
def strChar (c : Char) : Bool := !(c == '"' || c == '\\' || c == '\r' || 128 ≤ c.toNat)

/-- A character that stands for itself in a string. -/
def textChar (c : Char) : Bool := !(c == '"' || c == '\\' || c == '\r')

/-- The first character of a token. -/
def lexStart (c : Char) : LexState :=
  if isBlank c then .neutral
  else if isWordChar c then .word [c]
  else if c == '"' then .str false []
  else .op c

/-- Read one character. -/
def lexStep : LexState → Char → List Tok × LexState
  | .neutral, c => ([], lexStart c)
  | .word acc, c =>
    if isWordChar c then ([], .word (acc ++ [c]))
    else if c == '"' && acc == c!"b" then ([], .str true [])
    else ([.word acc], lexStart c)
  | .op a, c =>
    if a == '/' && c == '/' then ([], .comment)
    else if a == '/' && c == '*' then ([], .block)
    else if joined a c then ([.op [a, c]], .neutral)
    else ([.op [a]], lexStart c)
  | .comment, c => ([], if c == '\n' then .neutral else .comment)
  | .block, _ => ([], .block)
  | .str b acc, c =>
    if c == '"' then ([.str b acc], .neutral)
    else if c == '\\' then ([], .escape b acc)
    else if c == '\r' || (b && decide (128 ≤ c.toNat)) then ([], .block)
    else ([], .str b (acc ++ [c]))
  | .escape b acc, c => ([], .str b (acc ++ ['\\', c]))

/-- Read a text: the complete tokens, and what is left. -/
def run : LexState → Str → List Tok × LexState
  | st, [] => ([], st)
  | st, c :: s => ((lexStep st c).1 ++ (run (lexStep st c).2 s).1, (run (lexStep st c).2 s).2)

/-- The end of the text completes a word or an operator; a string must have been closed. -/
def flush : LexState → Option (List Tok)
  | .neutral => some []
  | .word acc => some [.word acc]
  | .op c => some [.op [c]]
  | .comment => some []
  | .block => none
  | .str _ _ => none
  | .escape _ _ => none

/-- The tokens of a text. -/
def lex (s : Str) : Option (List Tok) := (flush (run .neutral s).2).map ((run .neutral s).1 ++ ·)

/-- The tokens of a text without unfinished strings. -/
def toks (s : Str) : List Tok := (lex s).getD []

end Wayfinder.Rust
