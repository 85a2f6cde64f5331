import Verif.Model.Core
import Verif.Spec.Read
/-!
# Model of `/repo/wayfinder/src/core/macros.rs`

The macros `get!`, `post!`, `put!`, `delete!` and `param!` on the tokens of their argument.  The result is `none`
if no rule of the macro matches (a compile error for the user of the crate).

Simplifications: the expressions for query parameters (`$param:expr`) are calls of `param!`; types (`$type:ty`) are
single words, as in route files, which `stringify!` leaves as they are; identifiers beyond ASCII and raw identifiers
are not covered.  `header!` is not modelled: its result is the text that rustc makes of the items.
-/

namespace Wayfinder
open Rust

/-- A word that matches `$x:ident`: an identifier or a keyword, but not `_`. -/
def macroIdent (s : Str) : Bool :=
  match s with
  | [] => false
  | c :: _ => !c.isDigit && s != c!"_" && s.all fun c => decide (c.toNat < 128)

/-- A word that matches `$type:ty`: a name, `_`, or one of the keywords that can be a path. -/
def macroType (s : Str) : Bool :=
  isName s || [c!"_", c!"self", c!"Self", c!"super", c!"crate"].contains s

/-- `macros.rs:285-294`: `param!($name:ident : $type:ty)`, on the tokens of the argument. -/
def paramMacro : List Tok → Option Param
  | [.word name, .op [':'], .word typ] => if macroIdent name && macroType typ then some ⟨name, typ⟩ else none
  | _ => none

/-- `$(:: $nested:ident)*`: the identifiers and the tokens behind them. -/
def takeNested : List Tok → List Str × List Tok
  | .op [':', ':'] :: .word x :: ts =>
    if macroIdent x then (x :: (takeNested ts).1, (takeNested ts).2) else ([], .op [':', ':'] :: .word x :: ts)
  | ts => ([], ts)

/-- `$(, $param:expr)*` up to the end of the argument. -/
def takeParams : List Tok → Option (List Param)
  | [] => some []
  | .op [','] :: .word ['p', 'a', 'r', 'a', 'm'] :: .op ['!'] :: .op ['('] :: a :: b :: c :: .op [')'] :: ts => do
    let p ← paramMacro [a, b, c]
    let ps ← takeParams ts
    return p :: ps
  | _ => none

/-- `macros.rs:61-82` `get!` and likewise `post!` (`macros.rs:117-138`), `put!` (`173-194`) and `delete!` (`229-250`):
the second and the third rule, each of which expands to a call of the first one and so to `Resource::make`.  The first rule
(`@get …`) is for this internal use only and not modelled for other calls. -/
def verbMacro (method : Method) : List Tok → Option Resource
  | .op ['-', '>'] :: .word root :: ts =>
    if macroIdent root then
      match takeNested ts with
      | (nested, []) => Resource.make method (root :: nested) true []
      | _ => none
    else none
  | .word root :: ts =>
    if macroIdent root then do
      let ps ← takeParams (takeNested ts).2
      Resource.make method (root :: (takeNested ts).1) false ps
    else none
  | _ => none

end Wayfinder
