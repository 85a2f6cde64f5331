import Verif.Model.Basic
/-!
# Model of the name conversions, `/repo/wayfinder/src/gen/gen.rs:10-57`

`Char.toUpper`, `Char.toLower` and `Char.isUpper` of Lean core only affect ASCII letters, like
Rust's `to_ascii_uppercase`, `to_ascii_lowercase` and `is_ascii_uppercase`.
-/

namespace Wayfinder

/-- `gen.rs:19-29`: the loop of `to_caps_case`; the argument is the current character `ch`
followed by the rest of the iterator. -/
def capsLoop : Str → Str
  | [] => []
  | ['_'] => []
  | '_' :: c :: rest => c.toUpper :: capsLoop rest
  | c :: rest => c :: capsLoop rest

/-- `gen.rs:10-32` `to_caps_case`. -/
def toCapsCase : Str → Str
  | [] => []
  | c :: rest => capsLoop (c.toUpper :: rest)

/-- `gen.rs:43-54`: the loop of `to_snake_case`. -/
def snakeLoop : Str → Str
  | [] => []
  | c :: rest => if c.isUpper then '_' :: c.toLower :: snakeLoop rest else c :: snakeLoop rest

/-- `gen.rs:34-57` `to_snake_case`. -/
def toSnakeCase : Str → Str
  | [] => []
  | c :: rest => snakeLoop (c.toLower :: rest)

end Wayfinder
