import Verif.Spec.Scope
import Verif.Spec.Traits
import Verif.Spec.Flow
import Verif.Spec.Reach
/-!
# Specification vocabulary: everything that rustc checks, together
-/

namespace Wayfinder

namespace Rust

/-- rustc compiles the file: it is text, can be read with its imports, the types have the implementations that are needed, and
every way through `match_route` returns. -/
def Compiles (impl : Trait → Str → Prop) (file : Bytes) : Prop :=
  ∃ text m b, fromUtf8 file = some text ∧ readScoped text = some (m, b) ∧ Served impl m.items b ∧ returns b = true

/-- A call of the `match_route` of a file, read with its imports. -/
def callCompiled (W : World) (file path verb : Bytes) : Outcome W :=
  match fromUtf8 file with
  | none => .rejected
  | some text =>
    match readScoped text with
    | none => .rejected
    | some (_, body) => callMatchRoute W body path verb

/-- All that is asked of a configuration, its imports and the types they bring. -/
structure Compilable (impl : Trait → Str → Prop) (us : List Use) (r : Routes) : Prop where
  /-- no block has children that the generator cannot handle -/
  shapely : Shapely r
  /-- behind every parameter there is a resource -/
  used : ParamsUsed r
  /-- parameters named like variables of `match_route` do no harm -/
  names : NamesOk r
  /-- no names clash -/
  clear : ClearNames r
  /-- no parameter is named like a constructor -/
  free : FreeParams r
  /-- redirects have the parameters of their targets -/
  fit : RedirectsFit r
  /-- one type for every parameter -/
  oneType : OneType r
  /-- the imports suit -/
  scope : InScope us r
  /-- the types have the implementations -/
  implemented : Implemented impl r

end Rust

end Wayfinder
