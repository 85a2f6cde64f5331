import Verif.Props.Rename
/-!
# C52: parameters named like variables of `match_route`

The emitted function has variables of its own: `path`, `method`, `i` and `len` from the beginning, `start`
in every block with a parameter, `text` for every parameter (`gen/gen.rs:451-460`, `:567`, `:588`, `:788`).  Nothing keeps a
route file from calling a parameter so.
-/

namespace Wayfinder

/-- **C52.** Let all other conditions for compilation hold.  The emitted function compiles exactly if: no
parameter is called `i`, `path` or `method`; `len` is a `usize`; no parameter follows `text` on the way to a
resource; `start` is used before the next block with a parameter, and is a `usize` if it is used later. -/
theorem C52_compiles {r : Routes} {body : List Stmt} (hb : matcherBody r = .ok body) (h1 : Shapely r)
    (h2 : FieldsDistinct r) (h3 : ParamsUsed r) : compiles body = true ↔ NamesOk r := by
  rw [matcherBody_compiles hb]
  exact ⟨fun h => h.2.2.2, fun h => ⟨h1, h2, h3, h⟩⟩

/-- **C52, rejected names.** A parameter that code is emitted for and that is called `i`, `path` or `method`
always prevents compilation, and so does one that is called `len` and not of type `usize`. -/
theorem C52_rejected {r : Routes} {body : List Stmt} (hb : matcherBody r = .ok body)
    {segs : List PathSegment} {p : Param} {above : List Param} {node : Routes}
    (hl : LiveRoute r (segs ++ [.dynamic p]) above node)
    (hp : p.name = c!"i" ∨ p.name = c!"path" ∨ p.name = c!"method" ∨ p.name = c!"len" ∧ p.typ ≠ c!"usize") :
    compiles body = false := by
  rw [← Bool.not_eq_true, matcherBody_compiles hb]
  rintro ⟨-, -, -, hno⟩
  obtain ⟨h1, h2, h3⟩ := hno.own _ _ _ _ hl
  rcases hp with h | h | h | ⟨h, ht⟩
  · exact h1 h
  · exact h2 h
  · exact h3 h
  · exact ht (hno.len _ _ _ _ hl h)

/-- **C52, meaning.** A function that compiles routes as the configuration says if no parameter is called `len`,
and none called `start` has a further parameter behind it.  In particular `text`, and `start` as last parameter,
are fine. -/
theorem C52_routes {r : Routes} {body : List Stmt} (hb : matcherBody r = .ok body) (hc : compiles body = true)
    (hh : Hygienic r) (W : World) (path m : Bytes) : callMatchRoute W body path m = referenceRouter W r path m :=
  Supported.call ⟨hb, hc, hh⟩ W path m

/-- **C52, renaming.** Calling parameters differently, in the same order and with the same conditions on names, makes
no difference, whether or not the names are those of variables. -/
theorem C52_renaming {r : Routes} {body : List Stmt} (h : Supported r body) {f : Str → Str}
    (hf : Function.Injective f) (hk : KeepsOrder f r) {body' : List Stmt} (h' : Supported (r.rename f) body')
    (W : World) (path m : Bytes) : callMatchRoute W body' path m = (callMatchRoute W body path m).rename f :=
  (C14_exact h hf hk).2 body' h' W path m

namespace Demo

/-- A route `/{a}/list/{b}` with resources behind both parameters. -/
def twoParams (a b : Param) : Routes :=
  .mk [] [.mk (.dynamic a) (.mk [res .get c!"x" c!"One"] [
    .mk (.static c!"list") (.mk [] [.mk (.dynamic b) (.mk [res .get c!"x" c!"Two"] [] [])] [])] [])] []

/-- The same without a resource right behind the first parameter. -/
def lateParams (a b : Param) : Routes :=
  .mk [] [.mk (.dynamic a) (.mk [] [.mk (.dynamic b) (.mk [res .get c!"x" c!"Two"] [] [])] [])] []

/-- Whether a function is emitted that compiles. -/
def built (r : Routes) : Bool :=
  match matcherBody r with
  | .ok b => compiles b
  | .error _ => false

end Demo

open Demo

/-- The names of variables that are fine: `text` as last parameter, also of a type other than text, and `start`. -/
theorem C52_fine :
    Supported (twoParams ⟨c!"id", c!"u32"⟩ ⟨c!"text", c!"u32"⟩)
      (bodyOf (twoParams ⟨c!"id", c!"u32"⟩ ⟨c!"text", c!"u32"⟩)) ∧
    Supported (twoParams ⟨c!"id", c!"u32"⟩ ⟨c!"start", c!"String"⟩)
      (bodyOf (twoParams ⟨c!"id", c!"u32"⟩ ⟨c!"start", c!"String"⟩)) ∧
    ask (twoParams ⟨c!"id", c!"u32"⟩ ⟨c!"text", c!"u32"⟩) c!"/7/list/9" c!"GET" =
      .route [c!"x"] c!"Two" [(c!"id", c!"7"), (c!"text", c!"9")] [] ∧
    ask (twoParams ⟨c!"id", c!"u32"⟩ ⟨c!"start", c!"String"⟩) c!"/7/list/z" c!"GET" =
      .route [c!"x"] c!"Two" [(c!"id", c!"7"), (c!"start", c!"z")] [] :=
  ⟨supported_of (by decide +kernel), supported_of (by decide +kernel), by decide +kernel, by decide +kernel⟩

/-- The names of variables that prevent compilation, with fine counterparts of the same shape. -/
theorem C52_bad :
    built (twoParams ⟨c!"id", c!"u32"⟩ ⟨c!"key", c!"u32"⟩) = true ∧
    built (twoParams ⟨c!"i", c!"usize"⟩ ⟨c!"key", c!"u32"⟩) = false ∧
    built (twoParams ⟨c!"path", c!"String"⟩ ⟨c!"key", c!"u32"⟩) = false ∧
    built (twoParams ⟨c!"id", c!"u32"⟩ ⟨c!"method", c!"String"⟩) = false ∧
    built (twoParams ⟨c!"len", c!"u32"⟩ ⟨c!"key", c!"u32"⟩) = false ∧
    built (twoParams ⟨c!"text", c!"u32"⟩ ⟨c!"key", c!"u32"⟩) = false ∧
    built (twoParams ⟨c!"start", c!"u32"⟩ ⟨c!"key", c!"u32"⟩) = false ∧
    built (lateParams ⟨c!"start", c!"usize"⟩ ⟨c!"key", c!"u32"⟩) = false := by decide +kernel

/-- The names of variables that compile and change the meaning: with `len` there is a panic, with `start` the wrong
value is reported. -/
theorem C52_misrouted :
    built (twoParams ⟨c!"len", c!"usize"⟩ ⟨c!"key", c!"u32"⟩) = true ∧
    built (twoParams ⟨c!"start", c!"usize"⟩ ⟨c!"key", c!"u32"⟩) = true ∧
    askIndex (twoParams ⟨c!"id", c!"usize"⟩ ⟨c!"key", c!"u32"⟩) c!"/9" c!"GET" =
      .route [c!"x"] c!"One" [(c!"id", c!"9")] [] ∧
    askIndex (twoParams ⟨c!"len", c!"usize"⟩ ⟨c!"key", c!"u32"⟩) c!"/9" c!"GET" = .panic ∧
    askIndex (twoParams ⟨c!"id", c!"usize"⟩ ⟨c!"key", c!"u32"⟩) c!"/9/list/4" c!"GET" =
      .route [c!"x"] c!"Two" [(c!"id", c!"9"), (c!"key", c!"4")] [] ∧
    askIndex (twoParams ⟨c!"start", c!"usize"⟩ ⟨c!"key", c!"u32"⟩) c!"/9/list/4" c!"GET" =
      .route [c!"x"] c!"Two" [(c!"start", c!"8"), (c!"key", c!"4")] [] := by decide +kernel

end Wayfinder
