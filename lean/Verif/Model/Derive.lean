import Verif.Model.Cli
/-!
# Model of the derived `PartialEq` of the emitted types (`/repo/wayfinder/src/gen/gen.rs:106,217,319`)

The structs of actions, the enums `Route` and the enum `Match` derive `PartialEq` and `Eq`: two values are compared variant by
variant and field by field, in the order of declaration.  `assert_eq!` on results of `match_route` (after `unwrap`) uses this
comparison, and the derived `Debug` of the same types (`Verif/Model/Cli.lean`) if it fails.

Simplifications: the comparison of values of parameters is a parameter of the model; `match_route` only makes values whose query
parameters are `None` (`gen.rs:563-566`), so optional fields are equal.
-/

namespace Wayfinder
open Rust

/-- The comparison of a field; `none` if it has no value. -/
def eqField {V : Type} (eq : V → V → Bool) (vals vals' : List (Str × V)) (f : Field) : Option Bool :=
  if f.optional then some true
  else (lookupVar f.name vals).bind fun a => (lookupVar f.name vals').map fun b => eq a b

/-- Derived `PartialEq` of a struct with these fields (`gen.rs:106-125`). -/
def eqFields {V : Type} (eq : V → V → Bool) (vals vals' : List (Str × V)) : List Field → Option Bool
  | [] => some true
  | f :: fs => do
    let same ← eqField eq vals vals' f
    let rest ← eqFields eq vals vals' fs
    return same && rest

/-- Derived `PartialEq` of the outermost enum `Route` of a file (`gen.rs:217-240`): different variants of some enum on the way
are different, otherwise the structs are compared. -/
def eqRoute {W : World} (eq : W.V → W.V → Bool) (m : Mod) (v v' : RouteVal W) : Option Bool :=
  if v.modules = v'.modules ∧ v.name = v'.name then do
    let s ← m.inside v.modules v.name
    let vals ← userFields v.params
    let vals' ← userFields v'.params
    eqFields eq vals vals' s.fields
  else some false

/-- The result of `match_route` is `Ok`. -/
def Outcome.isOk {W : World} : Outcome W → Bool
  | .notFound => true
  | .notAllowed => true
  | .route _ => true
  | .redirect _ => true
  | _ => false

/-- Derived `PartialEq` of `Match<Route>` (`gen.rs:319-325`).  `none` for results that are not `Ok`: the type `Error` has no
comparison (`gen.rs:351-354`). -/
def eqMatch {W : World} (eq : W.V → W.V → Bool) (m : Mod) : Outcome W → Outcome W → Option Bool
  | .notFound, .notFound => some true
  | .notAllowed, .notAllowed => some true
  | .route v, .route v' => eqRoute eq m v v'
  | .redirect v, .redirect v' => eqRoute eq m v v'
  | o, o' => if o.isOk && o'.isOk then some false else none

end Wayfinder
