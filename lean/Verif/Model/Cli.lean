import Verif.Spec.Elab
import Verif.Model.Build
import Verif.Spec.Router
/-!
# Model of `/repo/examples/cli/src/main.rs`

A program around an emitted file: it calls `match_route` and `to_path` and prints what they return.  The printed text uses
code that rustc derives for the emitted types (`#[derive(Debug)]`, `gen.rs:106,217`), the `Debug` and `Display` code of the
fixed part of the emitted file (`gen.rs:327-386`), and the `to_path` of the emitted enums (`gen.rs:244-273`).

Simplifications: writing to the standard streams does not fail; the `Debug` text of the name in an error is the name in
quotes (names have no characters that are escaped); the texts of values and parse errors are parameters of the model.
-/

namespace Wayfinder
open Rust

/-- The `Display` and `Debug` texts of the values of parameters, and the `Debug` texts of parse errors. -/
structure Printer (W : World) where
  display : W.V → Str
  debug : W.V → Str
  debugErr : W.E → Str

namespace Rust

/-- The struct inside a value of an enum `Route`, which is given by the variants around it (`gen.rs:218-240`). -/
def Mod.inside : Mod → List Str → Str → Option Struct
  | m, [], x =>
    match lookupVar x m.variants with
    | some [s] => m.struct s
    | _ => none
  | m, v :: vs, x =>
    match lookupVar v m.variants with
    | some [sub, _] => (lookupVar sub m.subs).bind fun s => s.inside vs x
    | _ => none

/-- Every variant on the way is handled by the `to_path` of its enum (`gen.rs:251-271`). -/
def Mod.handles : Mod → List Str → Str → Bool
  | m, [], x => m.handled.contains x
  | m, v :: vs, x =>
    m.handled.contains v &&
    match lookupVar v m.variants with
    | some [sub, _] => (lookupVar sub m.subs).any fun s => s.handles vs x
    | _ => false

end Rust

/-- The values of the fields of a struct, if all are values of parameters (variables of `match_route` itself can only get
there if a parameter has their name). -/
def userFields {W : World} : List (Str × Val W) → Option (List (Str × W.V))
  | [] => some []
  | (x, .user v) :: fs => (userFields fs).map ((x, v) :: ·)
  | _ :: _ => none

/-- `to_path` of the outermost enum `Route` of a file (`gen.rs:250-272`), on a value of it: the enums pass the call on to
the struct. -/
def routeToPath {W : World} (display : W.V → Str) (m : Mod) (v : RouteVal W) : Option Str := do
  let s ← m.inside v.modules v.name
  let fields ← userFields v.params
  if m.handles v.modules v.name then
    let template ← literal s.template
    let args ← argTexts display s.bound fields s.args
    formatText template args
  else none

/-- The `Debug` texts of the fields of a struct, in the order of their declaration. -/
def debugFields {V : Type} (debug : V → Str) (fields : List (Str × V)) : List Field → Option (List Str)
  | [] => some []
  | f :: fs => do
    let text ← if f.optional then some c!"None" else (lookupVar f.name fields).map debug
    let rest ← debugFields debug fields fs
    return (f.name ++ c!": " ++ text) :: rest

/-- Derived `Debug` of a struct. -/
def debugStruct {V : Type} (debug : V → Str) (s : Struct) (fields : List (Str × V)) : Option Str :=
  if s.fields.isEmpty then some s.name
  else (debugFields debug fields s.fields).map fun fs => s.name ++ c!" { " ++ List.intercalate c!", " fs ++ c!" }"

/-- Derived `Debug` of variants around a text. -/
def debugVariants : List Str → Str → Str
  | [], inner => inner
  | v :: vs, inner => v ++ c!"(" ++ debugVariants vs inner ++ c!")"

/-- Derived `Debug` of the outermost enum `Route` of a file. -/
def debugRoute {W : World} (debug : W.V → Str) (m : Mod) (v : RouteVal W) : Option Str := do
  let s ← m.inside v.modules v.name
  let fields ← userFields v.params
  let text ← debugStruct debug s fields
  return debugVariants (v.modules ++ [v.name]) text

/-- `main.rs:14`, `gen.rs:327-349,356-369`: `{:?}` of the result of `match_route`; `none` for a call that does not return. -/
def debugResult {W : World} (pr : Printer W) (m : Mod) : Outcome W → Option Str
  | .notFound => some c!"Ok(Match::NotFound)"
  | .notAllowed => some c!"Ok(Match::NotAllowed)"
  | .route v => (debugRoute pr.debug m v).map fun t => c!"Ok(Match::Route(" ++ t ++ c!"))"
  | .redirect v => (debugRoute pr.debug m v).map fun t => c!"Ok(Match::Redirect(" ++ t ++ c!"))"
  | .err x e => some (c!"Err(wayfinder::Error { param: \"" ++ x ++ c!"\", what: " ++ pr.debugErr e ++ c!" })")
  | .panic => none
  | .rejected => none

/-- `main.rs:16-22`: the line about the result; `gen.rs:371-386` for errors. -/
def resultLine {W : World} (pr : Printer W) (m : Mod) : Outcome W → Option Str
  | .err x e => some (c!"Error: Error parsing '" ++ x ++ c!"' parameter " ++ pr.debugErr e)
  | .notFound => some c!"No matching route."
  | .notAllowed => some c!"Route does not support method."
  | .route v => (routeToPath pr.display m v).map fun p => c!"Route to " ++ p
  | .redirect v => (routeToPath pr.display m v).map fun p => c!"Redirect to " ++ p
  | .panic => none
  | .rejected => none

/-- What a run of the program prints, and how it ends. -/
structure Session where
  stdout : Str
  stderr : Str
  ending : Ending
deriving DecidableEq

/-- Nothing is printed (by the program itself) and the program panics. -/
def Session.panics : Session := ⟨[], [], .panicked⟩

/-- `main.rs:13-22`: the path is given.  `none` if a text is not covered by the model. -/
def cliTest {W : World} (pr : Printer W) (m : Mod) (body : List Stmt) (path : Str) : Option Session :=
  match callMatchRoute W body (encode path) (bytesOf c!"GET") with
  | .panic => some .panics
  | result => do
    let parsed ← debugResult pr m result
    let line ← resultLine pr m result
    return ⟨c!"Parsed: " ++ parsed ++ c!"\n" ++ line ++ c!"\n", [], .returned⟩

/-- `main.rs:5-23` `main`, with an emitted file included (`main.rs:3`).  `std::env::args()` panics on an argument that is not
UTF-8.  `none` if the program is not accepted by rustc. -/
def cliMain {W : World} (pr : Printer W) (headers : List Tok) (text : Str) (args : List Bytes) : Option Session := do
  let (m, body) ← readText headers text
  match args.mapM fromUtf8 with
  | none => some .panics
  | some [] => some .panics
  | some [exe] => some ⟨[], c!"Usage: " ++ exe ++ c!" ROUTE_TO_TEST\n", .returned⟩
  | some (_ :: path :: _) => cliTest pr m body path

end Wayfinder
