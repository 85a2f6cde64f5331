import Verif.Spec.Read
import Verif.Model.Path
/-!
# Specification vocabulary: the meaning of the emitted file

What rustc does with the file after reading it, as far as modelled: the names of the items of a module
must be distinct, values must have the declared types, and the types of parameters are inferred from the
declared fields they are used for.  The meaning of a statement is the one in `Model/Rust.lean`.
-/

namespace Wayfinder.Rust

/-! ## Modules -/

/-- Field access. -/
def Mod.structs : Mod → List Struct | .mk s _ _ _ => s
/-- Field access. -/
def Mod.subs : Mod → List (Str × Mod) | .mk _ s _ _ => s
/-- Field access. -/
def Mod.variants : Mod → List (Str × List Str) | .mk _ _ v _ => v
/-- Field access. -/
def Mod.handled : Mod → List Str | .mk _ _ _ h => h

/-- The module at a path. -/
def Mod.at : Mod → List Str → Option Mod
  | m, [] => some m
  | m, x :: p => (lookupVar x m.subs).bind fun s => s.at p

/-- The struct of a name. -/
def Mod.struct (m : Mod) (x : Str) : Option Struct := m.structs.find? fun s => s.name == x

/-- The types that are named in a module. -/
def Mod.typeNames (root : Bool) (m : Mod) : List Str :=
  m.structs.map Struct.name ++ m.subs.map Prod.fst ++
    (if root then [c!"Route", c!"Match", c!"Error", c!"fmt"] else [c!"Route"])

/-- Structs without fields are values as well. -/
def Mod.unitNames (m : Mod) : List Str := (m.structs.filter fun s => s.fields.isEmpty).map Struct.name

/-- Types declared elsewhere that the emitted code of a module names. -/
def Mod.foreignTypes (root : Bool) (m : Mod) : List Str :=
  c!"String" :: (if m.structs.any fun s => s.fields.any Field.optional then [c!"Option"] else []) ++
    (if root then [c!"std", c!"str", c!"u8", c!"Result", c!"Box", c!"AsRef"] else [])

/-- Values declared elsewhere that the emitted code of a module names. -/
def foreignValues (root : Bool) : List Str := if root then [c!"Ok", c!"None"] else []

/-- Names in scope everywhere that cannot be the name of a variable. -/
def preludeValues : List Str := [c!"None", c!"Some", c!"Ok", c!"Err"]

/-- A variable cannot have the name of a struct without fields or of a variant in scope. -/
def Mod.canBind (m : Mod) (x : Str) : Bool := !(preludeValues.contains x || m.unitNames.contains x)

/-- A struct and its `to_path` are accepted in a module: no two fields of the same name, the pattern names
every field with a name that can be bound, the arguments of `format!` are among the bound variables and as
many as the template asks for.  The types of the fields must not be types of the module itself (this is
stricter than rustc). -/
def Struct.ok (root : Bool) (m : Mod) (s : Struct) : Bool :=
  decide (s.fields.map Field.name).Nodup && s.bound.isPerm (s.fields.map Field.name) && s.bound.all m.canBind &&
  s.args.all (fun x => s.bound.contains x) && (literal s.template).isSome && (formatText s.template s.args).isSome &&
  s.fields.all fun f => !(m.typeNames root).contains f.typ

/-- The content of a variant is a struct or the enum of a submodule. -/
def Mod.payloadOk (m : Mod) : List Str → Bool
  | [x] => m.structs.any fun s => s.name == x
  | [x, y] => m.subs.any (fun s => s.1 == x) && y == c!"Route"
  | _ => false

/-- A module is accepted, apart from its submodules: types and variants have distinct names, none hides a
name used by the emitted code, there is a variant, `to_path` handles exactly the variants. -/
def Mod.localOk (root : Bool) (m : Mod) : Bool :=
  decide (m.typeNames root).Nodup && (m.typeNames root).all (fun x => !(m.foreignTypes root).contains x) &&
  m.unitNames.all (fun x => !(foreignValues root).contains x) && m.structs.all (Struct.ok root m) &&
  decide (m.variants.map Prod.fst).Nodup && !m.variants.isEmpty &&
  m.variants.all (fun v => m.payloadOk v.2) && m.handled.isPerm (m.variants.map Prod.fst)

mutual
/-- A module is accepted. -/
def Mod.ok (root : Bool) : Mod → Bool
  | .mk structs subs variants handled => (Mod.mk structs subs variants handled).localOk root && modsOk subs
/-- All submodules are accepted. -/
def modsOk : List (Str × Mod) → Bool
  | [] => true
  | (_, m) :: ms => m.ok false && modsOk ms
end

/-! ## Values -/

/-- All but the last element, and the last one. -/
def unsnoc {α : Type} : List α → Option (List α × α)
  | [] => none
  | [a] => some ([], a)
  | a :: b :: l => (unsnoc (b :: l)).map fun r => (a :: r.1, r.2)

/-- A literal gives every declared field exactly once, `None` to the optional ones. -/
def fieldsOk (declared : List Field) (fields : List (Str × Bool)) : Bool :=
  decide (fields.map Prod.fst).Nodup && fields.isPerm (declared.map fun f => (f.name, f.optional))

/-- The type of a value, as a path. -/
def Expr.type (m : Mod) : Expr → Option (List Str)
  | .struct path fields => do
    let (p, x) ← unsnoc path
    let sub ← m.at p
    let s ← sub.struct x
    if fieldsOk s.fields fields then some path else none
  | .app path arg => do
    let (q, v) ← unsnoc path
    let (p, r) ← unsnoc q
    let sub ← m.at p
    let payload ← lookupVar v sub.variants
    let t ← arg.type m
    if r = c!"Route" ∧ t = p ++ payload then some (p ++ [c!"Route"]) else none

/-- The variants around a struct, and its path and fields. -/
def Expr.parts : Expr → List Str × List Str × List (Str × Bool)
  | .struct path fields => ([], path, fields)
  | .app path arg => (path.getLast?.toList ++ arg.parts.1, arg.parts.2)

/-- The declared type of a field. -/
def fieldType (declared : List Field) (x : Str) : Str :=
  match declared.find? fun f => f.name == x with
  | some f => f.typ
  | none => []

/-- The verb of a byte string. -/
def verbOf (s : Str) : Option Method := [Method.get, .post, .put, .delete].find? fun m => m.display == s

/-- The declared fields of the struct at a path. -/
def Mod.fieldsAt (m : Mod) (path : List Str) : Option (List Field) := do
  let (p, x) ← unsnoc path
  let sub ← m.at p
  let s ← sub.struct x
  return s.fields

/-- An arm with the types of the variables used in it; the struct is named by the variants around it. -/
def elabVerb (m : Mod) (a : VerbArm) : Option MethodArm := do
  let method ← verbOf a.verb
  let t ← a.value.type m
  let (modules, name) ← unsnoc a.value.parts.1
  let declared ← m.fieldsAt a.value.parts.2.1
  if t = [c!"Route"] then
    return {
      method := method, isRedirect := a.isRedirect, modules := modules, name := name
      captures := (a.value.parts.2.2.filter fun f => !f.2).map fun f => ⟨f.1, fieldType declared f.1⟩
      nones := (a.value.parts.2.2.filter fun f => f.2).map Prod.fst }
  else none

/-- All arms. -/
def elabVerbs (m : Mod) : List VerbArm → Option (List MethodArm)
  | [] => some []
  | a :: as => do
    let b ← elabVerb m a
    let bs ← elabVerbs m as
    return b :: bs

mutual
/-- A statement, given the statements after it. -/
def elabLine (m : Mod) (rest : List Stmt) : Line → Option Stmt
  | .letStart => some .letStart
  | .addI n => some (.addI n)
  | .retNotFound => some .retNotFound
  | .ifThen c body => (elabBlock m body).map (.ifThen c)
  | .matchMethod arms => (elabVerbs m arms).map .matchMethod
  | .matchPath n arms => (elabArms m arms).map (.matchPath n)
  | .whileScan => some .whileScan
  | .letText => some .letText
  | .letParam name label =>
    if label = name ∧ m.canBind name = true then some (.letParam name (inferType name rest)) else none
/-- A block. -/
def elabBlock (m : Mod) : List Line → Option (List Stmt)
  | [] => some []
  | l :: ls =>
    match elabBlock m ls with
    | none => none
    | some rest => (elabLine m rest l).map (· :: rest)
/-- An arm. -/
def elabArm (m : Mod) : PathArm → Option Arm
  | .bytes pat body => (elabBlock m body).map (.bytes pat)
  | .wildNotFound => some .wildNotFound
  | .wildNothing => some .wildNothing
/-- All arms. -/
def elabArms (m : Mod) : List PathArm → Option (List Arm)
  | [] => some []
  | a :: as =>
    match elabArm m a with
    | none => none
    | some b => (elabArms m as).map (b :: ·)
end

/-! ## The file -/

/-- The declarations and the statements of `match_route`, if the file is accepted. -/
def readText (headers : List Tok) (text : Str) : Option (Mod × List Stmt) := do
  let ts ← lex text
  let (m, lines) ← readFile headers ts
  let body ← elabBlock m lines
  if m.ok true && compiles body then return (m, body) else none

/-- A call of the `match_route` of a file. -/
def callText (W : World) (headers : List Tok) (text : Str) (path method : Bytes) : Outcome W :=
  match readText headers text with
  | none => .rejected
  | some (_, body) => callMatchRoute W body path method

/-- A call of `to_path` on the struct `name` of the module `mods` of a file. -/
def callToPath {V : Type} (display : V → Str) (headers : List Tok) (text : Str) (mods : List Str) (name : Str)
    (fields : List (Str × V)) : Option Str := do
  let (m, _) ← readText headers text
  let sub ← m.at mods
  let s ← sub.struct name
  let template ← literal s.template
  let args ← argTexts display s.bound fields s.args
  formatText template args

/-- A value with the names used in Rust. -/
def RouteVal.inRust {W : World} (v : RouteVal W) : RouteVal W :=
  { v with modules := v.modules.map toCapsCase, name := toCapsCase v.name }

/-- An outcome with the names used in Rust. -/
def Outcome.inRust {W : World} : Outcome W → Outcome W
  | .route v => .route (RouteVal.inRust v)
  | .redirect v => .redirect (RouteVal.inRust v)
  | o => o

end Wayfinder.Rust
