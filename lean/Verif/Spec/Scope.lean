import Verif.Spec.Elab
import Verif.Spec.Words
/-!
# Specification vocabulary: names in scope

A reader of the emitted file that is not told what the headers are: every module may begin with imports of its
own.  What is imported must not clash with what is declared, and the types of fields must be in scope.
-/

namespace Wayfinder.Rust

/-- `use path;` or `use path as name;`.  The path begins with the name of a crate or with `crate`. -/
structure Use where
  path : List Str
  name : Str
deriving DecidableEq

/-- The path of an import. -/
def readUsePath : List Tok → Option (List Str × List Tok)
  | .word ['c', 'r', 'a', 't', 'e'] :: .op [':', ':'] :: ts => (readPath ts).map fun r => (c!"crate" :: r.1, r.2)
  | ts => readPath ts

/-- The end of an import: a semicolon, maybe after another name. -/
def readUseEnd (path : List Str) : List Tok → Option (Use × List Tok)
  | .op [';'] :: ts => path.getLast?.map fun x => (⟨path, x⟩, ts)
  | .word ['a', 's'] :: .word x :: .op [';'] :: ts => if isName x then some (⟨path, x⟩, ts) else none
  | _ => none

/-- One import, after the word `use`. -/
def readUse (ts : List Tok) : Option (Use × List Tok) :=
  (readUsePath ts).bind fun r => readUseEnd r.1 r.2

/-- The imports at the beginning of a module. -/
def readUses : Nat → List Tok → Option (List Use × List Tok)
  | 0, _ => none
  | n + 1, .word ['u', 's', 'e'] :: ts =>
    (readUse ts).bind fun r => (readUses n r.2).map fun q => (r.1 :: q.1, q.2)
  | _ + 1, ts => some ([], ts)

/-- A module with its imports. -/
inductive Scoped where
  | mk (uses : List Use) (structs : List Struct) (subs : List (Str × Scoped)) (variants : List (Str × List Str)) (handled : List Str)

mutual
/-- The contents of a module. -/
def readScopedMod : Nat → List Tok → Option (Scoped × List Tok)
  | 0, _ => none
  | n + 1, ts =>
    match readUses (ts.length + 1) ts with
    | none => none
    | some (uses, ts) =>
      match readStructs n ts with
      | none => none
      | some (structs, ts) =>
        match readScopedMods n ts with
        | none => none
        | some (subs, ts) =>
          (readEnum n ts).map fun r => (.mk uses structs subs r.1 r.2.1, r.2.2)
/-- The submodules of a module. -/
def readScopedMods : Nat → List Tok → Option (List (Str × Scoped) × List Tok)
  | 0, _ => none
  | n + 1, ts =>
    match eatText c!"pub mod" ts with
    | none => some ([], ts)
    | some ts =>
      match readName ts with
      | none => none
      | some (x, ts) =>
        match eatText c!"{" ts with
        | none => none
        | some ts =>
          match readScopedMod n ts with
          | none => none
          | some (m, ts) =>
            match eatText c!"}" ts with
            | none => none
            | some ts => (readScopedMods n ts).map fun r => ((x, m) :: r.1, r.2)
end

mutual
/-- The module without imports. -/
def Scoped.items : Scoped → Mod
  | .mk _ structs subs variants handled => .mk structs (itemsAll subs) variants handled
/-- The same for submodules. -/
def itemsAll : List (Str × Scoped) → List (Str × Mod)
  | [] => []
  | (x, m) :: ms => (x, m.items) :: itemsAll ms
end

/-- Types that are always in scope and can be read and shown, compared and printed (so not `f64`, which is not
`Eq`). -/
def builtin : List Str :=
  [c!"String", c!"bool", c!"char", c!"u8", c!"u16", c!"u32", c!"u64", c!"u128", c!"usize",
   c!"i8", c!"i16", c!"i32", c!"i64", c!"i128", c!"isize"]

/-- The imports of a module are accepted, and the types of its structs are in scope: no name is imported twice
or also declared, none hides a name that the emitted code of the module uses, no path begins with the name of a
submodule, and every type is imported or always there. -/
def scopeOk (root : Bool) (uses : List Use) (m : Mod) : Bool :=
  decide (uses.map Use.name).Nodup &&
  uses.all (fun u => !(m.typeNames root ++ m.foreignTypes root ++ foreignValues root).contains u.name) &&
  uses.all (fun u => m.subs.all fun s => !(u.path.head? == some s.1)) &&
  m.structs.all fun s => s.fields.all fun f => (builtin ++ uses.map Use.name).contains f.typ

mutual
/-- All modules. -/
def Scoped.ok (root : Bool) : Scoped → Bool
  | .mk uses structs subs variants handled =>
    scopeOk root uses (.mk structs (itemsAll subs) variants handled) && scopedAll subs
/-- All submodules. -/
def scopedAll : List (Str × Scoped) → Bool
  | [] => true
  | (_, m) :: ms => m.ok false && scopedAll ms
end

/-- Read the file. -/
def readScopedFile (ts : List Tok) : Option (Scoped × List Line) := do
  let n := ts.length + 1
  let ts ← eatText fileHead ts
  let (m, ts) ← readScopedMod n ts
  let ts ← eatText fixedItems ts
  let ts ← eatText functionHead ts
  let (body, ts) ← readBlock n ts
  if ts = toks c!"}" then return (m, body) else none

/-- The modules with their imports and the statements of `match_route`, if the file is accepted, imports and types
included. -/
def readScoped (text : Str) : Option (Scoped × List Stmt) := do
  let ts ← lex text
  let (m, lines) ← readScopedFile ts
  let body ← elabBlock m.items lines
  if m.items.ok true && compiles body && m.ok true then return (m, body) else none

/-! ## Configurations -/

mutual
/-- The module with the same imports in it and all its submodules. -/
def annotate (us : List Use) : Mod → Scoped
  | .mk structs subs variants handled => .mk us structs (annotateAll us subs) variants handled
/-- The same for submodules. -/
def annotateAll (us : List Use) : List (Str × Mod) → List (Str × Scoped)
  | [] => []
  | (x, m) :: ms => (x, annotate us m) :: annotateAll us ms
end

/-- The headers are imports, these. -/
def Imports (headers : List Header) (uses : List Use) : Prop :=
  readUses ((headerToks headers).length + 1) (headerToks headers) = some (uses, [])

/-- Names that the emitted code uses or declares in the outermost module, whatever the configuration is. -/
def codeNames : List Str :=
  [c!"Route", c!"Match", c!"Error", c!"fmt", c!"String", c!"std", c!"str", c!"u8", c!"Result", c!"Box", c!"AsRef", c!"Ok", c!"None"]

/-- What imports must satisfy for a configuration. -/
structure InScope (uses : List Use) (r : Routes) : Prop where
  /-- nothing is imported twice -/
  once : (uses.map Use.name).Nodup
  /-- nothing that the emitted code always names -/
  own : ∀ u ∈ uses, u.name ∉ codeNames
  /-- not `Option`, if there are query parameters -/
  option : ∀ {mods x params query}, Action r mods x params query → query ≠ [] → ∀ u ∈ uses, u.name ≠ c!"Option"
  /-- no name of a struct -/
  actions : ∀ {mods x params query}, Action r mods x params query → ∀ u ∈ uses, u.name ≠ toCapsCase x
  /-- no name of a module, and nothing from a crate of that name -/
  submodules : ∀ {mods x}, Submodule r mods x → ∀ u ∈ uses, u.name ≠ toSnakeCase x ∧ u.path.head? ≠ some (toSnakeCase x)
  /-- the types of all parameters of all actions are imported or always there -/
  types : ∀ {mods x params query}, Action r mods x params query → ∀ p ∈ params ++ query,
    p.typ ∈ builtin ∨ ∃ u ∈ uses, u.name = p.typ

end Wayfinder.Rust
