import Verif.Spec.Elab
import Verif.Spec.Types
/-!
# Specification vocabulary: what the types of parameters must implement

The reader of the emitted file checks which struct has which field of which type.  Here is what rustc asks of the
types themselves: the derives of the structs (`#[derive(Debug, PartialEq, Eq)]`), `format!` in `to_path` and
`text.parse()` with `Error::fail` in `match_route`.
-/

namespace Wayfinder

/-- What the emitted code needs of a type.  `fromStr` is `FromStr` with an error that is `Debug + 'static`. -/
inductive Trait where
  | debug
  | partialEq
  | eq
  | display
  | fromStr
deriving DecidableEq

mutual
/-- The variables that get their values from `text.parse()`, with their types. -/
def Stmt.parses : Stmt → List Param
  | .ifThen _ body => blockParses body
  | .matchPath _ arms => armsParses arms
  | .letParam name (some typ) => [⟨name, typ⟩]
  | _ => []
/-- The same for a block. -/
def blockParses : List Stmt → List Param
  | [] => []
  | s :: ss => s.parses ++ blockParses ss
/-- The same for an arm. -/
def Arm.parses : Arm → List Param
  | .bytes _ body => blockParses body
  | _ => []
/-- The same for arms. -/
def armsParses : List Arm → List Param
  | [] => []
  | a :: as => a.parses ++ armsParses as
end

namespace Rust

mutual
/-- The structs of a module and its submodules. -/
def Mod.allStructs : Mod → List Struct
  | .mk structs subs _ _ => structs ++ subStructs subs
/-- The same for submodules. -/
def subStructs : List (Str × Mod) → List Struct
  | [] => []
  | (_, m) :: ms => m.allStructs ++ subStructs ms
end

/-- A struct is in order: the derived implementations exist (`Option<T>` has them if `T` has them), and what
`format!` shows can be shown (`Option<T>` cannot). -/
def Struct.Served (impl : Trait → Str → Prop) (s : Struct) : Prop :=
  (∀ f ∈ s.fields, impl .debug f.typ ∧ impl .partialEq f.typ ∧ impl .eq f.typ) ∧
  ∀ x ∈ s.args, ∃ f ∈ s.fields, f.name = x ∧ f.optional = false ∧ impl .display f.typ

/-- All structs are in order and every `text.parse()` can be done. -/
def Served (impl : Trait → Str → Prop) (m : Mod) (b : List Stmt) : Prop :=
  (∀ s ∈ m.allStructs, s.Served impl) ∧ ∀ p ∈ blockParses b, impl .fromStr p.typ

/-- The types of a configuration implement what they must. -/
structure Implemented (impl : Trait → Str → Prop) (r : Routes) : Prop where
  /-- the types of all parameters of actions can be derived over -/
  derived : ∀ {mods x params query}, Action r mods x params query → ∀ p ∈ params ++ query,
    impl .debug p.typ ∧ impl .partialEq p.typ ∧ impl .eq p.typ
  /-- the types of their path parameters can be written -/
  shown : ∀ {mods x params query}, Action r mods x params query → ∀ p ∈ params, impl .display p.typ
  /-- and read, if there is code for them: the type of the field for which a segment is used -/
  parsed : ∀ {segs query res}, Emitted r segs query res → ∀ p, .dynamic p ∈ segs → ∀ t, FieldType r res p.name t → impl .fromStr t

end Rust

end Wayfinder
