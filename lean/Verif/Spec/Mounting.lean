import Verif.Spec.Modules
import Verif.Spec.Shape
import Verif.Spec.Words
/-!
# Specification vocabulary: what a mount may add
-/

namespace Wayfinder

/-- `Resides r x`: the resource `x` stands somewhere in the configuration `r`. -/
def Resides (r : Routes) (x : Resource) : Prop :=
  ∃ segs above node, HasRoute r segs above node ∧ x ∈ node.resources

/-- Two configurations declare an action of the same name in the same module. -/
def ShareAction (a b : Routes) : Prop :=
  ∃ x y : Resource, Resides a x ∧ Resides b y ∧ x.isRedirect = false ∧ y.isRedirect = false ∧
    x.modules = y.modules ∧ x.name = y.name

/-- What the code emitted for the root of a configuration allows as a further static child. -/
structure Room (r : Routes) (seg : Str) : Prop where
  /-- the text can be written in a byte string literal -/
  ascii : ∀ c ∈ seg, byteStrChar c = true
  /-- no sibling begins it, and it begins none -/
  apart : ∀ s ∈ staticTexts r.routes, ¬ s <+: seg ∧ ¬ seg <+: s
  /-- next to a parameter it begins as all its siblings do -/
  initial : paramNames r.routes ≠ [] → ∃ c, ∀ s ∈ seg :: staticTexts r.routes, s.head? = some c

/-- No action of `sub` gets a second field of the same name from the query parameters `query`, which it
inherits when mounted. -/
def FieldsFit (query : List Param) (sub : Routes) : Prop :=
  ∀ segs above node, LiveRoute sub segs above node → ∀ res ∈ node.resources,
    ((query ++ routeParams segs ++ above ++ node.queryParameters ++ res.queryParameters).map
      Param.name).Nodup

namespace Rust

/-- The actions of `sub` are in modules of their own: none of its outermost modules is named like something
at the root of the base. -/
structure Strangers (base sub : Routes) : Prop where
  /-- every action is in a module -/
  inside : ∀ {x params query}, ¬ Action sub [] x params query
  /-- no outermost module is written like one of the base -/
  submodules : ∀ {m y}, Submodule sub [] m → Submodule base [] y →
    toSnakeCase y ≠ toSnakeCase m ∧ toCapsCase y ≠ toCapsCase m
  /-- nor like an action at the root of the base -/
  actions : ∀ {m x params query}, Submodule sub [] m → Action base [] x params query →
    toCapsCase x ≠ toSnakeCase m ∧ toCapsCase x ≠ toCapsCase m
  /-- nor like a type used there -/
  types : ∀ {m x params query}, Submodule sub [] m → Action base [] x params query →
    (∀ p ∈ params ++ query, p.typ ≠ toSnakeCase m) ∧ (query ≠ [] → toSnakeCase m ≠ c!"Option")
  /-- and no parameter is named like a struct without fields there -/
  params : ∀ {segs query node}, LiveRoute sub segs query node → ∀ p, .dynamic p ∈ segs →
    ∀ y, Action base [] y [] [] → p.name ≠ toCapsCase y

/-- The actions of `sub` can have the further fields `query`. -/
structure Inherits (query : List Param) (sub : Routes) : Prop where
  /-- no field twice -/
  fields : ∀ {mods x params query'}, Action sub mods x params query' →
    ((query ++ params ++ query').map Param.name).Nodup
  /-- the types are not declared in the module -/
  types : ∀ {mods x params query'}, Action sub mods x params query' → ∀ p ∈ query, ¬ TypeName sub mods p.typ
  /-- nor is `Option` -/
  option : ∀ {mods x params query'}, Action sub mods x params query' → query ≠ [] → ¬ TypeName sub mods c!"Option"
  /-- the names can be names of variables -/
  names : ∀ p ∈ query, p.name ∉ [c!"None", c!"Some", c!"Ok", c!"Err"]

end Rust

end Wayfinder
