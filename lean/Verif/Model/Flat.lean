import Verif.Model.Core
import Verif.Model.Trie
/-!
# Model of `/repo/wayfinder/src/gen/flat.rs`
-/

namespace Wayfinder

/-- `flat.rs:6-11` `enum Charlike`. -/
inductive Charlike where
  | static (c : Char)
  | dynamic (name : Str)
  | separator
deriving DecidableEq, Repr

/-- Lexicographic comparison of strings, `impl Ord for String` (byte-wise comparison of UTF-8,
which coincides with comparison by code point). -/
def Str.cmp : Str → Str → Ordering
  | [], [] => .eq
  | [], _ :: _ => .lt
  | _ :: _, [] => .gt
  | a :: as, b :: bs =>
    if a.toNat < b.toNat then .lt else if b.toNat < a.toNat then .gt else Str.cmp as bs

/-- `flat.rs:6` `#[derive(PartialOrd, Ord)]` on `Charlike`: variants in declaration order, then
contents. -/
def Charlike.cmp : Charlike → Charlike → Ordering
  | .static a, .static b => if a.toNat < b.toNat then .lt else if b.toNat < a.toNat then .gt else .eq
  | .static _, _ => .lt
  | .dynamic _, .static _ => .gt
  | .dynamic a, .dynamic b => Str.cmp a b
  | .dynamic _, .separator => .lt
  | .separator, .separator => .eq
  | .separator, _ => .gt

/-- `flat.rs:19-33`: the charlikes of one segment. -/
def PathSegment.charlikes : PathSegment → List Charlike
  | .static s => s.map .static ++ [.separator]
  | .dynamic d => [.dynamic d.name, .separator]

/-- `flat.rs:14-16,19-33` `FlattenedPath::iter` (the struct is represented by its segments). -/
def charlikes (segments : List PathSegment) : List Charlike :=
  (segments.map PathSegment.charlikes).flatten

/-- `flat.rs:35-40` `FlattenedPath::dynamics`. -/
def dynamics (segments : List PathSegment) : List Param :=
  segments.filterMap fun
    | .dynamic s => some s
    | .static _ => none

/-- `flat.rs:44-48` `struct FlattenedRoute`. -/
structure FlattenedRoute where
  path : List PathSegment
  resources : List Resource
  queryParameters : List Param
deriving DecidableEq, Repr

mutual
/-- `flat.rs:62-92` `FlattenedRoutes::flatten`. -/
def flattenRoutes : Routes → List PathSegment → List Param → List FlattenedRoute
  | .mk rs ns qs, path, query =>
    { path := path, resources := rs, queryParameters := query ++ qs }
      :: flattenNesteds ns path (query ++ qs)
/-- `flat.rs:81-89`: the loop over children. -/
def flattenNesteds : List NestedRoutes → List PathSegment → List Param → List FlattenedRoute
  | [], _, _ => []
  | n :: ns, path, query => flattenNested n path query ++ flattenNesteds ns path query
/-- `flat.rs:82-88`: one child. -/
def flattenNested : NestedRoutes → List PathSegment → List Param → List FlattenedRoute
  | .mk seg r, path, query => flattenRoutes r (path ++ [seg]) query
end

/-- The key order used by the route trie (`Charlike: Ord`). -/
abbrev RouteTrie := Trie Charlike FlattenedRoute

/-- `flat.rs:100-111`: the loop of `FlattenedRoutes::to_trie`, from trie `t`; `none` is the
panic "all paths should be unique!". -/
def addAll : RouteTrie → List FlattenedRoute → Option RouteTrie
  | t, [] => some t
  | t, r :: rs =>
    match t.add Charlike.cmp (charlikes r.path) r with
    | .error _ => none
    | .ok t' => addAll t' rs

/-- `flat.rs:54-59,100-111`: `FlattenedRoutes::from(routes).to_trie()`. -/
def toTrie (r : Routes) : Option RouteTrie :=
  addAll Trie.new (flattenRoutes r [] [])

/-! ## Modules (`flat.rs:114-250`) -/

/-- `flat.rs:244-250` `struct FlattenedAction`. -/
structure FlattenedAction where
  name : Str
  method : Method
  path : List PathSegment
  routeParameters : List Param
  queryParameters : List Param
deriving DecidableEq, Repr

/-- `flat.rs:130-135` `helper::Module(ModuleMap, ActionMap)`.  The two `HashMap`s are association
lists without duplicate keys; their order is irrelevant because `finalize` drains them in an
arbitrary order (see `Module.finalize`). -/
inductive Module where
  | mk (modules : List (Str × Module)) (actions : List (Str × FlattenedAction))

/-- Field access. -/
def Module.modules : Module → List (Str × Module) | .mk ms _ => ms
/-- Field access. -/
def Module.actions : Module → List (Str × FlattenedAction) | .mk _ as => as

/-- `Module::default()` (`flat.rs:130`). -/
def Module.default : Module := .mk [] []

/-- Lookup in a map without duplicate keys. -/
def mapGet {α} (k : Str) : List (Str × α) → Option α
  | [] => none
  | (k', a) :: m => if k' = k then some a else mapGet k m

/-- Replace the value of a present key. -/
def mapSet {α} (k : Str) (v : α) : List (Str × α) → List (Str × α)
  | [] => [(k, v)]
  | (k', a) :: m => if k' = k then (k', v) :: m else (k', a) :: mapSet k v m

/-- `flat.rs:198-222`: walk down `entry(module_name).or_insert(default)` along `modules`, then
`insert(name, action)`.  `none` is the panic at `flat.rs:215` (a previous action was present;
for an action outside any module the panic is the `unwrap` at line 217). -/
def Module.insertAction : List Str → Str → FlattenedAction → Module → Option Module
  | [], name, act, .mk ms as =>
    match mapGet name as with
    | some _ => none
    | none => some (.mk ms (as ++ [(name, act)]))
  | m :: mods, name, act, .mk ms as =>
    match insertAction mods name act ((mapGet m ms).getD .default) with
    | none => none
    | some sub => some (.mk (mapSet m sub ms) as)

/-- `flat.rs:190-222`: the loop over the resources of one `Routes`. -/
def addResources (path : List PathSegment) (query : List Param) :
    List Resource → Module → Option Module
  | [], acc => some acc
  | r :: rs, acc =>
    if r.isRedirect then addResources path query rs acc
    else
      match acc.insertAction r.modules r.name
          { name := r.name, method := r.method, path := path,
            routeParameters := dynamics path,
            queryParameters := query ++ r.queryParameters } with
      | none => none
      | some acc' => addResources path query rs acc'

mutual
/-- Number of `Routes` nodes; used as fuel for the work-list loop. -/
def Routes.count : Routes → Nat
  | .mk _ ns _ => 1 + countNesteds ns
/-- Number of `Routes` nodes below a list of children. -/
def countNesteds : List NestedRoutes → Nat
  | [] => 0
  | n :: ns => n.count + countNesteds ns
/-- Number of `Routes` nodes below a child. -/
def NestedRoutes.count : NestedRoutes → Nat
  | .mk _ r => r.count
end

/-- `flat.rs:175-230`: the work-list loop of `FlattenedModules::flatten`.  The stack is a list
whose head is the top (`Vec::pop` takes the last pushed).  Children are pushed in order, so the
last child is processed first.  `fuel` bounds the number of turns (one per `Routes` node). -/
def flattenModulesLoop : Nat → List (Routes × List PathSegment × List Param) → Module → Option Module
  | 0, _, acc => some acc
  | _ + 1, [], acc => some acc
  | fuel + 1, (.mk rs ns qs, path, query) :: stack, acc =>
    let query' := query ++ qs
    match addResources path query' rs acc with
    | none => none
    | some acc' =>
      let pushed := ns.map fun n => (n.routes, path ++ [n.pathSegment], query')
      flattenModulesLoop fuel (pushed.reverse ++ stack) acc'

/-- `flat.rs:168-231`, before `finalize`; `none` is the duplicate-action panic. -/
def flattenModules (r : Routes) : Option Module :=
  flattenModulesLoop r.count [(r, [], [])] .default

/-- `flat.rs:237-241` `struct FlattenedModule`. -/
inductive FlattenedModule where
  | mk (name : Str) (actions : List FlattenedAction) (modules : List FlattenedModule)

/-- Field access. -/
def FlattenedModule.name : FlattenedModule → Str | .mk n _ _ => n
/-- Field access. -/
def FlattenedModule.actions : FlattenedModule → List FlattenedAction | .mk _ a _ => a
/-- Field access. -/
def FlattenedModule.modules : FlattenedModule → List FlattenedModule | .mk _ _ m => m

/-- Insertion into a list sorted by name. -/
def insertByName {α} (key : α → Str) (a : α) : List α → List α
  | [] => [a]
  | b :: bs => if Str.cmp (key a) (key b) = .gt then b :: insertByName key a bs else a :: b :: bs

/-- `sort_unstable_by_key(|x| x.name.clone())` (`flat.rs:150,156`).  The names are distinct, so
every correct sorting algorithm gives the same list (proved in `Props/Generation.lean`); an
insertion sort stands for it. -/
def sortByName {α} (key : α → Str) : List α → List α
  | [] => []
  | a :: as => insertByName key a (sortByName key as)

mutual
/-- `flat.rs:146-163` `Module::finalize`.  The order in which `HashMap::drain` yields the entries
is taken to be the association-list order here; `Spec/Modules.lean` gives the relation covering
every drain order and every unstable sort, and `Props/Generation.lean` shows they all agree. -/
def Module.finalize : Module → Str → FlattenedModule
  | .mk ms as, name =>
    .mk name (sortByName FlattenedAction.name (as.map (·.2)))
      (sortByName FlattenedModule.name (finalizeAll ms))
/-- `flat.rs:152-155`: `module_map.drain().map(|(k, v)| v.finalize(k))`. -/
def finalizeAll : List (Str × Module) → List FlattenedModule
  | [] => []
  | km :: rest => finalizeOne km :: finalizeAll rest
/-- `flat.rs:154`: one entry. -/
def finalizeOne : Str × Module → FlattenedModule
  | (k, m) => m.finalize k
end

/-- `flat.rs:119-124,232`: `FlattenedModules::from(routes).root`; `none` is the panic. -/
def modulesRoot (r : Routes) : Option FlattenedModule :=
  (flattenModules r).map fun m => m.finalize c!"routes"

end Wayfinder
