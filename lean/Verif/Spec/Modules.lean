import Verif.Model.Flat
import Verif.Spec.Config
/-!
# Specification vocabulary: the emitted module tree

What the tree of modules and action structs contains, when two resources ask for the same struct, and
what draining hash maps in any order and sorting by name may produce.
-/

namespace Wayfinder

mutual
/-- All resources of a configuration, in the order of the file. -/
def Routes.allResources : Routes → List Resource
  | .mk rs ns _ => rs ++ allResourcesL ns
/-- All resources below a list of children. -/
def allResourcesL : List NestedRoutes → List Resource
  | [] => []
  | n :: ns => n.allResources ++ allResourcesL ns
/-- All resources below a child. -/
def NestedRoutes.allResources : NestedRoutes → List Resource
  | .mk _ r => r.allResources
end

/-- No two non-redirect resources have the same module path and name. -/
def DistinctActions (r : Routes) : Prop :=
  ((r.allResources.filter fun x => !x.isRedirect).map fun x => (x.modules, x.name)).Nodup

/-- `HasAction m mods a`: the module tree `m` declares the action `a` in the module `mods` (a path of
module names, below `m`). -/
inductive HasAction : FlattenedModule → List Str → FlattenedAction → Prop where
  | here {m : FlattenedModule} {a : FlattenedAction} : a ∈ m.actions → HasAction m [] a
  | inside {m sub : FlattenedModule} {mods : List Str} {a : FlattenedAction} :
      sub ∈ m.modules → HasAction sub mods a → HasAction m (sub.name :: mods) a

/-- Sorted by name (`sort_unstable_by_key`: equal names could be in any order). -/
def SortedBy {α : Type} (key : α → Str) (l : List α) : Prop :=
  l.Pairwise fun a b => Str.cmp (key a) (key b) ≠ .gt

mutual
/-- `Finalizes m name out`: draining the two maps of `m` in *some* order and sorting by name with *some*
correct sorting algorithm, at every level, gives `out`. -/
inductive Finalizes : Module → Str → FlattenedModule → Prop where
  | mk {ms : List (Str × Module)} {as : List (Str × FlattenedAction)} {name : Str}
      {drained mods : List FlattenedModule} {acts : List FlattenedAction} :
      acts.Perm (as.map Prod.snd) → SortedBy FlattenedAction.name acts →
      FinalizesAll ms drained → mods.Perm drained → SortedBy FlattenedModule.name mods →
      Finalizes (.mk ms as) name (.mk name acts mods)
/-- The entries of a module map, finalized one by one. -/
inductive FinalizesAll : List (Str × Module) → List FlattenedModule → Prop where
  | nil : FinalizesAll [] []
  | cons {k : Str} {m : Module} {ms : List (Str × Module)} {out : FlattenedModule}
      {outs : List FlattenedModule} : Finalizes m k out → FinalizesAll ms outs →
      FinalizesAll ((k, m) :: ms) (out :: outs)
end

/-- `Chain r segs blocks`: `blocks` are the blocks passed when following `segs` from `r`, both ends
included. -/
inductive Chain : Routes → List PathSegment → List Routes → Prop where
  | here (r : Routes) : Chain r [] [r]
  | child {r sub : Routes} {seg : PathSegment} {segs : List PathSegment} {blocks : List Routes} :
      NestedRoutes.mk seg sub ∈ r.routes → Chain sub segs blocks → Chain r (seg :: segs) (r :: blocks)

end Wayfinder
