import Verif.Model.Core
/-!
# Specification vocabulary: merged headers
-/

namespace Wayfinder

/-- `kept` are the distinct elements of `all`, in the order of their first occurrence. -/
def FirstSeen {α : Type} [DecidableEq α] (all kept : List α) : Prop :=
  (∀ x, x ∈ kept ↔ x ∈ all) ∧ kept.Pairwise fun a b => all.idxOf a < all.idxOf b

/-- A sequence of mounts, in order. -/
def RouteConfig.mountAll (base : RouteConfig) (ms : List (Str × RouteConfig)) : RouteConfig :=
  ms.foldl (fun c m => c.mount m.1 m.2) base

end Wayfinder
