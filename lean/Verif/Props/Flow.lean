import Verif.Proofs.Flow
import Verif.Tests.Demo
/-!
# C77: every way through `match_route` ends in a `return`
-/

namespace Wayfinder

variable {r : Routes} {body : List Stmt}

/-- **C77, types.** The emitted function passes rustc's check of control flow: every way through it returns, the expressions at the
ends of blocks have the type wanted there, and every `match` is exhaustive.  So `compiles` and `Supported` need not ask for it. -/
theorem C77_returns (hbody : matcherBody r = .ok body) (hc : compiles body = true) : returns body = true := by
  simp only [compiles, Bool.and_eq_true] at hc
  exact (code_flows (matcherBody_code hbody hc.1)).1.fits true

/-- **C77, meaning.** A body that passes the check, whether generated or not, does not fall off its end, whatever the request and the
values of its variables. -/
theorem C77_sound (h : returns body = true) (W : World) (path method : Bytes) (s : State W) :
    ∃ o, execBlock path method body s = .ret o :=
  blockDiverges_sound body (by simpa using blockFits_diverges body false h) s

/-- **C77, lints.** rustc reports no statement and no pattern of the emitted function as unreachable, except if a block has two
resources for the same verb. -/
theorem C77_lints (hbody : matcherBody r = .ok body) (hc : compiles body = true) : blockLive body = true ↔ VerbsOnce r := by
  have hd : DistinctSiblings r := by
    by_contra hn
    simp only [matcherBody] at hbody
    cases ht : toTrie r with
    | none => simp [ht] at hbody
    | some t => exact hn ((toTrie_isSome_iff r).1 ⟨t, ht⟩)
  simp only [compiles, Bool.and_eq_true] at hc
  exact code_live (matcherBody_code hbody hc.1) hd

/-! ## Demonstrations -/

open Demo

/-- The second `GET` of `/people` in the demonstration is reported. -/
example : matcherBody people = .ok (bodyOf people) ∧ compiles (bodyOf people) = true ∧ blockLive (bodyOf people) = false :=
  ⟨people_supported.generated, people_supported.compiles, by decide +kernel⟩

example : matcherBody commons = .ok (bodyOf commons) ∧ compiles (bodyOf commons) = true ∧ blockLive (bodyOf commons) = true :=
  ⟨commons_supported.generated, commons_supported.compiles, by decide +kernel⟩

/-- The check is not void: without the last statement of a block, or with an arm that does nothing, it fails. -/
example : returns [.ifThen .iEqLen [.retNotFound]] = false ∧
    returns [.matchPath 1 [.bytes c!"a" [.addI 1], .wildNotFound]] = false ∧
    returns [.matchPath 1 [.bytes c!"a" [.retNotFound]]] = false ∧
    returns [.matchPath 1 [.bytes c!"a" [.addI 1, .retNotFound], .wildNotFound]] = true := by decide

end Wayfinder
