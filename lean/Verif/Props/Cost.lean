import Verif.Proofs.Cost
import Verif.Spec.Instance
import Verif.Tests.Demo
/-!
# C53: the cost of a call does not depend on the number of routes
-/

namespace Wayfinder

variable {W : World} {r : Routes} {body : List Stmt}

theorem initial_rest (path : Bytes) :
    (initialState W path).i ≤ path.length ∧ path.length - (initialState W path).i = (stripSlash path).length := by
  cases path with
  | nil => simp [initialState, stripSlash]
  | cons b bs =>
    by_cases hb : b = slash
    · subst hb; simp [initialState, stripSlash, slash]
    · have hb' : ¬ b = asciiByte '/' := hb
      simp [initialState, stripSlash, hb, hb']

/-- **C53.** Whatever the configuration, a call of the compiled `match_route` with a path of `n` bytes (not
counting one leading `/`) executes at most `10 n + 14` statements, turns of the loop included. -/
theorem C53_linear (hgen : matcherBody r = .ok body) (hc : compiles body = true) (path m : Bytes) :
    callSteps W body path m ≤ 10 * (stripSlash path).length + 14 := by
  have hshape : blockShapeOk body = true := by
    simp only [compiles, Bool.and_eq_true] at hc; exact hc.1
  obtain ⟨hi, hlen⟩ := initial_rest (W := W) path
  have := (code_ends (W := W) (path := path) (m := m) (matcherBody_code hgen hshape) _ hi).2
  simp only [CodeKind.bound, CodeKind.extra, hlen] at this
  simp only [callSteps]
  omega

/-- **C53, the calls end.** The compiled `match_route` never falls off its end, whatever the parameters are
called. -/
theorem C53_returns (hgen : matcherBody r = .ok body) (hc : compiles body = true) (path m : Bytes) :
    ∃ o, execBlock path m body (initialState W path) = .ret o := by
  have hshape : blockShapeOk body = true := by
    simp only [compiles, Bool.and_eq_true] at hc; exact hc.1
  exact (code_ends (W := W) (path := path) (m := m) (matcherBody_code hgen hshape) _ (initial_rest path).1).1

namespace Demo

/-- `k` parameters below each other, each beside a static child `x`, and a resource at every level. -/
def ladder : Nat → Routes
  | 0 => .mk [res .get c!"a" c!"End"] [] []
  | k + 1 =>
    .mk [res .get c!"a" (c!"L" ++ natStr k)]
      [.mk (.dynamic ⟨c!"p" ++ natStr k, c!"String"⟩) (ladder k),
       .mk (.static c!"x") (.mk [res .get c!"a" (c!"X" ++ natStr k)] [] [])] []

/-- A path of slashes. -/
def slashes (k : Nat) : Bytes := List.replicate k slash

end Demo

/-- **C53, the factor.** The factor 10 is the least possible: a path of slashes through 20 parameters beside
static children takes more than `9 n + 14` statements. -/
theorem C53_factor :
    ∃ (r : Routes) (body : List Stmt) (path m : Bytes), matcherBody r = .ok body ∧ compiles body = true ∧
      callSteps Demo.world body path m > 9 * (stripSlash path).length + 14 := by
  have h : Supported (Demo.ladder 20) (bodyOf (Demo.ladder 20)) := supported_of (by decide +kernel)
  exact ⟨_, _, Demo.slashes 20, bytesOf c!"GET", h.generated, h.compiles, by decide +kernel⟩

/-- The people application (8 routes): a matched path, a path that is not found, and the root. -/
example : callSteps Demo.world (bodyOf Demo.people) (bytesOf c!"/people/17/edit/") (bytesOf c!"GET") = 36 ∧
    callSteps Demo.world (bodyOf Demo.people) (bytesOf c!"/x") (bytesOf c!"GET") = 8 ∧
    callSteps Demo.world (bodyOf Demo.people) (bytesOf c!"/") (bytesOf c!"GET") = 7 := by decide +kernel

end Wayfinder
