import Verif.Proofs.Sums
import Verif.Props.Cost
import Verif.Tests.Demo
/-!
# C74: the numbers in `match_route`

The emitted function computes with `usize`, the model with natural numbers.  No sum of a call reaches the limit of `usize`, so the two agree.
-/

namespace Wayfinder

variable {W : World} {r : Routes} {body : List Stmt}

/-- **C74.** Whatever the configuration, the parameters and their types, the path and the method: no sum computed during a call of the
compiled `match_route` is larger than the length of the path plus the length of the longest fixed segment (at least one). -/
theorem C74_bound (hgen : matcherBody r = .ok body) (hc : compiles body = true) {L : Nat} (hL : 1 ≤ L) (ht : TextsAtMost L r)
    (path m : Bytes) : ∀ n ∈ callSums W body path m, n ≤ path.length + L := by
  simp only [compiles, Bool.and_eq_true] at hc
  have hcare := code_careful hL (matcherBody_code hgen hc.1) [] ht hc.2
  refine (execBlock_keeps (m := m) hL body 0 (initialState W path) hcare ⟨?_, rfl⟩).1
  exact (initial_rest (W := W) path).1

/-- **C74, overflow.** On a machine of `w + 1` bits (a slice has fewer than `2 ^ w` bytes, and so has every fixed segment) no sum computed
during a call overflows. -/
theorem C74_usize (hgen : matcherBody r = .ok body) (hc : compiles body = true) {w : Nat} (hw : 1 ≤ w)
    (ht : TextsAtMost (2 ^ w - 1) r) {path : Bytes} (hp : path.length < 2 ^ w) (m : Bytes) :
    ∀ n ∈ callSums W body path m, n < 2 ^ (w + 1) := by
  intro n hn
  have h2 : 2 ^ 1 ≤ 2 ^ w := Nat.pow_le_pow_right (by decide) hw
  have := C74_bound hgen hc (L := 2 ^ w - 1) (by omega) ht path m n hn
  rw [Nat.pow_succ]
  omega

/-- **C74, the counter.** After every piece of code that the compiled `match_route` runs through, `i` is an index of the path or its end:
the function ends in a return, and whatever statements come first, if they do not return they leave `i` within the path. -/
theorem C74_counter (hgen : matcherBody r = .ok body) (hc : compiles body = true) (path m : Bytes) {pre post : List Stmt}
    (hb : body = pre ++ post) {s : State W} (hx : execBlock path m pre (initialState W path) = .next s) : s.i ≤ path.length := by
  simp only [compiles, Bool.and_eq_true] at hc
  obtain ⟨L, hL, ht⟩ := texts_bound r
  have hcare := code_careful hL (matcherBody_code hgen hc.1) [] ht hc.2
  rw [hb] at hcare
  have := (execBlock_keeps (m := m) hL pre 0 (initialState W path) (careful_prefix hcare) ⟨(initial_rest (W := W) path).1, rfl⟩).2 s hx
  exact this.bound

namespace Demo

theorem texts_of {L : Nat} {r : Routes}
    (h : segsAll (fun | .static s => decide (s.length ≤ L) | .dynamic _ => true) r = true) : TextsAtMost L r := by
  intro segs above node hr s hs
  simpa using segsAll_route hr h _ hs

/-- One route, `/people`. -/
def lone : Routes := .mk [] [.mk (.static c!"people") (.mk [res .get c!"people" c!"List"] [] [])] []

end Demo

/-- **C74, the bound is reached**: `i + 6 > len` at the end of the path `/`, where the longest fixed segment has six letters. -/
theorem C74_reached :
    ∃ (r : Routes) (body : List Stmt) (path m : Bytes), matcherBody r = .ok body ∧ compiles body = true ∧ TextsAtMost 6 r ∧
      ∃ n ∈ callSums Demo.world body path m, n = path.length + 6 := by
  have h : Supported Demo.lone (bodyOf Demo.lone) := supported_of (by decide +kernel)
  exact ⟨_, _, bytesOf c!"/", bytesOf c!"GET", h.generated, h.compiles, Demo.texts_of (by decide +kernel), by decide +kernel⟩

/-- The people application: the sums of two calls. -/
example : callSums Demo.world (bodyOf Demo.people) (bytesOf c!"/people/17/edit/") (bytesOf c!"GET") =
      [2, 2, 7, 7, 7, 8, 8, 11, 11, 9, 9, 10, 10, 11, 11, 11, 15, 15, 15, 16, 16] ∧
    callSums Demo.world (bodyOf Demo.people) (bytesOf c!"/p") (bytesOf c!"GET") = [2, 2, 7] := by decide +kernel

/-- And its calls on a machine of 64 bits. -/
example (path m : Bytes) (hp : path.length < 2 ^ 63) : ∀ n ∈ callSums Demo.world (bodyOf Demo.people) path m, n < 2 ^ 64 :=
  C74_usize Demo.people_supported.generated Demo.people_supported.compiles (by decide)
    ((Demo.texts_of (L := 6) (by decide)).mono (by decide)) hp m

end Wayfinder
