import Verif.Proofs.Asks
import Verif.Props.Cost
import Verif.Tests.Demo
/-!
# C75: when `match_route` calls `FromStr`

The only code that `match_route` runs and wayfinder did not write are the implementations of `FromStr`.  Here is which calls are made, in
which order, with which texts, and what becomes of the results.
-/

namespace Wayfinder

open scoped List

variable {W : World} {r : Routes} {body : List Stmt}

theorem asked (h : Supported r body) (path m : Bytes) :
    Good (W := W) (RouteOf r) (cut (stripSlash path)) [] (trace path m body (initialState W path)) := by
  have hc := h.compiles
  simp only [Wayfinder.compiles, Bool.and_eq_true] at hc
  have := code_good (W := W) (path := path) (m := m) (matcherBody_code h.generated hc.1) [] (initialState W path)
    ⟨h.distinct, h.unhidden⟩ rfl ⟨hc.1, [], hc.2⟩ ⟨rfl, rfl, rfl, rfl, by simp⟩ (initial_rest path).1
  have hrest : path.drop (initialState W path).i = stripSlash path := by
    cases path with
    | nil => simp [initialState, stripSlash]
    | cons b bs =>
      by_cases hb : b = slash
      · subst hb; simp [initialState, stripSlash, slash]
      · simp [initialState, stripSlash, hb]
  rw [hrest] at this
  exact this

/-- **C75.** In every call of `match_route` the calls of `FromStr` are, in order, for the parameters of one route of the configuration
from its beginning up to some block, each once and with its declared type, and their texts are different pieces of the path, in order. -/
theorem C75_calls (h : Supported r body) (path m : Bytes) :
    (∃ segs above node, HasRoute r segs above node ∧ (callAsks W body path m).map Ask.param = routeParams segs) ∧
    ((callAsks W body path m).map fun a => utf8 a.text) <+ cut (stripSlash path) := by
  have hg := asked (W := W) h path m
  obtain ⟨segs, above, node, hr, hs⟩ := hg.declared
  exact ⟨⟨segs, above, node, hr, by rw [← dynamics_eq_routeParams, hs]; rfl⟩, hg.texts⟩

theorem cut_length : ∀ bs : Bytes, (cut bs).length = bs.count slash + 1
  | [] => rfl
  | b :: bs => by
    have ih := cut_length bs
    simp only [cut]
    split
    · rename_i hb; simp [hb, ih]
    · rename_i hb
      cases hc : cut bs with
      | nil => simp [hc] at ih
      | cons p ps =>
        rw [hc] at ih
        simp [hb] at ih ⊢
        omega

/-- **C75, count.** At most one call more than the path has slashes (not counting the first character). -/
theorem C75_count (h : Supported r body) (path m : Bytes) :
    (callAsks W body path m).length ≤ (stripSlash path).count slash + 1 := by
  have := (C75_calls (W := W) h path m).2.length_le
  rwa [List.length_map, cut_length] at this

/-- **C75, the first failure.** In every compiled `match_route`, for every path: if a call of `FromStr` fails, then it is the last one, and
the answer is this error under the name of this parameter; and only so does the answer become an error. -/
theorem C75_stops (hc : compiles body = true) (path m : Bytes) :
    (∀ before a after e, callAsks W body path m = before ++ a :: after → a.fails (W := W) e →
      after = [] ∧ callMatchRoute W body path m = .err a.param.name e) ∧
    (∀ x e, callMatchRoute W body path m = .err x e →
      ∃ before a, callAsks W body path m = before ++ [a] ∧ a.fails (W := W) e ∧ a.param.name = x) := by
  have ht := blockTold (W := W) (path := path) (m := m) body (initialState W path)
  have hasks : callAsks W body path m = blockAsks path m body (initialState W path) := rfl
  rw [← hasks] at ht
  have hno : ∀ {b : Ask} {v : W.V} {e : W.E}, b.ok v → b.fails e → False := by
    intro b v e h1 h2
    simp only [Ask.ok, Ask.fails] at h1 h2
    rw [h1] at h2
    cases h2
  constructor
  · intro before a after e hl hf
    rcases ht with ⟨hall, _⟩ | ⟨before', a', e', hl', hok, hf', ho⟩
    · obtain ⟨v, hv⟩ := hall a (by simp [hl])
      exact (hno hv hf).elim
    · have hcases : after = [] ∧ a = a' := by
        rw [hl] at hl'
        rcases List.eq_nil_or_concat after with rfl | ⟨l, x, rfl⟩
        · have := List.append_inj' hl' (by simp)
          exact ⟨rfl, by simpa using this.2⟩
        · exfalso
          have hl'' : (before ++ a :: l) ++ [x] = before' ++ [a'] := by simpa using hl'
          have := (List.append_inj' hl'' (by simp)).1
          obtain ⟨v, hv⟩ := hok a (by rw [← this]; simp)
          exact hno hv hf
      obtain ⟨rfl, rfl⟩ := hcases
      refine ⟨rfl, ?_⟩
      have : e = e' := by
        simp only [Ask.fails] at hf hf'
        rw [hf] at hf'
        simpa using hf'
      subst this
      simp [callMatchRoute, hc, ho]
  · intro x e ho
    simp only [callMatchRoute, hc, if_true] at ho
    cases hx : execBlock path m body (initialState W path) with
    | next s => simp [hx] at ho
    | ret o =>
      simp only [hx] at ho
      subst ho
      rcases ht with ⟨_, hne⟩ | ⟨before', a', e', hl', _, hf', ho⟩
      · exact absurd hx (hne x e)
      · rw [hx] at ho
        simp only [Flow.ret.injEq, Outcome.err.injEq] at ho
        obtain ⟨rfl, rfl⟩ := ho
        exact ⟨before', a', hl', hf', rfl⟩

/-- **C75, nothing is lost.** If the answer is a route or a redirect, its path parameters are exactly the results of the calls of
`FromStr`, in order: every value that was made is in the answer, and nothing else. -/
theorem C75_values (h : Supported r body) (path m : Bytes) {v : RouteVal W}
    (ho : callMatchRoute W body path m = .route v ∨ callMatchRoute W body path m = .redirect v) :
    List.Forall₂ (fun (a : Ask) (f : Str × Val W) => f.1 = a.param.name ∧ ∃ x, a.ok (W := W) x ∧ f.2 = .user x)
      (callAsks W body path m) v.params := by
  have hg := asked (W := W) h path m
  obtain ⟨o, hx⟩ := hg.returns
  have hx' : execBlock path m body (initialState W path) = .ret o := hx
  have hc := h.compiles
  simp only [callMatchRoute, hc, if_true, hx'] at ho
  obtain ⟨more, hp, hm⟩ := hg.values v (by
    rw [hx]
    exact ho.imp (fun e => by rw [e]) (fun e => by rw [e]))
  rw [hp]
  simp only [List.nil_append]
  have hl : (trace path m body (initialState W path)).1 = callAsks W body path m := rfl
  rw [hl] at hm
  clear hl hp hx hx' ho hg
  generalize callAsks W body path m = asks at hm ⊢
  induction hm with
  | nil => exact .nil
  | cons hab _ ih => exact .cons ⟨by rw [hab.1], _, hab.2, rfl⟩ ih

/-- **C75, also in vain.** `FromStr` is called before it is known whether the path leads to a route at all: a call may be made, and even
its error be the answer, for paths that no route fits (`/people/7/nothing`, `/people/x/nothing`), and for methods that are not allowed. -/
theorem C75_vain :
    callAsks Demo.world (bodyOf Demo.people) (bytesOf c!"/people/7/nothing") (bytesOf c!"GET") = [⟨⟨c!"id", c!"u32"⟩, c!"7"⟩] ∧
    Demo.ask Demo.people c!"/people/7/nothing" c!"GET" = .notFound ∧
    callAsks Demo.world (bodyOf Demo.people) (bytesOf c!"/people/x/nothing") (bytesOf c!"GET") = [⟨⟨c!"id", c!"u32"⟩, c!"x"⟩] ∧
    Demo.ask Demo.people c!"/people/x/nothing" c!"GET" = .err c!"id" c!"invalid digit" ∧
    callAsks Demo.world (bodyOf Demo.people) (bytesOf c!"/people/7") (bytesOf c!"PUT") = [⟨⟨c!"id", c!"u32"⟩, c!"7"⟩] ∧
    Demo.ask Demo.people c!"/people/7" c!"PUT" = .notAllowed := by
  refine ⟨?_, ?_, ?_, ?_, ?_, ?_⟩ <;> decide +kernel

/-! ## A case -/

example : callAsks Demo.world (bodyOf Demo.people) (bytesOf c!"/people/7/edit") (bytesOf c!"GET") = [⟨⟨c!"id", c!"u32"⟩, c!"7"⟩] := by
  decide +kernel

example : ((callAsks Demo.world (bodyOf Demo.people) (bytesOf c!"/people/7/edit") (bytesOf c!"GET")).map fun a => utf8 a.text) <+
    [bytesOf c!"people", bytesOf c!"7", bytesOf c!"edit"] :=
  (C75_calls Demo.people_supported _ _).2

end Wayfinder
