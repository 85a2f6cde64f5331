import Verif.Proofs.Rename
import Verif.Props.Routing
/-!
# C14: parameter names are immaterial to routing — within limits
-/

namespace Wayfinder

/-- **C14 (partial).** Renaming the path parameters of a supported configuration injectively, to fresh
names, keeping the alphabetical order of parameters that are siblings, gives a supported configuration
whose matcher returns the same outcome up to the names of the parameters.

Missing: names of the generated function's own variables (`C14_len_false`, `C14_start_false`) and
renamings that change the order of sibling parameters (`C14_order_false`). -/
theorem C14_renaming_partial {r : Routes} {body : List Stmt} (h : Supported r body) {f : Str → Str}
    (hf : Function.Injective f) (hfresh : FreshNames f r) (hk : KeepsOrder f r) :
    ∃ body', Supported (r.rename f) body' ∧ ∀ (W : World) (path m : Bytes),
      callMatchRoute W body' path m = (callMatchRoute W body path m).rename f := by
  obtain ⟨body', h'⟩ := h.rename hf hfresh hk
  refine ⟨body', h', fun W path m => ?_⟩
  rw [h.call, h'.call, referenceRouter_eq, referenceRouter_eq]
  exact route_rename W m hf r hk [] [] _

/-- **C14 (exact names).** Renaming the path parameters of a supported configuration injectively,
keeping the alphabetical order of sibling parameters, gives a supported configuration exactly if the
fields of every struct remain distinct, the new names satisfy what the emitted function asks of names
(`NamesOk`), and none of them is `len`, or `start` with a parameter behind it (`Hygienic`).  Its matcher
then returns the same outcome up to the names of the parameters. -/
theorem C14_exact {r : Routes} {body : List Stmt} (h : Supported r body) {f : Str → Str}
    (hf : Function.Injective f) (hk : KeepsOrder f r) :
    ((∃ body', Supported (r.rename f) body') ↔
      FieldsDistinct (r.rename f) ∧ NamesOk (r.rename f) ∧ Hygienic (r.rename f)) ∧
    ∀ body', Supported (r.rename f) body' → ∀ (W : World) (path m : Bytes),
      callMatchRoute W body' path m = (callMatchRoute W body path m).rename f := by
  refine ⟨h.rename_iff hf hk, fun body' h' W path m => ?_⟩
  rw [h.call, h'.call, referenceRouter_eq, referenceRouter_eq]
  exact route_rename W m hf r hk [] [] _

/-- Blocks with at most one parameter need no condition on the order. -/
theorem KeepsOrder.of_single {f : Str → Str} {r : Routes}
    (h : ∀ segs above node, HasRoute r segs above node → (paramNames node.routes).length ≤ 1) :
    KeepsOrder f r := by
  intro segs above node hr x hx y hy _
  have := h segs above node hr
  match hp : paramNames node.routes with
  | [] => rw [hp] at hx; cases hx
  | [z] =>
    rw [hp] at hx hy
    simp only [List.mem_singleton] at hx hy
    rw [hx, hy]
    exact List.le_refl _
  | _ :: _ :: _ => rw [hp] at this; simp at this

namespace Demo

/-- Swap two names. -/
def swap (a b x : Str) : Str := if x = a then b else if x = b then a else x

theorem swap_injective (a b : Str) : Function.Injective (swap a b) := by
  have inv : ∀ x, swap a b (swap a b x) = x := by
    intro x
    by_cases h1 : x = a
    · have : swap a b x = b := by simp [swap, h1]
      rw [this, h1]
      unfold swap
      by_cases h : b = a
      · rw [if_pos h, h]
      · rw [if_neg h, if_pos rfl]
    · by_cases h2 : x = b
      · have : swap a b x = a := by unfold swap; rw [if_neg h1, if_pos h2]
        rw [this, h2]
        unfold swap
        rw [if_pos rfl]
      · have : swap a b x = x := by unfold swap; rw [if_neg h1, if_neg h2]
        rw [this, this]
  exact Function.LeftInverse.injective inv

theorem above_mem {r node : Routes} {segs : List PathSegment} {above : List Param}
    (h : HasRoute r segs above node) {q : Param} (hq : q ∈ above) :
    ∃ segs' above' node', HasRoute r segs' above' node' ∧ q ∈ node'.queryParameters := by
  induction h with
  | here => cases hq
  | child hn _ ih =>
    rcases List.mem_append.1 hq with hq | hq
    · exact ⟨[], [], _, .here _, hq⟩
    · obtain ⟨s, a, n, h1, h2⟩ := ih hq
      exact ⟨_, _, n, .child hn h1, h2⟩

theorem fresh_of {f : Str → Str} {r : Routes} (x : Str)
    (h1 : segsAll (fun | .static _ => true | .dynamic p => f p.name == x) r = true)
    (h2 : nodesAll (fun node => (node.queryParameters ++ node.resources.flatMap
      Resource.queryParameters).all fun q => q.name != x) r = true)
    (h3 : x ∉ reservedNames) : FreshNames f r := by
  intro segs above node hr p hp
  have hx : f p.name = x := by simpa using segsAll_route hr h1 _ hp
  rw [hx]
  refine ⟨h3, fun q hq => ?_, fun res hres q hq => ?_⟩
  · obtain ⟨s, a, n, hr', hq'⟩ : ∃ segs' above' node', HasRoute r segs' above' node' ∧
        q ∈ node'.queryParameters := by
      rcases List.mem_append.1 hq with hq | hq
      · exact above_mem hr hq
      · exact ⟨_, _, node, hr, hq⟩
    have := nodesAll_route hr' h2
    rw [List.all_eq_true] at this
    have := this q (by simp [hq'])
    simp only [bne_iff_ne, ne_eq] at this
    exact fun e => this e.symm
  · have := nodesAll_route hr h2
    rw [List.all_eq_true] at this
    have := this q (by
      rw [List.mem_append, List.mem_flatMap]
      exact .inr ⟨res, hres, hq⟩)
    simp only [bne_iff_ne, ne_eq] at this
    exact fun e => this e.symm

/-- `{id}` of the people application can be called `person`. -/
example : Function.Injective (swap c!"id" c!"person") ∧ FreshNames (swap c!"id" c!"person") people ∧
    KeepsOrder (swap c!"id" c!"person") people ∧
    ask people c!"/people/7/edit" c!"GET" =
      .route [c!"people"] c!"Edit" [(c!"id", c!"7")] [c!"lang", c!"verbose", c!"tab"] ∧
    ask (people.rename (swap c!"id" c!"person")) c!"/people/7/edit" c!"GET" =
      .route [c!"people"] c!"Edit" [(c!"person", c!"7")] [c!"lang", c!"verbose", c!"tab"] := by
  refine ⟨swap_injective _ _, ?_, ?_, by decide +kernel, by decide +kernel⟩
  · exact fresh_of c!"person" (by decide) (by decide) (by decide)
  · exact KeepsOrder.of_single fun segs above node h =>
      of_decide_eq_true (nodesAll_route (f := fun node => decide ((paramNames node.routes).length ≤ 1))
        h (by decide))

/-- Like `world`, but a text of digits is also an index. -/
def indexWorld : World where
  V := Str
  E := Str
  parse := fun typ text =>
    if typ = c!"usize" ∨ typ = c!"u32" then
      (if text ≠ [] ∧ text.all Char.isDigit then .ok text else .error c!"invalid digit")
    else .ok text
  asUsize := fun v => some (v.foldl (fun n c => 10 * n + (c.toNat - 48)) 0)

/-- A parameter value. -/
def showIndexVal : Val indexWorld → Str
  | .usize n => (toString n).toList
  | .str s => s
  | .user v => v

/-- Show an outcome. -/
def shownIndex : Outcome indexWorld → Shown
  | .notFound => .notFound
  | .notAllowed => .notAllowed
  | .panic => .panic
  | .rejected => .rejected
  | .route v => .route v.modules v.name (v.params.map fun x => (x.1, showIndexVal x.2)) v.nones
  | .redirect v => .redirect v.modules v.name (v.params.map fun x => (x.1, showIndexVal x.2)) v.nones
  | .err p e => .err p e

/-- Request a path from the generated matcher of `r`. -/
def askIndex (r : Routes) (path m : Str) : Shown :=
  shownIndex (callMatchRoute indexWorld (bodyOf r) (bytesOf path) (bytesOf m))

/-- `/{n: usize}/{id: u32}`. -/
def pair : Routes :=
  .mk [] [.mk (.dynamic ⟨c!"n", c!"usize"⟩) (.mk [res .get c!"a" c!"One"] [
    .mk (.dynamic ⟨c!"id", c!"u32"⟩) (.mk [res .get c!"a" c!"Two"] [] [])] [])] []

/-- A parameter next to another and a static segment:

```
/
  {a: String}
    GET x::A
  {b: String}
    GET x::B
  cc
    GET x::C
```
-/
def rivals : Routes :=
  .mk [] [.mk (.dynamic ⟨c!"a", c!"String"⟩) (.mk [res .get c!"x" c!"A"] [] []),
    .mk (.dynamic ⟨c!"b", c!"String"⟩) (.mk [res .get c!"x" c!"B"] [] []),
    .mk (.static c!"cc") (.mk [res .get c!"x" c!"C"] [] [])] []

end Demo

open Demo

/-- **C14 (refuted), `len`.** With a parameter `{len: usize}` the program compiles, but the generated
`i == len` compares with the captured value: `/3/7` gives the wrong route and `/5` panics. -/
theorem C14_len_false : compiles (bodyOf (pair.rename (swap c!"n" c!"len"))) = true ∧
    askIndex pair c!"/3/7" c!"GET" = .route [c!"a"] c!"Two" [(c!"n", c!"3"), (c!"id", c!"7")] [] ∧
    askIndex (pair.rename (swap c!"n" c!"len")) c!"/3/7" c!"GET" =
      .route [c!"a"] c!"One" [(c!"len", c!"3")] [] ∧
    askIndex pair c!"/5" c!"GET" = .route [c!"a"] c!"One" [(c!"n", c!"5")] [] ∧
    askIndex (pair.rename (swap c!"n" c!"len")) c!"/5" c!"GET" = .panic := by decide +kernel

/-- **C14 (refuted), `start`.** With a parameter `{start: usize}` the program compiles, but the value
reported for `/9/7` is the byte offset 3 of the next parameter, not 9. -/
theorem C14_start_false : compiles (bodyOf (pair.rename (swap c!"n" c!"start"))) = true ∧
    askIndex pair c!"/9/7" c!"GET" = .route [c!"a"] c!"Two" [(c!"n", c!"9"), (c!"id", c!"7")] [] ∧
    askIndex (pair.rename (swap c!"n" c!"start")) c!"/9/7" c!"GET" =
      .route [c!"a"] c!"Two" [(c!"start", c!"3"), (c!"id", c!"7")] [] := by decide +kernel

/-- **C14 (refuted), siblings.** Of two parameters next to a static segment only the alphabetically first
is reachable; swapping their names changes the route. -/
theorem C14_order_false : Supported rivals (bodyOf rivals) ∧
    Supported (rivals.rename (swap c!"a" c!"b")) (bodyOf (rivals.rename (swap c!"a" c!"b"))) ∧
    ask rivals c!"/z" c!"GET" = .route [c!"x"] c!"A" [(c!"a", c!"z")] [] ∧
    ask (rivals.rename (swap c!"a" c!"b")) c!"/z" c!"GET" = .route [c!"x"] c!"B" [(c!"a", c!"z")] [] :=
  ⟨supported_of (by decide +kernel), supported_of (by decide +kernel), by decide +kernel,
    by decide +kernel⟩

end Wayfinder
