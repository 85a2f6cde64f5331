import Verif.Props.Shadow
import Verif.Props.RoundTrip
/-!
# C52: what a parameter named `len` does

The parameter hides the length of the path (`gen/gen.rs:456`, `:792`), which the emitted code compares its position with
(`:713`).  Here the route `/{len}` is followed for all requests.
-/

namespace Wayfinder

namespace Demo

/-- The route `/{len}` with one resource. -/
def lengths : Routes := .mk [] [.mk (.dynamic ⟨c!"len", c!"usize"⟩) (.mk [res .get c!"x" c!"One"] [] [])] []

/-- The test for the end of the path that is emitted for it (`gen/gen.rs:713-760`). -/
def lengthsEnd : Stmt := .ifThen .iEqLen [.matchMethod [⟨.get, false, [c!"x"], c!"One", [⟨c!"len", c!"usize"⟩], []⟩]]

theorem lengths_body : bodyOf lengths = [.letStart, .blank, .whileScan, .blank, .letText, .letParam c!"len" (some c!"usize"), .blank,
    lengthsEnd, .matchPath 1 [.bytes c!"/" [.addI 1], .wildNotFound], lengthsEnd, .retNotFound] := rfl

theorem lengths_compiles : compiles (bodyOf lengths) = true := by decide +kernel

end Demo

open Demo

variable {W : World}

/-- **C52, `len`.** The route `/{len}` finds its resource exactly if the *value* of the parameter is one more than its
number of bytes, or one more than that and a slash follows it, whatever stands behind that slash.  If it is not, the
call panics at the end of the path.  So `/9`, which the configuration routes, panics, and `/3/whatever`, which it does
not, is routed. -/
theorem C52_len {text : Str} (hs : '/' ∉ text) {v : W.V} (hv : W.parse c!"usize" text = .ok v) {rest : Bytes}
    (hr : rest = [] ∨ ∃ more, rest = slash :: more) {n : Nat} (hn : W.asUsize v = some n) :
    callMatchRoute W (bodyOf lengths) (slash :: (utf8 text ++ rest)) (verbBytes .get) =
      if n = (utf8 text).length + 1 then .route ⟨[c!"x"], c!"One", [(c!"len", .user v)], []⟩
      else if rest = [] then .panic
      else if n = (utf8 text).length + 2 then .route ⟨[c!"x"], c!"One", [(c!"len", .user v)], []⟩
      else .notFound := by
  generalize hp : slash :: (utf8 text ++ rest) = path
  have hlen : path.length = 1 + (utf8 text ++ rest).length := by rw [← hp]; simp [Nat.add_comm]
  have hdrop : path.drop 1 = utf8 text ++ rest := by rw [← hp]; rfl
  have htake : (utf8 text ++ rest).takeWhile (· ≠ slash) = utf8 text := by
    rw [List.takeWhile_append_of_pos (by
      intro b hb
      have := slash_utf8 hs
      simpa using fun e : b = slash => this (e ▸ hb))]
    rcases hr with rfl | ⟨more, rfl⟩ <;> simp
  have hscan : scan path.length (path.drop 1) 1 = some (1 + (utf8 text).length) := by
    rw [hlen, hdrop, scan_eq, htake]
  rw [callMatchRoute, if_pos lengths_compiles, lengths_body]
  have h0 : initialState W path = { i := 1, env := [] } := by rw [← hp]; rfl
  rw [h0]
  have e1 : Stmt.exec path (verbBytes .get) .letStart { i := 1, env := [] } = .next (W := W) { i := 1, env := [(c!"start", .usize 1)] } := rfl
  have e2 : Stmt.exec path (verbBytes .get) .whileScan { i := 1, env := [(c!"start", .usize 1)] } =
      .next (W := W) { i := 1 + (utf8 text).length, env := [(c!"start", .usize 1)] } := by
    have : Stmt.exec path (verbBytes .get) .whileScan { i := 1, env := [(c!"start", Val.usize (W := W) 1)] } =
      match scan path.length (path.drop 1) 1 with
      | none => .ret .panic
      | some i' => .next { i := i', env := [(c!"start", .usize 1)] } := rfl
    rw [this, hscan]
  have e3 : Stmt.exec path (verbBytes .get) .letText { i := 1 + (utf8 text).length, env := [(c!"start", .usize 1)] } =
      .next (W := W) { i := 1 + (utf8 text).length, env := [(c!"text", .str text), (c!"start", .usize 1)] } := by
    have : Stmt.exec path (verbBytes .get) .letText { i := 1 + (utf8 text).length, env := [(c!"start", Val.usize (W := W) 1)] } =
      if 1 ≤ 1 + (utf8 text).length ∧ 1 + (utf8 text).length ≤ path.length then
        match fromUtf8 ((path.drop 1).take (1 + (utf8 text).length - 1)) with
        | none => .ret .panic
        | some t => .next { i := 1 + (utf8 text).length, env := [(c!"text", .str t), (c!"start", .usize 1)] }
      else .ret .panic := rfl
    rw [this, if_pos (by rw [hlen, List.length_append]; omega), hdrop]
    simp [fromUtf8_utf8]
  have e4 : Stmt.exec path (verbBytes .get) (.letParam c!"len" (some c!"usize"))
        { i := 1 + (utf8 text).length, env := [(c!"text", .str text), (c!"start", .usize 1)] } =
      .next (W := W) { i := 1 + (utf8 text).length, env := [(c!"len", .user v), (c!"text", .str text), (c!"start", .usize 1)] } := by
    have : Stmt.exec path (verbBytes .get) (.letParam c!"len" (some c!"usize"))
        { i := 1 + (utf8 text).length, env := [(c!"text", Val.str (W := W) text), (c!"start", .usize 1)] } =
      match W.parse c!"usize" text with
      | .error e => .ret (.err c!"len" e)
      | .ok v => .next { i := 1 + (utf8 text).length, env := [(c!"len", .user v), (c!"text", .str text), (c!"start", .usize 1)] } := rfl
    rw [this, hv]
  have e5 : ∀ i, Stmt.exec path (verbBytes .get) lengthsEnd { i := i, env := [(c!"len", .user v), (c!"text", .str text), (c!"start", .usize 1)] } =
      if n = i then .ret (.route ⟨[c!"x"], c!"One", [(c!"len", .user v)], []⟩)
      else .next (W := W) { i := i, env := [(c!"len", .user v), (c!"text", .str text), (c!"start", .usize 1)] } := by
    intro i
    have : Stmt.exec path (verbBytes .get) lengthsEnd { i := i, env := [(c!"len", Val.user (W := W) v), (c!"text", .str text), (c!"start", .usize 1)] } =
      match (match some i, W.asUsize v with | some i, some len => some (i == len) | _, _ => none) with
      | none => .ret .rejected
      | some true => .ret (.route ⟨[c!"x"], c!"One", [(c!"len", .user v)], []⟩)
      | some false => .next { i := i, env := [(c!"len", .user v), (c!"text", .str text), (c!"start", .usize 1)] } := rfl
    rw [this, hn]
    by_cases h : n = i
    · subst h; simp
    · have : (i == n) = false := by simpa using fun e : i = n => h e.symm
      simp [h, this]
  have e6 : Stmt.exec path (verbBytes .get) (.matchPath 1 [.bytes c!"/" [.addI 1], .wildNotFound])
        { i := 1 + (utf8 text).length, env := [(c!"len", .user v), (c!"text", .str text), (c!"start", .usize 1)] } =
      if rest = [] then .ret .panic
      else .next (W := W) { i := 1 + (utf8 text).length + 1, env := [(c!"len", .user v), (c!"text", .str text), (c!"start", .usize 1)] } := by
    have : Stmt.exec path (verbBytes .get) (.matchPath 1 [.bytes c!"/" [.addI 1], .wildNotFound])
        { i := 1 + (utf8 text).length, env := [(c!"len", Val.user (W := W) v), (c!"text", .str text), (c!"start", .usize 1)] } =
      if 1 + (utf8 text).length + 1 ≤ path.length then
        match (if (path.drop (1 + (utf8 text).length)).take 1 = [slash] then
          some (Flow.next (W := W) { i := 1 + (utf8 text).length + 1, env := [(c!"len", .user v), (c!"text", .str text), (c!"start", .usize 1)] })
          else none) with
        | some f => f
        | none => .ret .notFound
      else .ret .panic := rfl
    rw [this, hlen, List.length_append, ← List.drop_drop, hdrop]
    rcases hr with rfl | ⟨more, rfl⟩
    · simp
    · simp
      omega
  have e7 : ∀ s : State W, Stmt.exec path (verbBytes .get) .blank s = .next s := fun _ => rfl
  have e8 : ∀ s : State W, Stmt.exec path (verbBytes .get) .retNotFound s = .ret .notFound := fun _ => rfl
  rw [Nat.add_comm 1] at e2 e3 e4 e6
  simp only [execBlock, e1, e2, e3, e4, e5, e7]
  by_cases h1 : n = (utf8 text).length + 1
  · simp only [h1, if_true]
  · simp only [h1, if_false, e6]
    by_cases h2 : rest = []
    · simp only [h2, if_true]
    · simp only [h2, if_false, e5]
      by_cases h3 : n = (utf8 text).length + 2
      · simp only [h3, if_true]
      · simp only [h3, if_false, e8]

/-- The same by example, and beside it the route with another name. -/
theorem C52_lengths :
    askIndex lengths c!"/2" c!"GET" = .route [c!"x"] c!"One" [(c!"len", c!"2")] [] ∧
    askIndex lengths c!"/1" c!"GET" = .panic ∧
    askIndex lengths c!"/3" c!"GET" = .panic ∧
    askIndex lengths c!"/3/whatever" c!"GET" = .route [c!"x"] c!"One" [(c!"len", c!"3")] [] ∧
    askIndex lengths c!"/4/" c!"GET" = .notFound ∧
    askIndex (twoParams ⟨c!"len", c!"usize"⟩ ⟨c!"key", c!"u32"⟩) c!"/9/list/4" c!"GET" =
      .route [c!"x"] c!"Two" [(c!"len", c!"9"), (c!"key", c!"4")] [] ∧
    askIndex (twoParams ⟨c!"len", c!"usize"⟩ ⟨c!"key", c!"u32"⟩) c!"/9/list/44" c!"GET" =
      .route [c!"x"] c!"Two" [(c!"len", c!"9"), (c!"key", c!"4")] [] ∧
    askIndex (twoParams ⟨c!"len", c!"usize"⟩ ⟨c!"key", c!"u32"⟩) c!"/5/list/4" c!"GET" = .notFound ∧
    askIndex (twoParams ⟨c!"len", c!"usize"⟩ ⟨c!"key", c!"u32"⟩) c!"/99/list/4" c!"GET" = .panic ∧
    askIndex (twoParams ⟨c!"len", c!"usize"⟩ ⟨c!"key", c!"u32"⟩) c!"/99/list/x" c!"GET" = .panic ∧
    askIndex (twoParams ⟨c!"len", c!"usize"⟩ ⟨c!"key", c!"u32"⟩) c!"/9/list/x" c!"GET" = .err c!"key" c!"invalid digit" := by decide +kernel

/-- The theorem applied: two digits, the value 3, and the end of the path. -/
example {v : W.V} (hv : W.parse c!"usize" c!"03" = .ok v) (hn : W.asUsize v = some 3) :
    callMatchRoute W (bodyOf lengths) (slash :: (utf8 c!"03" ++ [])) (verbBytes .get) =
      .route ⟨[c!"x"], c!"One", [(c!"len", .user v)], []⟩ := by
  rw [C52_len (by decide) hv (.inl rfl) hn]
  rfl

end Wayfinder
