import Verif.Proofs.Same
import Verif.Proofs.Naming
/-!
# C91: equality of results, and of their texts
-/

namespace Wayfinder
open Rust

variable {W : World}

/-- What a call of `match_route` returns. -/
inductive Known (W : World) (m : Mod) : Outcome W → Prop where
  | notFound : Known W m .notFound
  | notAllowed : Known W m .notAllowed
  | route {v s vals} : Held W m v s vals → Known W m (.route v)
  | redirect {v s vals} : Held W m v s vals → Known W m (.redirect v)
  | err {x e} : (∀ c ∈ x, isWordChar c = true) → Known W m (.err x e)
  | panic : Known W m .panic

theorem error_named {r : Routes} (hw : Words r) {τ : Typing} {segs : List PathSegment} {above : List Param} {caps : Caps W}
    {pieces rest more : List Bytes} {part : Bytes} {node sub : Routes} {p : Param}
    (h : Arrives W (r.retype τ) segs above caps pieces node rest) (ht : Takes node p sub part more) :
    ∀ c ∈ p.name, isWordChar c = true := by
  have h1 := HasRoute.trans h.live.hasRoute (.child ht.child (.here sub))
  obtain ⟨segs', node', h2, h3, -⟩ := h1.retype_inv [] r rfl
  have h4 : p ∈ routeParams (retypeSegs τ [] segs') := by
    rw [← h3]
    exact List.mem_filterMap.2 ⟨.dynamic p, by simp, rfl⟩
  have h5 := List.mem_map_of_mem (f := Param.name) h4
  rw [routeParams_retype] at h5
  obtain ⟨q, h6, h7⟩ := List.mem_map.1 h5
  obtain ⟨seg, h8, h9⟩ := List.mem_filterMap.1 h6
  cases seg with
  | static s => cases h9
  | dynamic q' =>
    cases h9
    have := hw.segs h2 _ h8
    rw [← h7]
    exact this.1

theorem known {c : RouteConfig} (h : Ready c) (hhy : Hygienic c.routes) (hp : PlainTexts c.routes) {m : Mod} {b : List Stmt}
    (e : readText (headerToks c.headers) (codegen c).text = some (m, b)) {τ : Typing} (ht : Typed c.routes τ) (path verb : Bytes) :
    Known W m (callMatchRoute W b path verb) := by
  obtain ⟨root, body, hr, hb, -⟩ := codegen_text h.generated
  obtain ⟨-, hm, hok, -, -⟩ := readText_some h.legible hr hb e
  obtain ⟨-, -, -, -, -, hfit, -⟩ := retyped_meaning h.legible hr hb e ht
  have hg := modGood_of hok
  have hn : ClearNames c.routes := (ok_iff_clear hr h.braces).1 hok
  obtain ⟨body', -, -, hs, hcall⟩ := C49_meaning h e ht
  have hans : Answers W (c.routes.retype τ) path verb (callMatchRoute W b path verb) := by
    rw [← call_answers (hs hhy) (plainTexts_retype hp) path verb, ← hcall W path verb, callText, e]
  subst hm
  generalize callMatchRoute W b path verb = o at hans
  cases hans with
  | notFound => exact .notFound
  | notAllowed => exact .notAllowed
  | notUtf8 => exact .panic
  | cliff => exact .panic
  | error h1 h2 _ _ => exact .err (error_named h.words h1 h2)
  | @matched segs above caps node rest before res after _ h1 h2 h3 h4 h5 h6 =>
    obtain ⟨s, vals, h7⟩ := held_exists h.words hn hfit ht hr hg h1 (res := res) (by rw [h3]; simp)
    simp only [Outcome.isMatch] at h6
    subst h6
    cases res.isRedirect with
    | false => exact .route h7
    | true => exact .redirect h7

/-- **C91.** Two results of `match_route` that are not errors can be compared, and the derived comparison says that they are equal
exactly if they are the same kind of answer, with the same action in the same modules and equal values for the same
parameters — however the requests were written, and whether a route or its redirect put the values together. -/
theorem C91_equal {c : RouteConfig} (h : Ready c) (hhy : Hygienic c.routes) (hp : PlainTexts c.routes) {m : Mod} {b : List Stmt}
    (e : readText (headerToks c.headers) (codegen c).text = some (m, b)) {τ : Typing} (ht : Typed c.routes τ)
    (eq : W.V → W.V → Bool) (E : W.E → W.E → Prop) (path verb path' verb' : Bytes)
    (hok : (callMatchRoute W b path verb).isOk = true) (hok' : (callMatchRoute W b path' verb').isOk = true) :
    ∃ x, eqMatch eq m (callMatchRoute W b path verb) (callMatchRoute W b path' verb') = some x ∧
      (x = true ↔ (callMatchRoute W b path verb).Same (fun v v' => eq v v' = true) E (callMatchRoute W b path' verb')) := by
  have h1 := known (W := W) h hhy hp e ht path verb
  have h2 := known (W := W) h hhy hp e ht path' verb'
  generalize callMatchRoute W b path verb = o at *
  generalize callMatchRoute W b path' verb' = o' at *
  have hno : ∀ {o o' : Outcome W}, eqMatch eq m o o' = some false → ¬ o.Same (fun v v' => eq v v' = true) E o' →
      ∃ x, eqMatch eq m o o' = some x ∧ (x = true ↔ o.Same (fun v v' => eq v v' = true) E o') := by
    intro o o' g1 g2
    exact ⟨false, g1, by simp [g2]⟩
  cases h1 with
  | err => cases hok
  | panic => cases hok
  | notFound =>
    cases h2 with
    | err => cases hok'
    | panic => cases hok'
    | notFound => exact ⟨true, rfl, by simp [Outcome.Same.notFound]⟩
    | notAllowed => exact hno rfl (by rintro ⟨⟩)
    | route => exact hno rfl (by rintro ⟨⟩)
    | redirect => exact hno rfl (by rintro ⟨⟩)
  | notAllowed =>
    cases h2 with
    | err => cases hok'
    | panic => cases hok'
    | notFound => exact hno rfl (by rintro ⟨⟩)
    | notAllowed => exact ⟨true, rfl, by simp [Outcome.Same.notAllowed]⟩
    | route => exact hno rfl (by rintro ⟨⟩)
    | redirect => exact hno rfl (by rintro ⟨⟩)
  | route g1 =>
    cases h2 with
    | err => cases hok'
    | panic => cases hok'
    | notFound => exact hno rfl (by rintro ⟨⟩)
    | notAllowed => exact hno rfl (by rintro ⟨⟩)
    | route g2 =>
      obtain ⟨x, g3, g4⟩ := eqRoute_iff g1 g2 eq
      exact ⟨x, g3, g4.trans ⟨.route, fun h => by cases h; assumption⟩⟩
    | redirect => exact hno rfl (by rintro ⟨⟩)
  | redirect g1 =>
    cases h2 with
    | err => cases hok'
    | panic => cases hok'
    | notFound => exact hno rfl (by rintro ⟨⟩)
    | notAllowed => exact hno rfl (by rintro ⟨⟩)
    | route => exact hno rfl (by rintro ⟨⟩)
    | redirect g2 =>
      obtain ⟨x, g3, g4⟩ := eqRoute_iff g1 g2 eq
      exact ⟨x, g3, g4.trans ⟨.redirect, fun h => by cases h; assumption⟩⟩

theorem debugErr_inj {x x' t t' : Str} (hx : ∀ c ∈ x, isWordChar c = true) (hx' : ∀ c ∈ x', isWordChar c = true)
    (h : c!"Err(wayfinder::Error { param: \"" ++ x ++ c!"\", what: " ++ t ++ c!" })" =
      c!"Err(wayfinder::Error { param: \"" ++ x' ++ c!"\", what: " ++ t' ++ c!" })") : x = x' ∧ t = t' := by
  have h1 := List.append_cancel_right h
  simp only [List.append_assoc, List.append_cancel_left_eq] at h1
  obtain ⟨rfl, -, h2⟩ := word_cancel (d := '"') (d' := '"') (by decide) (by decide) hx hx' h1
  exact ⟨rfl, List.append_cancel_left (as := c!", what: ") h2⟩

/-- **C91, texts.** If the `Debug` text of a value shows the value and where it ends, then the `{:?}` text of a result of `match_route`
shows the result: two results (that are returned: the calls do not panic) have the same text exactly if they are the same, where
errors are the same if they are about the same parameter and have the same text. -/
theorem C91_printed {c : RouteConfig} (h : Ready c) (hhy : Hygienic c.routes) (hp : PlainTexts c.routes) {m : Mod} {b : List Stmt}
    (e : readText (headerToks c.headers) (codegen c).text = some (m, b)) {τ : Typing} (ht : Typed c.routes τ)
    {pr : Printer W} (hd : pr.Delimits) (path verb path' verb' : Bytes)
    (hok : callMatchRoute W b path verb ≠ .panic) (hok' : callMatchRoute W b path' verb' ≠ .panic) :
    debugResult pr m (callMatchRoute W b path verb) = debugResult pr m (callMatchRoute W b path' verb') ↔
      (callMatchRoute W b path verb).Same (· = ·) (fun x x' => pr.debugErr x = pr.debugErr x') (callMatchRoute W b path' verb') := by
  have h1 := known (W := W) h hhy hp e ht path verb
  have h2 := known (W := W) h hhy hp e ht path' verb'
  generalize callMatchRoute W b path verb = o at *
  generalize callMatchRoute W b path' verb' = o' at *
  have hshow : ∀ {v : RouteVal W} {s vals}, Held W m v s vals → ∃ t, debugRoute pr.debug m v = some t := fun g => by
    obtain ⟨i, -, -, g1⟩ := debugRoute_some g pr.debug
    exact ⟨_, g1⟩
  have hno : ∀ {o o' : Outcome W}, debugResult pr m o ≠ debugResult pr m o' →
      ¬ o.Same (· = ·) (fun x x' => pr.debugErr x = pr.debugErr x') o' → (debugResult pr m o = debugResult pr m o' ↔
        o.Same (· = ·) (fun x x' => pr.debugErr x = pr.debugErr x') o') := fun g1 g2 => by simp [g1, g2]
  cases h1 with
  | panic => exact absurd rfl hok
  | notFound =>
    cases h2 with
    | panic => exact absurd rfl hok'
    | err => exact hno (by simp [debugResult]) (by rintro ⟨⟩)
    | notFound => simp [Outcome.Same.notFound]
    | notAllowed => exact hno (by simp [debugResult]) (by rintro ⟨⟩)
    | route g =>
      obtain ⟨t, ht⟩ := hshow g
      exact hno (by simp [debugResult, ht]) (by rintro ⟨⟩)
    | redirect g =>
      obtain ⟨t, ht⟩ := hshow g
      exact hno (by simp [debugResult, ht]) (by rintro ⟨⟩)
  | notAllowed =>
    cases h2 with
    | panic => exact absurd rfl hok'
    | err => exact hno (by simp [debugResult]) (by rintro ⟨⟩)
    | notAllowed => simp [Outcome.Same.notAllowed]
    | notFound => exact hno (by simp [debugResult]) (by rintro ⟨⟩)
    | route g =>
      obtain ⟨t, ht⟩ := hshow g
      exact hno (by simp [debugResult, ht]) (by rintro ⟨⟩)
    | redirect g =>
      obtain ⟨t, ht⟩ := hshow g
      exact hno (by simp [debugResult, ht]) (by rintro ⟨⟩)
  | err g =>
    cases h2 with
    | panic => exact absurd rfl hok'
    | err g' =>
      constructor
      · intro he
        obtain ⟨rfl, he2⟩ := debugErr_inj g g' (Option.some.inj he)
        exact .err he2
      · intro hs
        cases hs with
        | err hs => simp only [debugResult, hs]
    | notAllowed => exact hno (by simp [debugResult]) (by rintro ⟨⟩)
    | notFound => exact hno (by simp [debugResult]) (by rintro ⟨⟩)
    | route g =>
      obtain ⟨t, ht⟩ := hshow g
      exact hno (by simp [debugResult, ht]) (by rintro ⟨⟩)
    | redirect g =>
      obtain ⟨t, ht⟩ := hshow g
      exact hno (by simp [debugResult, ht]) (by rintro ⟨⟩)
  | route g1 =>
    obtain ⟨t, ht⟩ := hshow g1
    cases h2 with
    | panic => exact absurd rfl hok'
    | err => exact hno (by simp [debugResult, ht]) (by rintro ⟨⟩)
    | notAllowed => exact hno (by simp [debugResult, ht]) (by rintro ⟨⟩)
    | notFound => exact hno (by simp [debugResult, ht]) (by rintro ⟨⟩)
    | route g2 =>
      obtain ⟨t', ht'⟩ := hshow g2
      have h3 := debugRoute_inj hd g1 g2
      rw [ht, ht', Option.some.injEq] at h3
      have h4 : ∀ p : Prop, (t = t' ↔ p) → ((some (c!"Ok(Match::Route(" ++ t ++ c!"))") = some (c!"Ok(Match::Route(" ++ t' ++ c!"))")) ↔ p) := by
        intro p hp
        rw [← hp]
        simp
      simp only [debugResult, ht, ht', Option.map_some]
      exact h4 _ (h3.trans ⟨.route, fun h => by cases h; assumption⟩)
    | redirect g2 =>
      obtain ⟨t', ht'⟩ := hshow g2
      exact hno (by simp [debugResult, ht, ht']) (by rintro ⟨⟩)
  | redirect g1 =>
    obtain ⟨t, ht⟩ := hshow g1
    cases h2 with
    | panic => exact absurd rfl hok'
    | err => exact hno (by simp [debugResult, ht]) (by rintro ⟨⟩)
    | notAllowed => exact hno (by simp [debugResult, ht]) (by rintro ⟨⟩)
    | notFound => exact hno (by simp [debugResult, ht]) (by rintro ⟨⟩)
    | redirect g2 =>
      obtain ⟨t', ht'⟩ := hshow g2
      have h3 := debugRoute_inj hd g1 g2
      rw [ht, ht', Option.some.injEq] at h3
      have h4 : ∀ p : Prop, (t = t' ↔ p) → ((some (c!"Ok(Match::Redirect(" ++ t ++ c!"))") = some (c!"Ok(Match::Redirect(" ++ t' ++ c!"))")) ↔ p) := by
        intro p hp
        rw [← hp]
        simp
      simp only [debugResult, ht, ht', Option.map_some]
      exact h4 _ (h3.trans ⟨.redirect, fun h => by cases h; assumption⟩)
    | route g2 =>
      obtain ⟨t', ht'⟩ := hshow g2
      exact hno (by simp [debugResult, ht, ht']) (by rintro ⟨⟩)

/-- **C91, assertions.** If moreover the comparison of values is equality, then `assert_eq!` on two results of `match_route` (that are
not errors) fails exactly if the two texts that it shows are different. -/
theorem C91_assert {c : RouteConfig} (h : Ready c) (hhy : Hygienic c.routes) (hp : PlainTexts c.routes) {m : Mod} {b : List Stmt}
    (e : readText (headerToks c.headers) (codegen c).text = some (m, b)) {τ : Typing} (ht : Typed c.routes τ)
    {pr : Printer W} (hd : pr.Delimits) {eq : W.V → W.V → Bool} (heq : ∀ v v', eq v v' = true ↔ v = v') (path verb path' verb' : Bytes)
    (hok : (callMatchRoute W b path verb).isOk = true) (hok' : (callMatchRoute W b path' verb').isOk = true) :
    eqMatch eq m (callMatchRoute W b path verb) (callMatchRoute W b path' verb') = some true ↔
      debugResult pr m (callMatchRoute W b path verb) = debugResult pr m (callMatchRoute W b path' verb') := by
  have hne : ∀ {o : Outcome W}, o.isOk = true → o ≠ .panic := by rintro _ h rfl; cases h
  rw [C91_printed h hhy hp e ht hd _ _ _ _ (hne hok) (hne hok')]
  obtain ⟨x, h1, h2⟩ := C91_equal h hhy hp e ht eq (fun x x' => pr.debugErr x = pr.debugErr x') path verb path' verb' hok hok'
  rw [h1, Option.some.injEq, h2]
  simp only [heq]

end Wayfinder

namespace Wayfinder.Demo
open Rust

/-- The characters of a quoted string. -/
def escape : Str → Str
  | [] => []
  | c :: s => if c = '"' ∨ c = '\\' then '\\' :: c :: escape s else c :: escape s

/-- As `printer`, with strings as `Debug` shows them (control characters aside). -/
def quoting : Printer world := { printer with debug := fun t : Str => '"' :: (escape t ++ c!"\"") }

theorem escape_inj : ∀ {t t' s s' : Str}, escape t ++ '"' :: s = escape t' ++ '"' :: s' → t = t'
  | [], [], _, _, _ => rfl
  | [], c :: t', s, s', h => by
    simp only [escape] at h
    split at h
    · simp at h
    · rename_i hc
      simp only [List.nil_append, List.cons_append, List.cons.injEq] at h
      exact absurd (.inl h.1.symm) hc
  | c :: t, [], s, s', h => by
    simp only [escape] at h
    split at h
    · simp at h
    · rename_i hc
      simp only [List.nil_append, List.cons_append, List.cons.injEq] at h
      exact absurd (.inl h.1) hc
  | c :: t, c' :: t', s, s', h => by
    simp only [escape] at h
    split at h <;> split at h <;> simp only [List.cons_append, List.cons.injEq] at h
    · obtain ⟨-, rfl, h⟩ := h
      rw [escape_inj h]
    · rename_i hc
      exact absurd (.inr h.1.symm) hc
    · rename_i hc _
      exact absurd (.inr h.1) hc
    · obtain ⟨rfl, h⟩ := h
      rw [escape_inj h]

theorem quoting_delimits : quoting.Delimits := by
  intro typ t t' v v' s s' _ _ _ _ h
  simp only [quoting, List.cons_append, List.cons.injEq, true_and, List.append_assoc] at h
  exact escape_inj h

/-- The comparison of two calls of `match_route` in the file for the example with people. -/
theorem people_assert (path verb path' verb' : Bytes) (hok : (callMatchRoute world (fileOf people).2 path verb).isOk = true)
    (hok' : (callMatchRoute world (fileOf people).2 path' verb').isOk = true) :
    eqMatch (fun a b : Str => a == b) (fileOf people).1 (callMatchRoute world (fileOf people).2 path verb)
        (callMatchRoute world (fileOf people).2 path' verb') = some true ↔
      debugResult quoting (fileOf people).1 (callMatchRoute world (fileOf people).2 path verb) =
        debugResult quoting (fileOf people).1 (callMatchRoute world (fileOf people).2 path' verb') := by
  obtain ⟨h1, -⟩ := accepted_of people_accepted
  obtain ⟨h2, -⟩ := (C49_agreeing h1 people_clean.types).2 people_clean.names
  have e := fileOf_read people_accepted
  generalize fileOf people = f at *
  obtain ⟨m, b⟩ := f
  exact C91_assert (W := world) h1 people_supported.hygienic people_plain e h2 quoting_delimits
    (fun v v' => beq_iff_eq (α := Str)) path verb path' verb' hok hok'

/-- The comparison for two paths. -/
def same (r : Routes) (path path' : Str) : Option Bool :=
  eqMatch (W := world) (fun a b : Str => a == b) (fileOf r).1 (callMatchRoute world (fileOf r).2 (utf8 path) (verbBytes .get))
    (callMatchRoute world (fileOf r).2 (utf8 path') (verbBytes .get))

/-- What is printed for a path. -/
def printed (pr : Printer world) (r : Routes) (path : Str) : Option Str :=
  debugResult pr (fileOf r).1 (callMatchRoute world (fileOf r).2 (utf8 path) (verbBytes .get))

example : same people c!"/people/17" c!"/people/17/" = some true := by decide +kernel
example : same people c!"/people/17" c!"/people/18" = some false := by decide +kernel
example : same people c!"/old" c!"/people" = some false := by decide +kernel
example : printed quoting people c!"/people/17" = some c!"Ok(Match::Route(People(Show(Show { id: \"17\", lang: None, verbose: None }))))" := by
  decide +kernel

/-- Two parameters that are strings. -/
def twoTexts : Routes :=
  .mk [] [⟨.dynamic ⟨c!"a", c!"String"⟩, .mk [] [⟨.dynamic ⟨c!"b", c!"String"⟩, .mk [⟨.get, [], c!"show", false, []⟩] [] []⟩] []⟩] []

/-- **C91, not for all printers.** If the texts of values are not delimited, then different results can have the same text. -/
theorem C91_ambiguous : acceptedB twoTexts = true ∧ ∃ pr : Printer world,
    printed pr twoTexts c!"/1, b: 2/3" = printed pr twoTexts c!"/1/2, b: 3" ∧ (printed pr twoTexts c!"/1/2, b: 3").isSome ∧
    same twoTexts c!"/1, b: 2/3" c!"/1/2, b: 3" = some false :=
  ⟨by decide +kernel, { printer with debug := fun t : Str => t }, by decide +kernel, by decide +kernel, by decide +kernel⟩

end Wayfinder.Demo
