import Verif.Proofs.Sound
import Verif.Proofs.Accept
import Verif.Props.Flow
import Verif.Props.Length
/-!
# C97: a function that compiles answers every request with values of the declared types
-/

namespace Wayfinder

variable {W : World} {r : Routes} {body : List Stmt}

/-- **C97, checks suffice.** A body that passes the checks of types and of control flow, whether generated or not, answers every
request: no variable is missing, of another type than it is used with, or assigned to although it cannot be. -/
theorem C97_checked (hW : W.Sound) (hc : compiles body = true) (hr : returns body = true) (path m : Bytes) :
    callMatchRoute W body path m ≠ .rejected := fun h => by
  have := call_sound hW hc hr path m
  rw [h] at this
  exact this

/-- **C97, answers.** The emitted function answers requests exactly if it compiles.  This includes the functions whose
parameters hide variables, which C01 leaves out. -/
theorem C97_answers (hW : W.Sound) (hb : matcherBody r = .ok body) (path m : Bytes) :
    callMatchRoute W body path m ≠ .rejected ↔ compiles body = true := by
  constructor
  · intro h
    by_contra hc
    exact h (by rw [callMatchRoute, if_neg hc])
  · exact fun hc => C97_checked hW hc (C77_returns hb hc) path m

/-- **C97, types.** What the emitted function returns is a value of the struct of a resource for the method of the request: the
resource is one that code is emitted for, its path parameters are the fields, in the order of the path, with values of the
declared types, and its query parameters are `None`. -/
theorem C97_typed (hW : W.Sound) (hb : matcherBody r = .ok body) (hc : compiles body = true) {path m : Bytes} {v : RouteVal W}
    {redirect : Bool} (h : callMatchRoute W body path m = if redirect then .redirect v else .route v) :
    ∃ segs above node, LiveRoute r segs above node ∧ ∃ res ∈ node.resources,
      m = res.method.display.map asciiByte ∧ res.isRedirect = redirect ∧ v.modules = res.modules ∧ v.name = res.name ∧
      FieldsOf W (routeParams segs) v.params ∧
      v.nones = (above ++ node.queryParameters ++ res.queryParameters).map Param.name := by
  have hs := call_sound hW hc (C77_returns hb hc) path m
  rw [h] at hs
  have hs : ∃ a ∈ blockLiterals body, m = a.method.display.map asciiByte ∧ a.isRedirect = redirect ∧ Builds W a v := by
    cases redirect <;> exact hs
  obtain ⟨a, ha, h1, h2, h3⟩ := hs
  simp only [compiles, Bool.and_eq_true] at hc
  obtain ⟨segs, query, res, ⟨node, above, hl, hres, rfl⟩, rfl⟩ := (emitted_literals hb hc.1 a).1 ha
  exact ⟨segs, above, node, hl, res, hres, h1, h2, h3.modules, h3.name, h3.fields, h3.nones⟩

/-! ## Demonstrations -/

open Demo

theorem indexWorld_sound : indexWorld.Sound := fun _ _ _ => rfl

/-- The route `/{len}`, whose requests C01 says nothing about. -/
example (path m : Bytes) : callMatchRoute indexWorld (bodyOf lengths) path m ≠ .rejected :=
  (C97_answers indexWorld_sound (r := lengths) rfl path m).2 lengths_compiles

/-- An index is reported for `start`, and it is of the declared type. -/
example : built (twoParams ⟨c!"start", c!"usize"⟩ ⟨c!"key", c!"u32"⟩) = true ∧
    askIndex (twoParams ⟨c!"start", c!"usize"⟩ ⟨c!"key", c!"u32"⟩) c!"/9/list/4" c!"GET" =
      .route [c!"x"] c!"Two" [(c!"start", c!"8"), (c!"key", c!"4")] [] := by decide +kernel

/-- Bodies that the checks do not pass, and that do go wrong: the variable `start` is missing, `i` is a parameter,
no arm fits, nothing is returned. -/
theorem C97_needed :
    compiles [.letText, .retNotFound] = false ∧ returns [.letText, .retNotFound] = true ∧
    execBlock (W := indexWorld) [] [] [.letText, .retNotFound] ⟨0, []⟩ = .ret .rejected ∧
    compiles [.letStart, .letText, .letParam c!"i" (some c!"u32"), .addI 1, .retNotFound] = false ∧
    execBlock (W := indexWorld) (utf8 c!"4") [] [.letStart, .whileScan, .letText, .letParam c!"i" (some c!"u32"), .addI 1,
      .retNotFound] ⟨0, []⟩ = .ret .rejected ∧
    compiles [.matchPath 0 [.bytes c!"a" [.retNotFound]]] = true ∧ returns [.matchPath 0 [.bytes c!"a" [.retNotFound]]] = false ∧
    execBlock (W := indexWorld) [] [] [.matchPath 0 [.bytes c!"a" [.retNotFound]]] ⟨0, []⟩ = .ret .rejected ∧
    compiles [.blank] = true ∧ returns [.blank] = false ∧
    (∀ (W : World) (path m : Bytes), callMatchRoute W [.blank] path m = .rejected) := by
  refine ⟨by decide, by decide, rfl, by decide, ?_, by decide, by decide, rfl, by decide, by decide, fun _ _ _ => rfl⟩
  rfl

end Wayfinder
