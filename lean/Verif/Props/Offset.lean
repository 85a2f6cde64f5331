import Verif.Proofs.Offset
import Verif.Props.Shadow
/-!
# C98: a parameter called `start`

In front of every parameter the emitted function declares `let start = i;` (`gen/gen.rs:567`, `:588`).  A parameter of that
name captured before is hidden from there on, and compiles if it is a `usize` (C52).  What becomes of the answers?
-/

namespace Wayfinder

variable {W : World}

/-- No parameter for which code is emitted is called `len`. -/
def LenFree (r : Routes) : Prop :=
  ∀ segs p above node, LiveRoute r (segs ++ [.dynamic p]) above node → p.name ≠ c!"len"

/-- **C98.** A function that compiles answers every request as the configuration says, but that the field called `start`
may hold the position of a segment in the path.  Nothing is assumed about the names of parameters but that none is called `len`. -/
theorem C98_near {r : Routes} {body : List Stmt} (hb : matcherBody r = .ok body) (hc : compiles body = true)
    (hl : LenFree r) (W : World) (path m : Bytes) :
    (callMatchRoute W body path m).Near path (referenceRouter W r path m) :=
  Offset.call_near W path m hb hc fun _ _ _ _ h he => absurd he (hl _ _ _ _ h)

/-- The value of a field: what was parsed, or the position of a segment in the path if the field is called `start`. -/
def FieldNear (path : Bytes) (pv : Param × W.V) (f : Str × Val W) : Prop :=
  f.1 = pv.1.name ∧
    (f.2 = .user pv.2 ∨ pv.1.name = c!"start" ∧ ∃ n, SegmentAt path n ∧ f.2 = .usize n)

theorem Outcome.placed_placed {n : Nat} {o : Outcome W} :
    (∀ red v, ¬ o.isMatch red v) → o.placed n = o := by
  intro h
  cases o with
  | route v => exact absurd rfl (h false v)
  | redirect v => exact absurd rfl (h true v)
  | _ => rfl

/-- Near answers that are no matches are the same. -/
theorem near_kinds {path : Bytes} {o₁ o' o : Outcome W} (hnear : o₁.Near path o') (ho : ∀ red v, ¬ o.isMatch red v) :
    o₁ = o ↔ o' = o := by
  rcases hnear with h | ⟨n, _, h⟩
  · rw [h]
  · rw [h]
    constructor
    · rintro rfl
      cases o' with
      | route v => exact absurd rfl (ho false (v.placed n))
      | redirect v => exact absurd rfl (ho true (v.placed n))
      | _ => rfl
    · rintro rfl
      exact Outcome.placed_placed ho

/-- What is not a match is reported exactly as the configuration says: not found, not allowed, the parameter that cannot be
parsed, a panic. -/
theorem C98_kinds {r : Routes} {body : List Stmt} (hb : matcherBody r = .ok body) (hc : compiles body = true)
    (hl : LenFree r) (W : World) (path m : Bytes) {o : Outcome W} (ho : ∀ red v, ¬ o.isMatch red v) :
    callMatchRoute W body path m = o ↔ referenceRouter W r path m = o :=
  near_kinds (C98_near hb hc hl W path m) ho

theorem near_matches {r : Routes} {path m : Bytes} {o : Outcome W} (hnear : o.Near path (referenceRouter W r path m)) {red : Bool}
    {v : RouteVal W} (hv : o.isMatch red v) :
    ∃ segs above node caps parts res, LiveRoute r segs above node ∧ Fits W segs caps parts ∧
      Spells parts (stripSlash path) ∧ res ∈ node.resources ∧ m = verbBytes res.method ∧ res.isRedirect = red ∧
      v.modules = res.modules ∧ v.name = res.name ∧ List.Forall₂ (FieldNear path) caps v.params ∧
      v.nones = (above ++ node.queryParameters ++ res.queryParameters).map Param.name := by
  have key : ∃ v', (referenceRouter W r path m).isMatch red v' ∧ (v = v' ∨ ∃ n, SegmentAt path n ∧ v = v'.placed n) := by
    rcases hnear with h | ⟨n, hn, h⟩
    · exact ⟨v, by rw [← h]; exact hv, .inl rfl⟩
    · rw [h] at hv
      generalize referenceRouter W r path m = o at hv ⊢
      cases o <;> cases red <;> simp [Outcome.isMatch, Outcome.placed] at hv
      all_goals exact ⟨_, rfl, .inr ⟨n, hn, hv.symm⟩⟩
  obtain ⟨v', hv', hvv⟩ := key
  rw [referenceRouter_eq] at hv'
  rcases route_classified W r [] [] (stripSlash path) with hcl | hcl | hcl | hcl
  · obtain ⟨segs, above, node, caps, parts, h1, h2, h3, h4, h5⟩ := hcl
    rw [h5] at hv'
    obtain ⟨res, h6, h7, h8⟩ := answer_isMatch hv'
    obtain ⟨h9, h10, _⟩ := find_verb h6
    refine ⟨segs, above, node, caps, parts, res, h1, h3, h4, h9, h10, h7, ?_⟩
    subst h8
    rcases hvv with rfl | ⟨n, hn, rfl⟩
    · refine ⟨rfl, rfl, ?_, by simp⟩
      simp only [List.nil_append]
      rw [List.forall₂_map_right_iff, List.forall₂_same]
      exact fun pv _ => ⟨rfl, .inl rfl⟩
    · refine ⟨rfl, rfl, ?_, by simp [RouteVal.placed]⟩
      simp only [List.nil_append, RouteVal.placed, List.map_map]
      rw [List.forall₂_map_right_iff, List.forall₂_same]
      intro pv _
      by_cases he : pv.1.name = c!"start"
      · exact ⟨by simp [he], .inr ⟨he, n, hn, by simp [he]⟩⟩
      · exact ⟨by simp [he], .inl (by simp [he])⟩
  · rw [show route W m r [] [] (stripSlash path) = _ from hcl m, Outcome.isMatch] at hv'; cases red <;> simp at hv'
  · obtain ⟨_, _, _, _, _, _, _, _, _, _, _, _, _, _, h6⟩ := hcl
    rw [h6, Outcome.isMatch] at hv'; cases red <;> simp at hv'
  · rw [show route W m r [] [] (stripSlash path) = _ from hcl.1 m, Outcome.isMatch] at hv'; cases red <;> simp at hv'

/-- A match names a declared resource with this verb whose route the path spells, and every field holds what was parsed from
its text, but `start`, which may hold the position of a segment in the path. -/
theorem C98_matches {r : Routes} {body : List Stmt} (hb : matcherBody r = .ok body) (hc : compiles body = true)
    (hl : LenFree r) {path m : Bytes} {red : Bool} {v : RouteVal W}
    (hv : (callMatchRoute W body path m).isMatch red v) :
    ∃ segs above node caps parts res, LiveRoute r segs above node ∧ Fits W segs caps parts ∧
      Spells parts (stripSlash path) ∧ res ∈ node.resources ∧ m = verbBytes res.method ∧ res.isRedirect = red ∧
      v.modules = res.modules ∧ v.name = res.name ∧ List.Forall₂ (FieldNear path) caps v.params ∧
      v.nones = (above ++ node.queryParameters ++ res.queryParameters).map Param.name :=
  near_matches (C98_near hb hc hl W path m) hv

/-! ## Cases -/

theorem lenFree_of {r : Routes} (h : nodesAll (fun node => !(paramNames node.routes).contains c!"len") r = true) :
    LenFree r := by
  intro segs p above node hl he
  obtain ⟨q1, q2, mid, h1, h2⟩ := hl.split
  have := nodesAll_route h1.hasRoute h
  cases h2 with
  | dynamic hm _ _ =>
    have hp : p.name ∈ paramNames mid.routes := mem_paramNames.2 ⟨_, hm, p, rfl, rfl⟩
    rw [he] at hp
    simp [hp] at this

namespace Demo

/-- `/{start}` with a resource, and behind it `list` and a parameter side by side. -/
def startBlock : Routes :=
  .mk [] [.mk (.dynamic ⟨c!"start", c!"usize"⟩) (.mk [res .get c!"x" c!"One"] [
    .mk (.static c!"list") (.mk [res .get c!"x" c!"All"] [] []),
    .mk (.dynamic ⟨c!"key", c!"u32"⟩) (.mk [res .post c!"x" c!"Two"] [] [])] [])] []

end Demo

open Demo

theorem startBlock_generated : matcherBody startBlock = .ok (bodyOf startBlock) := rfl

/-- `C98_near` applied: nothing is known of the names here but that they compile. -/
theorem C98_applies (W : World) (path m : Bytes) :
    (callMatchRoute W (bodyOf startBlock) path m).Near path (referenceRouter W startBlock path m) ∧ ¬ Hygienic startBlock :=
  ⟨C98_near startBlock_generated (by decide +kernel) (lenFree_of (by decide +kernel)) W path m, fun h => by
    have := (h [] ⟨c!"start", c!"usize"⟩ _ _ (.dynamic (r := startBlock) (by simp [startBlock, Routes.routes]; rfl) (by decide +kernel) (.here _))).2 rfl
      [] _ _ (.here _)
    revert this
    decide +kernel⟩

/-- The parsed value in front of the block with a parameter, a position behind it, be it that a parameter or that the static
sibling of one was found there; nothing else is different. -/
theorem C98_cases :
    askIndex startBlock c!"/70" c!"GET" = .route [c!"x"] c!"One" [(c!"start", c!"70")] [] ∧
    askIndex startBlock c!"/70/5" c!"POST" = .route [c!"x"] c!"Two" [(c!"start", c!"4"), (c!"key", c!"5")] [] ∧
    askIndex startBlock c!"/70/list" c!"GET" = .route [c!"x"] c!"All" [(c!"start", c!"4")] [] ∧
    askIndex startBlock c!"/70/5" c!"GET" = .notAllowed ∧
    askIndex startBlock c!"/70/y" c!"POST" = .err c!"key" c!"invalid digit" ∧
    askIndex startBlock c!"/y/5" c!"POST" = .err c!"start" c!"invalid digit" ∧
    askIndex startBlock c!"/70/5/6" c!"POST" = .notFound := by decide +kernel

end Wayfinder
