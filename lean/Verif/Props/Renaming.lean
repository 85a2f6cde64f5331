import Verif.Props.Config
import Verif.Props.Rename
/-!
# C14: exactly which renamings leave the answers alone
-/

namespace Wayfinder

variable {W : World} {r : Routes} {body : List Stmt} {f : Str → Str}

theorem PlainTexts.rename (h : PlainTexts r) (f : Str → Str) : PlainTexts (r.rename f) := by
  intro segs above node hr s hs
  obtain ⟨segs0, node0, rfl, rfl, h0⟩ := hasRoute_rename hr
  obtain ⟨seg, hm, he⟩ := List.mem_map.1 hs
  cases seg with
  | dynamic p => cases he
  | static s0 => cases he; exact h _ _ _ h0 _ hm

/-- A followed route can be followed after the renaming, if the captor is kept before its end. -/
theorem Follows.rename {node : Routes} {segs : List PathSegment} {above : List Param} {caps : Caps W} {parts : List Bytes}
    (h : Follows W r segs above caps parts node)
    (hk : ∀ segs' above' node', Open r segs' above' node' → segs'.length < segs.length →
      captor (node'.rename f).routes = (captor node'.routes).map f) :
    Follows W (r.rename f) (segs.map (PathSegment.rename f)) above (caps.rename f) parts (node.rename f) := by
  induction h with
  | here => exact .here _
  | @static r sub node s segs above caps parts hn h1 _ ih =>
    have := Follows.static (W := W) (r := r.rename f) (s := s) (sub := sub.rename f)
      (by rw [Routes.routes_rename]; exact List.mem_map_of_mem hn)
      (by rw [Routes.routes_rename, paramNames_rename, staticTexts_rename]; simpa using h1)
      (ih fun segs' above' node' ho hl => hk _ _ _ (.static hn h1 ho) (by simpa using hl))
    rwa [Routes.queryParameters_rename] at this
  | @dynamic r sub node p segs above caps parts v part text hn hc h1 h2 h3 h4 h5 _ ih =>
    have := Follows.dynamic (W := W) (r := r.rename f) (p := ⟨f p.name, p.typ⟩) (sub := sub.rename f)
      (by rw [Routes.routes_rename]; exact List.mem_map_of_mem hn)
      (by rw [hk _ _ _ (.here _) (by simp), hc]; rfl) h1 h2
      (by rw [Routes.routes_rename, staticTexts_rename]; exact h3) h4 h5
      (ih fun segs' above' node' ho hl => hk _ _ _ (.dynamic hn hc ho) (by simpa using hl))
    rwa [Routes.queryParameters_rename] at this

/-- A text that is not accepted by `picky` and does not begin like any static segment. -/
def refused : Str := ['é', 'é']

theorem refused_not_prefix {s : Str} (hne : s ≠ []) (ha : ∀ c ∈ s, c.toNat < 128) : ¬ bytesOf s <+: utf8 refused := by
  have he : utf8 refused = [195, 169, 195, 169] := by decide +kernel
  rw [he]
  rintro ⟨t, ht⟩
  cases s with
  | nil => exact hne rfl
  | cons c s =>
    have hc := ha c (by simp)
    simp only [bytesOf, List.map_cons, List.cons_append, List.cons.injEq] at ht
    have := congrArg UInt8.toNat ht.1
    simp only [asciiByte] at this
    revert this
    simp
    omega

/-- At the end of a followed route with a parameter child, a text that does not parse is reported under the name of
the captor. -/
theorem refused_error (h : Supported r body) (hp : PlainTexts r) {node : Routes} {segs : List PathSegment}
    {above : List Param} {caps : Caps picky} {texts : List Str}
    (hf : Follows picky r segs above caps (texts.map utf8) node) (ht : ∀ t ∈ texts, '/' ∉ t) {x : Str}
    (hc : captor node.routes = some x) (m : Bytes) :
    callMatchRoute picky body (utf8 (pathOf (texts ++ [refused]))) m = .err x () := by
  have hpn : paramNames node.routes ≠ [] := fun e => by rw [captor_eq_none.2 e] at hc; cases hc
  obtain ⟨p, sub, hn, hc'⟩ := captor_child hpn
  obtain rfl : p.name = x := by rw [hc] at hc'; injection hc' with e; exact e.symm
  have hsn := (h.sound hp).child hf.live
  refine (C47_error h hp _ _ _ _).2 ⟨segs, above, caps, node, p, sub, utf8 refused, [[]], refused, ?_,
    ⟨hn, hc, fun s hs => ?_, fun e => absurd e (by decide +kernel)⟩, fromUtf8_utf8 _, picky_fails _ (by decide), rfl⟩
  · rw [utf8_pathOf]
    simp only [stripSlash, if_true]
    rw [cut_spell (clear_texts (by
      intro t htm
      rcases List.mem_append.1 htm with h1 | h1
      · exact ht t h1
      · rw [List.mem_singleton.1 h1]; decide))]
    simpa using hf.arrives (utf8 refused :: [[]])
  · have hm : s ∈ staticTexts node.routes := by rw [hs]; simp
    obtain ⟨n, hn', hseg⟩ := mem_staticTexts'.1 hm
    obtain ⟨seg, sub'⟩ := n
    subst hseg
    exact refused_not_prefix (hsn.plain _ _ _ (.child hn' (.here _)) _ (List.mem_cons_self ..)).1
      ((hsn.shapely _ _ _ (.here _)).lt hm)

/-- **C14, renamings.** If a configuration and its renaming by an injective function are both supported, their
matchers give the same answers up to the names of the parameters, whatever `FromStr` does, exactly if in
every block that a request can reach the same parameter captures. -/
theorem C14_config (h : Supported r body) (hp : PlainTexts r) (hf : Function.Injective f) {body' : List Stmt}
    (h' : Supported (r.rename f) body') :
    (∀ (W : World) (path m : Bytes), callMatchRoute W body' path m = (callMatchRoute W body path m).rename f) ↔
      KeepsCaptor f r := by
  constructor
  · intro hall
    have key : ∀ n segs above node, segs.length = n → Open r segs above node →
        captor (node.rename f).routes = (captor node.routes).map f := by
      intro n
      induction n using Nat.strongRecOn with
      | ind n ih =>
        intro segs above node hn ho
        cases hc : captor node.routes with
        | none =>
          have : paramNames node.routes = [] := captor_eq_none.1 hc
          rw [Option.map_none, captor_eq_none, Routes.routes_rename, paramNames_rename, this]
          rfl
        | some x =>
          obtain ⟨caps, texts, h1, h2⟩ := ho.follows (h.sound hp) picky_lenient
          have h3 := h1.rename (f := f) fun segs' above' node' ho' hl => ih segs'.length (by omega) _ _ _ rfl ho'
          have e1 := refused_error h hp h1 h2 hc []
          have hne : captor (node.rename f).routes ≠ none := by
            rw [Ne, captor_eq_none, Routes.routes_rename, paramNames_rename, List.map_eq_nil_iff]
            intro e; rw [captor_eq_none.2 e] at hc; cases hc
          cases hc' : captor (node.rename f).routes with
          | none => exact absurd hc' hne
          | some y =>
            have e2 := refused_error h' (hp.rename f) h3 h2 hc' []
            rw [hall, e1] at e2
            simp only [Outcome.rename] at e2
            injection e2 with e2
            rw [← e2]; rfl
    exact fun segs above node ho => key _ segs above node rfl ho
  · intro hk W path m
    rw [h.call, h'.call, referenceRouter_eq, referenceRouter_eq]
    exact route_captor W m hf r hk [] [] _

/-- A block no request can reach (beside a parameter and another static segment) does not matter: exchanging the
names of the rivals below it changes nothing. -/
def buriedRivals : Routes :=
  .mk [] [.mk (.dynamic ⟨c!"z", c!"String"⟩) (.mk [Demo.res .get c!"x" c!"Z"] [] []),
    .mk (.static c!"kk") (.mk [Demo.res .get c!"x" c!"K"] [] []),
    .mk (.static c!"kx")
      (.mk []
        [.mk (.dynamic ⟨c!"a", c!"String"⟩) (.mk [Demo.res .get c!"x" c!"A"] [] []),
         .mk (.dynamic ⟨c!"b", c!"String"⟩) (.mk [Demo.res .get c!"x" c!"B"] [] []),
         .mk (.static c!"s") (.mk [Demo.res .get c!"x" c!"S"] [] [])] [])] []

example : Supported buriedRivals (bodyOf buriedRivals) ∧ PlainTexts buriedRivals ∧
    Supported (buriedRivals.rename (Demo.swap c!"a" c!"b")) (bodyOf (buriedRivals.rename (Demo.swap c!"a" c!"b"))) ∧
    KeepsCaptor (Demo.swap c!"a" c!"b") buriedRivals ∧ ¬ KeepsOrder (Demo.swap c!"a" c!"b") buriedRivals := by
  refine ⟨supported_of (by decide +kernel), plainTexts_of (by decide), supported_of (by decide +kernel), ?_, ?_⟩
  · intro segs above node ho
    cases ho with
    | here => decide
    | static hn h1 _ =>
      rcases h1 with h1 | h1
      · exact absurd h1 (by decide)
      · have h2 : (staticTexts buriedRivals.routes).length = 1 := congrArg List.length h1
        exact absurd h2 (by decide)
    | dynamic hn hc ho =>
      simp only [buriedRivals, Routes.routes, List.mem_cons, NestedRoutes.mk.injEq, PathSegment.dynamic.injEq,
        reduceCtorEq, false_and, or_false, List.not_mem_nil] at hn
      obtain ⟨rfl, rfl⟩ := hn
      cases ho with
      | here => decide
      | static hn _ _ => cases hn
      | dynamic hn _ _ => cases hn
  · intro h
    have := h [.static c!"kx"] [] _ (.child (r := buriedRivals) (List.mem_cons_of_mem _ (List.mem_cons_of_mem _ (List.mem_cons_self ..))) (.here _))
      c!"a" (by decide) c!"b" (by decide) (by decide)
    exact absurd this (by decide)

/-- Where a request can reach the rivals, the exchange does change answers (`C14_order_false`): the captor is not kept. -/
example : ¬ KeepsCaptor (Demo.swap c!"a" c!"b") Demo.rivals := fun h => absurd (h _ _ _ (.here _)) (by decide)

end Wayfinder
