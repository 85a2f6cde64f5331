import Verif.Proofs.Nest
import Verif.Props.Size
import Verif.Tests.Check
/-!
# C93: nesting of `match_route`
-/

namespace Wayfinder

open Layout (Left left_block margin_ind textLines_ind)
open Rust (Words words_of)

variable {r : Routes} {body : List Stmt}

/-- C93: no line of the function begins behind column 20, and twelve columns for every sibling on the way to a
route; the number of segments, the lengths of the texts and the number of routes do not matter. -/
theorem C93_margin (hgen : matcherBody r = .ok body) (hc : compiles body = true) (hw : Words r) :
    ∀ l ∈ textLines (matcherText r).text, margin l ≤ 20 + 12 * r.crowd := by
  have hh := code_height (matcherBody_code hgen (compiles_shape hc))
  simp only [CodeKind.tops] at hh
  have hl := left_block body (5 + 3 * r.crowd) 2 (by omega) (hw.body hgen) [] (by simp [textLines, margin])
  intro l hm
  have := hl l (by simpa [matcherText, hgen, Out.write] using hm)
  omega

/-- Configurations in which no block has two children. -/
inductive Lonely : Routes → Prop where
  | leaf (rs : List Resource) (qs : List Param) : Lonely (.mk rs [] qs)
  | child (rs : List Resource) (seg : PathSegment) {r : Routes} (qs : List Param) : Lonely r → Lonely (.mk rs [.mk seg r] qs)

theorem Lonely.crowd (h : Lonely r) : r.crowd = 0 := by
  induction h with
  | leaf => rfl
  | child rs seg qs _ ih => simp [Routes.crowd, nestedCrowd, NestedRoutes.crowd, ih]

/-- C93: without siblings the function is flat, however long the routes are. -/
theorem C93_flat (hgen : matcherBody r = .ok body) (hc : compiles body = true) (hw : Words r) (h : Lonely r) :
    ∀ l ∈ textLines (matcherText r).text, margin l ≤ 20 := by
  have := C93_margin hgen hc hw
  rwa [h.crowd] at this

/-! ## Examples -/

namespace Demo

/-- Texts of complete lines. -/
def Whole (a : Str) : Prop := ∀ X, ∃ ls, textLines (a ++ X) = ls ++ textLines X

theorem whole_line (k : Nat) (s : Str) : Whole (line k s) := by
  intro X
  have : line k s ++ X = (ind k ++ s) ++ '\n' :: X := by simp [line]
  rw [this, textLines_newline]
  exact ⟨_, rfl⟩

theorem Whole.append {a b : Str} (ha : Whole a) (hb : Whole b) : Whole (a ++ b) := by
  intro X
  obtain ⟨l1, h1⟩ := ha (b ++ X)
  obtain ⟨l2, h2⟩ := hb X
  exact ⟨l1 ++ l2, by rw [List.append_assoc, h1, h2, List.append_assoc]⟩

/-- Some line begins at level `k`. -/
def Reaches (k : Nat) (t : Str) : Prop := ∀ X, ∃ l ∈ textLines (t ++ X), margin l = 4 * k

theorem Reaches.left {k : Nat} {a b : Str} (h : Reaches k a) : Reaches k (a ++ b) := by
  intro X
  rw [List.append_assoc]
  exact h _

theorem Reaches.right {k : Nat} {a b : Str} (ha : Whole a) (h : Reaches k b) : Reaches k (a ++ b) := by
  intro X
  obtain ⟨ls, e⟩ := ha (b ++ X)
  obtain ⟨l, hl, hm⟩ := h X
  exact ⟨l, by rw [List.append_assoc, e]; simp [hl], hm⟩

theorem whole_match (j n : Nat) (pat : Str) : Whole ((Stmt.matchPath n [.bytes pat [.addI 1], .wildNotFound]).render j) := by
  simp only [Stmt.render, renderArms, Arm.render, renderBlock, List.append_nil]
  repeat' first | exact whole_line _ _ | apply Whole.append

theorem whole_if (j : Nat) (c : Cond) : Whole ((Stmt.ifThen c [.retNotFound]).render j) := by
  simp only [Stmt.render, renderBlock, List.append_nil]
  repeat' first | exact whole_line _ _ | apply Whole.append

theorem comb_reaches : ∀ (ks : List Nat) (k j : Nat), Reaches (j + 2 * ks.length) (renderBlock j (combCode k ks))
  | [], k, j => by
    intro X
    refine ⟨ind j ++ c!"if i + 3 > len {", ?_, margin_ind j (by decide)⟩
    have e : renderBlock j (combCode k []) = line j c!"if i + 3 > len {" ++ (renderBlock (j + 1) [.retNotFound] ++ line j c!"}" ++
        renderBlock j ((combCode k []).drop 1)) := by
      simp [combCode, renderBlock, Stmt.render, Cond.render]
      rfl
    rw [e, List.append_assoc, textLines_ind (by decide)]
    simp
  | k' :: ks, k, j => by
    have ih := comb_reaches ks k' (j + 2)
    simp only [combCode, renderBlock]
    refine .right (whole_if _ _) (.right (whole_match _ _ _) (.right (whole_if _ _) (.left ?_)))
    simp only [Stmt.render, renderArms, Arm.render, renderBlock]
    refine .left (.right (whole_line _ _) (.left (.left (.right (whole_line _ _) (.right (whole_line _ _) ?_)))))
    have e : j + 2 * (k' :: ks).length = j + 2 + 2 * ks.length := by simp; omega
    rw [e]
    exact ih

theorem comb_reaches_root (ks : List Nat) (k k' j : Nat) :
    Reaches (j + 2 + 2 * ks.length) (renderBlock j ((combCode k (k' :: ks)).drop 2)) := by
  simp only [combCode, List.drop_succ_cons, List.drop_zero, renderBlock]
  refine .right (whole_if _ _) (.left ?_)
  simp only [Stmt.render, renderArms, Arm.render, renderBlock]
  exact .left (.right (whole_line _ _) (.left (.left (.right (whole_line _ _) (.right (whole_line _ _) (comb_reaches ks k' (j + 2)))))))

/-- C93: the nesting does grow with the number of siblings.  Of `n + 2` routes `/zw`, `/xyzw`, `/xyxyzw`, … each is in
an arm of its predecessor's `match`, two levels deeper; the code compiles. -/
theorem C93_grows (n : Nat) : ∃ body, matcherBody (comb (n + 2)) = .ok body ∧ compiles body = true ∧
    (comb (n + 2)).crowd = n + 1 ∧ ∃ l ∈ textLines (matcherText (comb (n + 2))).text, margin l = 8 * n + 16 := by
  obtain ⟨body, hb, hc, -, -⟩ := C61_tight n
  refine ⟨body, hb, hc, ?_, ?_⟩
  · have : ∀ ks : List Nat, nestedCrowd (ks.map fun k => NestedRoutes.mk (.static (combText k)) (.mk [combAction k] [] [])) = 0 := by
      intro ks
      induction ks with
      | nil => rfl
      | cons k ks ih => simp [nestedCrowd, ih, NestedRoutes.crowd, Routes.crowd]
    simp [comb, Routes.crowd, this]
  · have hb := comb_body n
    have hks : (List.range (n + 1)).map (· + 1) = 1 :: ((List.range n).map (· + 1)).map (· + 1) := by rw [List.range_succ_eq_map]; rfl
    rw [hks] at hb
    generalize hg : ((List.range n).map (· + 1)).map (· + 1) = ks at hb
    have hlen : ks.length = n := by simp [← hg]
    obtain ⟨l, hl, hm⟩ := comb_reaches_root ks 0 1 2 []
    refine ⟨l, ?_, by rw [hm]; omega⟩
    simpa [matcherText, hb, Out.write] using hl

/-- A static child beside a parameter, three times. -/
def rungs : Routes :=
  .mk [] [.mk (.static c!"a") (.mk [] [.mk (.static c!"b") (.mk [] [.mk (.static c!"c") (.mk [res .get c!"M" c!"C"] [] []),
      .mk (.dynamic ⟨c!"z", c!"Z"⟩) (.mk [res .get c!"M" c!"ShowZ"] [] [])] []),
    .mk (.dynamic ⟨c!"y", c!"Y"⟩) (.mk [res .get c!"M" c!"ShowY"] [] [])] []),
    .mk (.dynamic ⟨c!"x", c!"X"⟩) (.mk [res .get c!"M" c!"ShowX"] [] [])] [⟨c!"q", c!"Q"⟩]

theorem rungs_supported : Supported rungs (bodyOf rungs) := supported_of (by decide +kernel)

/-- C93 for it. -/
example : ∀ l ∈ textLines (matcherText rungs).text, margin l ≤ 20 + 12 * rungs.crowd :=
  C93_margin rungs_supported.generated rungs_supported.compiles (words_of (by decide +kernel))

/-- Here the bound is reached. -/
example : rungs.crowd = 3 ∧ (compiles (bodyOf rungs) = true) ∧
    ((textLines (matcherText rungs).text).map margin).max? = some (20 + 12 * 3) := by decide +kernel

/-- The configuration of the tests. -/
example : ∀ l ∈ textLines (matcherText people).text, margin l ≤ 20 + 12 * people.crowd :=
  C93_margin people_supported.generated people_supported.compiles (words_of (by decide +kernel))

example : people.crowd = 2 := by decide +kernel

/-- Four segments, one of them a parameter. -/
def lane : Routes :=
  .mk [] [.mk (.static c!"a") (.mk [] [.mk (.static c!"b") (.mk [res .get c!"M" c!"B"] [.mk (.dynamic ⟨c!"x", c!"X"⟩)
    (.mk [] [.mk (.static c!"c") (.mk [res .get c!"M" c!"C"] [] [])] [])] [])] [])] []

theorem lane_supported : Supported lane (bodyOf lane) := supported_of (by decide +kernel)

/-- C93 without siblings. -/
example : ∀ l ∈ textLines (matcherText lane).text, margin l ≤ 20 :=
  C93_flat lane_supported.generated lane_supported.compiles (words_of (by decide +kernel))
    (.child _ _ _ (.child _ _ _ (.child _ _ _ (.child _ _ _ (.leaf _ _)))))

end Demo

end Wayfinder
