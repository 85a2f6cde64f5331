import Verif.Proofs.Indent
import Verif.Props.Accept
import Verif.Props.Scope
/-!
# C88: the emitted file is indented as its brackets nest
-/

namespace Wayfinder.Layout

open Rust (Words Ready codegen_text)

theorem layLines_append : ∀ (a b : List Str) (st : List Str), layLines (a ++ b) st = (layLines a st).bind (layLines b)
  | [], b, st => rfl
  | l :: a, b, st => by
    simp only [List.cons_append, layLines]
    cases layLine l st with
    | none => rfl
    | some st' => exact layLines_append a b st'

theorem lay_closed {t t' : Str} {st st' : List Str} (ht : t = t' ++ c!"\n") (h : layLines (textLines t') st = some st') :
    Lay st t st' := by
  intro X
  have : t ++ X = t' ++ '\n' :: X := by simp [ht]
  rw [this, textLines_newline, layLines_append, h]
  rfl

theorem lay_prelude1 : Lay [] prelude1 [c!"{"] :=
  lay_closed (t' := prelude1.dropLast) (by decide +kernel) (by decide +kernel)

theorem lay_prelude2 : Lay [c!"{"] prelude2 [c!"{"] :=
  lay_closed (t' := prelude2.dropLast) (by decide +kernel) (by decide +kernel)

theorem lay_fixedPart : Lay [c!"{"] fixedPart [c!"{", c!"{"] :=
  lay_closed (t' := fixedPart.dropLast) (by decide +kernel) (by decide +kernel)

theorem lay_postlude : Lay [c!"{", c!"{"] postlude [] :=
  lay_closed (t' := postlude.dropLast) (by decide +kernel) (by decide +kernel)

theorem layLines_comment {st : List Str} (hst : st.length = 1) : ∀ ls : List Str,
    layLines (ls.map (c!"    //! " ++ ·)) st = some st
  | [] => rfl
  | l :: ls => by
    have h1 : layLine (c!"    //! " ++ l) st = some st := by
      have := layLine_ind 1 (c := '/') (s := c!"/! " ++ l) (by decide) st
      have h2 : layText (4 * 1) ('/' :: (c!"/! " ++ l)) st = some st := by
        unfold layText
        rw [if_neg (by simp), if_pos (by simp), if_pos (by rw [hst])]
      rw [h2] at this
      exact this
    simp only [List.map_cons, layLines]
    rw [h1]
    exact layLines_comment hst ls

theorem lay_configComment {r : Routes} (h : r ≠ .mk [] [] []) : Lay [c!"{"] (configComment r).text [c!"{"] := by
  rcases stringify_ends r 1 with h0 | ⟨s, hs⟩
  · exact absurd (stringify_eq_nil.1 h0) h
  intro X
  rw [Rust.configComment_text hs]
  obtain ⟨l, ls, -, e⟩ := textLines_commentLines s c!"    //! " X (by decide)
  have : c!"    //! " ++ commentLines s ++ c!"\n" ++ X = c!"    //! " ++ (commentLines s ++ '\n' :: X) := by simp
  rw [this, e, ← List.cons_append]
  have := layLines_comment (st := [c!"{"]) rfl (l :: ls)
  rw [List.map_cons] at this
  rw [layLines_append, this]
  rfl

mutual
theorem noStray_of : ∀ s : Stmt, s.shapeOk = true → NoStray s
  | .ifThen _ b, h => by simp only [Stmt.shapeOk] at h; simpa only [NoStray] using noStrays_of b h
  | .matchPath _ as, h => by simp only [Stmt.shapeOk] at h; simpa only [NoStray] using noStrayArms_of as h
  | .blank, _ => by simp [NoStray]
  | .letStart, _ => by simp [NoStray]
  | .addI _, _ => by simp [NoStray]
  | .retNotFound, _ => by simp [NoStray]
  | .matchMethod _, _ => by simp [NoStray]
  | .whileScan, _ => by simp [NoStray]
  | .letText, _ => by simp [NoStray]
  | .letParam _ _, _ => by simp [NoStray]
theorem noStrays_of : ∀ b : List Stmt, blockShapeOk b = true → NoStrays b
  | [], _ => by simp [NoStrays]
  | s :: b, h => by
    simp only [blockShapeOk, Bool.and_eq_true] at h
    simp only [NoStrays]
    exact ⟨noStray_of s h.1, noStrays_of b h.2⟩
theorem noStrayArm_of : ∀ a : Arm, a.shapeOk = true → NoStrayArm a
  | .bytes _ b, h => by
    simp only [Arm.shapeOk, Bool.and_eq_true] at h
    simpa only [NoStrayArm] using noStrays_of b h.2
  | .wildNotFound, _ => by simp [NoStrayArm]
  | .wildNothing, _ => by simp [NoStrayArm]
  | .someSlash, _ => by simp [NoStrayArm]
  | .stray _, h => by simp [Arm.shapeOk] at h
theorem noStrayArms_of : ∀ as : List Arm, armsShapeOk as = true → NoStrayArms as
  | [], _ => by simp [NoStrayArms]
  | a :: as, h => by
    simp only [armsShapeOk, Bool.and_eq_true] at h
    simp only [NoStrayArms]
    exact ⟨noStrayArm_of a h.1, noStrayArms_of as h.2⟩
end

/-- **C88, exact.** If generation succeeds, all names are names in Rust and every header is one line with balanced
brackets, then the emitted file is indented as its brackets nest exactly if the generator has not put statements in the
place of an arm (`gen.rs:685`). -/
theorem C88_exact {c : RouteConfig} {body : List Stmt} (h : (codegen c).fail = none) (hw : Words c.routes)
    (hh : ∀ x ∈ c.headers, TidyHeader x) (hb : matcherBody c.routes = .ok body) : LaidOut (codegen c).text ↔ NoStrays body := by
  obtain ⟨root, body', hr, hb', e⟩ := codegen_text h
  rw [hb] at hb'
  cases hb'
  have l2 := lay_configComment (Rust.codegen_nonempty h)
  have l4 := lay_module hh root [c!"{"] 1 rfl (.inl rfl) (hw.modules hr)
  have l6 := lay_block body [c!"{", c!"{"] 2 rfl (hw.body hb)
  have l7 : Lay [] (prelude1 ++ ((configComment c.routes).text ++ (prelude2 ++
      (renderModule c.headers 1 root ++ (c!"\n" ++ fixedPart))))) [c!"{", c!"{"] :=
    lay_prelude1.append (l2.append (lay_prelude2.append (l4.append ((lay_newline _).append lay_fixedPart))))
  have e' : (codegen c).text = (prelude1 ++ ((configComment c.routes).text ++ (prelude2 ++
      (renderModule c.headers 1 root ++ (c!"\n" ++ fixedPart))))) ++ (renderBlock 2 body ++ (postlude ++ [])) := by
    rw [e]; simp only [List.append_assoc, List.append_nil]
  unfold LaidOut
  rw [e', l7]
  constructor
  · intro hl
    apply Classical.byContradiction
    intro hn
    rw [l6.2 hn] at hl
    cases hl
  · intro hs
    rw [l6.1 hs, lay_postlude]
    rfl

/-- **C88.** The emitted file is indented as its brackets nest: four spaces for every line above whose brackets are still
open, where the closing brackets at the beginning of a line close all that an earlier line has left open. -/
theorem C88_laid_out {c : RouteConfig} (h : (codegen c).fail = none) (hw : Words c.routes)
    (hh : ∀ x ∈ c.headers, TidyHeader x) (hs : Shapely c.routes) : LaidOut (codegen c).text := by
  obtain ⟨root, body, hr, hb, e⟩ := codegen_text h
  exact (C88_exact h hw hh hb).2 (noStrays_of body ((matcherBody_shape hb).2 hs))

/-- **C88, accepted files.** Every file that is accepted is laid out. -/
theorem C88_accepted {c : RouteConfig} (h : Ready c) (hst : Rust.StartTypes c.routes) (hh : ∀ x ∈ c.headers, TidyHeader x)
    (ha : ∃ m b, Rust.readText (Rust.headerToks c.headers) (codegen c).text = some (m, b)) : LaidOut (codegen c).text :=
  C88_laid_out h.generated h.words hh ((Rust.C49_accepted h hst).1 ha).1

instance (t : Str) : Decidable (LaidOut t) := inferInstanceAs (Decidable (_ = _))

theorem tidy_uuid : ∀ x ∈ [(⟨c!"use uuid::Uuid;"⟩ : Header)], TidyHeader x := by
  intro x hx
  rw [List.mem_singleton.1 hx]
  exact ⟨by decide, head_lit (by decide), by decide +kernel⟩

end Wayfinder.Layout

namespace Wayfinder.Demo
open Layout Rust

/-- A parameter next to static texts that begin with different characters. -/
def mixed : Routes :=
  .mk [] [.mk (.static c!"about") (.mk [⟨.get, [], c!"about", false, []⟩] [] []),
    .mk (.static c!"people") (.mk [⟨.get, [], c!"people", false, []⟩] [] []),
    .mk (.dynamic ⟨c!"id", c!"u32"⟩) (.mk [⟨.get, [], c!"show", false, []⟩] [] [])] []

example : LaidOut (codegen (conf people)).text :=
  C88_accepted (clean_ready people_clean) (startTypes_of_types people_clean.types) tidy_uuid
    (let ⟨_, _, e⟩ := people_clean.read people_supported; ⟨_, _, e⟩)

/-- A file that is laid out need not be accepted: `a` next to `ab`. -/
example : LaidOut (codegen (conf unshapely)).text ∧ ¬ Shapely unshapely :=
  ⟨by decide +kernel, C49_needed.1.2⟩

/-- **C88, the conditions are needed.** A parameter next to static texts with different first characters makes the
generator put statements in the place of arms; a header of two lines, an indented header, one that is empty, and one
that opens a bracket are copied as they are. -/
theorem C88_needed :
    (Rust.Words mixed ∧ (codegen (conf mixed)).fail = none ∧ ¬ LaidOut (codegen (conf mixed)).text) ∧
    ¬ LaidOut (codegen ⟨[⟨c!"use a::B;\nuse c::D;"⟩], commons⟩).text ∧
    ¬ LaidOut (codegen ⟨[⟨c!" use a::B;"⟩], commons⟩).text ∧
    ¬ LaidOut (codegen ⟨[⟨c!""⟩], commons⟩).text ∧
    ¬ LaidOut (codegen ⟨[⟨c!"use a::{B,"⟩, ⟨c!"C};"⟩], commons⟩).text := by
  refine ⟨⟨?_, ?_, ?_⟩, ?_, ?_, ?_, ?_⟩
  · exact words_of (by decide +kernel)
  all_goals decide +kernel

end Wayfinder.Demo
