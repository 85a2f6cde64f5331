import Verif.Spec.Whole
import Verif.Props.Scope
import Verif.Props.Traits
import Verif.Props.Flow
import Verif.Props.Pipeline
/-!
# C89: when the emitted file compiles, everything taken together
-/

namespace Wayfinder

open Rust

/-! ## Control flow with the names of Rust -/

theorem emitStmt_blank : ∀ s : Stmt, s.isBlank = (emitStmt s).isEmpty
  | .blank | .letStart | .addI _ | .retNotFound | .ifThen _ _ | .matchMethod _ | .matchPath _ _ | .whileScan | .letText
  | .letParam _ _ => rfl

theorem emitStmt_some : ∀ s : Stmt, ∀ x ∈ emitStmt s, x.isBlank = false
  | .blank, x, h => by cases h
  | .letStart, x, h => by rw [List.mem_singleton.1 h]; rfl
  | .addI _, x, h => by rw [List.mem_singleton.1 h]; rfl
  | .retNotFound, x, h => by rw [List.mem_singleton.1 h]; rfl
  | .ifThen _ _, x, h => by rw [List.mem_singleton.1 h]; rfl
  | .matchMethod _, x, h => by rw [List.mem_singleton.1 h]; rfl
  | .matchPath _ _, x, h => by rw [List.mem_singleton.1 h]; rfl
  | .whileScan, x, h => by rw [List.mem_singleton.1 h]; rfl
  | .letText, x, h => by rw [List.mem_singleton.1 h]; rfl
  | .letParam _ _, x, h => by rw [List.mem_singleton.1 h]; rfl

theorem emitBlock_blank : ∀ b : List Stmt, (emitBlock b).all Stmt.isBlank = b.all Stmt.isBlank
  | [] => rfl
  | s :: b => by
    rw [emitBlock, List.all_append, List.all_cons, emitBlock_blank b]
    congr 1
    rw [emitStmt_blank]
    cases h : emitStmt s with
    | nil => rfl
    | cons x l =>
      have := emitStmt_some s x (by rw [h]; simp)
      simp [this]

mutual
theorem emitBlock_diverges : ∀ b : List Stmt, blockDiverges (emitBlock b) = blockDiverges b
  | [] => rfl
  | .matchPath _ as :: b => by
    simp only [emitBlock, emitStmt, List.singleton_append, blockDiverges, Stmt.diverges, emitArms_diverge as, emitBlock_diverges b]
  | .blank :: b | .letStart :: b | .addI _ :: b | .retNotFound :: b | .ifThen _ _ :: b | .matchMethod _ :: b | .whileScan :: b
  | .letText :: b | .letParam _ _ :: b => by
    simp [emitBlock, emitStmt, blockDiverges, Stmt.diverges, emitBlock_diverges b]
theorem emitArm_diverges : ∀ a : Arm, (emitPathArm a).diverges = a.diverges
  | .bytes _ b => by simp only [emitPathArm, Arm.diverges, emitBlock_diverges b]
  | .wildNotFound | .wildNothing | .someSlash | .stray _ => rfl
theorem emitArms_diverge : ∀ as : List Arm, armsDiverge (emitArms as) = armsDiverge as
  | [] => rfl
  | a :: as => by simp only [emitArms, armsDiverge, emitArm_diverges a, emitArms_diverge as]
end

theorem emitArms_wild : ∀ as : List Arm, (emitArms as).any Arm.isWild = as.any Arm.isWild
  | [] => rfl
  | a :: as => by
    rw [emitArms, List.any_cons, List.any_cons, emitArms_wild as]
    congr 1
    cases a <;> rfl

mutual
theorem emitBlock_fits : ∀ (b : List Stmt) (value gone : Bool), blockFits value gone (emitBlock b) = blockFits value gone b
  | [], _, _ => rfl
  | .blank :: b, value, gone => by
    simp [emitBlock, emitStmt, blockFits, Stmt.isExpr, Stmt.fits, Stmt.diverges, emitBlock_fits b]
  | .ifThen _ body :: b, value, gone => by
    simp [emitBlock, emitStmt, blockFits, Stmt.isExpr, Stmt.fits, Stmt.diverges, emitBlock_fits b,
      emitBlock_blank, emitBlock_fits body]
  | .matchPath _ as :: b, value, gone => by
    simp [emitBlock, emitStmt, blockFits, Stmt.isExpr, Stmt.fits, Stmt.diverges, emitBlock_fits b,
      emitBlock_blank, emitArms_fit as, emitArms_wild, emitArms_diverge]
  | .letStart :: b, value, gone | .addI _ :: b, value, gone | .retNotFound :: b, value, gone | .matchMethod _ :: b, value, gone
  | .whileScan :: b, value, gone | .letText :: b, value, gone | .letParam _ _ :: b, value, gone => by
    simp [emitBlock, emitStmt, blockFits, Stmt.isExpr, Stmt.fits, Stmt.diverges, emitBlock_fits b,
      emitBlock_blank]
theorem emitArm_fits : ∀ (a : Arm) (value : Bool), (emitPathArm a).fits value = a.fits value
  | .bytes _ b, value => by simp only [emitPathArm, Arm.fits, emitBlock_fits b]
  | .wildNotFound, _ | .wildNothing, _ | .someSlash, _ | .stray _, _ => rfl
theorem emitArms_fit : ∀ (as : List Arm) (value : Bool), armsFit value (emitArms as) = armsFit value as
  | [], _ => rfl
  | a :: as, value => by simp only [emitArms, armsFit, emitArm_fits a, emitArms_fit as]
end

/-! ## The conditions -/

variable {c : RouteConfig} {impl : Trait → Str → Prop} {us : List Use}

/-- **C89.** Let the words of a configuration be words of Rust and its headers imports, and let no parameter be named `len`,
nor `start` with a parameter behind it.  Then the emitted file compiles exactly if the configuration is `Compilable`: the
conditions on blocks, names and redirects (C49), on imports (C85) and on the types (C87) are all that there is; control
flow (C77) adds nothing. -/
theorem C89_compiles (h : Ready c) (hh : Hygienic c.routes) (hu : Imports c.headers us) (hz : impl .fromStr c!"usize") :
    Compiles impl (utf8 (codegen c).text) ↔ Compilable impl us c.routes := by
  have hst := startTypes_of hh
  constructor
  · rintro ⟨text, m, b, h1, h2, h3, h4⟩
    rw [fromUtf8_utf8] at h1
    cases h1
    obtain ⟨e, -⟩ := C85_same h hu h2
    obtain ⟨ha, hi⟩ := (C85_scope h hu).1 ⟨m, b, h2⟩
    obtain ⟨a1, a2, a3, a4, a5, a6, a7⟩ := (C49_hygienic h hh).1 ha
    exact ⟨a1, a2, a3, a4, a5, a6, a7, hi, (C87_traits h hst hz e).1 h3⟩
  · intro hc
    have ha := (C49_hygienic h hh).2 ⟨hc.shapely, hc.used, hc.names, hc.clear, hc.free, hc.fit, hc.oneType⟩
    obtain ⟨m, b, e⟩ := (C85_scope h hu).2 ⟨ha, hc.scope⟩
    obtain ⟨e', -⟩ := C85_same h hu e
    refine ⟨_, m, b, fromUtf8_utf8 _, e, (C87_traits h hst hz e').2 hc.implemented, ?_⟩
    obtain ⟨root, body, hr, hb, -⟩ := codegen_text h.generated
    obtain ⟨τ, ht⟩ := (C49_typed _).2 hc.oneType
    obtain ⟨body', hb', hcomp, -, rfl, -, -⟩ := retyped_meaning h.legible hr hb e' ht
    have := C77_returns hb' hcomp
    unfold returns at this ⊢
    rw [emitBlock_fits]
    exact this

/-- **C89, from the route file to the answers.** If the build returns, the input is a text of the grammar; and if its words are
words of Rust and its headers imports, what was written compiles exactly if the configuration is `Compilable`.  Then the
compiled `match_route` gives every request the one answer that the configuration prescribes, with the types of the fields. -/
theorem C89_build (w : Machine) (hw : w.Sound) {b : Builder} {name : Str} (hb : b.source = some (.file name))
    (h : (b.build w).ending = .returned) :
    ∃ contents c, w.read (b.inputPath w name) = some contents ∧ FileText w.cfg c contents ∧
      (RustWords c → Hygienic c.routes → ∀ us, Imports c.headers us → ∀ impl : Trait → Str → Prop, impl .fromStr c!"usize" →
        (Compiles impl (b.build w).written ↔ Compilable impl us c.routes) ∧
        (Compiles impl (b.build w).written → ∃ τ, Typed c.routes τ ∧
          ∀ (W : World) (path verb : Bytes) (o : Outcome W),
            callCompiled W (b.build w).written path verb = o ↔ Answers W (c.routes.retype τ) path verb o)) := by
  obtain ⟨c, hl, -, hd, -, hwr⟩ := (C37_success w hw b).1 h
  cases hl with
  | config he => rw [hb] at he; cases he
  | file he hr hp =>
    rw [hb] at he
    cases he
    refine ⟨_, c, hr, (C46_grammar _ _ _).1 ⟨_, hp⟩, fun hn hhy us hu impl hz => ?_⟩
    have hwc := (C29_written _ hp).2
    have ready : Ready c :=
      ⟨(C20_exact c).2 hd, hn.headers, hwc.words hn.names, hwc.noBraces⟩
    have hwr' : (b.build w).written = utf8 (codegen c).text := hwr
    rw [hwr']
    have key := C89_compiles ready hhy hu hz
    refine ⟨key, fun hc => ?_⟩
    obtain ⟨τ, ht⟩ := (C49_typed _).2 (key.1 hc).oneType
    refine ⟨τ, ht, fun W path verb o => ?_⟩
    obtain ⟨text, m, b', h1, h2, -, -⟩ := hc
    rw [fromUtf8_utf8] at h1
    cases h1
    obtain ⟨e, -⟩ := C85_same ready hu h2
    obtain ⟨body, _, _, hs, hcall⟩ := C49_meaning ready e ht
    have hcall' : callCompiled W (utf8 (codegen c).text) path verb = callText W (headerToks c.headers) (codegen c).text path verb := by
      simp only [callCompiled, callText, fromUtf8_utf8, h2, e]
    rw [hcall', hcall]
    exact call_answers (hs hhy) (plainTexts_retype hwc.plain) path verb o

/-- **C89, imported types.** If the built-in types and all imported ones have all traits, then the file compiles as soon as it
can be read with its imports. -/
theorem C89_enough (h : Ready c) (hst : StartTypes c.routes) (hu : Imports c.headers us)
    (hi : ∀ tr t, (t ∈ builtin ∨ ∃ u ∈ us, u.name = t) → impl tr t) :
    Compiles impl (utf8 (codegen c).text) ↔ ∃ m b, readScoped (codegen c).text = some (m, b) := by
  constructor
  · rintro ⟨text, m, b, h1, h2, -, -⟩
    rw [fromUtf8_utf8] at h1
    cases h1
    exact ⟨m, b, h2⟩
  · rintro ⟨m, b, e⟩
    obtain ⟨ha, hs⟩ := (C85_scope h hu).1 ⟨m, b, e⟩
    obtain ⟨e', -⟩ := C85_same h hu e
    refine ⟨_, m, b, fromUtf8_utf8 _, e, C87_enough h hst (hi _ _ (.inl (by decide))) e' ?_ ?_, ?_⟩
    · intro mods x params query hx p hp tr
      exact hi _ _ (hs.types hx p (by simp [hp]))
    · intro mods x params query hx p hp
      have := hs.types hx p (by simp [hp])
      exact ⟨hi _ _ this, hi _ _ this, hi _ _ this⟩
    · obtain ⟨root, body, hr, hb, -⟩ := codegen_text h.generated
      obtain ⟨-, -, -, -, -, τ, ht, -⟩ := (C49_accepted h hst).1 ha
      obtain ⟨body', hb', hcomp, -, rfl, -, -⟩ := retyped_meaning h.legible hr hb e' ht
      have := C77_returns hb' hcomp
      unfold returns at this ⊢
      rw [emitBlock_fits]
      exact this

namespace Demo

/-- All traits for the built-in types and `Uuid`. -/
def hasAll (_ : Trait) (t : Str) : Prop := t ∈ builtin ∨ t = c!"Uuid"

/-- The example meets the hypotheses of `C89_compiles`, and all conditions. -/
example : Compilable hasAll [uuidUse] people ∧ Compiles hasAll (utf8 (codegen (conf people)).text) := by
  have hy : Hygienic people := hygienic_of (by decide +kernel)
  have key := C89_compiles (c := conf people) (clean_ready people_clean) hy (uuid_imports _) (impl := hasAll) (.inl (by decide))
  have hc := (C89_enough (c := conf people) (impl := hasAll) (clean_ready people_clean) (startTypes_of hy) (uuid_imports _)
    (by rintro tr t (h | ⟨u, hu, rfl⟩); exacts [.inl h, .inr (by rw [List.mem_singleton.1 hu]; rfl)])).2
    (scoped_of people_clean people_supported (uuid_imports people)
      (inScope_of (by decide) (by decide +kernel) (by decide +kernel) (by decide +kernel)))
  exact ⟨key.1 hc, hc⟩

/-- **C89, the types count.** The same file does not compile if `u32` is not `FromStr`, nor if `bool` is not `Eq`. -/
theorem C89_needed : ¬ Compiles (lacks .fromStr c!"u32") (utf8 (codegen (conf people)).text) ∧
    ¬ Compiles (lacks .eq c!"bool") (utf8 (codegen (conf people)).text) := by
  constructor
  · rintro ⟨text, m, b, h1, h2, h3, -⟩
    rw [fromUtf8_utf8] at h1
    cases h1
    exact (C87_needed (C85_same (clean_ready people_clean) (uuid_imports people) h2).1).1 _ h3
  · rintro ⟨text, m, b, h1, h2, h3, -⟩
    rw [fromUtf8_utf8] at h1
    cases h1
    exact ((C87_needed (C85_same (clean_ready people_clean) (uuid_imports people) h2).1).2 _).2 (by simp) h3

end Demo

namespace Shipped
open Demo

/-- **C89, the configurations shipped.** Those of the examples, of the benchmark and of the tests compile if `Uuid` has the
traits. -/
theorem C89_shipped : Compiles hasAll (utf8 (codegen cli).text) ∧ Compiles hasAll (utf8 (codegen structured).text) ∧
    Compiles hasAll (utf8 (codegen Shipped.commons).text) ∧ Compiles hasAll (utf8 (codegen nesting).text) ∧
    Compiles hasAll (utf8 (codegen manualCode).text) := by
  have hu : ∀ tr t, (t ∈ builtin ∨ ∃ u ∈ [uuidUse], u.name = t) → hasAll tr t := by
    rintro tr t (h | ⟨u, hu, rfl⟩)
    exacts [.inl h, .inr (by rw [List.mem_singleton.1 hu]; rfl)]
  obtain ⟨h1, h2, h3, h4, h5, -⟩ := C85_shipped
  have key : ∀ c : RouteConfig, Clean c → Imports c.headers [uuidUse] → (∃ m b, readScoped (codegen c).text = some (m, b)) →
      Compiles hasAll (utf8 (codegen c).text) := fun c hc hi h =>
    (C89_enough (clean_ready hc) (startTypes_of_types hc.types) hi hu).2 h
  have hcm : Clean Shipped.commons := clean_of (by decide +kernel)
  exact ⟨key cli (clean_of (by decide +kernel)) (uuid_imports cli.routes) h1,
    key structured (clean_of (by decide +kernel)) (uuid_imports structured.routes) h2,
    (C89_enough (us := []) (clean_ready hcm) (startTypes_of_types hcm.types) rfl
      (by rintro tr t (h | ⟨u, hu, rfl⟩); exacts [.inl h, absurd hu (by simp)])).2 h3,
    key nesting (clean_of (by decide +kernel)) (uuid_imports nesting.routes) h4,
    key manualCode (clean_of (by decide +kernel)) (uuid_imports manualCode.routes) h5⟩

end Shipped

end Wayfinder
