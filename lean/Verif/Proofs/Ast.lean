import Verif.Model.Rust
/-!
# Facts about emitted programs
-/

namespace Wayfinder

theorem blockShapeOk_append (a b : List Stmt) :
    blockShapeOk (a ++ b) = (blockShapeOk a && blockShapeOk b) := by
  induction a with
  | nil => simp [blockShapeOk]
  | cons s ss ih => simp [blockShapeOk, ih, Bool.and_assoc]

theorem armsShapeOk_append (a b : List Arm) :
    armsShapeOk (a ++ b) = (armsShapeOk a && armsShapeOk b) := by
  induction a with
  | nil => simp [armsShapeOk]
  | cons s ss ih => simp [armsShapeOk, ih, Bool.and_assoc]

theorem checkBlock_append (a b : List Stmt) (sc : Scope) :
    checkBlock (a ++ b) sc = (checkBlock a sc).bind (checkBlock b) := by
  induction a generalizing sc with
  | nil => simp [checkBlock]
  | cons s ss ih =>
    simp only [List.cons_append, checkBlock]
    cases s.check sc with
    | none => rfl
    | some sc' => simp [ih]

theorem checkArms_append (a b : List Arm) (sc : Scope) :
    checkArms (a ++ b) sc = (checkArms a sc && checkArms b sc) := by
  induction a with
  | nil => simp [checkArms]
  | cons s ss ih => simp [checkArms, ih, Bool.and_assoc]

theorem execBlock_append {W : World} (path m : Bytes) (a b : List Stmt) (s : State W) :
    execBlock path m (a ++ b) s =
      match execBlock path m a s with
      | .ret o => .ret o
      | .next s' => execBlock path m b s' := by
  induction a generalizing s with
  | nil => simp [execBlock]
  | cons st sts ih =>
    simp only [List.cons_append, execBlock]
    cases st.exec path m s with
    | ret o => rfl
    | next s' => simp [ih]

theorem useBlock_append (x : Str) (a b : List Stmt) :
    useBlock x (a ++ b) = (useBlock x a).or (useBlock x b) := by
  induction a with
  | nil => simp [useBlock]
  | cons s ss ih =>
    simp only [List.cons_append, useBlock]
    cases s.use x with
    | none => simp [ih]
    | some u => simp

/-! ## The struct literals of a program -/

mutual
/-- All struct literals in a statement. -/
def Stmt.literals : Stmt → List MethodArm
  | .ifThen _ body => blockLiterals body
  | .matchMethod arms => arms
  | .matchPath _ arms => armsLiterals arms
  | _ => []
/-- All struct literals in a statement list. -/
def blockLiterals : List Stmt → List MethodArm
  | [] => []
  | s :: ss => s.literals ++ blockLiterals ss
/-- All struct literals in an arm. -/
def Arm.literals : Arm → List MethodArm
  | .bytes _ body => blockLiterals body
  | .stray body => blockLiterals body
  | _ => []
/-- All struct literals in an arm list. -/
def armsLiterals : List Arm → List MethodArm
  | [] => []
  | a :: as => a.literals ++ armsLiterals as
end

theorem blockLiterals_append (a b : List Stmt) :
    blockLiterals (a ++ b) = blockLiterals a ++ blockLiterals b := by
  induction a with
  | nil => simp [blockLiterals]
  | cons s ss ih => simp [blockLiterals, ih]

theorem armsLiterals_append (a b : List Arm) :
    armsLiterals (a ++ b) = armsLiterals a ++ armsLiterals b := by
  induction a with
  | nil => simp [armsLiterals]
  | cons s ss ih => simp [armsLiterals, ih]

theorem usedBy_some {x T : Str} : ∀ {arms : List MethodArm}, usedBy x arms = some (some T) →
    ∃ a ∈ arms, ∃ p, a.captures.find? (fun p => p.name == x) = some p ∧ p.typ = T
  | a :: as, h => by
    simp only [usedBy] at h
    cases hf : a.captures.find? (fun p => p.name == x) with
    | some p =>
      rw [hf] at h
      exact ⟨a, by simp, p, hf, by simpa using h⟩
    | none =>
      rw [hf] at h
      obtain ⟨a', ha', r⟩ := usedBy_some h
      exact ⟨a', List.mem_cons_of_mem _ ha', r⟩

theorem usedBy_ne_none {x : Str} : ∀ {arms : List MethodArm}, usedBy x arms ≠ some none
  | [] => by simp [usedBy]
  | a :: as => by
    simp only [usedBy]
    cases a.captures.find? (fun p => p.name == x) with
    | some p => simp
    | none => exact usedBy_ne_none

private theorem leaveScope_some {u : Option (Option Str)} {T : Str}
    (h : leaveScope u = some (some T)) : u = some (some T) := by
  cases u with
  | none => simp [leaveScope] at h
  | some v =>
    cases v with
    | none => simp [leaveScope] at h
    | some t => simpa [leaveScope] using h

mutual
/-- An inferred type comes from a struct literal. -/
theorem Stmt.use_literal (x T : Str) : ∀ (s : Stmt), s.use x = some (some T) →
    ∃ a ∈ s.literals, ∃ p, a.captures.find? (fun p => p.name == x) = some p ∧ p.typ = T
  | .blank, h => by simp [Stmt.use] at h
  | .letStart, h => by simp [Stmt.use] at h
  | .addI n, h => by simp [Stmt.use] at h
  | .retNotFound, h => by simp [Stmt.use] at h
  | .ifThen c body, h => by
    simp only [Stmt.use] at h
    simpa [Stmt.literals] using useBlock_literal x T body (leaveScope_some h)
  | .matchMethod arms, h => by
    simp only [Stmt.use] at h
    simpa [Stmt.literals] using usedBy_some h
  | .matchPath n arms, h => by
    simp only [Stmt.use] at h
    simpa [Stmt.literals] using useArms_literal x T arms h
  | .whileScan, h => by simp [Stmt.use] at h
  | .letText, h => by simp [Stmt.use] at h
  | .letParam n t, h => by simp [Stmt.use] at h
theorem useBlock_literal (x T : Str) : ∀ (b : List Stmt), useBlock x b = some (some T) →
    ∃ a ∈ blockLiterals b, ∃ p, a.captures.find? (fun p => p.name == x) = some p ∧ p.typ = T
  | [], h => by simp [useBlock] at h
  | s :: ss, h => by
    simp only [useBlock] at h
    simp only [blockLiterals]
    cases hs : s.use x with
    | some u =>
      rw [hs] at h
      simp only [Option.some.injEq] at h
      rw [h] at hs
      obtain ⟨a, ha, r⟩ := Stmt.use_literal x T s hs
      exact ⟨a, List.mem_append_left _ ha, r⟩
    | none =>
      rw [hs] at h
      obtain ⟨a, ha, r⟩ := useBlock_literal x T ss h
      exact ⟨a, List.mem_append_right _ ha, r⟩
theorem Arm.use_literal (x T : Str) : ∀ (a : Arm), a.use x = some (some T) →
    ∃ l ∈ a.literals, ∃ p, l.captures.find? (fun p => p.name == x) = some p ∧ p.typ = T
  | .bytes pat body, h => by
    simp only [Arm.use] at h
    simpa [Arm.literals] using useBlock_literal x T body (leaveScope_some h)
  | .wildNotFound, h => by simp [Arm.use] at h
  | .wildNothing, h => by simp [Arm.use] at h
  | .someSlash, h => by simp [Arm.use] at h
  | .stray _, h => by simp [Arm.use] at h
theorem useArms_literal (x T : Str) : ∀ (as : List Arm), useArms x as = some (some T) →
    ∃ a ∈ armsLiterals as, ∃ p, a.captures.find? (fun p => p.name == x) = some p ∧ p.typ = T
  | [], h => by simp [useArms] at h
  | a :: as, h => by
    simp only [useArms] at h
    simp only [armsLiterals]
    cases hs : a.use x with
    | some u =>
      rw [hs] at h
      simp only [Option.some.injEq] at h
      rw [h] at hs
      obtain ⟨l, hl, r⟩ := Arm.use_literal x T a hs
      exact ⟨l, List.mem_append_left _ hl, r⟩
    | none =>
      rw [hs] at h
      obtain ⟨l, hl, r⟩ := useArms_literal x T as h
      exact ⟨l, List.mem_append_right _ hl, r⟩
end

/-- Field names of a struct literal. -/
def MethodArm.fieldNames (a : MethodArm) : List Str := a.captures.map Param.name ++ a.nones

mutual
/-- In a program that type-checks, the fields of every struct literal are distinct. -/
theorem Stmt.check_nodup : ∀ (s : Stmt) (sc sc' : Scope), s.check sc = some sc' →
    ∀ a ∈ s.literals, a.fieldNames.Nodup
  | .blank, _, _, _ => by simp [Stmt.literals]
  | .letStart, _, _, _ => by simp [Stmt.literals]
  | .addI n, _, _, _ => by simp [Stmt.literals]
  | .retNotFound, _, _, _ => by simp [Stmt.literals]
  | .ifThen c body, sc, sc', h => by
    simp only [Stmt.check] at h
    simp only [Stmt.literals]
    split at h
    · rename_i hc
      simp only [Bool.and_eq_true] at hc
      obtain ⟨sc2, hsc2⟩ := Option.isSome_iff_exists.1 hc.2
      exact checkBlock_nodup body sc sc2 hsc2
    · cases h
  | .matchMethod arms, sc, sc', h => by
    simp only [Stmt.check] at h
    simp only [Stmt.literals]
    split at h
    · rename_i hc
      simp only [Bool.and_eq_true, List.all_eq_true] at hc
      intro a ha
      have := hc.2 a ha
      simp only [MethodArm.typed, Bool.and_eq_true, decide_eq_true_eq] at this
      exact this.1
    · cases h
  | .matchPath n arms, sc, sc', h => by
    simp only [Stmt.check] at h
    simp only [Stmt.literals]
    split at h
    · rename_i hc
      simp only [Bool.and_eq_true] at hc
      exact checkArms_nodup arms sc hc.2
    · cases h
  | .whileScan, _, _, _ => by simp [Stmt.literals]
  | .letText, _, _, _ => by simp [Stmt.literals]
  | .letParam n t, _, _, _ => by simp [Stmt.literals]
theorem checkBlock_nodup : ∀ (b : List Stmt) (sc sc' : Scope), checkBlock b sc = some sc' →
    ∀ a ∈ blockLiterals b, a.fieldNames.Nodup
  | [], _, _, _ => by simp [blockLiterals]
  | s :: ss, sc, sc', h => by
    simp only [checkBlock] at h
    cases hs : s.check sc with
    | none => simp [hs] at h
    | some sc1 =>
      simp only [hs] at h
      intro a ha
      simp only [blockLiterals, List.mem_append] at ha
      rcases ha with ha | ha
      · exact Stmt.check_nodup s sc sc1 hs a ha
      · exact checkBlock_nodup ss sc1 sc' h a ha
theorem Arm.check_nodup : ∀ (a : Arm) (sc : Scope), a.check sc = true →
    ∀ l ∈ a.literals, l.fieldNames.Nodup
  | .bytes pat body, sc, h => by
    simp only [Arm.check] at h
    simp only [Arm.literals]
    obtain ⟨sc2, hsc2⟩ := Option.isSome_iff_exists.1 h
    exact checkBlock_nodup body sc sc2 hsc2
  | .wildNotFound, _, _ => by simp [Arm.literals]
  | .wildNothing, _, _ => by simp [Arm.literals]
  | .someSlash, _, _ => by simp [Arm.literals]
  | .stray _, _, h => by simp [Arm.check] at h
theorem checkArms_nodup : ∀ (as : List Arm) (sc : Scope), checkArms as sc = true →
    ∀ l ∈ armsLiterals as, l.fieldNames.Nodup
  | [], _, _ => by simp [armsLiterals]
  | a :: as, sc, h => by
    simp only [checkArms, Bool.and_eq_true] at h
    intro l hl
    simp only [armsLiterals, List.mem_append] at hl
    rcases hl with hl | hl
    · exact Arm.check_nodup a sc h.1 l hl
    · exact checkArms_nodup as sc h.2 l hl
end

end Wayfinder
