import Verif.Proofs.Typing
/-!
# The variables bound in the emitted code are the captured ones
-/

namespace Wayfinder

mutual
/-- The parameters bound in a statement. -/
def Stmt.binds : Stmt → List Str
  | .ifThen _ body => blockBinds body
  | .matchPath _ arms => armsBinds arms
  | .letParam name _ => [name]
  | _ => []
/-- The same for a block. -/
def blockBinds : List Stmt → List Str
  | [] => []
  | s :: ss => s.binds ++ blockBinds ss
/-- The same for an arm. -/
def Arm.binds : Arm → List Str
  | .bytes _ body => blockBinds body
  | _ => []
/-- The same for arms. -/
def armsBinds : List Arm → List Str
  | [] => []
  | a :: as => a.binds ++ armsBinds as
end

mutual
/-- Every parameter has the type inferred from the statements after it. -/
def StmtInferred (rest : List Stmt) : Stmt → Prop
  | .ifThen _ body => BlockInferred body
  | .matchPath _ arms => ArmsInferred arms
  | .letParam name typ => typ = inferType name rest
  | _ => True
/-- The same for a block. -/
def BlockInferred : List Stmt → Prop
  | [] => True
  | s :: ss => StmtInferred ss s ∧ BlockInferred ss
/-- The same for an arm. -/
def ArmInferred : Arm → Prop
  | .bytes _ body => BlockInferred body
  | _ => True
/-- The same for arms. -/
def ArmsInferred : List Arm → Prop
  | [] => True
  | a :: as => ArmInferred a ∧ ArmsInferred as
end

/-! ## Bound variables are used -/

/-- Some literal uses the variable. -/
def UsedIn (x : Str) (l : List MethodArm) : Prop := ∃ a ∈ l, ∃ p ∈ a.captures, p.name = x

theorem UsedIn.mono {x : Str} {l l' : List MethodArm} (h : UsedIn x l) (hs : ∀ a ∈ l, a ∈ l') : UsedIn x l' := by
  obtain ⟨a, ha, h⟩ := h
  exact ⟨a, hs a ha, h⟩

theorem used_of_infer {x T : Str} {b : List Stmt} (h : inferType x b = some T) : UsedIn x (blockLiterals b) := by
  have huse : useBlock x b = some (some T) := by
    unfold inferType at h
    split at h
    · rename_i t ht; rw [ht]; simpa using h
    · cases h
  obtain ⟨a, ha, p, hf, _⟩ := useBlock_literal _ _ _ huse
  exact ⟨a, ha, p, List.mem_of_find?_eq_some hf, by simpa using List.find?_some hf⟩

mutual
theorem block_used : ∀ (b : List Stmt) (sc sc' : Scope), BlockInferred b → checkBlock b sc = some sc' →
    ∀ x ∈ blockBinds b, UsedIn x (blockLiterals b)
  | [], _, _, _, _, x, hx => by cases hx
  | s :: b, sc, sc', hi, h, x, hx => by
    simp only [BlockInferred] at hi
    simp only [checkBlock] at h
    simp only [blockBinds, List.mem_append] at hx
    cases hs : s.check sc with
    | none => simp [hs] at h
    | some sc1 =>
      simp only [hs] at h
      rcases hx with hx | hx
      · rcases stmt_used s b sc sc1 hi.1 hs x hx with h' | h'
        · exact h'.mono fun a ha => by simp [blockLiterals, ha]
        · exact h'.mono fun a ha => by simp [blockLiterals, ha]
      · exact (block_used b sc1 sc' hi.2 h x hx).mono fun a ha => by simp [blockLiterals, ha]
theorem stmt_used : ∀ (s : Stmt) (rest : List Stmt) (sc sc' : Scope), StmtInferred rest s → s.check sc = some sc' →
    ∀ x ∈ s.binds, UsedIn x s.literals ∨ UsedIn x (blockLiterals rest)
  | .ifThen c body, rest, sc, sc', hi, h, x, hx => by
    simp only [Stmt.check] at h
    split at h
    · rename_i hb
      simp only [Bool.and_eq_true] at hb
      obtain ⟨sc2, h2⟩ := Option.isSome_iff_exists.1 hb.2
      simp only [StmtInferred] at hi
      simp only [Stmt.binds] at hx
      exact .inl (block_used body sc sc2 hi h2 x hx)
    · cases h
  | .matchPath n arms, rest, sc, sc', hi, h, x, hx => by
    simp only [Stmt.check] at h
    split at h
    · rename_i hb
      simp only [Bool.and_eq_true] at hb
      simp only [StmtInferred] at hi
      simp only [Stmt.binds] at hx
      exact .inl (arms_used arms sc hi hb.2 x hx)
    · cases h
  | .letParam name typ, rest, sc, sc', hi, h, x, hx => by
    simp only [StmtInferred] at hi
    simp only [Stmt.binds, List.mem_singleton] at hx
    subst hx
    simp only [Stmt.check] at h
    split at h
    · rename_i ty _
      exact .inr (used_of_infer (T := ty) hi.symm)
    · cases h
  | .matchMethod _, _, _, _, _, _, x, hx => by cases hx
  | .blank, _, _, _, _, _, x, hx => by cases hx
  | .letStart, _, _, _, _, _, x, hx => by cases hx
  | .addI _, _, _, _, _, _, x, hx => by cases hx
  | .retNotFound, _, _, _, _, _, x, hx => by cases hx
  | .whileScan, _, _, _, _, _, x, hx => by cases hx
  | .letText, _, _, _, _, _, x, hx => by cases hx
theorem arms_used : ∀ (as : List Arm) (sc : Scope), ArmsInferred as → checkArms as sc = true →
    ∀ x ∈ armsBinds as, UsedIn x (armsLiterals as)
  | [], _, _, _, x, hx => by cases hx
  | a :: as, sc, hi, h, x, hx => by
    simp only [ArmsInferred] at hi
    simp only [checkArms, Bool.and_eq_true] at h
    simp only [armsBinds, List.mem_append] at hx
    rcases hx with hx | hx
    · exact (arm_used a sc hi.1 h.1 x hx).mono fun b hb => by simp [armsLiterals, hb]
    · exact (arms_used as sc hi.2 h.2 x hx).mono fun b hb => by simp [armsLiterals, hb]
theorem arm_used : ∀ (a : Arm) (sc : Scope), ArmInferred a → a.check sc = true → ∀ x ∈ a.binds, UsedIn x a.literals
  | .bytes pat body, sc, hi, h, x, hx => by
    simp only [Arm.check] at h
    obtain ⟨sc2, h2⟩ := Option.isSome_iff_exists.1 h
    simp only [ArmInferred] at hi
    simp only [Arm.binds] at hx
    exact block_used body sc sc2 hi h2 x hx
  | .wildNotFound, _, _, _, x, hx => by cases hx
  | .wildNothing, _, _, _, x, hx => by cases hx
  | .someSlash, _, _, _, x, hx => by cases hx
  | .stray _, _, _, _, x, hx => by cases hx
end

/-! ## Used variables are bound -/

/-- The variables in scope. -/
def Scope.vars (sc : Scope) : List Str := sc.map Prod.fst

theorem lookupVar_vars {x : Str} {t : Ty} : ∀ {sc : Scope}, lookupVar x sc = some t → x ∈ sc.vars
  | [], h => by cases h
  | (y, u) :: sc, h => by
    simp only [lookupVar] at h
    simp only [Scope.vars, List.map_cons, List.mem_cons]
    split at h
    · rename_i e; exact .inl e.symm
    · exact .inr (lookupVar_vars h)

theorem typed_vars {sc : Scope} {a : MethodArm} (h : a.typed sc = true) : ∀ p ∈ a.captures, p.name ∈ sc.vars := by
  intro p hp
  simp only [MethodArm.typed, Bool.and_eq_true, List.all_eq_true] at h
  have := h.2 p hp
  split at this
  · rename_i hl; exact lookupVar_vars hl
  · rename_i hl; exact lookupVar_vars hl
  · cases this

/-- The variables that are not parameters. -/
def ownVars : List Str := [c!"start", c!"text"]

mutual
theorem block_bound : ∀ (b : List Stmt) (sc sc' : Scope), checkBlock b sc = some sc' →
    ∀ a ∈ blockLiterals b, ∀ p ∈ a.captures, p.name ∈ sc.vars ++ blockBinds b ++ ownVars
  | [], _, _, _, a, ha => by cases ha
  | s :: b, sc, sc', h, a, ha => by
    simp only [checkBlock] at h
    simp only [blockLiterals, List.mem_append] at ha
    intro p hp
    cases hs : s.check sc with
    | none => simp [hs] at h
    | some sc1 =>
      simp only [hs] at h
      have hstep := stmt_bound s sc sc1 hs
      rcases ha with ha | ha
      · have := hstep.1 a ha p hp
        simp only [List.mem_append, blockBinds] at this ⊢
        tauto
      · have := block_bound b sc1 sc' h a ha p hp
        simp only [List.mem_append, blockBinds] at this ⊢
        rcases this with (h1 | h1) | h1
        · have := hstep.2 _ h1
          simp only [List.mem_append] at this
          tauto
        · tauto
        · tauto
theorem stmt_bound : ∀ (s : Stmt) (sc sc' : Scope), s.check sc = some sc' →
    (∀ a ∈ s.literals, ∀ p ∈ a.captures, p.name ∈ sc.vars ++ s.binds ++ ownVars) ∧
    ∀ x ∈ sc'.vars, x ∈ sc.vars ++ s.binds ++ ownVars
  | .ifThen c body, sc, sc', h => by
    simp only [Stmt.check] at h
    split at h
    · rename_i hb
      simp only [Bool.and_eq_true] at hb
      obtain ⟨sc2, h2⟩ := Option.isSome_iff_exists.1 hb.2
      cases h
      exact ⟨block_bound body sc sc2 h2, fun x hx => by simp [hx]⟩
    · cases h
  | .matchPath n arms, sc, sc', h => by
    simp only [Stmt.check] at h
    split at h
    · rename_i hb
      simp only [Bool.and_eq_true] at hb
      cases h
      exact ⟨arms_bound arms sc hb.2, fun x hx => by simp [hx]⟩
    · cases h
  | .matchMethod arms, sc, sc', h => by
    simp only [Stmt.check] at h
    split at h
    · rename_i hb
      simp only [Bool.and_eq_true, List.all_eq_true] at hb
      cases h
      refine ⟨fun a ha p hp => ?_, fun x hx => by simp [hx]⟩
      have := typed_vars (hb.2 a ha) p hp
      simp [this]
    · cases h
  | .letParam name typ, sc, sc', h => by
    simp only [Stmt.check] at h
    split at h
    · cases h
      refine ⟨fun a ha => (by cases ha), fun x hx => ?_⟩
      simp only [Scope.vars, List.map_cons, List.mem_cons] at hx
      simp only [Scope.vars, Stmt.binds, List.mem_append, List.mem_singleton]
      tauto
    · cases h
  | .letStart, sc, sc', h => by
    simp only [Stmt.check] at h
    split at h
    · cases h
      refine ⟨fun a ha => (by cases ha), fun x hx => ?_⟩
      simp only [Scope.vars, List.map_cons, List.mem_cons] at hx
      simp only [Scope.vars, ownVars, List.mem_append, List.mem_cons]
      tauto
    · cases h
  | .letText, sc, sc', h => by
    simp only [Stmt.check] at h
    split at h
    · cases h
      refine ⟨fun a ha => (by cases ha), fun x hx => ?_⟩
      simp only [Scope.vars, List.map_cons, List.mem_cons] at hx
      simp only [Scope.vars, ownVars, List.mem_append, List.mem_cons]
      tauto
    · cases h
  | .blank, sc, sc', h => by
    simp only [Stmt.check] at h
    cases h
    exact ⟨fun a ha => (by cases ha), fun x hx => by simp [hx]⟩
  | .addI _, sc, sc', h => by
    simp only [Stmt.check] at h
    split at h
    · cases h
      exact ⟨fun a ha => (by cases ha), fun x hx => by simp [hx]⟩
    · cases h
  | .retNotFound, sc, sc', h => by
    simp only [Stmt.check] at h
    cases h
    exact ⟨fun a ha => (by cases ha), fun x hx => by simp [hx]⟩
  | .whileScan, sc, sc', h => by
    simp only [Stmt.check] at h
    split at h
    · cases h
      exact ⟨fun a ha => (by cases ha), fun x hx => by simp [hx]⟩
    · cases h
theorem arms_bound : ∀ (as : List Arm) (sc : Scope), checkArms as sc = true →
    ∀ a ∈ armsLiterals as, ∀ p ∈ a.captures, p.name ∈ sc.vars ++ armsBinds as ++ ownVars
  | [], _, _, a, ha => by cases ha
  | b :: as, sc, h, a, ha => by
    simp only [checkArms, Bool.and_eq_true] at h
    simp only [armsLiterals, List.mem_append] at ha
    intro p hp
    rcases ha with ha | ha
    · have := arm_bound b sc h.1 a ha p hp
      simp only [List.mem_append, armsBinds] at this ⊢
      tauto
    · have := arms_bound as sc h.2 a ha p hp
      simp only [List.mem_append, armsBinds] at this ⊢
      tauto
theorem arm_bound : ∀ (b : Arm) (sc : Scope), b.check sc = true →
    ∀ a ∈ b.literals, ∀ p ∈ a.captures, p.name ∈ sc.vars ++ b.binds ++ ownVars
  | .bytes pat body, sc, h, a, ha => by
    simp only [Arm.check] at h
    obtain ⟨sc2, h2⟩ := Option.isSome_iff_exists.1 h
    exact block_bound body sc sc2 h2 a ha
  | .wildNotFound, _, _, a, ha => by cases ha
  | .wildNothing, _, _, a, ha => by cases ha
  | .someSlash, _, h, _, _ => by cases h
  | .stray _, _, h, _, _ => by cases h
end

end Wayfinder
