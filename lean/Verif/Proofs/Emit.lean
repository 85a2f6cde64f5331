import Verif.Spec.Elab
import Verif.Proofs.Named
/-!
# The meaning of the statements that are read back

Statements without blank lines and with Rust names are checked and executed like the original ones.
-/

namespace Wayfinder.Rust

/-- An arm with the names used in Rust. -/
def emitArm (a : MethodArm) : MethodArm :=
  { a with modules := a.modules.map toCapsCase, name := toCapsCase a.name }

mutual
/-- A statement with the names used in Rust; blank lines disappear. -/
def emitStmt : Stmt → List Stmt
  | .blank => []
  | .letStart => [.letStart]
  | .addI n => [.addI n]
  | .retNotFound => [.retNotFound]
  | .ifThen c body => [.ifThen c (emitBlock body)]
  | .matchMethod arms => [.matchMethod (arms.map emitArm)]
  | .matchPath n arms => [.matchPath n (emitArms arms)]
  | .whileScan => [.whileScan]
  | .letText => [.letText]
  | .letParam name typ => [.letParam name typ]
/-- The same for a block. -/
def emitBlock : List Stmt → List Stmt
  | [] => []
  | s :: ss => emitStmt s ++ emitBlock ss
/-- The same for an arm. -/
def emitPathArm : Arm → Arm
  | .bytes pat body => .bytes pat (emitBlock body)
  | .wildNotFound => .wildNotFound
  | .wildNothing => .wildNothing
  | .someSlash => .someSlash
  | .stray body => .stray body
/-- The same for arms. -/
def emitArms : List Arm → List Arm
  | [] => []
  | a :: as => emitPathArm a :: emitArms as
end

/-! ## Shape -/

theorem blockShapeOk_append : ∀ a b : List Stmt, blockShapeOk (a ++ b) = (blockShapeOk a && blockShapeOk b)
  | [], b => by simp [blockShapeOk]
  | s :: a, b => by simp [blockShapeOk, blockShapeOk_append a b, Bool.and_assoc]

mutual
theorem emitStmt_shape : ∀ s : Stmt, blockShapeOk (emitStmt s) = s.shapeOk
  | .ifThen c body => by simp [emitStmt, blockShapeOk, Stmt.shapeOk, emitBlock_shape body]
  | .matchPath n arms => by simp [emitStmt, blockShapeOk, Stmt.shapeOk, emitArms_shape arms]
  | .matchMethod arms => by simp [emitStmt, blockShapeOk, Stmt.shapeOk]
  | .letParam name typ => by simp [emitStmt, blockShapeOk, Stmt.shapeOk]
  | .blank => by simp [emitStmt, blockShapeOk, Stmt.shapeOk]
  | .letStart => by simp [emitStmt, blockShapeOk, Stmt.shapeOk]
  | .addI _ => by simp [emitStmt, blockShapeOk, Stmt.shapeOk]
  | .retNotFound => by simp [emitStmt, blockShapeOk, Stmt.shapeOk]
  | .whileScan => by simp [emitStmt, blockShapeOk, Stmt.shapeOk]
  | .letText => by simp [emitStmt, blockShapeOk, Stmt.shapeOk]
theorem emitBlock_shape : ∀ b : List Stmt, blockShapeOk (emitBlock b) = blockShapeOk b
  | [] => rfl
  | s :: b => by simp [emitBlock, blockShapeOk, blockShapeOk_append, emitStmt_shape s, emitBlock_shape b]
theorem emitPathArm_shape : ∀ a : Arm, (emitPathArm a).shapeOk = a.shapeOk
  | .bytes pat body => by simp [emitPathArm, Arm.shapeOk, emitBlock_shape body]
  | .wildNotFound => rfl
  | .wildNothing => rfl
  | .someSlash => rfl
  | .stray _ => rfl
theorem emitArms_shape : ∀ as : List Arm, armsShapeOk (emitArms as) = armsShapeOk as
  | [] => rfl
  | a :: as => by simp [emitArms, armsShapeOk, emitPathArm_shape a, emitArms_shape as]
end

/-! ## Types -/

theorem checkBlock_append : ∀ (a b : List Stmt) (sc : Scope),
    checkBlock (a ++ b) sc = (checkBlock a sc).bind (checkBlock b)
  | [], b, sc => by simp [checkBlock]
  | s :: a, b, sc => by
    simp only [List.cons_append, checkBlock]
    cases s.check sc with
    | none => rfl
    | some sc' => exact checkBlock_append a b sc'

theorem emitArm_typed (a : MethodArm) (sc : Scope) : (emitArm a).typed sc = a.typed sc := rfl

theorem checkBlock_single (s : Stmt) (sc : Scope) : checkBlock [s] sc = s.check sc := by
  simp only [checkBlock]
  cases s.check sc <;> rfl

mutual
theorem emitStmt_check : ∀ (s : Stmt) (sc : Scope), checkBlock (emitStmt s) sc = s.check sc
  | .ifThen c body, sc => by
    rw [emitStmt, checkBlock_single]; simp only [Stmt.check, emitBlock_check body]
  | .matchPath n arms, sc => by
    rw [emitStmt, checkBlock_single]; simp only [Stmt.check, emitArms_check arms]
  | .matchMethod arms, sc => by
    rw [emitStmt, checkBlock_single]
    simp only [Stmt.check, List.all_map]
    congr
  | .letParam name typ, sc => by rw [emitStmt, checkBlock_single]
  | .blank, sc => by simp [emitStmt, checkBlock, Stmt.check]
  | .letStart, sc => by rw [emitStmt, checkBlock_single]
  | .addI _, sc => by rw [emitStmt, checkBlock_single]
  | .retNotFound, sc => by rw [emitStmt, checkBlock_single]
  | .whileScan, sc => by rw [emitStmt, checkBlock_single]
  | .letText, sc => by rw [emitStmt, checkBlock_single]
theorem emitBlock_check : ∀ (b : List Stmt) (sc : Scope), checkBlock (emitBlock b) sc = checkBlock b sc
  | [], _ => rfl
  | s :: b, sc => by
    rw [emitBlock, checkBlock_append, emitStmt_check s, checkBlock]
    cases s.check sc with
    | none => rfl
    | some sc' => exact emitBlock_check b sc'
theorem emitPathArm_check : ∀ (a : Arm) (sc : Scope), (emitPathArm a).check sc = a.check sc
  | .bytes pat body, sc => by simp only [emitPathArm, Arm.check, emitBlock_check body]
  | .wildNotFound, _ => rfl
  | .wildNothing, _ => rfl
  | .someSlash, _ => rfl
  | .stray _, _ => rfl
theorem emitArms_check : ∀ (as : List Arm) (sc : Scope), checkArms (emitArms as) sc = checkArms as sc
  | [], _ => rfl
  | a :: as, sc => by simp only [emitArms, checkArms, emitPathArm_check a, emitArms_check as]
end

theorem emit_compiles (b : List Stmt) : compiles (emitBlock b) = compiles b := by
  simp only [compiles, emitBlock_shape, emitBlock_check]

/-! ## Uses -/

theorem useBlock_append (x : Str) : ∀ (a b : List Stmt),
    useBlock x (a ++ b) = match useBlock x a with | some u => some u | none => useBlock x b
  | [], b => by simp [useBlock]
  | s :: a, b => by
    simp only [List.cons_append, useBlock]
    cases s.use x with
    | none => exact useBlock_append x a b
    | some u => rfl

theorem useBlock_single (x : Str) (s : Stmt) : useBlock x [s] = s.use x := by
  simp only [useBlock]
  cases s.use x <;> rfl

theorem usedBy_emit (x : Str) : ∀ arms : List MethodArm, usedBy x (arms.map emitArm) = usedBy x arms
  | [] => rfl
  | a :: arms => by
    simp only [List.map_cons, usedBy, usedBy_emit x arms]
    rfl

mutual
theorem emitStmt_use (x : Str) : ∀ s : Stmt, useBlock x (emitStmt s) = s.use x
  | .ifThen c body => by rw [emitStmt, useBlock_single]; simp only [Stmt.use, emitBlock_use x body]
  | .matchPath n arms => by rw [emitStmt, useBlock_single]; simp only [Stmt.use, emitArms_use x arms]
  | .matchMethod arms => by rw [emitStmt, useBlock_single]; simp only [Stmt.use, usedBy_emit]
  | .letParam name typ => by rw [emitStmt, useBlock_single]
  | .blank => by simp [emitStmt, useBlock, Stmt.use]
  | .letStart => by rw [emitStmt, useBlock_single]
  | .addI _ => by rw [emitStmt, useBlock_single]
  | .retNotFound => by rw [emitStmt, useBlock_single]
  | .whileScan => by rw [emitStmt, useBlock_single]
  | .letText => by rw [emitStmt, useBlock_single]
theorem emitBlock_use (x : Str) : ∀ b : List Stmt, useBlock x (emitBlock b) = useBlock x b
  | [] => rfl
  | s :: b => by
    rw [emitBlock, useBlock_append, emitStmt_use x s, useBlock, emitBlock_use x b]
    cases s.use x <;> rfl
theorem emitPathArm_use (x : Str) : ∀ a : Arm, (emitPathArm a).use x = a.use x
  | .bytes pat body => by simp only [emitPathArm, Arm.use, emitBlock_use x body]
  | .wildNotFound => rfl
  | .wildNothing => rfl
  | .someSlash => rfl
  | .stray _ => rfl
theorem emitArms_use (x : Str) : ∀ as : List Arm, useArms x (emitArms as) = useArms x as
  | [] => rfl
  | a :: as => by simp only [emitArms, useArms, emitPathArm_use x a, emitArms_use x as]
end

theorem emit_inferType (x : Str) (b : List Stmt) : inferType x (emitBlock b) = inferType x b := by
  simp only [inferType, emitBlock_use]

/-! ## Execution -/

/-- The result of statements with the names used in Rust. -/
def flowInRust {W : World} : Flow W → Flow W
  | .next s => .next s
  | .ret o => .ret (Outcome.inRust o)

variable {W : World} (path method : Bytes)

theorem execBlock_append : ∀ (a b : List Stmt) (s : State W), execBlock path method (a ++ b) s =
    match execBlock path method a s with | .ret o => .ret o | .next s' => execBlock path method b s'
  | [], b, s => by simp [execBlock]
  | st :: a, b, s => by
    simp only [List.cons_append, execBlock]
    cases st.exec path method s with
    | ret o => rfl
    | next s' => exact execBlock_append a b s'

theorem execBlock_single (st : Stmt) (s : State W) : execBlock path method [st] s = st.exec path method s := by
  simp only [execBlock]
  cases st.exec path method s <;> rfl

theorem execMethods_emit (s : State W) : ∀ arms : List MethodArm,
    execMethods method s (arms.map emitArm) = Outcome.inRust (execMethods method s arms)
  | [] => rfl
  | a :: arms => by
    simp only [List.map_cons, execMethods, execMethods_emit s arms]
    have h1 : (emitArm a).method = a.method := rfl
    have h2 : (emitArm a).captures = a.captures := rfl
    rw [h1, h2]
    split
    · cases captureFields s.env a.captures with
      | none => rfl
      | some fields =>
        have h3 : (emitArm a).isRedirect = a.isRedirect := rfl
        simp only [h3]
        cases a.isRedirect <;> rfl
    · rfl

theorem flow_same {f : Flow W} (h : ∀ v, f ≠ .ret (.route v) ∧ f ≠ .ret (.redirect v)) : flowInRust f = f := by
  cases f with
  | next s => rfl
  | ret o =>
    cases o with
    | route v => exact absurd rfl (h v).1
    | redirect v => exact absurd rfl (h v).2
    | _ => rfl

mutual
theorem emitStmt_exec : ∀ (st : Stmt) (s : State W),
    execBlock path method (emitStmt st) s = flowInRust (st.exec path method s)
  | .ifThen c body, s => by
    rw [emitStmt, execBlock_single]
    simp only [Stmt.exec, emitBlock_exec body]
    cases c.eval path s with
    | none => rfl
    | some b =>
      cases b with
      | false => rfl
      | true =>
        simp only
        cases execBlock path method body s <;> rfl
  | .matchPath n arms, s => by
    rw [emitStmt, execBlock_single]
    simp only [Stmt.exec, emitArms_exec _ arms]
    cases s.pathOk with
    | false => rfl
    | true =>
      cases s.readI with
      | none => rfl
      | some i =>
        simp only
        split <;> rfl
  | .matchMethod arms, s => by
    rw [emitStmt, execBlock_single]
    simp only [Stmt.exec, execMethods_emit]
    split <;> rfl
  | .letParam name typ, s => by
    rw [emitStmt, execBlock_single]
    refine (flow_same fun v => ?_).symm
    simp only [Stmt.exec]
    split
    · split <;> simp
    · simp
  | .blank, s => by simp [emitStmt, execBlock, Stmt.exec, flowInRust]
  | .letStart, s => by
    rw [emitStmt, execBlock_single]
    refine (flow_same fun v => ?_).symm
    simp only [Stmt.exec]
    split <;> simp
  | .addI _, s => by
    rw [emitStmt, execBlock_single]
    refine (flow_same fun v => ?_).symm
    simp only [Stmt.exec]
    split <;> simp
  | .retNotFound, s => by rw [emitStmt, execBlock_single]; rfl
  | .whileScan, s => by
    rw [emitStmt, execBlock_single]
    refine (flow_same fun v => ?_).symm
    simp only [Stmt.exec]
    split
    · split <;> simp
    · simp
  | .letText, s => by
    rw [emitStmt, execBlock_single]
    refine (flow_same fun v => ?_).symm
    simp only [Stmt.exec]
    split
    · split
      · split <;> simp
      · simp
    · simp
theorem emitBlock_exec : ∀ (b : List Stmt) (s : State W),
    execBlock path method (emitBlock b) s = flowInRust (execBlock path method b s)
  | [], _ => by simp [emitBlock, execBlock, flowInRust]
  | st :: b, s => by
    rw [emitBlock, execBlock_append, emitStmt_exec st, execBlock]
    cases st.exec path method s with
    | ret o => rfl
    | next s' => exact emitBlock_exec b s'
theorem emitPathArm_exec (slice : Bytes) : ∀ (a : Arm) (s : State W),
    (emitPathArm a).exec path method slice s = (a.exec path method slice s).map flowInRust
  | .bytes pat body, s => by
    simp only [emitPathArm, Arm.exec, emitBlock_exec body]
    split
    · cases execBlock path method body s <;> rfl
    · rfl
  | .wildNotFound, _ => rfl
  | .wildNothing, _ => rfl
  | .someSlash, _ => rfl
  | .stray _, _ => rfl
theorem emitArms_exec (slice : Bytes) : ∀ (as : List Arm) (s : State W),
    execArms path method slice (emitArms as) s = flowInRust (execArms path method slice as s)
  | [], _ => rfl
  | a :: as, s => by
    simp only [emitArms, execArms, emitPathArm_exec slice a, emitArms_exec slice as]
    cases a.exec path method slice s <;> rfl
end

theorem emit_call (b : List Stmt) : callMatchRoute W (emitBlock b) path method = Outcome.inRust (callMatchRoute W b path method) := by
  simp only [callMatchRoute, emit_compiles, emitBlock_exec]
  split
  · cases execBlock path method b (initialState W path) <;> rfl
  · rfl

end Wayfinder.Rust
