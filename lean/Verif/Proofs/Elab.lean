import Verif.Proofs.Text
import Verif.Proofs.Binds
import Verif.Proofs.Compose
/-!
# Elaboration of the statements that are read back
-/

namespace Wayfinder.Rust

/-! ## Inferred types -/

/-- Statements that bind no parameter. -/
def NoParams (b : List Stmt) : Prop := ∀ name typ, .letParam name typ ∉ b

theorem _root_.Wayfinder.BlockInferred.append : ∀ {a b : List Stmt}, NoParams a → BlockInferred a → BlockInferred b → BlockInferred (a ++ b)
  | [], _, _, _, hb => hb
  | s :: a, b, hn, ha, hb => by
    simp only [BlockInferred, List.cons_append] at ha ⊢
    refine ⟨?_, ha.2.append (fun name typ h => hn name typ (List.mem_cons_of_mem _ h)) hb⟩
    cases s with
    | letParam name typ => exact absurd (List.mem_cons_self ..) (hn name typ)
    | _ => simpa only [StmtInferred] using ha.1

theorem _root_.Wayfinder.ArmsInferred.append : ∀ {a b : List Arm}, ArmsInferred a → ArmsInferred b → ArmsInferred (a ++ b)
  | [], _, _, hb => hb
  | s :: a, b, ha, hb => by
    simp only [ArmsInferred, List.cons_append] at ha ⊢
    exact ⟨ha.1, ha.2.append hb⟩

theorem ownMethods_inferred (d : Option FlattenedRoute) : NoParams (ownMethods d) ∧ BlockInferred (ownMethods d) := by
  cases d with
  | none => simp [ownMethods, NoParams, BlockInferred]
  | some v =>
    simp only [ownMethods]
    split <;> simp [writeMethods, NoParams, BlockInferred, StmtInferred]

theorem separatorHead_inferred (d : Option FlattenedRoute) : NoParams (separatorHead d) ∧ BlockInferred (separatorHead d) := by
  cases d with
  | none => simp [separatorHead, NoParams, BlockInferred, StmtInferred]
  | some v =>
    simp only [separatorHead]
    split <;> simp [writeMethods, NoParams, BlockInferred, StmtInferred]

theorem writeDynamic_inferred {gen : RouteTrie → Except GenFail (List Stmt)} {x : Str} {t : RouteTrie} {body : List Stmt}
    (h : writeDynamic gen x t = .ok body) (hgen : ∀ b, gen t = .ok b → BlockInferred b) : BlockInferred body := by
  obtain ⟨c, _, b, hb, rfl⟩ := writeDynamic_ok h
  have : inferType x (.blank :: b) = inferType x b := by simp [inferType, useBlock, Stmt.use]
  simp [dynamicHead, BlockInferred, StmtInferred, this, hgen b hb]

theorem ambiguousArms_inferred {gen : RouteTrie → Except GenFail (List Stmt)} :
    ∀ (cs : List (Charlike × RouteTrie)) (arms : List Arm), ambiguousArms gen cs = .ok arms →
      (∀ k c, (k, c) ∈ cs → ∀ b, gen c = .ok b → BlockInferred b) → ArmsInferred arms
  | [], arms, h, _ => by
    simp only [ambiguousArms, Except.ok.injEq] at h; subst h; simp [ArmsInferred]
  | (.static ch, t) :: cs, arms, h, hgen => by
    simp only [ambiguousArms] at h
    cases hg : gen t with
    | error e => simp [hg] at h
    | ok b =>
      simp only [hg] at h
      cases hr : ambiguousArms gen cs with
      | error e => simp [hr] at h
      | ok rest =>
        simp only [hr, Except.ok.injEq] at h
        subst h
        have h1 := hgen _ _ (List.mem_cons_self ..)
        have h2 := ambiguousArms_inferred cs rest hr fun k c hm => hgen k c (List.mem_cons_of_mem _ hm)
        simp only [ArmsInferred, ArmInferred, BlockInferred, StmtInferred, true_and]
        exact ⟨h1 b hg, h2⟩
  | (.dynamic p, t) :: cs, arms, h, hgen => by
    simp only [ambiguousArms] at h
    cases hg : writeDynamic gen p t with
    | error e => simp [hg] at h
    | ok b =>
      simp only [hg, Except.ok.injEq] at h
      subst h
      simp [ArmsInferred, ArmInferred]
  | (.separator, t) :: cs, arms, h, hgen => by
    simp only [ambiguousArms] at h
    cases hr : ambiguousArms gen cs with
    | error e => simp [hr] at h
    | ok rest =>
      simp only [hr, Except.ok.injEq] at h
      subst h
      have h2 := ambiguousArms_inferred cs rest hr fun k c hm => hgen k c (List.mem_cons_of_mem _ hm)
      simpa [ArmsInferred, ArmInferred] using h2

theorem codegenTrie_inferred : ∀ (fuel : Nat) (t : RouteTrie) (body : List Stmt),
    codegenTrie fuel t = .ok body → BlockInferred body
  | 0, t, body, h => by simp [codegenTrie] at h
  | fuel + 1, t, body, h => by
    obtain ⟨cb, hcb, rfl⟩ := codegenTrie_succ_ok h
    have ih := codegenTrie_inferred fuel
    refine BlockInferred.append (ownMethods_inferred _).1 (ownMethods_inferred _).2 ?_
    simp only [genChildren] at hcb
    split at hcb
    · simp only [Except.ok.injEq] at hcb; subst hcb
      simp [BlockInferred, StmtInferred]
    · rename_i seg c hcs
      cases seg with
      | separator =>
        simp only [genSingle] at hcb
        cases hg : codegenTrie fuel c with
        | error e => simp [hg] at hcb
        | ok b =>
          simp only [hg, Except.ok.injEq] at hcb
          subst hcb
          rw [List.append_assoc]
          refine BlockInferred.append (separatorHead_inferred _).1 (separatorHead_inferred _).2 ?_
          simpa [BlockInferred, StmtInferred, ArmsInferred, ArmInferred] using ih c b hg
      | static ch =>
        simp only [genSingle] at hcb
        cases hsc : staticChain fuel [ch] c with
        | mk s c' =>
          simp only [hsc] at hcb
          cases hg : codegenTrie fuel c' with
          | error e => simp [hg] at hcb
          | ok b =>
            simp only [hg, Except.ok.injEq] at hcb
            subst hcb
            simpa [BlockInferred, StmtInferred, ArmsInferred, ArmInferred] using ih c' b hg
      | dynamic x =>
        simp only [genSingle] at hcb
        cases hg : writeDynamic (codegenTrie fuel) x c with
        | error e => simp [hg] at hcb
        | ok b =>
          simp only [hg, Except.ok.injEq] at hcb
          subst hcb
          simp only [BlockInferred, StmtInferred, true_and]
          exact writeDynamic_inferred hg fun b' hb' => ih c b' hb'
    · simp only [genMulti] at hcb
      have hstart : ∀ b : Bool, NoParams (if b then [Stmt.blank, .letStart, .blank] else []) ∧
          BlockInferred (if b then [Stmt.blank, .letStart, .blank] else []) := by
        intro b; cases b <;> simp [BlockInferred, StmtInferred, NoParams]
      cases hup : unambiguousPrefix fuel [] 0 t with
      | mk s ln =>
        obtain ⟨l, next⟩ := ln
        simp only [hup] at hcb
        split at hcb
        · cases hdyn : findDynamic t.children with
          | none => simp [hdyn] at hcb
          | some xc =>
            obtain ⟨x, c⟩ := xc
            simp only [hdyn] at hcb
            cases hg : codegenTrie fuel next with
            | error e => simp [hg] at hcb
            | ok b =>
              simp only [hg] at hcb
              cases hw : writeDynamic (codegenTrie fuel) x c with
              | error e => simp [hw] at hcb
              | ok b' =>
                simp only [hw, Except.ok.injEq] at hcb
                subst hcb
                rw [List.append_assoc]
                refine BlockInferred.append (hstart _).1 (hstart _).2 ?_
                simp only [BlockInferred, StmtInferred, ArmsInferred, ArmInferred, and_true, true_and, List.cons_append,
                  List.nil_append]
                exact ⟨ih next b hg, writeDynamic_inferred hw fun b' hb' => ih c b' hb'⟩
        · cases hg : ambiguousArms (codegenTrie fuel) t.children with
          | error e => simp [hg] at hcb
          | ok arms =>
            simp only [hg, Except.ok.injEq] at hcb
            subst hcb
            have h1 := ambiguousArms_inferred _ _ hg fun k c _ b hb => ih c b hb
            refine BlockInferred.append (hstart _).1 (hstart _).2 ?_
            simp only [BlockInferred, StmtInferred, and_true, true_and]
            exact h1.append (by simp [ArmsInferred, ArmInferred])

theorem matcherBody_inferred {r : Routes} {body : List Stmt} (hb : matcherBody r = .ok body) : BlockInferred body := by
  unfold matcherBody at hb
  cases ht : toTrie r with
  | none => simp [ht] at hb
  | some t =>
    simp only [ht] at hb
    exact codegenTrie_inferred _ _ _ hb

/-! ## Elaboration -/

theorem elabVerbs_arms {m : Mod} : ∀ {arms : List MethodArm}, (∀ a ∈ arms, elabVerb m (eraseVerb a) = some (emitArm a)) →
    elabVerbs m (arms.map eraseVerb) = some (arms.map emitArm)
  | [], _ => rfl
  | a :: arms, h => by
    have h1 := h a (List.mem_cons_self ..)
    have h2 := elabVerbs_arms fun x hx => h x (List.mem_cons_of_mem _ hx)
    simp [elabVerbs, h1, h2]

mutual
theorem elabBlock_block {m : Mod} : ∀ b : List Stmt, blockShapeOk b = true → (∀ x ∈ blockBinds b, m.canBind x = true) →
    BlockInferred b → (∀ a ∈ blockLiterals b, elabVerb m (eraseVerb a) = some (emitArm a)) →
    elabBlock m (eraseBlock b) = some (emitBlock b)
  | [], _, _, _, _ => rfl
  | s :: b, hn, hp, hi, h => by
    simp only [blockShapeOk, Bool.and_eq_true] at hn
    simp only [BlockInferred] at hi
    have hb := elabBlock_block b hn.2 (fun x hx => hp x (by simp [blockBinds, hx])) hi.2 fun a ha => h a (by simp [blockLiterals, ha])
    have hs := elabStmt_stmt s b hn.1 (fun x hx => hp x (by simp [blockBinds, hx])) hi.1 fun a ha => h a (by simp [blockLiterals, ha])
    simp only [eraseBlock, emitBlock]
    rcases hs with rfl | ⟨l, st, he, hm, hl⟩
    · exact hb
    · rw [he, hm]
      simp only [List.cons_append, List.nil_append, elabBlock, hb, hl, Option.map_some]
theorem elabStmt_stmt {m : Mod} : ∀ (s : Stmt) (rest : List Stmt), s.shapeOk = true → (∀ x ∈ s.binds, m.canBind x = true) →
    StmtInferred rest s → (∀ a ∈ s.literals, elabVerb m (eraseVerb a) = some (emitArm a)) → s = .blank ∨
      ∃ l st, eraseStmt s = [l] ∧ emitStmt s = [st] ∧ elabLine m (emitBlock rest) l = some st
  | .blank, _, _, _, _, _ => .inl rfl
  | .letStart, _, _, _, _, _ => .inr ⟨_, _, rfl, rfl, rfl⟩
  | .addI _, _, _, _, _, _ => .inr ⟨_, _, rfl, rfl, rfl⟩
  | .retNotFound, _, _, _, _, _ => .inr ⟨_, _, rfl, rfl, rfl⟩
  | .whileScan, _, _, _, _, _ => .inr ⟨_, _, rfl, rfl, rfl⟩
  | .letText, _, _, _, _, _ => .inr ⟨_, _, rfl, rfl, rfl⟩
  | .letParam name typ, rest, _, hp, hi, _ => by
    have hp := hp name (by simp [Stmt.binds])
    simp only [StmtInferred] at hi
    refine .inr ⟨_, _, rfl, rfl, ?_⟩
    simp only [elabLine, hp, and_self, if_true, emit_inferType, hi]
  | .ifThen c body, _, hn, hp, hi, h => by
    simp only [Stmt.shapeOk] at hn
    simp only [StmtInferred] at hi
    refine .inr ⟨_, _, rfl, rfl, ?_⟩
    simp only [elabLine, elabBlock_block body hn (fun x hx => hp x (by simpa [Stmt.binds] using hx)) hi
      (fun a ha => h a (by simpa [Stmt.literals] using ha)), Option.map_some]
  | .matchMethod arms, _, _, _, _, h => by
    refine .inr ⟨_, _, rfl, rfl, ?_⟩
    simp only [elabLine, elabVerbs_arms (fun a ha => h a (by simpa [Stmt.literals] using ha)), Option.map_some]
  | .matchPath n arms, _, hn, hp, hi, h => by
    simp only [Stmt.shapeOk] at hn
    simp only [StmtInferred] at hi
    refine .inr ⟨_, _, rfl, rfl, ?_⟩
    simp only [elabLine, elabArms_arms arms hn (fun x hx => hp x (by simpa [Stmt.binds] using hx)) hi
      (fun a ha => h a (by simpa [Stmt.literals] using ha)), Option.map_some]
theorem elabArms_arms {m : Mod} : ∀ as : List Arm, armsShapeOk as = true → (∀ x ∈ armsBinds as, m.canBind x = true) →
    ArmsInferred as → (∀ a ∈ armsLiterals as, elabVerb m (eraseVerb a) = some (emitArm a)) →
    elabArms m (eraseArms as) = some (emitArms as)
  | [], _, _, _, _ => rfl
  | .bytes pat body :: as, hn, hp, hi, h => by
    simp only [armsShapeOk, Arm.shapeOk, Bool.and_eq_true] at hn
    simp only [ArmsInferred, ArmInferred] at hi
    have h1 := elabBlock_block body hn.1.2 (fun x hx => hp x (by simp [armsBinds, Arm.binds, hx])) hi.1
      fun a ha => h a (by simp [armsLiterals, Arm.literals, ha])
    have h2 := elabArms_arms as hn.2 (fun x hx => hp x (by simp [armsBinds, hx])) hi.2 fun a ha => h a (by simp [armsLiterals, ha])
    simp [eraseArms, eraseArm, elabArms, elabArm, emitArms, emitPathArm, h1, h2]
  | .wildNotFound :: as, hn, hp, hi, h => by
    simp only [armsShapeOk, Bool.and_eq_true] at hn
    simp only [ArmsInferred] at hi
    have h2 := elabArms_arms as hn.2 (fun x hx => hp x (by simp [armsBinds, hx])) hi.2 fun a ha => h a (by simp [armsLiterals, ha])
    simp [eraseArms, eraseArm, elabArms, elabArm, emitArms, emitPathArm, h2]
  | .wildNothing :: as, hn, hp, hi, h => by
    simp only [armsShapeOk, Bool.and_eq_true] at hn
    simp only [ArmsInferred] at hi
    have h2 := elabArms_arms as hn.2 (fun x hx => hp x (by simp [armsBinds, hx])) hi.2 fun a ha => h a (by simp [armsLiterals, ha])
    simp [eraseArms, eraseArm, elabArms, elabArm, emitArms, emitPathArm, h2]
  | .someSlash :: as, hn, _, _, _ => by simp [armsShapeOk, Arm.shapeOk] at hn
  | .stray _ :: as, hn, _, _, _ => by simp [armsShapeOk, Arm.shapeOk] at hn
end

theorem elabVerbs_inv {m : Mod} : ∀ {arms : List MethodArm} {e : List MethodArm}, elabVerbs m (arms.map eraseVerb) = some e →
    ∀ a ∈ arms, (elabVerb m (eraseVerb a)).isSome = true
  | [], _, _, a, ha => by cases ha
  | b :: arms, e, h, a, ha => by
    simp only [List.map_cons, elabVerbs, Option.bind_eq_bind] at h
    cases h1 : elabVerb m (eraseVerb b) with
    | none => simp [h1] at h
    | some x =>
      cases h2 : elabVerbs m (arms.map eraseVerb) with
      | none => simp [h1, h2] at h
      | some y =>
        rcases List.mem_cons.1 ha with rfl | ha
        · rw [h1]; rfl
        · exact elabVerbs_inv h2 a ha

/-- What is elaborated is elaborated throughout. -/
def Elabs (m : Mod) (binds : List Str) (literals : List MethodArm) : Prop :=
  (∀ x ∈ binds, m.canBind x = true) ∧ ∀ a ∈ literals, (elabVerb m (eraseVerb a)).isSome = true

theorem Elabs.append {m : Mod} {b b' : List Str} {l l' : List MethodArm} (h : Elabs m b l) (h' : Elabs m b' l') :
    Elabs m (b ++ b') (l ++ l') := by
  constructor
  · intro x hx
    rcases List.mem_append.1 hx with hx | hx
    · exact h.1 x hx
    · exact h'.1 x hx
  · intro x hx
    rcases List.mem_append.1 hx with hx | hx
    · exact h.2 x hx
    · exact h'.2 x hx

theorem Elabs.nil {m : Mod} : Elabs m [] [] := ⟨fun _ h => by (cases h), fun _ h => by (cases h)⟩

mutual
theorem elabBlock_inv {m : Mod} : ∀ (b e : List Stmt), blockShapeOk b = true → elabBlock m (eraseBlock b) = some e →
    Elabs m (blockBinds b) (blockLiterals b)
  | [], _, _, _ => .nil
  | s :: b, e, hn, h => by
    simp only [blockShapeOk, Bool.and_eq_true] at hn
    simp only [eraseBlock] at h
    simp only [blockBinds, blockLiterals]
    cases hs : eraseStmt s with
    | nil =>
      have : s = .blank := by
        cases s <;> simp [eraseStmt] at hs
        rfl
      subst this
      rw [hs, List.nil_append] at h
      exact elabBlock_inv b e hn.2 h
    | cons l ls =>
      have hls : ls = [] := by
        cases s <;> simp [eraseStmt] at hs <;> simp [hs]
      subst hls
      rw [hs] at h
      simp only [List.cons_append, List.nil_append, elabBlock] at h
      cases hb : elabBlock m (eraseBlock b) with
      | none => simp [hb] at h
      | some rest =>
        simp only [hb] at h
        cases hl : elabLine m rest l with
        | none => simp [hl] at h
        | some st => exact (elabStmt_inv s l st rest hn.1 hs hl).append (elabBlock_inv b rest hn.2 hb)
theorem elabStmt_inv {m : Mod} : ∀ (s : Stmt) (l : Line) (st : Stmt) (rest : List Stmt), s.shapeOk = true → eraseStmt s = [l] →
    elabLine m rest l = some st → Elabs m s.binds s.literals
  | .blank, _, _, _, _, _, _ => .nil
  | .letStart, _, _, _, _, _, _ => .nil
  | .addI _, _, _, _, _, _, _ => .nil
  | .retNotFound, _, _, _, _, _, _ => .nil
  | .whileScan, _, _, _, _, _, _ => .nil
  | .letText, _, _, _, _, _, _ => .nil
  | .letParam name typ, l, st, rest, _, he, h => by
    simp only [eraseStmt] at he
    cases he
    simp only [elabLine] at h
    split at h
    · rename_i hc
      refine ⟨fun x hx => ?_, fun _ h => (by cases h)⟩
      simp only [Stmt.binds, List.mem_singleton] at hx
      rw [hx]
      exact hc.2
    · cases h
  | .ifThen c body, l, st, rest, hn, he, h => by
    simp only [eraseStmt] at he
    cases he
    simp only [elabLine] at h
    cases hb : elabBlock m (eraseBlock body) with
    | none => simp [hb] at h
    | some e => exact elabBlock_inv body e (by simpa [Stmt.shapeOk] using hn) hb
  | .matchMethod arms, l, st, rest, hn, he, h => by
    simp only [eraseStmt] at he
    cases he
    simp only [elabLine] at h
    cases hb : elabVerbs m (arms.map eraseVerb) with
    | none => simp [hb] at h
    | some e => exact ⟨fun _ h => (by cases h), elabVerbs_inv hb⟩
  | .matchPath n arms, l, st, rest, hn, he, h => by
    simp only [eraseStmt] at he
    cases he
    simp only [elabLine] at h
    cases hb : elabArms m (eraseArms arms) with
    | none => simp [hb] at h
    | some e => exact elabArms_inv arms e (by simpa [Stmt.shapeOk] using hn) hb
theorem elabArms_inv {m : Mod} : ∀ (as e : List Arm), armsShapeOk as = true → elabArms m (eraseArms as) = some e →
    Elabs m (armsBinds as) (armsLiterals as)
  | [], _, _, _ => .nil
  | .bytes pat body :: as, e, hn, h => by
    simp only [armsShapeOk, Arm.shapeOk, Bool.and_eq_true] at hn
    simp only [eraseArms, eraseArm, List.cons_append, List.nil_append, elabArms, elabArm] at h
    cases hb : elabBlock m (eraseBlock body) with
    | none => simp [hb] at h
    | some e1 =>
      simp only [hb, Option.map_some] at h
      cases ha : elabArms m (eraseArms as) with
      | none => simp [ha] at h
      | some e2 => exact (elabBlock_inv body e1 hn.1.2 hb).append (elabArms_inv as e2 hn.2 ha)
  | .wildNotFound :: as, e, hn, h => by
    simp only [armsShapeOk, Bool.and_eq_true] at hn
    simp only [eraseArms, eraseArm, List.cons_append, List.nil_append, elabArms, elabArm] at h
    cases ha : elabArms m (eraseArms as) with
    | none => simp [ha] at h
    | some e2 => exact elabArms_inv as e2 hn.2 ha
  | .wildNothing :: as, e, hn, h => by
    simp only [armsShapeOk, Bool.and_eq_true] at hn
    simp only [eraseArms, eraseArm, List.cons_append, List.nil_append, elabArms, elabArm] at h
    cases ha : elabArms m (eraseArms as) with
    | none => simp [ha] at h
    | some e2 => exact elabArms_inv as e2 hn.2 ha
  | .someSlash :: as, _, hn, _ => by simp [armsShapeOk, Arm.shapeOk] at hn
  | .stray _ :: as, _, hn, _ => by simp [armsShapeOk, Arm.shapeOk] at hn
end

/-! ## Looking up declarations -/

theorem lookupVar_mem {α : Type} {x : Str} {v : α} : ∀ {l : List (Str × α)}, (l.map Prod.fst).Nodup → (x, v) ∈ l →
    lookupVar x l = some v
  | (y, w) :: l, hn, hm => by
    simp only [List.map_cons, List.nodup_cons] at hn
    simp only [lookupVar]
    rcases List.mem_cons.1 hm with h | h
    · cases h; simp
    · have : y ≠ x := by
        rintro rfl
        exact hn.1 (List.mem_map.2 ⟨_, h, rfl⟩)
      rw [if_neg this]
      exact lookupVar_mem hn.2 h

theorem find_key {α : Type} {key : α → Str} {a : α} : ∀ {l : List α}, (l.map key).Nodup → a ∈ l →
    l.find? (fun b => key b == key a) = some a
  | b :: l, hn, hm => by
    simp only [List.map_cons, List.nodup_cons] at hn
    rcases List.mem_cons.1 hm with rfl | h
    · simp
    · have : (key b == key a) = false := by
        rw [beq_eq_false_iff_ne]
        intro he
        exact hn.1 (he ▸ List.mem_map.2 ⟨a, h, rfl⟩)
      simp only [List.find?_cons, this]
      exact find_key hn.2 h

theorem modsOf_eq : ∀ ms : List FlattenedModule, modsOf ms = ms.map fun m => (toSnakeCase m.name, modOf m)
  | [] => rfl
  | m :: ms => by simp [modsOf, modsOf_eq ms]

theorem modsOk_eq : ∀ ms : List (Str × Mod), modsOk ms = ms.all fun m => m.2.ok false
  | [] => rfl
  | (x, m) :: ms => by simp [modsOk, modsOk_eq ms]

/-- The parts of `Mod.ok` that are needed for lookups. -/
structure ModGood (m : FlattenedModule) : Prop where
  items : (m.actions.map (fun a => toCapsCase a.name) ++ m.modules.map fun x => toSnakeCase x.name).Nodup
  variants : (m.actions.map (fun a => toCapsCase a.name) ++ m.modules.map fun x => toCapsCase x.name).Nodup
  fields : ∀ a ∈ m.actions, ((a.routeParameters ++ a.queryParameters).map Param.name).Nodup
  subs : ∀ x ∈ m.modules, (modOf x).ok false = true

theorem modGood_of {root : Bool} {m : FlattenedModule} (h : (modOf m).ok root = true) : ModGood m := by
  obtain ⟨name, actions, modules⟩ := m
  simp only [modOf, Mod.ok, Mod.localOk, Bool.and_eq_true, decide_eq_true_eq, modsOk_eq, List.all_eq_true, modsOf_eq,
    Mod.typeNames, Mod.structs, Mod.subs, Mod.variants, List.map_map] at h
  obtain ⟨⟨⟨⟨⟨⟨⟨⟨h1, _⟩, _⟩, h3⟩, h4⟩, _⟩, _⟩, _⟩, h8⟩ := h
  refine ⟨?_, ?_, fun a ha => ?_, fun x hx => ?_⟩
  · have := (List.nodup_append.1 h1).1
    simpa only [FlattenedModule.actions, FlattenedModule.modules, structOf, Function.comp_def] using this
  · simpa only [FlattenedModule.actions, FlattenedModule.modules, variantsOf, List.map_append, List.map_map, Function.comp_def] using of_decide_eq_true h4
  · have := h3 (structOf a) (List.mem_map.2 ⟨a, ha, rfl⟩)
    simp only [Struct.ok, Bool.and_eq_true, decide_eq_true_eq] at this
    have := this.1.1.1.1.1.1
    simpa only [structOf, List.map_append, List.map_map, Function.comp_def] using this
  · exact h8 _ (List.mem_map.2 ⟨x, hx, rfl⟩)

/-- Walking down the modules. -/
theorem at_mods : ∀ (pre rest : List Str) (m : FlattenedModule) (a : FlattenedAction), ModGood m → HasAction m (pre ++ rest) a →
    ∃ sub, ModGood sub ∧ HasAction sub rest a ∧ (modOf m).at (snakes pre) = some (modOf sub)
  | [], rest, m, a, hg, h => ⟨m, hg, h, rfl⟩
  | x :: pre, rest, m, a, hg, h => by
    obtain ⟨sub, hs, rfl, h'⟩ := hasAction_cons.1 h
    obtain ⟨sub', h1, h2, h3⟩ := at_mods pre rest sub a (modGood_of (hg.subs sub hs)) h'
    refine ⟨sub', h1, h2, ?_⟩
    have hl : lookupVar (toSnakeCase sub.name) (modOf m).subs = some (modOf sub) := by
      obtain ⟨name, actions, modules⟩ := m
      simp only [modOf, Mod.subs, modsOf_eq]
      refine lookupVar_mem ?_ (List.mem_map.2 ⟨sub, hs, rfl⟩)
      have := (List.nodup_append.1 hg.items).2.1
      simpa only [List.map_map, Function.comp_def, FlattenedModule.modules] using this
    simp only [snakes, List.map_cons, Mod.at, hl, Option.bind_some]
    exact h3

theorem unsnoc_append {α : Type} (a : α) : ∀ l : List α, unsnoc (l ++ [a]) = some (l, a)
  | [] => rfl
  | [b] => rfl
  | b :: c :: l => by
    have := unsnoc_append a (c :: l)
    simp only [List.cons_append, unsnoc] at this ⊢
    simp [this]

theorem unsnoc_append2 {α : Type} (l : List α) (a b : α) : unsnoc (l ++ [a, b]) = some (l ++ [a], b) := by
  have := unsnoc_append b (l ++ [a])
  simpa using this

/-- The fields of a literal are those of an action in the module `mods`, up to their types. -/
structure ArmFits (root : FlattenedModule) (a : MethodArm) (mods : List Str) (act : FlattenedAction) : Prop where
  has : HasAction root mods act
  name : SameName mods act.name a.modules a.name
  captures : (a.captures.map Param.name).Perm (act.routeParameters.map Param.name)
  nones : a.nones.Perm (act.queryParameters.map Param.name)

/-- The fields of a literal. -/
def litFields (a : MethodArm) : List (Str × Bool) := a.captures.map (fun p => (p.name, false)) ++ a.nones.map fun x => (x, true)

theorem structOf_fields (act : FlattenedAction) : (structOf act).fields.map (fun f => (f.name, f.optional)) =
    act.routeParameters.map (fun p => (p.name, false)) ++ (act.queryParameters.map Param.name).map fun x => (x, true) := by
  simp [structOf, Function.comp_def]

theorem litFields_names (a : MethodArm) : ((litFields a).filter fun f => !f.2).map Prod.fst = a.captures.map Param.name ∧
    ((litFields a).filter fun f => f.2).map Prod.fst = a.nones := by
  constructor <;> simp [litFields, List.filter_append, List.filter_map, Function.comp_def]

theorem structOf_names (act : FlattenedAction) :
    (((structOf act).fields.map fun f => (f.name, f.optional)).filter fun f => !f.2).map Prod.fst = act.routeParameters.map Param.name ∧
    (((structOf act).fields.map fun f => (f.name, f.optional)).filter fun f => f.2).map Prod.fst = act.queryParameters.map Param.name := by
  rw [structOf_fields]
  constructor <;> simp [List.filter_append, List.filter_map, Function.comp_def]

theorem fieldsOk_iff {a : MethodArm} {act : FlattenedAction}
    (hn : ((act.routeParameters ++ act.queryParameters).map Param.name).Nodup) :
    fieldsOk (structOf act).fields (litFields a) = true ↔
      (a.captures.map Param.name).Perm (act.routeParameters.map Param.name) ∧ a.nones.Perm (act.queryParameters.map Param.name) := by
  simp only [fieldsOk, Bool.and_eq_true, decide_eq_true_eq, List.isPerm_iff]
  constructor
  · rintro ⟨_, hp⟩
    have h1 := (hp.filter fun f => !f.2).map Prod.fst
    have h2 := (hp.filter fun f => f.2).map Prod.fst
    rw [(litFields_names a).1, (structOf_names act).1] at h1
    rw [(litFields_names a).2, (structOf_names act).2] at h2
    exact ⟨h1, h2⟩
  · rintro ⟨h1, h2⟩
    have hp : (litFields a).Perm ((structOf act).fields.map fun f => (f.name, f.optional)) := by
      rw [structOf_fields]
      have h1 := h1.map fun x => (x, false)
      simp only [List.map_map, Function.comp_def] at h1
      exact h1.append (h2.map _)
    refine ⟨?_, hp⟩
    rw [(hp.map Prod.fst).nodup_iff, structOf_fields]
    simpa [List.map_append, Function.comp_def] using hn

theorem fieldType_mem {act : FlattenedAction} (hn : ((act.routeParameters ++ act.queryParameters).map Param.name).Nodup)
    {p : Param} (hp : p ∈ act.routeParameters) : fieldType (structOf act).fields p.name = p.typ := by
  have hm : (⟨p.name, false, p.typ⟩ : Field) ∈ (structOf act).fields := by
    simp only [structOf, List.mem_append, List.mem_map]
    exact .inl ⟨p, hp, rfl⟩
  have hn' : ((structOf act).fields.map Field.name).Nodup := by
    simpa [structOf, List.map_append, Function.comp_def] using hn
  have := find_key hn' hm
  simp only at this
  simp only [fieldType, this]

/-- The struct of an action and what is needed to type its literals. -/
theorem struct_found {root : FlattenedModule} {mods : List Str} {act : FlattenedAction} (hg : ModGood root)
    (h : HasAction root mods act) : ∃ sub, ModGood sub ∧ act ∈ sub.actions ∧ (modOf root).at (snakes mods) = some (modOf sub) ∧
      (modOf sub).struct (toCapsCase act.name) = some (structOf act) ∧
      lookupVar (toCapsCase act.name) (modOf sub).variants = some [toCapsCase act.name] := by
  obtain ⟨sub, h1, h2, h3⟩ := at_mods mods [] root act hg (by simpa using h)
  have h2 := hasAction_nil.1 h2
  refine ⟨sub, h1, h2, h3, ?_, ?_⟩
  · obtain ⟨name, actions, modules⟩ := sub
    have hn : ((actions.map structOf).map Struct.name).Nodup := by
      have := (List.nodup_append.1 h1.items).1
      simpa only [List.map_map, Function.comp_def, FlattenedModule.actions, structOf] using this
    exact find_key hn (List.mem_map.2 ⟨act, h2, rfl⟩)
  · obtain ⟨name, actions, modules⟩ := sub
    refine lookupVar_mem ?_ ?_
    · simpa only [modOf, Mod.variants, variantsOf, List.map_append, List.map_map, Function.comp_def, FlattenedModule.actions,
        FlattenedModule.modules] using h1.variants
    · simp only [modOf, Mod.variants, variantsOf, List.mem_append, List.mem_map]
      exact .inl ⟨act, h2, rfl⟩

theorem type_value {root : FlattenedModule} {act : FlattenedAction} (hg : ModGood root) :
    ∀ (rest pre rest' pre' : List Str) (e : Expr), HasAction root (pre' ++ rest') act → snakes pre' = snakes pre →
      snakes rest' = snakes rest → rest'.map toCapsCase = rest.map toCapsCase →
      e.type (modOf root) = some (snakes (pre ++ rest) ++ [c!"Route"]) →
      (nestExpr pre e rest).type (modOf root) = some (snakes pre ++ [c!"Route"])
  | [], pre, rest', pre', e, hm, _, _, _, he => by simpa [nestExpr] using he
  | x :: rest, pre, [], pre', e, hm, _, hs, _, he => by simp [snakes] at hs
  | x :: rest, pre, x' :: rest', pre', e, hm, hp, hs, hc, he => by
    simp only [snakes, List.map_cons, List.cons.injEq] at hs hc
    have ih := type_value hg rest (pre ++ [x]) rest' (pre' ++ [x']) e (by simpa using hm)
      (by simpa [snakes, hs.1] using hp) hs.2 hc.2 (by simpa using he)
    obtain ⟨sub, h1, h2, h3⟩ := at_mods pre' (x' :: rest') root act hg hm
    obtain ⟨sub', hsub, rfl, _⟩ := hasAction_cons.1 h2
    have hl : lookupVar (toCapsCase sub'.name) (modOf sub).variants = some [toSnakeCase sub'.name, c!"Route"] := by
      obtain ⟨name, actions, modules⟩ := sub
      refine lookupVar_mem ?_ ?_
      · simpa only [modOf, Mod.variants, variantsOf, List.map_append, List.map_map, Function.comp_def, FlattenedModule.actions,
        FlattenedModule.modules] using h1.variants
      · simp only [modOf, Mod.variants, variantsOf, List.mem_append, List.mem_map]
        exact .inr ⟨sub', hsub, rfl⟩
    rw [hp] at h3
    rw [hc.1, hs.1] at hl
    simp only [nestExpr, Expr.type, unsnoc_append2, unsnoc_append, h3, hl, ih, Option.bind_eq_bind, Option.bind_some]
    simp [snakes]

theorem parts_nest (e : Expr) : ∀ (rest pre : List Str), (nestExpr pre e rest).parts = (rest.map toCapsCase ++ e.parts.1, e.parts.2)
  | [], pre => rfl
  | x :: rest, pre => by
    simp [nestExpr, Expr.parts, parts_nest e rest]

theorem snakes_eq {mods : List Str} {x : Str} {mods' : List Str} {x' : Str} (h : SameName mods x mods' x') :
    snakes mods = snakes mods' := h.1

/-- The arms of the program that is read back. -/
theorem elabVerb_fits {root : FlattenedModule} {a : MethodArm} {mods : List Str} {act : FlattenedAction} (hg : ModGood root)
    (h : ArmFits root a mods act) (ht : ∀ p ∈ a.captures, ∀ p' ∈ act.routeParameters, p.name = p'.name → p.typ = p'.typ) :
    elabVerb (modOf root) (eraseVerb a) = some (emitArm a) := by
  obtain ⟨sub, h1, h2, h3, h4, h5⟩ := struct_found hg h.has
  rw [h.name.2.2] at h4 h5
  rw [snakes_eq h.name] at h3
  have hn := h1.fields act h2
  have hs : (Expr.struct (snakes a.modules ++ [toCapsCase a.name]) (litFields a)).type (modOf root) =
      some (snakes a.modules ++ [toCapsCase a.name]) := by
    simp only [Expr.type, unsnoc_append, h3, h4, Option.bind_eq_bind, Option.bind_some,
      (fieldsOk_iff hn).2 ⟨h.captures, h.nones⟩, if_true]
  have ha : (Expr.app (snakes a.modules ++ [c!"Route", toCapsCase a.name])
      (.struct (snakes a.modules ++ [toCapsCase a.name]) (litFields a))).type (modOf root) = some (snakes a.modules ++ [c!"Route"]) := by
    rw [Expr.type]
    simp only [unsnoc_append2, unsnoc_append, h3, h5, hs, Option.bind_eq_bind, Option.bind_some, and_self, if_true]
  have hv := type_value hg a.modules [] mods [] _ h.has rfl (snakes_eq h.name) h.name.2.1 ha
  have hverb : verbOf a.method.display = some a.method := by cases a.method <;> rfl
  have hf : (modOf root).fieldsAt (snakes a.modules ++ [toCapsCase a.name]) = some (structOf act).fields := by
    simp only [Mod.fieldsAt, unsnoc_append, h3, h4, Option.bind_eq_bind, Option.bind_some]
    rfl
  have hparts : (valueOf a).parts = (a.modules.map toCapsCase ++ [toCapsCase a.name], snakes a.modules ++ [toCapsCase a.name], litFields a) := by
    rw [valueOf, parts_nest]
    simp [Expr.parts, litFields]
  have hcap : ((litFields a).filter fun f => !f.2).map (fun f => (⟨f.1, fieldType (structOf act).fields f.1⟩ : Param)) = a.captures := by
    simp only [litFields, List.filter_append, List.filter_map, Function.comp_def, Bool.not_false, Bool.not_true,
      List.filter_true, List.filter_false, List.map_nil, List.append_nil, List.map_map]
    conv => rhs; rw [← List.map_id a.captures]
    refine List.map_congr_left fun p hp => ?_
    have : p.name ∈ act.routeParameters.map Param.name := h.captures.mem_iff.1 (List.mem_map_of_mem hp)
    obtain ⟨p', hp', he⟩ := List.mem_map.1 this
    have h1 := fieldType_mem hn hp'
    rw [he] at h1
    rw [h1, ← ht p hp p' hp' he.symm]
    rfl
  have hnone : ((litFields a).filter fun f => f.2).map Prod.fst = a.nones := (litFields_names a).2
  have hv' : (valueOf a).type (modOf root) = some [c!"Route"] := hv
  simp only [elabVerb, eraseVerb, hverb, hv', hparts, unsnoc_append, hf, Option.bind_eq_bind, Option.bind_some, if_true, hcap, hnone]
  rfl


/-! ### Literals that are accepted -/

theorem lookupVar_some {α : Type} {x : Str} {v : α} : ∀ {l : List (Str × α)}, lookupVar x l = some v → (x, v) ∈ l
  | [], h => by cases h
  | (y, w) :: l, h => by
    simp only [lookupVar] at h
    split at h
    · rename_i e
      subst e
      cases h
      exact List.mem_cons_self ..
    · exact List.mem_cons_of_mem _ (lookupVar_some h)

theorem at_append : ∀ (p : List Str) (m : Mod) (q : List Str), m.at (p ++ q) = (m.at p).bind fun s => s.at q
  | [], m, q => by simp [Mod.at]
  | x :: p, m, q => by
    simp only [List.cons_append, Mod.at]
    cases lookupVar x m.subs with
    | none => rfl
    | some s => simp [at_append p s q]

theorem sub_found {m sub : FlattenedModule} (hg : ModGood m) (hs : sub ∈ m.modules) :
    lookupVar (toSnakeCase sub.name) (modOf m).subs = some (modOf sub) := by
  obtain ⟨name, actions, modules⟩ := m
  simp only [modOf, Mod.subs, modsOf_eq]
  refine lookupVar_mem ?_ (List.mem_map.2 ⟨sub, hs, rfl⟩)
  have := (List.nodup_append.1 hg.items).2.1
  simpa only [List.map_map, Function.comp_def, FlattenedModule.modules] using this

/-- The variants of a module. -/
theorem variant_some {m : FlattenedModule} {x : Str} {payload : List Str} (h : lookupVar x (modOf m).variants = some payload) :
    (∃ a ∈ m.actions, x = toCapsCase a.name ∧ payload = [toCapsCase a.name]) ∨
    ∃ sub ∈ m.modules, x = toCapsCase sub.name ∧ payload = [toSnakeCase sub.name, c!"Route"] := by
  have h := lookupVar_some h
  obtain ⟨name, actions, modules⟩ := m
  simp only [modOf, Mod.variants, variantsOf, List.mem_append, List.mem_map, Prod.mk.injEq] at h
  rcases h with ⟨a, ha, rfl, rfl⟩ | ⟨a, ha, rfl, rfl⟩
  · exact .inl ⟨a, ha, rfl, rfl⟩
  · exact .inr ⟨a, ha, rfl, rfl⟩

theorem app_some {m : Mod} {p : List Str} {v : Str} {e : Expr} {t : List Str}
    (h : (Expr.app (p ++ [c!"Route", v]) e).type m = some t) :
    t = p ++ [c!"Route"] ∧ ∃ sub payload, m.at p = some sub ∧ lookupVar v sub.variants = some payload ∧
      e.type m = some (p ++ payload) := by
  rw [Expr.type] at h
  simp only [unsnoc_append2, unsnoc_append, Option.bind_eq_bind, Option.bind_some, Option.bind_eq_some_iff] at h
  obtain ⟨sub, h1, payload, h2, t', h3, h4⟩ := h
  simp only [true_and, Option.ite_none_right_eq_some, Option.some.injEq] at h4
  obtain ⟨rfl, rfl⟩ := h4
  exact ⟨rfl, sub, payload, h1, h2, h3⟩

theorem nest_some {m : Mod} {e : Expr} : ∀ {rest pre : List Str} {t : List Str},
    (∀ t, e.type m = some t → t = snakes (pre ++ rest) ++ [c!"Route"]) →
    (nestExpr pre e rest).type m = some t → t = snakes pre ++ [c!"Route"]
  | [], pre, t, he, h => by simpa using he t h
  | x :: rest, pre, t, he, h => (app_some h).1

/-- The constructors around a literal name modules that are there. -/
theorem unnest {root : FlattenedModule} {e : Expr} : ∀ (rest pre pre' : List Str) (node : FlattenedModule) (t : List Str), ModGood node →
    (modOf root).at (snakes pre) = some (modOf node) →
    (∀ ms act, HasAction node ms act → HasAction root (pre' ++ ms) act) →
    (∀ t, e.type (modOf root) = some t → t = snakes (pre ++ rest) ++ [c!"Route"]) →
    (nestExpr pre e rest).type (modOf root) = some t →
    ∃ rest' node', ModGood node' ∧ snakes rest' = snakes rest ∧ rest'.map toCapsCase = rest.map toCapsCase ∧
      (modOf root).at (snakes (pre ++ rest)) = some (modOf node') ∧
      (∀ ms act, HasAction node' ms act → HasAction root (pre' ++ rest' ++ ms) act) ∧ ∃ t, e.type (modOf root) = some t
  | [], pre, pre', node, t, hg, hat, hact, he, h => by
    refine ⟨[], node, hg, rfl, rfl, by simpa using hat, by simpa using hact, ⟨t, h⟩⟩
  | x :: rest, pre, pre', node, t, hg, hat, hact, he, h => by
    obtain ⟨_, sub, payload, h1, h2, h3⟩ := app_some h
    rw [hat] at h1
    cases h1
    have h4 := nest_some (by simpa using he) h3
    have h5 : payload = [toSnakeCase x, c!"Route"] := by
      simpa [snakes] using h4
    rcases variant_some h2 with ⟨a, _, _, hp⟩ | ⟨sub, hs, hx, hp⟩
    · rw [h5] at hp
      simp at hp
    · rw [h5] at hp
      simp only [List.cons.injEq, and_true] at hp
      have hat' : (modOf root).at (snakes (pre ++ [x])) = some (modOf sub) := by
        have : snakes (pre ++ [x]) = snakes pre ++ [toSnakeCase x] := by simp [snakes]
        rw [this, at_append, hat, hp]
        simp [Mod.at, sub_found hg hs]
      obtain ⟨rest', node', g1, g2, g3, g4, g5, g6⟩ := unnest rest (pre ++ [x]) (pre' ++ [sub.name]) sub _ (modGood_of (hg.subs sub hs)) hat'
        (fun ms act ha => by
          have := hact (sub.name :: ms) act (hasAction_cons.2 ⟨sub, hs, rfl, ha⟩)
          simpa using this)
        (by simpa using he) h3
      refine ⟨sub.name :: rest', node', g1, ?_, ?_, by simpa using g4, by simpa using g5, g6⟩
      · simpa [snakes, hp] using g2
      · simpa [hx] using g3

/-- A literal that is accepted belongs to an action. -/
theorem elabVerb_inv {root : FlattenedModule} {a b : MethodArm} (hg : ModGood root) (h : elabVerb (modOf root) (eraseVerb a) = some b) :
    ∃ mods act, ArmFits root a mods act := by
  simp only [elabVerb, eraseVerb, Option.bind_eq_bind, Option.bind_eq_some_iff] at h
  obtain ⟨_, _, t, ht, _⟩ := h
  rw [valueOf] at ht
  obtain ⟨mods, node, g1, g2, g3, g4, g5, t', ht'⟩ := unnest a.modules [] [] root t hg rfl (fun ms act ha => by simpa using ha)
    (fun t ht => by simpa using (app_some ht).1) ht
  obtain ⟨_, sub, payload, h1, h2, h3⟩ := app_some ht'
  rw [List.nil_append] at g4
  rw [g4] at h1
  cases h1
  rw [Expr.type] at h3
  simp only [unsnoc_append, g4, Option.bind_eq_bind, Option.bind_some, Option.bind_eq_some_iff] at h3
  obtain ⟨st, h4, h5⟩ := h3
  split at h5
  · rename_i hf
    have hm := List.mem_of_find?_eq_some h4
    have hn := List.find?_some h4
    simp only [beq_iff_eq] at hn
    have : ∃ act ∈ node.actions, st = structOf act := by
      obtain ⟨name, actions, modules⟩ := node
      simp only [modOf, Mod.structs, List.mem_map] at hm
      obtain ⟨a, ha, rfl⟩ := hm
      exact ⟨a, ha, rfl⟩
    obtain ⟨act, hact, rfl⟩ := this
    have hp := (fieldsOk_iff (a := a) (g1.fields act hact)).1 hf
    refine ⟨mods, act, ?_, ⟨g2, g3, hn⟩, hp.1, hp.2⟩
    have := g5 [] act (hasAction_nil.2 hact)
    simpa using this
  · cases h5

end Wayfinder.Rust
