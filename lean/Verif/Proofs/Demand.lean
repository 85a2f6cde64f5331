import Verif.Proofs.Elab
/-!
# The types that the declared fields demand

Emitted statements with other types for the fields of their literals: what the compiler checks then.
-/

namespace Wayfinder.Rust

/-- A literal with the types that `δ` gives to its fields. -/
def demandArm (δ : MethodArm → Str → Str) (a : MethodArm) : MethodArm :=
  { a with captures := a.captures.map fun p => ⟨p.name, δ a p.name⟩ }

mutual
/-- A statement with these types; `rest` are the statements after it. -/
def demandStmt (δ : MethodArm → Str → Str) (rest : List Stmt) : Stmt → Stmt
  | .ifThen c body => .ifThen c (demandBlock δ body)
  | .matchMethod arms => .matchMethod (arms.map (demandArm δ))
  | .matchPath n arms => .matchPath n (demandArms δ arms)
  | .letParam x _ => .letParam x (inferType x rest)
  | .blank => .blank
  | .letStart => .letStart
  | .addI n => .addI n
  | .retNotFound => .retNotFound
  | .whileScan => .whileScan
  | .letText => .letText
/-- The same for a block. -/
def demandBlock (δ : MethodArm → Str → Str) : List Stmt → List Stmt
  | [] => []
  | s :: ss => demandStmt δ (demandBlock δ ss) s :: demandBlock δ ss
/-- The same for an arm. -/
def demandPathArm (δ : MethodArm → Str → Str) : Arm → Arm
  | .bytes pat body => .bytes pat (demandBlock δ body)
  | .wildNotFound => .wildNotFound
  | .wildNothing => .wildNothing
  | .someSlash => .someSlash
  | .stray body => .stray body
/-- The same for arms. -/
def demandArms (δ : MethodArm → Str → Str) : List Arm → List Arm
  | [] => []
  | a :: as => demandPathArm δ a :: demandArms δ as
end

variable {δ : MethodArm → Str → Str}

theorem demandArm_erase (a : MethodArm) : eraseVerb (demandArm δ a) = eraseVerb a := by
  simp [demandArm, eraseVerb, valueOf, Function.comp_def]

mutual
theorem demandStmt_erase : ∀ (s : Stmt) (rest : List Stmt), eraseStmt (demandStmt δ rest s) = eraseStmt s
  | .ifThen c body, _ => by simp [demandStmt, eraseStmt, demandBlock_erase body]
  | .matchMethod arms, _ => by simp [demandStmt, eraseStmt, Function.comp_def, demandArm_erase]
  | .matchPath n arms, _ => by simp [demandStmt, eraseStmt, demandArms_erase arms]
  | .letParam x _, _ => rfl
  | .blank, _ => rfl
  | .letStart, _ => rfl
  | .addI _, _ => rfl
  | .retNotFound, _ => rfl
  | .whileScan, _ => rfl
  | .letText, _ => rfl
theorem demandBlock_erase : ∀ b : List Stmt, eraseBlock (demandBlock δ b) = eraseBlock b
  | [] => rfl
  | s :: ss => by simp [demandBlock, eraseBlock, demandStmt_erase s, demandBlock_erase ss]
theorem demandPathArm_erase : ∀ a : Arm, eraseArm (demandPathArm δ a) = eraseArm a
  | .bytes pat body => by simp [demandPathArm, eraseArm, demandBlock_erase body]
  | .wildNotFound => rfl
  | .wildNothing => rfl
  | .someSlash => rfl
  | .stray _ => rfl
theorem demandArms_erase : ∀ as : List Arm, eraseArms (demandArms δ as) = eraseArms as
  | [] => rfl
  | a :: as => by simp [demandArms, eraseArms, demandPathArm_erase a, demandArms_erase as]
end

mutual
theorem demandStmt_shape : ∀ (s : Stmt) (rest : List Stmt), (demandStmt δ rest s).shapeOk = s.shapeOk
  | .ifThen c body, _ => by simp [demandStmt, Stmt.shapeOk, demandBlock_shape body]
  | .matchMethod arms, _ => rfl
  | .matchPath n arms, _ => by simp [demandStmt, Stmt.shapeOk, demandArms_shape arms]
  | .letParam x _, _ => rfl
  | .blank, _ => rfl
  | .letStart, _ => rfl
  | .addI _, _ => rfl
  | .retNotFound, _ => rfl
  | .whileScan, _ => rfl
  | .letText, _ => rfl
theorem demandBlock_shape : ∀ b : List Stmt, blockShapeOk (demandBlock δ b) = blockShapeOk b
  | [] => rfl
  | s :: ss => by simp [demandBlock, blockShapeOk, demandStmt_shape s, demandBlock_shape ss]
theorem demandPathArm_shape : ∀ a : Arm, (demandPathArm δ a).shapeOk = a.shapeOk
  | .bytes pat body => by simp [demandPathArm, Arm.shapeOk, demandBlock_shape body]
  | .wildNotFound => rfl
  | .wildNothing => rfl
  | .someSlash => rfl
  | .stray _ => rfl
theorem demandArms_shape : ∀ as : List Arm, armsShapeOk (demandArms δ as) = armsShapeOk as
  | [] => rfl
  | a :: as => by simp [demandArms, armsShapeOk, demandPathArm_shape a, demandArms_shape as]
end

mutual
theorem demandStmt_binds : ∀ (s : Stmt) (rest : List Stmt), (demandStmt δ rest s).binds = s.binds
  | .ifThen c body, _ => by simp [demandStmt, Stmt.binds, demandBlock_binds body]
  | .matchMethod arms, _ => rfl
  | .matchPath n arms, _ => by simp [demandStmt, Stmt.binds, demandArms_binds arms]
  | .letParam x _, _ => rfl
  | .blank, _ => rfl
  | .letStart, _ => rfl
  | .addI _, _ => rfl
  | .retNotFound, _ => rfl
  | .whileScan, _ => rfl
  | .letText, _ => rfl
theorem demandBlock_binds : ∀ b : List Stmt, blockBinds (demandBlock δ b) = blockBinds b
  | [] => rfl
  | s :: ss => by simp [demandBlock, blockBinds, demandStmt_binds s, demandBlock_binds ss]
theorem demandPathArm_binds : ∀ a : Arm, (demandPathArm δ a).binds = a.binds
  | .bytes pat body => by simp [demandPathArm, Arm.binds, demandBlock_binds body]
  | .wildNotFound => rfl
  | .wildNothing => rfl
  | .someSlash => rfl
  | .stray _ => rfl
theorem demandArms_binds : ∀ as : List Arm, armsBinds (demandArms δ as) = armsBinds as
  | [] => rfl
  | a :: as => by simp [demandArms, armsBinds, demandPathArm_binds a, demandArms_binds as]
end

mutual
theorem demandStmt_inferred : ∀ (s : Stmt) (rest : List Stmt), StmtInferred rest (demandStmt δ rest s)
  | .ifThen c body, _ => by simp only [demandStmt, StmtInferred]; exact demandBlock_inferred body
  | .matchMethod arms, _ => trivial
  | .matchPath n arms, _ => by simp only [demandStmt, StmtInferred]; exact demandArms_inferred arms
  | .letParam x _, _ => rfl
  | .blank, _ => trivial
  | .letStart, _ => trivial
  | .addI _, _ => trivial
  | .retNotFound, _ => trivial
  | .whileScan, _ => trivial
  | .letText, _ => trivial
theorem demandBlock_inferred : ∀ b : List Stmt, BlockInferred (demandBlock δ b)
  | [] => trivial
  | s :: ss => by simp only [demandBlock, BlockInferred]; exact ⟨demandStmt_inferred s _, demandBlock_inferred ss⟩
theorem demandPathArm_inferred : ∀ a : Arm, ArmInferred (demandPathArm δ a)
  | .bytes pat body => by simp only [demandPathArm, ArmInferred]; exact demandBlock_inferred body
  | .wildNotFound => trivial
  | .wildNothing => trivial
  | .someSlash => trivial
  | .stray _ => trivial
theorem demandArms_inferred : ∀ as : List Arm, ArmsInferred (demandArms δ as)
  | [] => trivial
  | a :: as => by simp only [demandArms, ArmsInferred]; exact ⟨demandPathArm_inferred a, demandArms_inferred as⟩
end

mutual
theorem demandStmt_literals : ∀ (s : Stmt) (rest : List Stmt), s.shapeOk = true →
    (demandStmt δ rest s).literals = s.literals.map (demandArm δ)
  | .ifThen c body, _, h => by simpa [demandStmt, Stmt.literals] using demandBlock_literals body h
  | .matchMethod arms, _, _ => rfl
  | .matchPath n arms, _, h => by simpa [demandStmt, Stmt.literals] using demandArms_literals arms h
  | .letParam x _, _, _ => rfl
  | .blank, _, _ => rfl
  | .letStart, _, _ => rfl
  | .addI _, _, _ => rfl
  | .retNotFound, _, _ => rfl
  | .whileScan, _, _ => rfl
  | .letText, _, _ => rfl
theorem demandBlock_literals : ∀ b : List Stmt, blockShapeOk b = true →
    blockLiterals (demandBlock δ b) = (blockLiterals b).map (demandArm δ)
  | [], _ => rfl
  | s :: ss, h => by
    simp only [blockShapeOk, Bool.and_eq_true] at h
    simp [demandBlock, blockLiterals, demandStmt_literals s _ h.1, demandBlock_literals ss h.2]
theorem demandPathArm_literals : ∀ a : Arm, a.shapeOk = true → (demandPathArm δ a).literals = a.literals.map (demandArm δ)
  | .bytes pat body, h => by
    simp only [Arm.shapeOk, Bool.and_eq_true] at h
    simpa [demandPathArm, Arm.literals] using demandBlock_literals body h.2
  | .wildNotFound, _ => rfl
  | .wildNothing, _ => rfl
  | .someSlash, _ => rfl
  | .stray _, h => by cases h
theorem demandArms_literals : ∀ as : List Arm, armsShapeOk as = true →
    armsLiterals (demandArms δ as) = (armsLiterals as).map (demandArm δ)
  | [], _ => rfl
  | a :: as, h => by
    simp only [armsShapeOk, Bool.and_eq_true] at h
    simp [demandArms, armsLiterals, demandPathArm_literals a h.1, demandArms_literals as h.2]
end

theorem demandBlock_append : ∀ {a b : List Stmt}, NoParams a → demandBlock δ (a ++ b) = demandBlock δ a ++ demandBlock δ b
  | [], b, _ => rfl
  | s :: a, b, h => by
    have ih := demandBlock_append (a := a) (b := b) fun name typ hm => h name typ (List.mem_cons_of_mem _ hm)
    simp only [List.cons_append, demandBlock, ih, List.cons.injEq, and_true]
    cases s with
    | letParam name typ => exact absurd (List.mem_cons_self ..) (h name typ)
    | _ => rfl

/-! ## Statements that declare nothing -/

/-- A statement that declares no variable. -/
def Stays : Stmt → Prop
  | .letStart => False
  | .letText => False
  | .letParam _ _ => False
  | _ => True

theorem stays_check {s : Stmt} (hs : Stays s) {sc sc' : Scope} (h : s.check sc = some sc') : sc' = sc := by
  cases s with
  | letStart => cases hs
  | letText => cases hs
  | letParam _ _ => cases hs
  | blank => simpa [Stmt.check] using h.symm
  | retNotFound => simpa [Stmt.check] using h.symm
  | addI _ => simp only [Stmt.check] at h; split at h <;> simp_all
  | ifThen _ _ => simp only [Stmt.check] at h; split at h <;> simp_all
  | matchMethod _ => simp only [Stmt.check] at h; split at h <;> simp_all
  | matchPath _ _ => simp only [Stmt.check] at h; split at h <;> simp_all
  | whileScan => simp only [Stmt.check] at h; split at h <;> simp_all

theorem check_cons {s : Stmt} {ss : List Stmt} {sc : Scope} (hs : Stays s) (h : (checkBlock (s :: ss) sc).isSome = true) :
    (s.check sc).isSome = true ∧ (checkBlock ss sc).isSome = true := by
  simp only [checkBlock] at h
  cases hc : s.check sc with
  | none => simp [hc] at h
  | some sc' =>
    simp only [hc] at h
    rw [stays_check hs hc] at h
    exact ⟨rfl, h⟩

theorem check_append : ∀ {a b : List Stmt} {sc : Scope}, (∀ s ∈ a, Stays s) → (checkBlock (a ++ b) sc).isSome = true →
    (checkBlock a sc).isSome = true ∧ (checkBlock b sc).isSome = true
  | [], b, sc, _, h => ⟨rfl, h⟩
  | s :: a, b, sc, hs, h => by
    obtain ⟨h1, h2⟩ := check_cons (hs s (List.mem_cons_self ..)) h
    obtain ⟨h3, h4⟩ := check_append (fun s hm => hs s (List.mem_cons_of_mem _ hm)) h2
    refine ⟨?_, h4⟩
    obtain ⟨sc', hc⟩ := Option.isSome_iff_exists.1 h1
    simp only [checkBlock, hc]
    rwa [stays_check (hs s (List.mem_cons_self ..)) hc]

theorem own_stays (d : Option FlattenedRoute) : ∀ s ∈ demandBlock δ (ownMethods d), Stays s := by
  intro s hs
  unfold ownMethods at hs
  split at hs
  · split at hs
    · simp only [writeMethods, demandBlock, demandStmt, List.mem_singleton] at hs
      subst hs; trivial
    · cases hs
  · cases hs

theorem sepHead_stays (d : Option FlattenedRoute) : ∀ s ∈ demandBlock δ (separatorHead d), Stays s := by
  intro s hs
  unfold separatorHead at hs
  split at hs
  · split at hs <;> simp only [writeMethods, demandBlock, demandStmt, List.mem_singleton] at hs <;> (subst hs; trivial)
  · simp only [demandBlock, demandStmt, List.mem_singleton] at hs
    subst hs; trivial

/-! ## What a literal sees -/

/-- A variable `x` is not hidden by the index in code of this kind. -/
def Unstarted (k : CodeKind) (x : Str) : Prop :=
  x = c!"start" → ∀ v, LiveItem k v → dynamics v.path = dynamics k.pth

/-- The literal `a` finds the variables of `pth` with the types it needs, in a scope `sc` outside it, if they are not hidden. -/
def Sees (δ : MethodArm → Str → Str) (sc : Scope) (a : MethodArm) (pth : List PathSegment) (N : Str → Prop) : Prop :=
  (a.captures.map Param.name).Nodup ∧ ∀ p ∈ dynamics pth, N p.name →
    lookupVar p.name sc = some (.user (δ a p.name)) ∨ lookupVar p.name sc = some .usize

theorem own_sees {v : FlattenedRoute} {a : MethodArm} (ha : a ∈ methodArms v) {sc : Scope} {N : Str → Prop}
    (h : (checkBlock (demandBlock δ (ownMethods (some v))) sc).isSome = true) : Sees δ sc a v.path N := by
  have hr : v.resources.length ≠ 0 := by
    intro h0
    have : v.resources = [] := List.eq_nil_of_length_eq_zero h0
    simp [methodArms, this] at ha
  simp only [ownMethods, if_pos hr, writeMethods, demandBlock, demandStmt] at h
  obtain ⟨h1, -⟩ := check_cons (by trivial) h
  simp only [Stmt.check] at h1
  split at h1
  · rename_i hc
    simp only [Bool.and_eq_true] at hc
    obtain ⟨h2, -⟩ := check_cons (by trivial) hc.2
    simp only [Stmt.check] at h2
    split at h2
    · rename_i hm
      simp only [Bool.and_eq_true, List.all_eq_true] at hm
      have ht := hm.2 (demandArm δ a) (List.mem_map_of_mem ha)
      simp only [MethodArm.typed, Bool.and_eq_true, decide_eq_true_eq, List.all_eq_true] at ht
      have hcap : a.captures = dynamics v.path := by
        simp only [methodArms, List.mem_map] at ha
        obtain ⟨res, -, rfl⟩ := ha
        rfl
      refine ⟨?_, fun p hp _ => ?_⟩
      · have := (List.nodup_append.1 ht.1).1
        simpa [demandArm, Function.comp_def] using this
      · have := ht.2 ⟨p.name, δ a p.name⟩ (by
          simp only [demandArm, hcap]
          exact List.mem_map.2 ⟨p, hp, rfl⟩)
        split at this
        · rename_i t hl
          simp only [beq_iff_eq] at this
          subst this
          exact .inl hl
        · rename_i hl
          exact .inr hl
        · cases this
    · cases h2
  · cases h1

theorem Sees.mono {sc : Scope} {a : MethodArm} {pth : List PathSegment} {N N' : Str → Prop} (h : Sees δ sc a pth N)
    (hN : ∀ x, N' x → N x) : Sees δ sc a pth N' :=
  ⟨h.1, fun p hp hs => h.2 p hp (hN _ hs)⟩

theorem Sees.outer {sc : Scope} {a : MethodArm} {pth : List PathSegment} {x : PathSegment} {N : Str → Prop}
    (h : Sees δ sc a (pth ++ [x]) N) : Sees δ sc a pth N :=
  ⟨h.1, fun p hp => h.2 p (by rw [dynamics_append]; exact List.mem_append_left _ hp)⟩

theorem Sees.start {sc : Scope} {a : MethodArm} {pth : List PathSegment} {t : Ty}
    (h : Sees δ ((c!"start", t) :: sc) a pth (· ≠ c!"start")) : Sees δ sc a pth (· ≠ c!"start") := by
  refine ⟨h.1, fun p hp hs => ?_⟩
  have := h.2 p hp hs
  simpa only [lookupVar, if_neg (Ne.symm hs)] using this

theorem unstarted_of_ne {k : CodeKind} {x : Str} (h : x ≠ c!"start") : Unstarted k x := fun e => absurd e h

/-- Where a parameter may follow, nothing named `start` is visible. -/
theorem unstarted_param {rs : List Resource} {ns : List NestedRoutes} {qs : List Param} {pth : List PathSegment} {q : List Param}
    {n : NestedRoutes} {p : Param} (hn : n ∈ ns) (hseg : n.pathSegment = .dynamic p) (hcap : captor ns = some p.name) {x : Str}
    (h : Unstarted (.block (.mk rs ns qs) pth q) x) : x ≠ c!"start" := by
  intro e
  have := h e ⟨pth ++ [.dynamic p], n.routes.resources, q ++ qs ++ n.routes.queryParameters⟩
    (itemOf_mk.2 (.inr (.inr ⟨n, hn, p, hseg, hcap, [], [], n.routes, .here _, by simp⟩)))
  simp [CodeKind.pth, dynamics_append, dynamics] at this

/-- Outside the capture of a parameter. -/
theorem Sees.param {sc : Scope} {a : MethodArm} {pth more : List PathSegment} {p : Param} {T : Str}
    (hcap : a.captures = dynamics (pth ++ .dynamic p :: more))
    (h : Sees δ ((p.name, .user T) :: (c!"text", .str) :: (c!"start", .usize) :: sc) a (pth ++ [.dynamic p]) (· ≠ c!"start")) :
    Sees δ sc a pth (· ≠ c!"start") := by
  refine ⟨h.1, fun p' hp' hs => ?_⟩
  have h2 := h.2 p' (by rw [dynamics_append]; exact List.mem_append_left _ hp') hs
  have hne : p.name ≠ p'.name := by
    intro he
    have hn := h.1
    rw [hcap, dynamics_append] at hn
    simp only [List.map_append] at hn
    exact (List.nodup_append.1 hn).2.2 p'.name (List.mem_map_of_mem hp') p.name (by simp [dynamics]) he.symm
  rw [lookupVar, if_neg hne] at h2
  by_cases ht : c!"text" = p'.name
  · simp only [lookupVar, if_pos ht] at h2
    rcases h2 with h2 | h2 <;> cases h2
  · simpa only [lookupVar, if_neg ht, if_neg (Ne.symm hs)] using h2

theorem head_scope {x : Str} {b : List Stmt} {sc : Scope} (h : (checkBlock (demandBlock δ (dynamicHead x b ++ b)) sc).isSome = true) :
    ∃ T, (checkBlock (demandBlock δ b) ((x, .user T) :: (c!"text", .str) :: sc)).isSome = true := by
  simp only [dynamicHead, List.cons_append, List.nil_append, demandBlock, demandStmt] at h
  obtain ⟨-, h⟩ := check_cons (by trivial) h
  obtain ⟨-, h⟩ := check_cons (by trivial) h
  obtain ⟨-, h⟩ := check_cons (by trivial) h
  rw [checkBlock] at h
  cases h1 : Stmt.letText.check sc with
  | none => simp [h1] at h
  | some sc1 =>
    simp only [h1] at h
    have hsc1 : sc1 = (c!"text", .str) :: sc := by
      simp only [Stmt.check] at h1
      split at h1 <;> simp_all
    subst hsc1
    rw [checkBlock] at h
    generalize inferType x (Stmt.blank :: demandBlock δ b) = ty at h
    cases ty with
    | none => simp [Stmt.check] at h
    | some T =>
      simp only [Stmt.check, lookupVar, if_true] at h
      exact ⟨T, (check_cons (by trivial) h).2⟩

theorem methods_captures {v : FlattenedRoute} {a : MethodArm} (ha : a ∈ methodArms v) : a.captures = dynamics v.path := by
  simp only [methodArms, List.mem_map] at ha
  obtain ⟨res, -, rfl⟩ := ha
  rfl

/-- Outside a block, as well. -/
theorem code_sees {k : CodeKind} {b : List Stmt} (h : Code k b) : ∀ sc, k.Distinct →
    (checkBlock (demandBlock δ b) sc).isSome = true → ∀ v, LiveItem k v → ∀ a ∈ methodArms v,
      Sees δ sc a k.pth (Unstarted k) := by
  induction h with
  | @plain rs ns qs pth q cb hpar _ ih =>
    intro sc hd hc v hv a ha
    rw [demandBlock_append (ownMethods_inferred _).1] at hc
    obtain ⟨h1, h2⟩ := check_append (own_stays _) hc
    rcases (liveItem_plain hpar).1 hv with rfl | hv
    · exact own_sees ha h1
    · refine (ih sc (distinctSiblings_mk.1 hd).2 h2 v hv a ha).mono fun x hx e w hw => hx e w ?_
      exact (liveItem_plain hpar).2 (.inr hw)
  | @param rs ns qs pth q n p b hn hseg hcap hst _ ih =>
    intro sc hd hc v hv a ha
    rw [demandBlock_append (ownMethods_inferred _).1] at hc
    obtain ⟨h1, h2⟩ := check_append (own_stays _) hc
    rcases (liveItem_param (rs := rs) (qs := qs) (pth := pth) (q := q) (v := v)
      (distinctSiblings_mk.1 hd).1 hn hseg hcap (w := []) (by simp)).1 hv with rfl | hv | hv
    · exact own_sees ha h1
    · exact absurd hv (liveItem_none (by
        intro n hn rest hs
        have : rest ∈ staticTexts ns := mem_staticTexts.2 ⟨n, hn, hs⟩
        rw [hst] at this; cases this) v)
    · simp only [demandBlock, demandStmt] at h2
      rw [checkBlock] at h2
      cases hs : Stmt.letStart.check sc with
      | none => simp [hs] at h2
      | some sc1 =>
        simp only [hs] at h2
        have hsc1 : sc1 = (c!"start", .usize) :: sc := by
          simp only [Stmt.check] at hs
          split at hs <;> simp_all
        subst hsc1
        obtain ⟨T, h3⟩ := head_scope h2
        have h4 := ih _ ((distinctSiblings_mk.1 hd).2 _ hn) h3 v hv a ha
        obtain ⟨more, hm⟩ := liveItem_path hv
        refine ((h4.mono fun _ => unstarted_of_ne).param (more := more) ?_).mono fun _ => unstarted_param hn hseg hcap
        rw [methods_captures ha, hm]
        simp [CodeKind.pth]
  | @both rs ns qs pth q n p b sb w l c _ hn hseg hcap hw hext _ _ _ ih1 ih2 =>
    intro sc hd hc v hv a ha
    rw [demandBlock_append (ownMethods_inferred _).1] at hc
    obtain ⟨h1, h2⟩ := check_append (own_stays _) hc
    simp only [demandBlock, demandStmt, demandArms, demandPathArm] at h2
    obtain ⟨-, h2⟩ := check_cons (by trivial) h2
    rw [checkBlock] at h2
    cases hs : Stmt.letStart.check sc with
    | none => simp [hs] at h2
    | some sc1 =>
      simp only [hs] at h2
      have hsc1 : sc1 = (c!"start", .usize) :: sc := by
        simp only [Stmt.check] at hs
        split at hs <;> simp_all
      subst hsc1
      obtain ⟨-, h2⟩ := check_cons (by trivial) h2
      obtain ⟨h3, h4⟩ := check_cons (by trivial) h2
      rcases (liveItem_param (distinctSiblings_mk.1 hd).1 hn hseg hcap hext).1 hv with rfl | hv | hv
      · exact own_sees ha h1
      · simp only [Stmt.check] at h3
        split at h3
        · rename_i h5
          simp only [Bool.and_eq_true] at h5
          obtain ⟨h6, -⟩ := check_cons (by trivial) h5.2
          simp only [Stmt.check] at h6
          split at h6
          · rename_i h7
            simp only [Bool.and_eq_true, checkArms, Arm.check] at h7
            have h8 := (check_cons (by trivial) h7.2.1).2
            exact ((ih1 _ (distinctSiblings_mk.1 hd).2 h8 v hv a ha).mono fun _ => unstarted_of_ne).start.mono
              fun _ => unstarted_param hn hseg hcap
          · cases h6
        · cases h3
      · obtain ⟨T, h5⟩ := head_scope h4
        have h6 := ih2 _ ((distinctSiblings_mk.1 hd).2 _ hn) h5 v hv a ha
        obtain ⟨more, hm⟩ := liveItem_path hv
        refine ((h6.mono fun _ => unstarted_of_ne).param (more := more) ?_).mono fun _ => unstarted_param hn hseg hcap
        rw [methods_captures ha, hm]
        simp [CodeKind.pth]
  | @enter r pth q b _ ih =>
    intro sc hd hc v hv a ha
    rw [demandBlock_append (separatorHead_inferred _).1] at hc
    obtain ⟨-, h2⟩ := check_append (sepHead_stays _) hc
    simp only [demandBlock, demandStmt] at h2
    exact ih sc hd (check_cons (by trivial) h2).2 v hv a ha
  | none h =>
    intro sc hd hc v hv
    exact absurd hv (liveItem_none h v)
  | @sep ns u pth q n b hn hseg huniq _ _ ih =>
    intro sc hd hc v hv a ha
    refine (ih sc (hd _ hn) hc v ((liveItem_sep hn hseg huniq).1 hv) a ha).outer.mono fun x hx e w hw => ?_
    have := hx e w ((liveItem_sep hn hseg huniq).2 hw)
    simpa [CodeKind.pth, dynamics_append, dynamics] using this
  | @chain ns u w pth q b l c _ _ _ hext _ _ ih =>
    intro sc hd hc v hv a ha
    simp only [demandBlock, demandStmt] at hc
    have := (check_cons (by trivial) (check_cons (by trivial) hc).2).2
    exact (ih sc hd this v ((liveItem_chain hext).1 hv) a ha).mono fun x hx e w hw => hx e w ((liveItem_chain hext).2 hw)
  | @branch ns u pth q chars as hall _ _ _ _ ih =>
    intro sc hd hc v hv a ha
    simp only [demandBlock, demandStmt] at hc
    exact (ih sc hd (check_cons (by trivial) hc).2 v ((liveItem_branch hall).1 hv) a ha).mono
      fun x hx e w hw => hx e w ((liveItem_branch hall).2 hw)
  | armsNil =>
    intro sc hd hc v hv
    simp [KindItem] at hv
  | @armsCons ns u pth q ch chars b as _ _ ih1 ih2 =>
    intro sc hd hc v hv a ha
    simp only [demandBlock, demandStmt, demandArms, demandPathArm] at hc
    obtain ⟨h1, -⟩ := check_cons (by trivial) hc
    simp only [Stmt.check] at h1
    split at h1
    · rename_i h2
      simp only [Bool.and_eq_true, checkArms, Arm.check] at h2
      rcases liveItem_armsCons.1 hv with hv | hv
      · exact (ih1 sc hd (check_cons (by trivial) h2.2.1).2 v hv a ha).mono
          fun x hx e w hw => hx e w (liveItem_armsCons.2 (.inl hw))
      · refine (ih2 sc hd ?_ v hv a ha).mono fun x hx e w hw => hx e w (liveItem_armsCons.2 (.inr hw))
        simp only [demandBlock, demandStmt, checkBlock, Stmt.check, h2.1.1, h2.1.2, h2.2.2, Bool.and_self, if_true]
        rfl
    · cases h1

/-- Literals behind the same parameter need the same type for it. -/
theorem code_agrees {k : CodeKind} {b : List Stmt} (h : Code k b) : ∀ sc, k.Distinct →
    (checkBlock (demandBlock δ b) sc).isSome = true → ∀ (s : List PathSegment) (p : Param) (r1 r2 : List PathSegment)
      (v1 v2 : FlattenedRoute), LiveItem k v1 → LiveItem k v2 → v1.path = k.pth ++ (s ++ .dynamic p :: r1) →
      v2.path = k.pth ++ (s ++ .dynamic p :: r2) → ∀ a1 ∈ methodArms v1, ∀ a2 ∈ methodArms v2,
      (p.name = c!"start" → ∀ v t, LiveItem k v → v.path = k.pth ++ (s ++ .dynamic p :: t) → dynamics t = []) →
      δ a1 p.name = δ a2 p.name := by
  -- behind the parameter itself
  have here : ∀ {r : Routes} {pth : List PathSegment} {q : List Param} {p : Param} {b : List Stmt} {sc : Scope} {T : Str},
      Code (.enter r (pth ++ [.dynamic p]) q) b → DistinctSiblings r →
      (checkBlock (demandBlock δ b) ((p.name, .user T) :: sc)).isSome = true →
      (p.name = c!"start" → ∀ v t, LiveItem (.enter r (pth ++ [.dynamic p]) q) v → v.path = pth ++ .dynamic p :: t → dynamics t = []) →
      ∀ v, LiveItem (.enter r (pth ++ [.dynamic p]) q) v → ∀ a ∈ methodArms v, δ a p.name = T := by
    intro r pth q p b sc T hcode hd hc hs v hv a ha
    have := (code_sees hcode _ hd hc v hv a ha).2 p (by simp [CodeKind.pth, dynamics]) (by
      intro e w hw
      obtain ⟨more, hm⟩ := itemOf_path hw
      have := hs e w more hw (by rw [hm]; simp)
      rw [hm, dynamics_append, this, List.append_nil]
      rfl)
    simpa [lookupVar, eq_comm] using this
  have kids : ∀ {ns : List NestedRoutes} {u : Str} {pth : List PathSegment} {q : List Param} {v : FlattenedRoute}
      {s : List PathSegment} {p : Param} {r : List PathSegment}, LiveItem (.kids ns u pth q) v →
      v.path = pth ++ (s ++ .dynamic p :: r) → ∃ rest s', s = .static (u ++ rest) :: s' := by
    rintro ns u pth q v s p r ⟨n, hn, rest, hseg, hi⟩ hp
    obtain ⟨more, hm⟩ := itemOf_path hi
    rw [hm, List.append_assoc] at hp
    have := List.append_cancel_left hp
    cases s with
    | nil => simp at this
    | cons x s =>
      simp only [List.cons_append, List.cons.injEq, List.nil_append] at this
      exact ⟨rest, s, by rw [← this.1]⟩
  have enter : ∀ {r : Routes} {pth : List PathSegment} {x : PathSegment} {q : List Param} {v : FlattenedRoute}
      {s : List PathSegment} {p : Param} {t : List PathSegment}, LiveItem (.enter r (pth ++ [x]) q) v →
      v.path = pth ++ (s ++ .dynamic p :: t) → (s = [] ∧ x = .dynamic p) ∨ ∃ s', s = x :: s' ∧
        v.path = (pth ++ [x]) ++ (s' ++ .dynamic p :: t) := by
    intro r pth x q v s p t hv hp
    obtain ⟨more, hm⟩ := itemOf_path hv
    have hp' := hp
    rw [hm, List.append_assoc] at hp
    have := List.append_cancel_left hp
    cases s with
    | nil =>
      simp only [List.cons_append, List.nil_append, List.cons.injEq] at this
      exact .inl ⟨rfl, this.1⟩
    | cons y s =>
      simp only [List.cons_append, List.nil_append, List.cons.injEq] at this
      refine .inr ⟨s, by rw [this.1], ?_⟩
      rw [hp', this.1]; simp
  have own : ∀ {rs : List Resource} {pth : List PathSegment} {q : List Param} {s : List PathSegment} {p : Param} {t : List PathSegment},
      (⟨pth, rs, q⟩ : FlattenedRoute).path ≠ pth ++ (s ++ .dynamic p :: t) := by
    intro rs pth q s p t he
    have := congrArg List.length he
    simp at this
  induction h with
  | @plain rs ns qs pth q cb hpar _ ih =>
    intro sc hd hc s p r1 r2 v1 v2 hv1 hv2 hp1 hp2 a1 ha1 a2 ha2 hs
    rw [demandBlock_append (ownMethods_inferred _).1] at hc
    obtain ⟨h1, h2⟩ := check_append (own_stays _) hc
    rcases (liveItem_plain hpar).1 hv1 with rfl | hv1
    · exact absurd hp1 own
    rcases (liveItem_plain hpar).1 hv2 with rfl | hv2
    · exact absurd hp2 own
    exact ih sc (distinctSiblings_mk.1 hd).2 h2 s p r1 r2 v1 v2 hv1 hv2 hp1 hp2 a1 ha1 a2 ha2
      fun e v t hv => hs e v t ((liveItem_plain hpar).2 (.inr hv))
  | @param rs ns qs pth q n p b hn hseg hcap hst hcode ih =>
    intro sc hd hc s p' r1 r2 v1 v2 hv1 hv2 hp1 hp2 a1 ha1 a2 ha2 hs
    rw [demandBlock_append (ownMethods_inferred _).1] at hc
    obtain ⟨-, h2⟩ := check_append (own_stays _) hc
    have hno := liveItem_none (I := ItemOf) (ns := ns) (u := []) (pth := pth) (q := q ++ qs) (by
        intro n hn rest hs
        have : rest ∈ staticTexts ns := mem_staticTexts.2 ⟨n, hn, hs⟩
        rw [hst] at this; cases this)
    have hitem' := fun v => liveItem_param (rs := rs) (qs := qs) (pth := pth) (q := q) (v := v)
      (distinctSiblings_mk.1 hd).1 hn hseg hcap (w := []) (by simp)
    have hitem := fun v => (hitem' v).1
    rcases hitem v1 hv1 with rfl | hv1 | hv1
    · exact absurd hp1 own
    · exact absurd hv1 (hno v1)
    rcases hitem v2 hv2 with rfl | hv2 | hv2
    · exact absurd hp2 own
    · exact absurd hv2 (hno v2)
    simp only [demandBlock, demandStmt] at h2
    rw [checkBlock] at h2
    cases hst' : Stmt.letStart.check sc with
    | none => simp [hst'] at h2
    | some sc1 =>
      simp only [hst'] at h2
      obtain ⟨T, h3⟩ := head_scope h2
      have hdn := (distinctSiblings_mk.1 hd).2 _ hn
      rcases enter hv1 hp1 with ⟨rfl, e1⟩ | ⟨s1, rfl, e1⟩
      · simp only [PathSegment.dynamic.injEq] at e1
        subst e1
        have hs' := fun e v t hv hp => hs e v t ((hitem' v).2 (.inr (.inr hv))) hp
        rw [here hcode hdn h3 hs' v1 hv1 a1 ha1, here hcode hdn h3 hs' v2 hv2 a2 ha2]
      · rcases enter hv2 hp2 with ⟨e, -⟩ | ⟨s2, e, e2⟩
        · cases e
        · simp only [List.cons.injEq, true_and] at e
          subst e
          exact ih _ hdn h3 s1 p' r1 r2 v1 v2 hv1 hv2 e1 e2 a1 ha1 a2 ha2
            fun e v t hv hp => hs e v t ((hitem' v).2 (.inr (.inr hv))) (by rw [hp]; simp [CodeKind.pth])
  | @both rs ns qs pth q n p b sb w l c _ hn hseg hcap hw hext _ _ hcode ih1 ih2 =>
    intro sc hd hc s p' r1 r2 v1 v2 hv1 hv2 hp1 hp2 a1 ha1 a2 ha2 hs
    rw [demandBlock_append (ownMethods_inferred _).1] at hc
    obtain ⟨-, h2⟩ := check_append (own_stays _) hc
    simp only [demandBlock, demandStmt, demandArms, demandPathArm] at h2
    obtain ⟨-, h2⟩ := check_cons (by trivial) h2
    rw [checkBlock] at h2
    cases hst' : Stmt.letStart.check sc with
    | none => simp [hst'] at h2
    | some sc1 =>
      simp only [hst'] at h2
      obtain ⟨-, h2⟩ := check_cons (by trivial) h2
      obtain ⟨h3, h4⟩ := check_cons (by trivial) h2
      obtain ⟨T, h5⟩ := head_scope h4
      have hdn := (distinctSiblings_mk.1 hd).2 _ hn
      have hitem' := fun v => liveItem_param (rs := rs) (qs := qs) (pth := pth) (q := q) (v := v)
        (distinctSiblings_mk.1 hd).1 hn hseg hcap hext
      have hitem := fun v => (hitem' v).1
      rcases hitem v1 hv1 with rfl | hv1 | hv1
      · exact absurd hp1 own
      · obtain ⟨rest, s', rfl⟩ := kids hv1 hp1
        rcases hitem v2 hv2 with rfl | hv2 | hv2
        · exact absurd hp2 own
        · simp only [Stmt.check] at h3
          split at h3
          · rename_i h6
            simp only [Bool.and_eq_true] at h6
            obtain ⟨h6, -⟩ := check_cons (by trivial) h6.2
            simp only [Stmt.check] at h6
            split at h6
            · rename_i h7
              simp only [Bool.and_eq_true, checkArms, Arm.check] at h7
              have h8 := (check_cons (by trivial) h7.2.1).2
              exact ih1 _ (distinctSiblings_mk.1 hd).2 h8 _ p' r1 r2 v1 v2 hv1 hv2 hp1 hp2 a1 ha1 a2 ha2
                fun e v t hv => hs e v t ((hitem' v).2 (.inr (.inl hv)))
            · cases h6
          · cases h3
        · rcases enter hv2 hp2 with ⟨e, -⟩ | ⟨s2, e, e2⟩
          · cases e
          · cases (List.cons.inj e).1
      · rcases hitem v2 hv2 with rfl | hv2 | hv2
        · exact absurd hp2 own
        · obtain ⟨rest, s', rfl⟩ := kids hv2 hp2
          rcases enter hv1 hp1 with ⟨e, -⟩ | ⟨s2, e, e2⟩
          · cases e
          · cases (List.cons.inj e).1
        · rcases enter hv1 hp1 with ⟨rfl, e1⟩ | ⟨s1, rfl, e1⟩
          · simp only [PathSegment.dynamic.injEq] at e1
            subst e1
            have hs' := fun e v t hv hp => hs e v t ((hitem' v).2 (.inr (.inr hv))) hp
            rw [here hcode hdn h5 hs' v1 hv1 a1 ha1, here hcode hdn h5 hs' v2 hv2 a2 ha2]
          · rcases enter hv2 hp2 with ⟨e, -⟩ | ⟨s2, e, e2⟩
            · cases e
            · simp only [List.cons.injEq, true_and] at e
              subst e
              exact ih2 _ hdn h5 s1 p' r1 r2 v1 v2 hv1 hv2 e1 e2 a1 ha1 a2 ha2
                fun e v t hv hp => hs e v t ((hitem' v).2 (.inr (.inr hv))) (by rw [hp]; simp [CodeKind.pth])
  | @enter r pth q b _ ih =>
    intro sc hd hc s p r1 r2 v1 v2 hv1 hv2 hp1 hp2 a1 ha1 a2 ha2 hs
    rw [demandBlock_append (separatorHead_inferred _).1] at hc
    obtain ⟨-, h2⟩ := check_append (sepHead_stays _) hc
    simp only [demandBlock, demandStmt] at h2
    exact ih sc hd (check_cons (by trivial) h2).2 s p r1 r2 v1 v2 hv1 hv2 hp1 hp2 a1 ha1 a2 ha2 hs
  | none h =>
    intro sc hd hc s p r1 r2 v1 v2 hv1
    exact absurd hv1 (liveItem_none h v1)
  | @sep ns u pth q n b hn hseg huniq _ _ ih =>
    intro sc hd hc s p r1 r2 v1 v2 hv1 hv2 hp1 hp2 a1 ha1 a2 ha2 hs
    have hv1 := (liveItem_sep hn hseg huniq).1 hv1
    have hv2 := (liveItem_sep hn hseg huniq).1 hv2
    rcases enter hv1 hp1 with ⟨-, e1⟩ | ⟨s1, rfl, e1⟩
    · cases e1
    · rcases enter hv2 hp2 with ⟨e, -⟩ | ⟨s2, e, e2⟩
      · cases e
      · simp only [List.cons.injEq, true_and] at e
        subst e
        exact ih sc (hd _ hn) hc s1 p r1 r2 v1 v2 hv1 hv2 e1 e2 a1 ha1 a2 ha2
          fun e v t hv hp => hs e v t ((liveItem_sep hn hseg huniq).2 hv) (by rw [hp]; simp [CodeKind.pth])
  | @chain ns u w pth q b l c _ _ _ hext _ _ ih =>
    intro sc hd hc s p r1 r2 v1 v2 hv1 hv2 hp1 hp2 a1 ha1 a2 ha2 hs
    simp only [demandBlock, demandStmt] at hc
    have := (check_cons (by trivial) (check_cons (by trivial) hc).2).2
    exact ih sc hd this s p r1 r2 v1 v2 ((liveItem_chain hext).1 hv1) ((liveItem_chain hext).1 hv2) hp1 hp2 a1 ha1 a2 ha2
      fun e v t hv => hs e v t ((liveItem_chain hext).2 hv)
  | @branch ns u pth q chars as hall _ _ _ _ ih =>
    intro sc hd hc s p r1 r2 v1 v2 hv1 hv2 hp1 hp2 a1 ha1 a2 ha2 hs
    simp only [demandBlock, demandStmt] at hc
    exact ih sc hd (check_cons (by trivial) hc).2 s p r1 r2 v1 v2 ((liveItem_branch hall).1 hv1) ((liveItem_branch hall).1 hv2)
      hp1 hp2 a1 ha1 a2 ha2 fun e v t hv => hs e v t ((liveItem_branch hall).2 hv)
  | armsNil =>
    intro sc hd hc s p r1 r2 v1 v2 hv1
    simp [KindItem] at hv1
  | @armsCons ns u pth q ch chars b as _ _ ih1 ih2 =>
    intro sc hd hc s p r1 r2 v1 v2 hv1 hv2 hp1 hp2 a1 ha1 a2 ha2 hs
    simp only [demandBlock, demandStmt, demandArms, demandPathArm] at hc
    obtain ⟨h1, -⟩ := check_cons (by trivial) hc
    simp only [Stmt.check] at h1
    split at h1
    · rename_i h2
      simp only [Bool.and_eq_true, checkArms, Arm.check] at h2
      have hrest : (checkBlock (demandBlock δ [.matchPath 1 as]) sc).isSome = true := by
        simp only [demandBlock, demandStmt, checkBlock, Stmt.check, h2.1.1, h2.1.2, h2.2.2, Bool.and_self, if_true]
        rfl
      -- the next character of the segment decides
      have next : ∀ {v v' : FlattenedRoute} {s : List PathSegment} {p : Param} {t t' : List PathSegment},
          LiveItem (.kids ns (u ++ [ch]) pth q) v → LiveItem (.arms ns u pth q chars) v' →
          v.path = pth ++ (s ++ .dynamic p :: t) → v'.path = pth ++ (s ++ .dynamic p :: t') →
          LiveItem (.arms ns u pth q chars) v := by
        rintro v v' s p t t' ⟨n, hn, rest, hseg, hi⟩ ⟨n', hn', ch', rest', hch, hseg', hi'⟩ hp hp'
        obtain ⟨more, hm⟩ := itemOf_path hi
        obtain ⟨more', hm'⟩ := itemOf_path hi'
        rw [hm, List.append_assoc] at hp
        rw [hm', List.append_assoc] at hp'
        have e := List.append_cancel_left hp
        have e' := List.append_cancel_left hp'
        cases s with
        | nil => simp at e
        | cons x s =>
          simp only [List.cons_append, List.cons.injEq, List.nil_append] at e e'
          have e1 := e.1.trans e'.1.symm
          simp only [PathSegment.static.injEq, List.append_assoc] at e1
          have e2 := List.append_cancel_left e1
          simp only [List.cons_append, List.nil_append, List.cons.injEq] at e2
          obtain ⟨rfl, rfl⟩ := e2
          exact ⟨n, hn, ch, rest, hch, by simpa using hseg, by simpa using hi⟩
      rcases liveItem_armsCons.1 hv1 with hv1 | hv1 <;> rcases liveItem_armsCons.1 hv2 with hv2 | hv2
      · exact ih1 sc hd (check_cons (by trivial) h2.2.1).2 s p r1 r2 v1 v2 hv1 hv2 hp1 hp2 a1 ha1 a2 ha2 fun e v t hv => hs e v t (liveItem_armsCons.2 (.inl hv))
      · exact ih2 sc hd hrest s p r1 r2 v1 v2 (next hv1 hv2 hp1 hp2) hv2 hp1 hp2 a1 ha1 a2 ha2 fun e v t hv => hs e v t (liveItem_armsCons.2 (.inr hv))
      · exact ih2 sc hd hrest s p r1 r2 v1 v2 hv1 (next hv2 hv1 hp2 hp1) hp1 hp2 a1 ha1 a2 ha2 fun e v t hv => hs e v t (liveItem_armsCons.2 (.inr hv))
      · exact ih2 sc hd hrest s p r1 r2 v1 v2 hv1 hv2 hp1 hp2 a1 ha1 a2 ha2 fun e v t hv => hs e v t (liveItem_armsCons.2 (.inr hv))
    · cases h1

end Wayfinder.Rust
