import Verif.Proofs.Code
import Verif.Proofs.Ast
import Verif.Proofs.Pipeline
import Verif.Spec.Size
/-!
# The size of generated code
-/

namespace Wayfinder

/-! ## Sums over children -/

/-- Sum of a function over a list. -/
def sumOver {α : Type} (f : α → Nat) (l : List α) : Nat := (l.map f).sum

@[simp] theorem sumOver_nil {α : Type} (f : α → Nat) : sumOver f [] = 0 := rfl

@[simp] theorem sumOver_cons {α : Type} (f : α → Nat) (a : α) (l : List α) :
    sumOver f (a :: l) = f a + sumOver f l := by simp [sumOver]

@[simp] theorem sumOver_append {α : Type} (f : α → Nat) (l l' : List α) :
    sumOver f (l ++ l') = sumOver f l + sumOver f l' := by simp [sumOver]

theorem le_sumOver {α : Type} {f : α → Nat} {a : α} : ∀ {l : List α}, a ∈ l → f a ≤ sumOver f l
  | b :: l, h => by
    rw [sumOver_cons]
    rcases List.mem_cons.1 h with rfl | h
    · omega
    · have := le_sumOver (f := f) h; omega

/-- The parameter children. -/
def paramKids (ns : List NestedRoutes) : List NestedRoutes :=
  ns.filter fun n => match n.pathSegment with
    | .static _ => false
    | .dynamic _ => true

theorem mem_paramKids {ns : List NestedRoutes} {n : NestedRoutes} {p : Param} (hn : n ∈ ns)
    (hs : n.pathSegment = .dynamic p) : n ∈ paramKids ns := by
  simp [paramKids, hn, hs]

theorem paramKids_names (ns : List NestedRoutes) : (paramKids ns).length = (paramNames ns).length := by
  induction ns with
  | nil => rfl
  | cons n ns ih =>
    cases hs : n.pathSegment <;> simp_all [paramKids, paramNames]

/-- Children are static or parameters. -/
theorem sumOver_split (f : NestedRoutes → Nat) (ns : List NestedRoutes) :
    sumOver f ns = sumOver f (kidsFrom ns []) + sumOver f (paramKids ns) := by
  induction ns with
  | nil => rfl
  | cons n ns ih =>
    cases hs : n.pathSegment <;> simp_all [paramKids, kidsFrom] <;> omega

/-- A sum in which one key counts. -/
theorem sum_one {x : Nat} {ch : Char} : ∀ {chars : Str}, chars.Nodup →
    sumOver (fun c => if c = ch then x else 0) chars = if ch ∈ chars then x else 0
  | [], _ => by simp
  | c :: cs, h => by
    obtain ⟨h1, h2⟩ := List.nodup_cons.1 h
    rw [sumOver_cons, sum_one h2]
    by_cases hc : c = ch
    · subst hc; simp [h1]
    · have : ch ≠ c := fun e => hc e.symm
      simp [hc, this]

theorem sumOver_add {α : Type} (f g : α → Nat) (l : List α) :
    sumOver (fun a => f a + g a) l = sumOver f l + sumOver g l := by
  induction l with
  | nil => rfl
  | cons a l ih => simp only [sumOver_cons, ih]; omega

theorem sumOver_congr {α : Type} {f g : α → Nat} {l : List α} (h : ∀ a ∈ l, f a = g a) :
    sumOver f l = sumOver g l := by
  simp only [sumOver]
  rw [List.map_congr_left h]

theorem kidsFrom_cons (n : NestedRoutes) (ns : List NestedRoutes) (u : Str) :
    kidsFrom (n :: ns) u = (if (match n.pathSegment with
      | .static s => u.isPrefixOf s
      | .dynamic _ => false) = true then [n] else []) ++ kidsFrom ns u := by
  cases hs : n.pathSegment with
  | dynamic p => simp [kidsFrom, hs]
  | static s => by_cases hp : u <+: s <;> simp [kidsFrom, hs, hp]

theorem isPrefixOf_snoc (u rest : Str) (ch : Char) :
    (u ++ [ch]).isPrefixOf (u ++ rest) = true ↔ ∃ rest', rest = ch :: rest' := by
  rw [List.isPrefixOf_iff_prefix]
  constructor
  · rintro ⟨t, ht⟩
    rw [List.append_assoc] at ht
    exact ⟨t, (List.append_cancel_left ht).symm⟩
  · rintro ⟨rest', rfl⟩
    exact ⟨rest', by simp⟩

/-- The children that begin with `u`, grouped by the next character. -/
theorem sum_branch (f : NestedRoutes → Nat) {u : Str} {chars : Str} (hnd : chars.Nodup) :
    ∀ {ns : List NestedRoutes}, (∀ n ∈ ns, ∀ rest, n.pathSegment = .static (u ++ rest) →
        ∃ ch rest', ch ∈ chars ∧ rest = ch :: rest') →
      sumOver (fun ch => sumOver f (kidsFrom ns (u ++ [ch]))) chars = sumOver f (kidsFrom ns u)
  | [], _ => by
    induction chars with
    | nil => rfl
    | cons c cs ih => rw [sumOver_cons, ih (List.nodup_cons.1 hnd).2 (fun _ h => by cases h)]; rfl
  | n :: ns, h => by
    have ih := sum_branch f hnd (ns := ns) fun m hm => h m (List.mem_cons_of_mem _ hm)
    simp only [kidsFrom_cons n ns, sumOver_append, sumOver_add, ih]
    congr 1
    cases hs : n.pathSegment with
    | dynamic p =>
      simp only [Bool.false_eq_true, if_false, sumOver_nil]
      have := sum_one (x := 0) (ch := 'a') hnd
      simpa using this
    | static s =>
      by_cases hp : u.isPrefixOf s = true
      · obtain ⟨rest, rfl⟩ := List.isPrefixOf_iff_prefix.1 hp
        obtain ⟨ch, rest', hch, rfl⟩ := h n (List.mem_cons_self ..) rest hs
        simp only [hp, if_true, sumOver_cons, sumOver_nil, Nat.add_zero]
        rw [sumOver_congr (g := fun c => if c = ch then f n else 0), sum_one hnd, if_pos hch]
        intro c _
        by_cases hc : c = ch
        · subst hc
          have := (isPrefixOf_snoc u (c :: rest') c).2 ⟨_, rfl⟩
          simp [this]
        · have : ¬ (u ++ [c]).isPrefixOf (u ++ ch :: rest') = true := by
            rw [isPrefixOf_snoc]
            rintro ⟨r, hr⟩
            exact hc (List.cons.inj hr).1.symm
          simp [this, hc]
      · have : ∀ c, ¬ (u ++ [c]).isPrefixOf s = true := by
          intro c hc
          obtain ⟨t, ht⟩ := List.isPrefixOf_iff_prefix.1 hc
          exact hp (List.isPrefixOf_iff_prefix.2 ⟨[c] ++ t, by simpa using ht⟩)
        simp only [hp, this, Bool.false_eq_true, if_false, sumOver_nil]
        have := sum_one (x := 0) (ch := 'a') hnd
        simpa using this

/-! ## Weights of literals -/

theorem nestedLiterals_sum (w : MethodArm → Nat) (caps : List Param) (query : List Str) :
    ∀ ns : List NestedRoutes, sumOver w (nestedLiterals caps query ns)
      = sumOver (fun n => sumOver w (n.literals caps query)) ns
  | [] => rfl
  | n :: ns => by simp [nestedLiterals, nestedLiterals_sum w caps query ns]

theorem nestedCounts_sum : ∀ ns : List NestedRoutes, nestedCounts ns = sumOver NestedRoutes.nestedCount ns
  | [] => rfl
  | n :: ns => by simp [nestedCounts, nestedCounts_sum ns]

theorem literals_eq (n : NestedRoutes) (caps : List Param) (query : List Str) :
    n.literals caps query = n.routes.ownLiterals (n.pathSegment.capture caps) query
      ++ n.routes.literalsBelow (n.pathSegment.capture caps) query := by
  obtain ⟨seg, r⟩ := n
  rfl

theorem nestedCount_eq (n : NestedRoutes) : n.nestedCount = n.routes.nestedCount + 1 := by
  obtain ⟨seg, r⟩ := n
  rfl

theorem methodArms_own (pth : List PathSegment) (r : Routes) (q : List Param) :
    methodArms ⟨pth, r.resources, q ++ r.queryParameters⟩ = r.ownLiterals (dynamics pth) (q.map Param.name) := by
  obtain ⟨rs, ns, qs⟩ := r
  simp [methodArms, Routes.ownLiterals, Routes.resources, Routes.queryParameters]

theorem dynamics_snoc (pth : List PathSegment) (seg : PathSegment) :
    dynamics (pth ++ [seg]) = seg.capture (dynamics pth) := by
  cases seg <;> simp [dynamics, PathSegment.capture]

theorem ownMethods_lits (d : FlattenedRoute) : blockLiterals (ownMethods (some d)) = methodArms d := by
  simp only [ownMethods]
  split
  · exact writeMethods_literals d
  · rename_i h
    have : d.resources = [] := by simpa using h
    simp [methodArms, this, blockLiterals]

theorem separatorHead_lits (d : FlattenedRoute) : blockLiterals (separatorHead (some d)) = methodArms d := by
  simp only [separatorHead]
  split
  · exact writeMethods_literals d
  · rename_i h
    have : d.resources = [] := by simpa using h
    simp [methodArms, this, blockLiterals, Stmt.literals]

theorem nestedOneParam_iff : ∀ {ns : List NestedRoutes},
    nestedOneParam ns = true ↔ ∀ n ∈ ns, n.routes.oneParam = true
  | [] => by simp [nestedOneParam]
  | .mk seg r :: ns => by
    simp [nestedOneParam, NestedRoutes.oneParam, nestedOneParam_iff (ns := ns), NestedRoutes.routes]

theorem oneParam_mk {rs : List Resource} {ns : List NestedRoutes} {qs : List Param} :
    (Routes.mk rs ns qs).oneParam = true ↔
      (paramNames ns).length ≤ 1 ∧ ∀ n ∈ ns, n.routes.oneParam = true := by
  simp [Routes.oneParam, nestedOneParam_iff]

/-- The weight of the literals that a piece of code is for. -/
def CodeKind.due (w : MethodArm → Nat) : CodeKind → Nat
  | .block r pth q => sumOver w (r.ownLiterals (dynamics pth) (q.map Param.name))
      + 2 * sumOver w (r.literalsBelow (dynamics pth) (q.map Param.name))
  | .enter r pth q => 2 * sumOver w (r.ownLiterals (dynamics pth) (q.map Param.name))
      + 2 * sumOver w (r.literalsBelow (dynamics pth) (q.map Param.name))
  | .kids ns u pth q =>
    2 * sumOver (fun n => sumOver w (n.literals (dynamics pth) (q.map Param.name))) (kidsFrom ns u)
  | .arms ns u pth q chars =>
    2 * sumOver (fun ch => sumOver (fun n => sumOver w (n.literals (dynamics pth) (q.map Param.name)))
      (kidsFrom ns (u ++ [ch]))) chars

/-- No block with two parameters. -/
def CodeKind.single : CodeKind → Prop
  | .block r _ _ => r.oneParam = true
  | .enter r _ _ => r.oneParam = true
  | .kids ns _ _ _ => ∀ n ∈ ns, n.routes.oneParam = true
  | .arms ns _ _ _ _ => ∀ n ∈ ns, n.routes.oneParam = true

theorem paramKids_one {ns : List NestedRoutes} {n : NestedRoutes} {p : Param} (hn : n ∈ ns)
    (hs : n.pathSegment = .dynamic p) (h1 : (paramNames ns).length ≤ 1) (f : NestedRoutes → Nat) :
    sumOver f (paramKids ns) = f n := by
  have hm := mem_paramKids hn hs
  rw [← paramKids_names] at h1
  match hk : paramKids ns, h1, hm with
  | [a], _, hm =>
    simp only [List.mem_singleton] at hm
    subst hm
    simp

theorem kidsFrom_nil_of_none {ns : List NestedRoutes} (h : staticTexts ns = []) : kidsFrom ns [] = [] := by
  apply List.eq_nil_iff_forall_not_mem.2
  intro n hn
  obtain ⟨hn, rest, hs⟩ := mem_kidsFrom.1 hn
  have : rest ∈ staticTexts ns := mem_staticTexts.2 ⟨n, hn, by simpa using hs⟩
  rw [h] at this; cases this

theorem kidsFrom_eq_nil {ns : List NestedRoutes} {u : Str}
    (h : ∀ n ∈ ns, ∀ rest, n.pathSegment ≠ .static (u ++ rest)) : kidsFrom ns u = [] := by
  apply List.eq_nil_iff_forall_not_mem.2
  intro n hn
  obtain ⟨hn, rest, hs⟩ := mem_kidsFrom.1 hn
  exact h n hn rest hs

theorem paramKids_nil_of_none {ns : List NestedRoutes} (h : paramNames ns = []) : paramKids ns = [] := by
  have := paramKids_names ns
  rw [h] at this
  exact List.eq_nil_of_length_eq_zero this

theorem kidsFrom_all {ns : List NestedRoutes} {w : Str} (h : ∀ s ∈ staticTexts ns, w <+: s) :
    kidsFrom ns [] = kidsFrom ns w := by
  have := kidsFrom_extend (ns := ns) (u := []) (w := w) (by
    intro n hn rest hs
    obtain ⟨t, ht⟩ := h rest (mem_staticTexts.2 ⟨n, hn, by simpa using hs⟩)
    exact ⟨t, ht.symm⟩)
  simpa using this

/-- The literals written by a piece of code are those it is for, except that a block may drop all but one
of its parameters. -/
theorem code_weight (w : MethodArm → Nat) {k : CodeKind} {b : List Stmt} (h : Code k b) :
    sumOver w (blockLiterals b) ≤ k.due w ∧ (k.single → sumOver w (blockLiterals b) = k.due w) := by
  induction h with
  | @plain rs ns qs pth q cb hpar _ ih =>
    have hown := methodArms_own pth (.mk rs ns qs) q
    simp only [Routes.resources, Routes.queryParameters] at hown
    have hsplit := sumOver_split (fun n => sumOver w (n.literals (dynamics pth) ((q ++ qs).map Param.name))) ns
    rw [paramKids_nil_of_none hpar, sumOver_nil] at hsplit
    simp only [CodeKind.due, CodeKind.single, Routes.literalsBelow, blockLiterals_append, sumOver_append,
      ownMethods_lits, hown, nestedLiterals_sum, List.map_append] at ih hsplit ⊢
    refine ⟨by omega, fun h1 => ?_⟩
    have := ih.2 (oneParam_mk.1 h1).2
    omega
  | @param rs ns qs pth q n p b hn hseg _ hst _ ih =>
    have hown := methodArms_own pth (.mk rs ns qs) q
    simp only [Routes.resources, Routes.queryParameters] at hown
    have hsplit := sumOver_split (fun n => sumOver w (n.literals (dynamics pth) ((q ++ qs).map Param.name))) ns
    rw [kidsFrom_nil_of_none hst, sumOver_nil] at hsplit
    have hle := le_sumOver (f := fun n => sumOver w (n.literals (dynamics pth) ((q ++ qs).map Param.name)))
      (mem_paramKids hn hseg)
    have hlit := congrArg (sumOver w) (literals_eq n (dynamics pth) ((q ++ qs).map Param.name))
    simp only [CodeKind.due, CodeKind.single, Routes.literalsBelow, blockLiterals_append, sumOver_append,
      ownMethods_lits, hown, nestedLiterals_sum, List.map_append, blockLiterals, Stmt.literals,
      List.nil_append, dynamicHead_literals, hseg, dynamics_snoc] at ih hsplit hle hlit ⊢
    refine ⟨by omega, fun h1 => ?_⟩
    have h2 := ih.2 ((oneParam_mk.1 h1).2 n hn)
    have h3 := paramKids_one hn hseg (oneParam_mk.1 h1).1
      (fun n => sumOver w (n.literals (dynamics pth) ((q ++ qs).map Param.name)))
    simp only [List.map_append] at h3
    omega
  | @both rs ns qs pth q n p b sb w' l c _ hn hseg _ _ hpre _ _ _ ih1 ih2 =>
    have hown := methodArms_own pth (.mk rs ns qs) q
    simp only [Routes.resources, Routes.queryParameters] at hown
    have hsplit := sumOver_split (fun n => sumOver w (n.literals (dynamics pth) ((q ++ qs).map Param.name))) ns
    rw [kidsFrom_all hpre] at hsplit
    have hle := le_sumOver (f := fun n => sumOver w (n.literals (dynamics pth) ((q ++ qs).map Param.name)))
      (mem_paramKids hn hseg)
    have hlit := congrArg (sumOver w) (literals_eq n (dynamics pth) ((q ++ qs).map Param.name))
    simp only [CodeKind.due, CodeKind.single, Routes.literalsBelow, blockLiterals_append, sumOver_append,
      ownMethods_lits, hown, nestedLiterals_sum, List.map_append, blockLiterals, Stmt.literals,
      armsLiterals, Arm.literals, List.append_nil,
      List.nil_append, dynamicHead_literals, hseg, dynamics_snoc] at ih1 ih2 hsplit hle hlit ⊢
    refine ⟨by omega, fun h1 => ?_⟩
    have h2 := ih1.2 (oneParam_mk.1 h1).2
    have h3 := ih2.2 ((oneParam_mk.1 h1).2 n hn)
    have h4 := paramKids_one hn hseg (oneParam_mk.1 h1).1
      (fun n => sumOver w (n.literals (dynamics pth) ((q ++ qs).map Param.name)))
    simp only [List.map_append] at h4
    omega
  | @enter r pth q b _ ih =>
    have hown := methodArms_own pth r q
    simp only [CodeKind.due, CodeKind.single, blockLiterals_append, sumOver_append, separatorHead_lits,
      hown, blockLiterals, Stmt.literals, armsLiterals, Arm.literals, List.append_nil,
      List.nil_append] at ih ⊢
    refine ⟨by omega, fun h1 => ?_⟩
    have := ih.2 h1
    omega
  | @none ns u pth q hno =>
    have : kidsFrom ns u = [] := kidsFrom_eq_nil hno
    simp [blockLiterals, Stmt.literals, CodeKind.due, this]
  | @sep ns u pth q n b hn hseg _ hk _ ih =>
    have hlit := congrArg (sumOver w) (literals_eq n (dynamics pth) (q.map Param.name))
    simp only [CodeKind.due, CodeKind.single, hk, sumOver_cons, sumOver_nil, hseg, dynamics_snoc,
      sumOver_append] at ih hlit ⊢
    refine ⟨by omega, fun h1 => ?_⟩
    have := ih.2 (h1 n hn)
    omega
  | @chain ns u w' pth q b l c _ _ _ hall _ _ ih =>
    rw [show CodeKind.due w (.kids ns u pth q) = CodeKind.due w (.kids ns (u ++ w') pth q) by
      simp only [CodeKind.due, kidsFrom_extend hall]]
    simpa [blockLiterals, Stmt.literals, armsLiterals, Arm.literals, CodeKind.single] using ih
  | @branch ns u pth q chars as hall _ _ hnd _ ih =>
    rw [show CodeKind.due w (.kids ns u pth q) = CodeKind.due w (.arms ns u pth q chars) by
      simp only [CodeKind.due, sum_branch _ hnd hall]]
    simpa [blockLiterals, Stmt.literals, CodeKind.single] using ih
  | armsNil => simp [blockLiterals, Stmt.literals, armsLiterals, Arm.literals, CodeKind.due]
  | @armsCons ns u pth q ch chars b as _ _ ih1 ih2 =>
    simp only [CodeKind.due, CodeKind.single, blockLiterals, Stmt.literals, armsLiterals, Arm.literals,
      List.append_nil, List.nil_append, sumOver_append, sumOver_cons] at ih1 ih2 ⊢
    refine ⟨by omega, fun h1 => ?_⟩
    have := ih1.2 h1
    have := ih2.2 h1
    omega

/-! ## Lines -/

mutual
/-- The number of lines of a statement. -/
def Stmt.lines : Stmt → Nat
  | .ifThen _ body => 2 + blockLines body
  | .matchMethod arms => 3 + sumOver MethodArm.lineCount arms
  | .matchPath _ arms => 2 + armsLines arms
  | .whileScan => 3
  | .letParam _ _ => 2
  | _ => 1
/-- The number of lines of a statement list. -/
def blockLines : List Stmt → Nat
  | [] => 0
  | s :: ss => s.lines + blockLines ss
/-- The number of lines of an arm. -/
def Arm.lines : Arm → Nat
  | .bytes _ body => 2 + blockLines body
  | .stray body => blockLines body
  | _ => 1
/-- The number of lines of an arm list. -/
def armsLines : List Arm → Nat
  | [] => 0
  | a :: as => a.lines + armsLines as
end

theorem blockLines_append (a b : List Stmt) : blockLines (a ++ b) = blockLines a + blockLines b := by
  induction a with
  | nil => simp [blockLines]
  | cons s ss ih => simp only [List.cons_append, blockLines, ih]; omega

theorem ownMethods_lines (d : FlattenedRoute) :
    blockLines (ownMethods (some d)) ≤ 5 + sumOver MethodArm.lineCount (methodArms d) := by
  simp only [ownMethods]
  split
  · simp only [writeMethods, blockLines, Stmt.lines]; omega
  · simp [blockLines]

theorem separatorHead_lines (d : FlattenedRoute) :
    blockLines (separatorHead (some d)) ≤ 5 + sumOver MethodArm.lineCount (methodArms d) := by
  simp only [separatorHead]
  split
  · simp only [writeMethods, blockLines, Stmt.lines]; omega
  · simp only [blockLines, Stmt.lines]; omega

/-- The lines allowed for a child and what is below. -/
def NestedRoutes.room (caps : List Param) (query : List Str) (n : NestedRoutes) : Nat :=
  47 * n.nestedCount + 2 * sumOver MethodArm.lineCount (n.literals caps query)

/-- The lines allowed for the children of a block. -/
def Routes.roomBelow (caps : List Param) (query : List Str) (r : Routes) : Nat :=
  47 * r.nestedCount + 2 * sumOver MethodArm.lineCount (r.literalsBelow caps query)

theorem roomBelow_sum (caps : List Param) (query : List Str) (rs : List Resource) (ns : List NestedRoutes)
    (qs : List Param) : (Routes.mk rs ns qs).roomBelow caps query
      = sumOver (NestedRoutes.room caps (query ++ qs.map Param.name)) ns := by
  simp only [Routes.roomBelow, Routes.nestedCount, Routes.literalsBelow, nestedLiterals_sum, nestedCounts_sum]
  induction ns with
  | nil => rfl
  | cons n ns ih => simp only [sumOver_cons, NestedRoutes.room]; omega

theorem room_eq (caps : List Param) (query : List Str) (n : NestedRoutes) :
    n.room caps query = 47
      + 2 * sumOver MethodArm.lineCount (n.routes.ownLiterals (n.pathSegment.capture caps) query)
      + n.routes.roomBelow (n.pathSegment.capture caps) query := by
  simp only [NestedRoutes.room, literals_eq, nestedCount_eq, Routes.roomBelow, sumOver_append]
  omega

/-- A bound on the lines of a piece of code. -/
def CodeKind.fits (l : Nat) : CodeKind → Prop
  | .block r pth q =>
    l ≤ 6 + sumOver MethodArm.lineCount (r.ownLiterals (dynamics pth) (q.map Param.name))
      + r.roomBelow (dynamics pth) (q.map Param.name)
  | .enter r pth q =>
    l + 30 ≤ 47 + 2 * sumOver MethodArm.lineCount (r.ownLiterals (dynamics pth) (q.map Param.name))
      + r.roomBelow (dynamics pth) (q.map Param.name)
  | .kids ns u pth q =>
    (kidsFrom ns u = [] → l ≤ 1) ∧
    (kidsFrom ns u ≠ [] →
      l + 21 ≤ sumOver (NestedRoutes.room (dynamics pth) (q.map Param.name)) (kidsFrom ns u) ∧
      (¬ Forced ns u →
        l + 30 ≤ sumOver (NestedRoutes.room (dynamics pth) (q.map Param.name)) (kidsFrom ns u)))
  | .arms ns u pth q chars =>
    (∀ ch ∈ chars, kidsFrom ns (u ++ [ch]) ≠ []) →
    l + 18 * chars.length ≤ 3 +
      sumOver (fun ch => sumOver (NestedRoutes.room (dynamics pth) (q.map Param.name))
        (kidsFrom ns (u ++ [ch]))) chars

theorem dynamicHead_lines (x : Str) (b : List Stmt) : blockLines (dynamicHead x b) = 9 := by
  simp [dynamicHead, blockLines, Stmt.lines]

theorem code_lines {k : CodeKind} {b : List Stmt} (h : Code k b) : k.fits (blockLines b) := by
  induction h with
  | @plain rs ns qs pth q cb hpar _ ih =>
    have hown := methodArms_own pth (.mk rs ns qs) q
    simp only [Routes.resources, Routes.queryParameters] at hown
    have hlines := ownMethods_lines ⟨pth, rs, q ++ qs⟩
    have hsplit := sumOver_split (NestedRoutes.room (dynamics pth) ((q ++ qs).map Param.name)) ns
    rw [paramKids_nil_of_none hpar, sumOver_nil] at hsplit
    simp only [CodeKind.fits, blockLines_append, roomBelow_sum, hown, List.map_append] at *
    by_cases hk : kidsFrom ns [] = []
    · have := ih.1 hk; omega
    · have := (ih.2 hk).1; omega
  | @param rs ns qs pth q n p b hn hseg _ hst _ ih =>
    have hown := methodArms_own pth (.mk rs ns qs) q
    simp only [Routes.resources, Routes.queryParameters] at hown
    have hlines := ownMethods_lines ⟨pth, rs, q ++ qs⟩
    have hsplit := sumOver_split (NestedRoutes.room (dynamics pth) ((q ++ qs).map Param.name)) ns
    have hle := le_sumOver (f := NestedRoutes.room (dynamics pth) ((q ++ qs).map Param.name))
      (mem_paramKids hn hseg)
    have hroom := room_eq (dynamics pth) ((q ++ qs).map Param.name) n
    simp only [CodeKind.fits, blockLines_append, roomBelow_sum, hown, List.map_append, blockLines,
      Stmt.lines, dynamicHead_lines, hseg, dynamics_snoc] at *
    omega
  | @both rs ns qs pth q n p b sb w' l c _ hn hseg _ _ hpre _ _ _ ih1 ih2 =>
    have hown := methodArms_own pth (.mk rs ns qs) q
    simp only [Routes.resources, Routes.queryParameters] at hown
    have hlines := ownMethods_lines ⟨pth, rs, q ++ qs⟩
    have hsplit := sumOver_split (NestedRoutes.room (dynamics pth) ((q ++ qs).map Param.name)) ns
    rw [kidsFrom_all hpre] at hsplit
    have hle := le_sumOver (f := NestedRoutes.room (dynamics pth) ((q ++ qs).map Param.name))
      (mem_paramKids hn hseg)
    have hroom := room_eq (dynamics pth) ((q ++ qs).map Param.name) n
    simp only [CodeKind.fits, blockLines_append, roomBelow_sum, hown, List.map_append, blockLines,
      Stmt.lines, armsLines, Arm.lines, dynamicHead_lines, hseg, dynamics_snoc] at *
    by_cases hk : kidsFrom ns w' = []
    · have := ih1.1 hk; omega
    · have := (ih1.2 hk).1; omega
  | @enter r pth q b _ ih =>
    have hown := methodArms_own pth r q
    have hlines := separatorHead_lines ⟨pth, r.resources, q ++ r.queryParameters⟩
    simp only [CodeKind.fits, blockLines_append, hown, blockLines, Stmt.lines, armsLines, Arm.lines] at *
    omega
  | @none ns u pth q hno =>
    have : kidsFrom ns u = [] := kidsFrom_eq_nil hno
    simp [blockLines, Stmt.lines, CodeKind.fits, this]
  | @sep ns u pth q n b hn hseg _ hk _ ih =>
    have hroom := room_eq (dynamics pth) (q.map Param.name) n
    simp only [CodeKind.fits, hseg, dynamics_snoc] at ih hroom ⊢
    rw [hk, sumOver_cons, sumOver_nil]
    exact ⟨fun h => by simp at h, fun _ => ⟨by omega, fun _ => by omega⟩⟩
  | @chain ns u w' pth q b l c _ hw hex hall hstop _ ih =>
    have hk := kidsFrom_extend hall
    simp only [CodeKind.fits, ← hk, blockLines, Stmt.lines, armsLines, Arm.lines] at *
    obtain ⟨n, hn, rest, hseg⟩ := hex
    have hne : kidsFrom ns u ≠ [] := by
      intro h0
      have : n ∈ kidsFrom ns u := mem_kidsFrom.2 ⟨hn, rest, hseg⟩
      rw [h0] at this; cases this
    have := (ih.2 hne).2 hstop
    refine ⟨fun h => absurd h hne, fun _ => ⟨by omega, fun hf => absurd ?_ hf⟩⟩
    cases w' with
    | nil => exact absurd rfl hw
    | cons ch w' =>
      refine ⟨ch, fun n hn rest hs => ?_⟩
      obtain ⟨rest', rfl⟩ := hall n hn rest hs
      exact ⟨w' ++ rest', rfl⟩
  | @branch ns u pth q chars as hall hex h2 hnd _ ih =>
    have hsum := sum_branch (NestedRoutes.room (dynamics pth) (q.map Param.name)) hnd hall
    have hne : ∀ ch ∈ chars, kidsFrom ns (u ++ [ch]) ≠ [] := by
      intro ch hch h0
      obtain ⟨n, hn, rest, hs⟩ := hex ch hch
      have : n ∈ kidsFrom ns (u ++ [ch]) := mem_kidsFrom.2 ⟨hn, rest, by simpa using hs⟩
      rw [h0] at this; cases this
    simp only [CodeKind.fits, blockLines, Stmt.lines, hsum] at *
    have := ih hne
    refine ⟨fun h0 => ?_, fun _ => ⟨by omega, fun _ => by omega⟩⟩
    rw [h0, sumOver_nil] at this
    omega
  | armsNil => simp [blockLines, Stmt.lines, armsLines, Arm.lines, CodeKind.fits]
  | @armsCons ns u pth q ch chars b as _ _ ih1 ih2 =>
    simp only [CodeKind.fits, blockLines, Stmt.lines, armsLines, Arm.lines, sumOver_cons,
      List.length_cons] at *
    intro hne
    have h1 := (ih1.2 (hne ch (List.mem_cons_self ..))).1
    have h2 := ih2 fun c hc => hne c (List.mem_cons_of_mem _ hc)
    omega

/-! ## Texts -/

theorem lineCount_append (a b : Str) : lineCount (a ++ b) = lineCount a + lineCount b := by
  simp [lineCount]

theorem lineCount_zero {s : Str} (h : '\n' ∉ s) : lineCount s = 0 := List.count_eq_zero.2 h

theorem ind_no (k : Nat) : '\n' ∉ ind k := by
  induction k with
  | zero => simp [ind]
  | succ k ih => simp [ind, ih]

theorem lineCount_line {s : Str} (h : '\n' ∉ s) (k : Nat) : lineCount (line k s) = 1 := by
  simp only [line, lineCount_append, lineCount_zero h, lineCount_zero (ind_no k)]
  rfl

/-- No newline in the texts of an arm of `match method`. -/
def MethodArm.flat (a : MethodArm) : Prop :=
  '\n' ∉ a.name ∧ (∀ m ∈ a.modules, '\n' ∉ m) ∧ (∀ p ∈ a.captures, '\n' ∉ p.name) ∧ ∀ n ∈ a.nones, '\n' ∉ n

mutual
/-- No newline in the texts of a statement. -/
def Stmt.flat : Stmt → Prop
  | .ifThen _ body => blockFlat body
  | .matchMethod arms => ∀ a ∈ arms, a.flat
  | .matchPath _ arms => armsFlat arms
  | .letParam x _ => '\n' ∉ x
  | _ => True
/-- No newline in the texts of a statement list. -/
def blockFlat : List Stmt → Prop
  | [] => True
  | s :: ss => s.flat ∧ blockFlat ss
/-- No newline in the texts of an arm. -/
def Arm.flat : Arm → Prop
  | .bytes pat body => '\n' ∉ pat ∧ blockFlat body
  | .stray body => blockFlat body
  | _ => True
/-- No newline in the texts of an arm list. -/
def armsFlat : List Arm → Prop
  | [] => True
  | a :: as => a.flat ∧ armsFlat as
end

theorem blockFlat_append {a b : List Stmt} : blockFlat (a ++ b) ↔ blockFlat a ∧ blockFlat b := by
  induction a with
  | nil => simp [blockFlat]
  | cons s ss ih => simp [blockFlat, ih, and_assoc]

theorem upper_no (c : Char) (h : c ≠ '\n') : c.toUpper ≠ '\n' := by
  intro e
  have h1 := toNat_toUpper c
  rw [e] at h1
  by_cases hl : AsciiLower c
  · rw [if_pos hl] at h1
    have := hl.1
    have h2 : ('\n' : Char).toNat = 10 := rfl
    omega
  · rw [toUpper_of_not hl] at e; exact h e

theorem lower_no (c : Char) (h : c ≠ '\n') : c.toLower ≠ '\n' := by
  intro e
  have h1 := toNat_toLower c
  rw [e] at h1
  by_cases hl : AsciiUpper c
  · rw [if_pos hl] at h1
    have := hl.1
    have h2 : ('\n' : Char).toNat = 10 := rfl
    omega
  · rw [toLower_of_not hl] at e; exact h e

theorem caps_no {s : Str} (h : '\n' ∉ s) : '\n' ∉ toCapsCase s := fun hm =>
  toCapsCase_all (P := (· ≠ '\n')) upper_no (fun _ hc e => h (e ▸ hc)) _ hm rfl

theorem snake_no {s : Str} (h : '\n' ∉ s) : '\n' ∉ toSnakeCase s := fun hm =>
  toSnakeCase_all (P := (· ≠ '\n')) lower_no (by decide) (fun _ hc e => h (e ▸ hc)) _ hm rfl

theorem moduleNest_no : ∀ (ms : List Str) (path accum parens : Str), (∀ m ∈ ms, '\n' ∉ m) →
    '\n' ∉ path → '\n' ∉ accum → '\n' ∉ parens →
    '\n' ∉ (moduleNest ms path accum parens).1 ∧ '\n' ∉ (moduleNest ms path accum parens).2.1
      ∧ '\n' ∉ (moduleNest ms path accum parens).2.2
  | [], _, _, _, _, h1, h2, h3 => ⟨h1, h2, h3⟩
  | m :: ms, path, accum, parens, hm, h1, h2, h3 => by
    have hc := caps_no (hm m (List.mem_cons_self ..))
    have hs := snake_no (hm m (List.mem_cons_self ..))
    apply moduleNest_no ms _ _ _ fun x hx => hm x (List.mem_cons_of_mem _ hx)
    · simp [h1, hs]
    · simp [h1, h2, hc]
    · simp [h3]

theorem lineCount_flatten {α : Type} {f : α → Str} : ∀ {l : List α}, (∀ a ∈ l, lineCount (f a) = 1) →
    lineCount (l.map f).flatten = l.length
  | [], _ => rfl
  | a :: l, h => by
    have ih := lineCount_flatten (l := l) fun b hb => h b (List.mem_cons_of_mem _ hb)
    simp only [List.map_cons, List.flatten_cons, lineCount_append, ih, h a (List.mem_cons_self ..),
      List.length_cons]
    omega

theorem methodArm_lineCount {a : MethodArm} (h : a.flat) (k : Nat) : lineCount (a.render k) = a.lineCount := by
  obtain ⟨h1, h2, h3, h4⟩ := h
  have hm := moduleNest_no a.modules [] [] [] h2 (by simp) (by simp) (by simp)
  have hc := caps_no h1
  have hb : '\n' ∉ a.method.byteStr := by cases a.method <;> decide
  simp only [MethodArm.render, lineCount_append, MethodArm.lineCount]
  rw [lineCount_line, lineCount_line, lineCount_flatten, lineCount_flatten]
  · omega
  · intro n hn; exact lineCount_line (by simp [h4 n hn]) _
  · intro p hp; exact lineCount_line (by simp [h3 p hp]) _
  · simp [hm.2.2]
  · cases a.isRedirect <;> simp [hm.1, hm.2.1, hc, hb]

theorem natStr_no (n : Nat) : '\n' ∉ natStr n := by
  intro h
  have := (Rust.word_digits n).2 _ h
  revert this
  decide

theorem lineCount_arms : ∀ {as : List MethodArm} (_ : ∀ a ∈ as, a.flat) (k : Nat),
    lineCount (as.map (MethodArm.render k)).flatten = sumOver MethodArm.lineCount as
  | [], _, _ => rfl
  | a :: as, h, k => by
    simp only [List.map_cons, List.flatten_cons, lineCount_append, sumOver_cons,
      methodArm_lineCount (h a (List.mem_cons_self ..)),
      lineCount_arms (as := as) (fun b hb => h b (List.mem_cons_of_mem _ hb)) k]

theorem cond_no (c : Cond) : '\n' ∉ c.render := by
  cases c <;> simp [Cond.render, natStr_no]

mutual
theorem stmt_lineCount (k : Nat) : ∀ (s : Stmt), s.flat → lineCount (s.render k) = s.lines
  | .blank, _ => rfl
  | .letStart, _ => by simp only [Stmt.render, Stmt.lines]; exact lineCount_line (by decide) k
  | .addI n, _ => by
    simp only [Stmt.render, Stmt.lines]; exact lineCount_line (by simp [natStr_no]) k
  | .retNotFound, _ => by simp only [Stmt.render, Stmt.lines]; exact lineCount_line (by decide) k
  | .ifThen c body, h => by
    have hc := cond_no c
    simp only [Stmt.render, Stmt.lines, lineCount_append, block_lineCount (k + 1) body h]
    rw [lineCount_line (by simp [hc]), lineCount_line (by decide)]; omega
  | .matchMethod arms, h => by
    simp only [Stmt.render, Stmt.lines, lineCount_append, lineCount_arms h]
    rw [lineCount_line (by decide), lineCount_line (by decide), lineCount_line (by decide)]; omega
  | .matchPath n arms, h => by
    simp only [Stmt.render, Stmt.lines, lineCount_append, arms_lineCount (k + 1) arms h]
    rw [lineCount_line (by simp [natStr_no]), lineCount_line (by decide)]; omega
  | .whileScan, _ => by
    simp only [Stmt.render, Stmt.lines, lineCount_append]
    rw [lineCount_line (by decide), lineCount_line (by decide), lineCount_line (by decide)]
  | .letText, _ => by simp only [Stmt.render, Stmt.lines]; exact lineCount_line (by decide) k
  | .letParam x _, h => by
    simp only [Stmt.flat] at h
    simp only [Stmt.render, Stmt.lines, lineCount_append]
    rw [lineCount_line (by simp [h]), lineCount_line (by simp [h])]
theorem block_lineCount (k : Nat) : ∀ (b : List Stmt), blockFlat b → lineCount (renderBlock k b) = blockLines b
  | [], _ => rfl
  | s :: ss, h => by
    simp only [renderBlock, blockLines, lineCount_append, stmt_lineCount k s h.1, block_lineCount k ss h.2]
theorem arm_lineCount (k : Nat) : ∀ (a : Arm), a.flat → lineCount (a.render k) = a.lines
  | .bytes pat body, h => by
    obtain ⟨h1, h2⟩ := h
    simp only [Arm.render, Arm.lines, lineCount_append, block_lineCount (k + 1) body h2]
    rw [lineCount_line (by simp [h1]), lineCount_line (by decide)]; omega
  | .wildNotFound, _ => by simp only [Arm.render, Arm.lines]; exact lineCount_line (by decide) k
  | .wildNothing, _ => by simp only [Arm.render, Arm.lines]; exact lineCount_line (by decide) k
  | .someSlash, _ => by simp only [Arm.render, Arm.lines]; exact lineCount_line (by decide) k
  | .stray body, h => by simp only [Arm.render, Arm.lines]; exact block_lineCount (k - 1) body h
theorem arms_lineCount (k : Nat) : ∀ (as : List Arm), armsFlat as → lineCount (renderArms k as) = armsLines as
  | [], _ => rfl
  | a :: as, h => by
    simp only [renderArms, armsLines, lineCount_append, arm_lineCount k a h.1, arms_lineCount k as h.2]
end

theorem oneLine_iff {s : Str} : oneLine s = true ↔ '\n' ∉ s := by
  simp only [oneLine, List.all_eq_true, bne_iff_ne]
  exact ⟨fun h hm => h _ hm rfl, fun h c hc e => h (e ▸ hc)⟩

theorem nestedOneLine_iff : ∀ {ns : List NestedRoutes}, nestedOneLine ns = true ↔
    ∀ n ∈ ns, n.pathSegment.oneLine = true ∧ n.routes.oneLine = true
  | [] => by simp [nestedOneLine]
  | .mk seg r :: ns => by
    simp [nestedOneLine, NestedRoutes.oneLine, nestedOneLine_iff (ns := ns), NestedRoutes.routes,
      NestedRoutes.pathSegment]

/-- No newline in the texts a piece of code is made from. -/
def CodeKind.flat : CodeKind → Prop
  | .block r pth q => r.oneLine = true ∧ (∀ p ∈ dynamics pth, '\n' ∉ p.name) ∧ ∀ p ∈ q, '\n' ∉ p.name
  | .enter r pth q => r.oneLine = true ∧ (∀ p ∈ dynamics pth, '\n' ∉ p.name) ∧ ∀ p ∈ q, '\n' ∉ p.name
  | .kids ns _ pth q => nestedOneLine ns = true ∧ (∀ p ∈ dynamics pth, '\n' ∉ p.name) ∧ ∀ p ∈ q, '\n' ∉ p.name
  | .arms ns _ pth q chars => nestedOneLine ns = true ∧ (∀ p ∈ dynamics pth, '\n' ∉ p.name) ∧
      (∀ p ∈ q, '\n' ∉ p.name) ∧ ∀ ch ∈ chars, ch ≠ '\n'

theorem methodArms_flat {d : FlattenedRoute} (h1 : ∀ r ∈ d.resources, r.oneLine = true)
    (h2 : ∀ p ∈ dynamics d.path, '\n' ∉ p.name) (h3 : ∀ p ∈ d.queryParameters, '\n' ∉ p.name) :
    ∀ a ∈ methodArms d, a.flat := by
  intro a ha
  obtain ⟨r, hr, rfl⟩ := List.mem_map.1 ha
  have := h1 r hr
  simp only [Resource.oneLine, Bool.and_eq_true, List.all_eq_true, oneLine_iff] at this
  refine ⟨this.1.1, this.1.2, h2, fun n hn => ?_⟩
  simp only [List.mem_append, List.mem_map] at hn
  rcases hn with ⟨p, hp, rfl⟩ | ⟨p, hp, rfl⟩
  · exact h3 p hp
  · exact this.2 p hp

theorem own_flat {d : FlattenedRoute} (h : ∀ a ∈ methodArms d, a.flat) : blockFlat (ownMethods (some d)) := by
  simp only [ownMethods]
  split
  · exact ⟨⟨h, trivial⟩, trivial⟩
  · trivial

theorem separator_flat {d : FlattenedRoute} (h : ∀ a ∈ methodArms d, a.flat) :
    blockFlat (separatorHead (some d)) := by
  simp only [separatorHead]
  split
  · exact ⟨⟨h, trivial⟩, trivial⟩
  · exact ⟨⟨trivial, trivial⟩, trivial⟩

theorem code_flat {k : CodeKind} {b : List Stmt} (h : Code k b) : k.flat → blockFlat b := by
  induction h with
  | @plain rs ns qs pth q cb hpar _ ih =>
    rintro ⟨h1, h2, h3⟩
    simp only [Routes.oneLine, Bool.and_eq_true, List.all_eq_true, oneLine_iff] at h1
    have hq : ∀ p ∈ q ++ qs, '\n' ∉ p.name := fun p hp => (List.mem_append.1 hp).elim (h3 p) (h1.1.2 p)
    exact blockFlat_append.2 ⟨own_flat (methodArms_flat h1.1.1 h2 hq), ih ⟨h1.2, h2, hq⟩⟩
  | @param rs ns qs pth q n p b hn hseg _ hst _ ih =>
    rintro ⟨h1, h2, h3⟩
    simp only [Routes.oneLine, Bool.and_eq_true, List.all_eq_true, oneLine_iff] at h1
    have hq : ∀ p ∈ q ++ qs, '\n' ∉ p.name := fun p hp => (List.mem_append.1 hp).elim (h3 p) (h1.1.2 p)
    obtain ⟨hs, hr⟩ := nestedOneLine_iff.1 h1.2 n hn
    rw [hseg] at hs
    have hp : '\n' ∉ p.name := oneLine_iff.1 hs
    refine blockFlat_append.2 ⟨own_flat (methodArms_flat h1.1.1 h2 hq), trivial, blockFlat_append.2 ⟨?_, ih ⟨hr, ?_, hq⟩⟩⟩
    · exact ⟨trivial, trivial, trivial, trivial, hp, trivial, trivial⟩
    · intro p' hp'
      rw [dynamics_snoc] at hp'
      rcases List.mem_append.1 hp' with h | h
      · exact h2 p' h
      · rw [List.mem_singleton.1 h]; exact hp
  | @both rs ns qs pth q n p b sb w' l c _ hn hseg _ _ hpre hst _ _ ih1 ih2 =>
    rintro ⟨h1, h2, h3⟩
    simp only [Routes.oneLine, Bool.and_eq_true, List.all_eq_true, oneLine_iff] at h1
    have hq : ∀ p ∈ q ++ qs, '\n' ∉ p.name := fun p hp => (List.mem_append.1 hp).elim (h3 p) (h1.1.2 p)
    obtain ⟨hs, hr⟩ := nestedOneLine_iff.1 h1.2 n hn
    rw [hseg] at hs
    have hp : '\n' ∉ p.name := oneLine_iff.1 hs
    have hw : '\n' ∉ w' := by
      obtain ⟨s, hs⟩ := List.exists_mem_of_ne_nil _ hst
      obtain ⟨n1, hn1, hseg1⟩ := mem_staticTexts.1 hs
      have h5 := (nestedOneLine_iff.1 h1.2 n1 hn1).1
      rw [hseg1] at h5
      obtain ⟨t, rfl⟩ := hpre s hs
      exact fun hm => oneLine_iff.1 h5 (List.mem_append_left _ hm)
    refine blockFlat_append.2 ⟨own_flat (methodArms_flat h1.1.1 h2 hq), trivial, trivial, trivial, ?_,
      blockFlat_append.2 ⟨?_, ih2 ⟨hr, ?_, hq⟩⟩⟩
    · exact ⟨⟨⟨hw, trivial, ih1 ⟨h1.2, h2, hq⟩⟩, trivial, trivial⟩, trivial⟩
    · exact ⟨trivial, trivial, trivial, trivial, hp, trivial, trivial⟩
    · intro p' hp'
      rw [dynamics_snoc] at hp'
      rcases List.mem_append.1 hp' with h | h
      · exact h2 p' h
      · rw [List.mem_singleton.1 h]; exact hp
  | @enter r pth q b _ ih =>
    rintro ⟨h1, h2, h3⟩
    have hb := ih ⟨h1, h2, h3⟩
    obtain ⟨rs, ns, qs⟩ := r
    simp only [Routes.oneLine, Bool.and_eq_true, List.all_eq_true, oneLine_iff] at h1
    have hq : ∀ p ∈ q ++ qs, '\n' ∉ p.name := fun p hp => (List.mem_append.1 hp).elim (h3 p) (h1.1.2 p)
    refine blockFlat_append.2 ⟨separator_flat (methodArms_flat h1.1.1 h2 hq), ?_, hb⟩
    exact ⟨⟨by decide, trivial, trivial⟩, trivial, trivial⟩
  | none _ => exact fun _ => ⟨trivial, trivial⟩
  | @sep ns u pth q n b hn hseg _ hk _ ih =>
    rintro ⟨h1, h2, h3⟩
    exact ih ⟨(nestedOneLine_iff.1 h1 n hn).2, by rw [dynamics_snoc]; exact h2, h3⟩
  | @chain ns u w' pth q b l c _ hw hex hall hstop _ ih =>
    rintro ⟨h1, h2, h3⟩
    have hw : '\n' ∉ w' := by
      obtain ⟨n, hn, rest, hs⟩ := hex
      obtain ⟨rest', rfl⟩ := hall n hn rest hs
      have h5 := (nestedOneLine_iff.1 h1 n hn).1
      rw [hs] at h5
      exact fun hm => oneLine_iff.1 h5 (List.mem_append_right _ (List.mem_append_left _ hm))
    exact ⟨⟨trivial, trivial⟩, ⟨⟨hw, trivial, trivial⟩, trivial, trivial⟩, ih ⟨h1, h2, h3⟩⟩
  | @branch ns u pth q chars as hall hex h2 hnd _ ih =>
    rintro ⟨h1, h2, h3⟩
    refine ⟨⟨trivial, trivial⟩, ih ⟨h1, h2, h3, ?_⟩⟩
    rintro ch hch rfl
    obtain ⟨n, hn, rest, hs⟩ := hex _ hch
    have h5 := (nestedOneLine_iff.1 h1 n hn).1
    rw [hs] at h5
    exact oneLine_iff.1 h5 (by simp)
  | armsNil => exact fun _ => ⟨⟨trivial, trivial⟩, trivial⟩
  | @armsCons ns u pth q ch chars b as _ _ ih1 ih2 =>
    rintro ⟨h1, h2, h3, h4⟩
    have := (ih2 ⟨h1, h2, h3, fun c hc => h4 c (List.mem_cons_of_mem _ hc)⟩).1
    exact ⟨⟨⟨by simpa using (h4 ch (List.mem_cons_self ..)).symm, trivial, ih1 ⟨h1, h2, h3⟩⟩, this⟩, trivial⟩

end Wayfinder
