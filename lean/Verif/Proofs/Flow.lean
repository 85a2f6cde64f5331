import Verif.Spec.Flow
import Verif.Proofs.Code
/-!
# Control flow as rustc sees it: proofs
-/

namespace Wayfinder

/-! ## Types and divergence -/

theorem blockDiverges_append (a b : List Stmt) : blockDiverges (a ++ b) = (blockDiverges a || blockDiverges b) := by
  induction a with
  | nil => rfl
  | cons s ss ih => simp [blockDiverges, ih, Bool.or_assoc]

/-- Statements of type `()` in front of a block with a statement do not matter. -/
theorem blockFits_append {value : Bool} {a b : List Stmt} (ha : ∀ s ∈ a, s.fits false = true) (hd : blockDiverges a = false)
    (hb : b.all Stmt.isBlank = false) : blockFits value false (a ++ b) = blockFits value false b := by
  induction a with
  | nil => rfl
  | cons s ss ih =>
    simp only [blockDiverges, Bool.or_eq_false_iff] at hd
    have h1 : (ss ++ b).all Stmt.isBlank = false := by simp [hb]
    simp only [List.cons_append, blockFits, h1, Bool.and_false, Bool.false_eq_true, if_false, hd.1, Bool.or_false,
      ha s (by simp), Bool.true_and]
    exact ih (fun x hx => ha x (by simp [hx])) hd.2

theorem not_blank_of_diverges : ∀ {b : List Stmt}, blockDiverges b = true → b.all Stmt.isBlank = false
  | [], h => by cases h
  | s :: ss, h => by
    simp only [blockDiverges, Bool.or_eq_true] at h
    rcases h with h | h
    · cases s <;> first | rfl | cases h
    · simp [not_blank_of_diverges h]

theorem ownMethods_fits (d : Option FlattenedRoute) : ∀ s ∈ ownMethods d, s.fits false = true := by
  cases d with
  | none => simp [ownMethods]
  | some route =>
    simp only [ownMethods]
    split
    · simp [writeMethods, Stmt.fits, blockFits, Stmt.isExpr]
    · simp

theorem ownMethods_diverges (d : Option FlattenedRoute) : blockDiverges (ownMethods d) = false := by
  cases d with
  | none => rfl
  | some route =>
    simp only [ownMethods]
    split <;> rfl

theorem separatorHead_fits (d : Option FlattenedRoute) : ∀ s ∈ separatorHead d, s.fits false = true := by
  cases d with
  | none => simp [separatorHead, Stmt.fits, blockFits, Stmt.isExpr]
  | some route =>
    simp only [separatorHead]
    split <;> simp [writeMethods, Stmt.fits, blockFits, Stmt.isExpr]

theorem separatorHead_diverges (d : Option FlattenedRoute) : blockDiverges (separatorHead d) = false := by
  cases d with
  | none => rfl
  | some route =>
    simp only [separatorHead]
    split <;> rfl

/-- What every piece of generated code does. -/
structure Flows (b : List Stmt) : Prop where
  diverges : blockDiverges b = true
  fits : ∀ value, blockFits value false b = true

theorem Flows.append {a b : List Stmt} (hb : Flows b) (ha : ∀ s ∈ a, s.fits false = true) (hd : blockDiverges a = false) :
    Flows (a ++ b) :=
  ⟨by rw [blockDiverges_append, hb.diverges, Bool.or_true],
    fun value => by rw [blockFits_append ha hd (not_blank_of_diverges hb.diverges)]; exact hb.fits value⟩

theorem Flows.arm {b : List Stmt} (hb : Flows b) (n : Nat) : Flows (.addI n :: b) :=
  hb.append (a := [.addI n]) (by simp [Stmt.fits]) rfl

theorem code_flows {k : CodeKind} {b : List Stmt} (h : Code k b) :
    Flows b ∧ (∀ ns u pth q chars, k = .arms ns u pth q chars → ∀ as, b = [.matchPath 1 as] →
      as.any Arm.isWild = true ∧ armsDiverge as = true ∧ ∀ value, armsFit value as = true) := by
  induction h with
  | plain _ _ ih => exact ⟨ih.1.append (ownMethods_fits _) (ownMethods_diverges _), by rintro _ _ _ _ _ ⟨⟩⟩
  | @param rs ns qs pth q n p b _ _ _ _ _ ih =>
    refine ⟨?_, by rintro _ _ _ _ _ ⟨⟩⟩
    refine Flows.append ?_ (ownMethods_fits _) (ownMethods_diverges _)
    exact ih.1.append (a := .letStart :: dynamicHead p.name b) (by simp [dynamicHead, Stmt.fits]) rfl
  | @both rs ns qs pth q n p b sb w l c _ _ _ _ _ _ _ _ _ ih1 ih2 =>
    refine ⟨?_, by rintro _ _ _ _ _ ⟨⟩⟩
    refine Flows.append ?_ (ownMethods_fits _) (ownMethods_diverges _)
    refine ih2.1.append (a := .blank :: .letStart :: .blank :: .ifThen c [.matchPath l [.bytes w (.addI l :: sb), .wildNothing]] ::
      dynamicHead p.name b) ?_ rfl
    simp only [dynamicHead, List.mem_cons, List.not_mem_nil, or_false]
    rintro s (rfl | rfl | rfl | rfl | rfl | rfl | rfl | rfl | rfl | rfl) <;>
      simp [Stmt.fits, blockFits, Stmt.isExpr, Arm.isWild, armsFit, Arm.fits]
    have := (ih1.1.arm l).fits false
    simpa [blockFits, Stmt.isExpr, Stmt.fits] using this
  | @enter r pth q b _ ih =>
    refine ⟨?_, by rintro _ _ _ _ _ ⟨⟩⟩
    refine Flows.append ?_ (separatorHead_fits _) (separatorHead_diverges _)
    exact ih.1.append (a := [.matchPath 1 [.bytes c!"/" [.addI 1], .wildNotFound]]) (by
      simp [Stmt.fits, blockFits, Stmt.isExpr, Arm.isWild, armsFit, Arm.fits]) rfl
  | none => exact ⟨⟨rfl, fun value => by cases value <;> rfl⟩, by rintro _ _ _ _ _ ⟨⟩⟩
  | sep _ _ _ _ _ ih => exact ⟨ih.1, by rintro _ _ _ _ _ ⟨⟩⟩
  | @chain ns u w pth q b l c _ _ _ _ _ _ ih =>
    refine ⟨?_, by rintro _ _ _ _ _ ⟨⟩⟩
    exact ih.1.append (a := [.ifThen c [.retNotFound], .matchPath l [.bytes w [.addI l], .wildNotFound]]) (by
      simp [Stmt.fits, blockFits, Stmt.isExpr, Arm.isWild, armsFit, Arm.fits, Stmt.diverges]) rfl
  | @branch ns u pth q chars as _ _ _ _ _ ih =>
    refine ⟨?_, by rintro _ _ _ _ _ ⟨⟩⟩
    exact ih.1.append (a := [.ifThen .iEqLen [.retNotFound]]) (by
      simp [Stmt.fits, blockFits, Stmt.isExpr, Stmt.diverges]) rfl
  | armsNil =>
    refine ⟨⟨rfl, fun value => by cases value <;> rfl⟩, ?_⟩
    rintro _ _ _ _ _ - _ ⟨⟩
    exact ⟨rfl, rfl, fun _ => rfl⟩
  | @armsCons ns u pth q ch chars b as _ _ ih1 ih2 =>
    obtain ⟨h1, h2, h3⟩ := ih2.2 _ _ _ _ _ rfl _ rfl
    have h4 := (ih1.1.arm 1).diverges
    have h5 := (ih1.1.arm 1).fits
    refine ⟨⟨by simp [blockDiverges, Stmt.diverges, armsDiverge, Arm.diverges, h2] at h4 ⊢; exact h4, fun value => ?_⟩, ?_⟩
    · simp [blockFits, Stmt.isExpr, Stmt.fits, armsFit, Arm.fits, h1, h3]
      simpa [blockFits, Stmt.isExpr, Stmt.fits] using h5 value
    · rintro _ _ _ _ _ - _ ⟨⟩
      exact ⟨by simp [h1], by simp [armsDiverge, h2, Arm.diverges, h4], fun value => by simp [armsFit, h3, Arm.fits, h5 value]⟩

/-! ## Divergence is sound -/

section
variable {W : World} {path method : Bytes}

mutual
theorem Stmt.diverges_sound : ∀ (st : Stmt), st.diverges = true → ∀ s : State W, ∃ o, st.exec path method s = .ret o
  | .retNotFound, _, s => ⟨_, rfl⟩
  | .matchMethod arms, _, s => by
    simp only [Stmt.exec]
    split <;> exact ⟨_, rfl⟩
  | .matchPath n arms, h, s => by
    simp only [Stmt.exec]
    split
    · split
      · exact armsDiverge_sound arms (by simpa [Stmt.diverges] using h) _ s
      · exact ⟨_, rfl⟩
    · exact ⟨_, rfl⟩
  | .blank, h, _ => by cases h
  | .letStart, h, _ => by cases h
  | .addI _, h, _ => by cases h
  | .ifThen _ _, h, _ => by simp [Stmt.diverges] at h
  | .whileScan, h, _ => by cases h
  | .letText, h, _ => by cases h
  | .letParam _ _, h, _ => by cases h
theorem blockDiverges_sound : ∀ (b : List Stmt), blockDiverges b = true → ∀ s : State W, ∃ o, execBlock path method b s = .ret o
  | [], h, _ => by cases h
  | st :: sts, h, s => by
    simp only [blockDiverges, Bool.or_eq_true] at h
    simp only [execBlock]
    rcases h with h | h
    · obtain ⟨o, ho⟩ := st.diverges_sound h s
      exact ⟨o, by rw [ho]⟩
    · cases st.exec path method s with
      | ret o => exact ⟨o, rfl⟩
      | next s' => exact blockDiverges_sound sts h s'
theorem Arm.diverges_sound : ∀ (a : Arm), a.diverges = true → ∀ (slice : Bytes) (s : State W) f, a.exec path method slice s = some f →
    ∃ o, f = .ret o
  | .bytes pat body, h, slice, s, f, hf => by
    simp only [Arm.exec] at hf
    split at hf
    · obtain ⟨o, ho⟩ := blockDiverges_sound body (by simpa [Arm.diverges] using h) s
      rw [ho] at hf
      cases hf
      exact ⟨o, rfl⟩
    · cases hf
  | .wildNotFound, _, _, _, f, hf => by cases hf; exact ⟨_, rfl⟩
  | .wildNothing, h, _, _, _, _ => by cases h
  | .someSlash, h, _, _, _, _ => by cases h
  | .stray _, h, _, _, _, _ => by simp [Arm.diverges] at h
theorem armsDiverge_sound : ∀ (as : List Arm), armsDiverge as = true → ∀ (slice : Bytes) (s : State W),
    ∃ o, execArms path method slice as s = .ret o
  | [], _, _, _ => ⟨_, rfl⟩
  | a :: as, h, slice, s => by
    simp only [armsDiverge, Bool.and_eq_true] at h
    simp only [execArms]
    cases hf : a.exec path method slice s with
    | some f => exact a.diverges_sound h.1 slice s f hf
    | none => exact armsDiverge_sound as h.2 slice s
end

end

mutual
theorem Stmt.fits_diverges : ∀ (st : Stmt), st.fits true = true → st.diverges = true
  | .retNotFound, _ => rfl
  | .matchMethod arms, _ => rfl
  | .matchPath n arms, h => by
    simp only [Stmt.fits, Bool.and_eq_true] at h
    simp only [Stmt.diverges]
    exact armsFit_diverge arms h.2
  | .blank, h => by cases h
  | .letStart, h => by cases h
  | .addI _, h => by cases h
  | .ifThen _ _, h => by simp [Stmt.fits] at h
  | .whileScan, h => by cases h
  | .letText, h => by cases h
  | .letParam _ _, h => by cases h
theorem blockFits_diverges : ∀ (b : List Stmt) (gone : Bool), blockFits true gone b = true → (gone || blockDiverges b) = true
  | [], gone, h => by simpa [blockFits, blockDiverges] using h
  | st :: sts, gone, h => by
    simp only [blockFits] at h
    split at h
    · simp [blockDiverges, st.fits_diverges h]
    · simp only [Bool.and_eq_true] at h
      have := blockFits_diverges sts _ h.2
      simpa [blockDiverges, or_assoc] using this
theorem Arm.fits_diverges : ∀ (a : Arm), a.fits true = true → a.diverges = true
  | .bytes pat body, h => by
    simp only [Arm.fits] at h
    simpa [Arm.diverges] using blockFits_diverges body false h
  | .wildNotFound, _ => rfl
  | .wildNothing, h => by cases h
  | .someSlash, h => by cases h
  | .stray _, h => by simp [Arm.fits] at h
theorem armsFit_diverge : ∀ (as : List Arm), armsFit true as = true → armsDiverge as = true
  | [], _ => rfl
  | a :: as, h => by
    simp only [armsFit, Bool.and_eq_true] at h
    simp [armsDiverge, a.fits_diverges h.1, armsFit_diverge as h.2]
end

/-! ## Lints -/

theorem verbsOnce_mk {rs : List Resource} {ns : List NestedRoutes} {qs : List Param} : VerbsOnce (.mk rs ns qs) ↔
    (rs.map Resource.method).Nodup ∧ (∀ n ∈ ns, ∀ s, n.pathSegment = .static s → VerbsOnce n.routes) ∧
    (∀ n ∈ ns, ∀ p, n.pathSegment = .dynamic p → captor ns = some p.name → VerbsOnce n.routes) := by
  constructor
  · intro h
    refine ⟨h _ _ _ (.here _), fun n hn s hs segs q node hl => ?_, fun n hn p hs hc segs q node hl => ?_⟩
    · cases n with | mk seg sub => cases hs; exact h _ _ _ (.static (r := .mk rs ns qs) hn hl)
    · cases n with | mk seg sub => cases hs; exact h _ _ _ (.dynamic (r := .mk rs ns qs) hn hc hl)
  · rintro ⟨h1, h2, h3⟩ segs q node hl
    cases hl with
    | here => exact h1
    | static hn hl => exact h2 _ hn _ rfl _ _ _ hl
    | dynamic hn hc hl => exact h3 _ hn _ rfl hc _ _ _ hl

/-- What the lints say about each kind of code. -/
def CodeKind.Once : CodeKind → Prop
  | .block r _ _ => VerbsOnce r
  | .enter r _ _ => VerbsOnce r
  | .kids ns u _ _ => ∀ n ∈ ns, ∀ rest, n.pathSegment = .static (u ++ rest) → VerbsOnce n.routes
  | .arms ns u _ _ chars => ∀ ch ∈ chars, ∀ n ∈ ns, ∀ rest, n.pathSegment = .static (u ++ ch :: rest) → VerbsOnce n.routes

/-- The configurations in a piece of code. -/
def CodeKind.Apart : CodeKind → Prop
  | .block r _ _ => DistinctSiblings r
  | .enter r _ _ => DistinctSiblings r
  | .kids ns _ _ _ => ∀ n ∈ ns, DistinctSiblings n.routes
  | .arms ns _ _ _ _ => ∀ n ∈ ns, DistinctSiblings n.routes

theorem blockLive_append : ∀ {a b : List Stmt}, blockDiverges a = false →
    (blockLive (a ++ b) = true ↔ (∀ s ∈ a, s.live = true) ∧ blockLive b = true)
  | [], b, _ => by simp
  | s :: ss, b, hd => by
    simp only [blockDiverges, Bool.or_eq_false_iff] at hd
    simp [blockLive, blockLive_append hd.2, hd.1, and_assoc]

theorem live_methods (pth : List PathSegment) (rs : List Resource) (q : List Param) :
    (∀ s ∈ writeMethods ⟨pth, rs, q⟩, s.live = true) ↔ (rs.map Resource.method).Nodup := by
  simp [writeMethods, Stmt.live, blockLive, methodArms, Stmt.diverges, Function.comp_def]

theorem live_own (pth : List PathSegment) (rs : List Resource) (q : List Param) :
    (∀ s ∈ ownMethods (some ⟨pth, rs, q⟩), s.live = true) ↔ (rs.map Resource.method).Nodup := by
  simp only [ownMethods]
  split
  · exact live_methods pth rs q
  · rename_i h
    have : rs = [] := by simpa using h
    simp [this]

theorem live_separatorHead (pth : List PathSegment) (rs : List Resource) (q : List Param) :
    (∀ s ∈ separatorHead (some ⟨pth, rs, q⟩), s.live = true) ↔ (rs.map Resource.method).Nodup := by
  simp only [separatorHead]
  split
  · exact live_methods pth rs q
  · rename_i h
    have : rs = [] := by simpa using h
    simp [this, Stmt.live, blockLive]

/-- The claim about arms. -/
def ArmsLive (chars : Str) (once : Prop) (as : List Arm) : Prop :=
  (∀ ch body, ch ∉ chars → as.any (Arm.covers (.bytes [ch] body)) = false) ∧ (chars.Nodup → (armsLive as = true ↔ once))

theorem code_live {k : CodeKind} {b : List Stmt} (h : Code k b) : k.Apart →
    match k with
    | .arms ns u pth q chars => ∀ as, b = [.matchPath 1 as] → ArmsLive chars (CodeKind.arms ns u pth q chars).Once as
    | k => blockLive b = true ↔ k.Once := by
  induction h with
  | @plain rs ns qs pth q cb hpar _ ih =>
    intro hap
    have hd := distinctSiblings_mk.1 hap
    have := ih hd.2
    simp only [CodeKind.Once, List.nil_append] at this ⊢
    rw [blockLive_append (ownMethods_diverges _), live_own, this, verbsOnce_mk]
    refine and_congr_right fun _ => ⟨fun h => ⟨fun n hn s hs => h n hn s hs, fun n hn p hs => ?_⟩, fun h n hn s hs => h.1 n hn s hs⟩
    have : p.name ∈ paramNames ns := mem_paramNames.2 ⟨n, hn, p, hs, rfl⟩
    rw [hpar] at this
    cases this
  | @param rs ns qs pth q n p b hn hseg hcap hst _ ih =>
    intro hap
    have hd := distinctSiblings_mk.1 hap
    have := ih (hd.2 n hn)
    simp only [CodeKind.Once] at this ⊢
    rw [blockLive_append (ownMethods_diverges _), live_own, verbsOnce_mk, ← List.cons_append,
      blockLive_append (a := .letStart :: dynamicHead p.name b) rfl, this]
    refine and_congr_right fun _ => ⟨fun h => ⟨fun n' hn' s hs => ?_, fun n' hn' p' hs hc => ?_⟩, fun h => ⟨by
      simp [dynamicHead, Stmt.live], h.2 n hn p hseg hcap⟩⟩
    · have : s ∈ staticTexts ns := mem_staticTexts.2 ⟨n', hn', hs⟩
      rw [hst] at this
      cases this
    · have : n' = n := unique_static hd.1 hn' hn (by
        rw [hs, hseg]; rw [hcap] at hc; simpa [SameSlot] using (Option.some.inj hc).symm)
      rw [this]
      exact h.2
  | @both rs ns qs pth q n p b sb w l c _ hn hseg hcap _ hpre _ _ _ ih1 ih2 =>
    intro hap
    have hd := distinctSiblings_mk.1 hap
    have h1 := ih1 hd.2
    have h2 := ih2 (hd.2 n hn)
    simp only [CodeKind.Once] at h1 h2 ⊢
    rw [blockLive_append (ownMethods_diverges _), live_own, verbsOnce_mk]
    refine and_congr_right fun _ => ?_
    have hsplit := blockLive_append (a := .blank :: .letStart :: .blank ::
      .ifThen c [.matchPath l [.bytes w (.addI l :: sb), .wildNothing]] :: dynamicHead p.name b) (b := b) rfl
    simp only [List.cons_append] at hsplit
    rw [hsplit, h2]
    refine and_congr ?_ ⟨fun h n' hn' p' hs hc => ?_, fun h => h n hn p hseg hcap⟩
    · simp only [dynamicHead, List.mem_cons, List.not_mem_nil, or_false, forall_eq_or_imp, forall_eq, Stmt.live, blockLive, armsLive,
        Arm.live, Arm.covers, List.any_cons, List.any_nil, Bool.or_false, Bool.not_false, Bool.and_true, Bool.true_and, Stmt.diverges,
        List.all_nil, Bool.or_true, Bool.true_or, h1, true_and, and_true]
      constructor
      · intro h n' hn' s hs
        obtain ⟨t, rfl⟩ := hpre s (mem_staticTexts.2 ⟨n', hn', hs⟩)
        exact h n' hn' t hs
      · intro h n' hn' rest hs
        exact h n' hn' _ hs
    · have : n' = n := unique_static hd.1 hn' hn (by
        rw [hs, hseg]; rw [hcap] at hc; simpa [SameSlot] using (Option.some.inj hc).symm)
      rw [this]
      exact h
  | @enter r pth q b _ ih =>
    intro hap
    have := ih hap
    simp only [CodeKind.Once] at this ⊢
    rw [blockLive_append (separatorHead_diverges _), live_separatorHead]
    have h1 : blockLive (.matchPath 1 [.bytes c!"/" [.addI 1], .wildNotFound] :: b) = blockLive b := by
      simp [blockLive, Stmt.live, armsLive, Arm.live, Arm.covers, Stmt.diverges, armsDiverge, Arm.diverges, blockDiverges]
    rw [h1, this]
    exact ⟨fun h => h.2, fun h => ⟨h _ _ _ (.here _), h⟩⟩
  | @none ns u pth q hno =>
    intro _
    simp only [CodeKind.Once]
    exact ⟨fun _ n hn rest hs => absurd hs (hno n hn rest), fun _ => rfl⟩
  | @sep ns u pth q n b hn hseg huniq _ _ ih =>
    intro hap
    have := ih (hap n hn)
    simp only [CodeKind.Once] at this ⊢
    rw [this]
    constructor
    · intro h n' hn' rest hs
      rw [huniq n' hn' rest hs]
      exact h
    · intro h
      exact h n hn [] (by simpa using hseg)
  | @chain ns u w pth q b l c _ _ _ hall _ _ ih =>
    intro hap
    have := ih hap
    simp only [CodeKind.Once] at this ⊢
    have h1 : blockLive (.ifThen c [.retNotFound] :: .matchPath l [.bytes w [.addI l], .wildNotFound] :: b) = blockLive b := by
      simp [blockLive, Stmt.live, armsLive, Arm.live, Arm.covers, Stmt.diverges, armsDiverge, Arm.diverges, blockDiverges]
    rw [h1, this]
    constructor
    · intro h n hn rest hs
      obtain ⟨rest', rfl⟩ := hall n hn rest hs
      exact h n hn rest' (by simpa using hs)
    · intro h n hn rest hs
      exact h n hn _ (by simpa using hs)
  | @branch ns u pth q chars as hall _ _ hnd _ ih =>
    intro hap
    have := (ih hap as rfl).2 hnd
    simp only [CodeKind.Once] at this ⊢
    have h1 : blockLive [.ifThen .iEqLen [.retNotFound], .matchPath 1 as] = armsLive as := by
      simp [blockLive, Stmt.live, Stmt.diverges]
    rw [h1, this]
    constructor
    · intro h n hn rest hs
      obtain ⟨ch, rest', hch, rfl⟩ := hall n hn rest hs
      exact h ch hch n hn rest' hs
    · intro h ch _ n hn rest hs
      exact h n hn _ hs
  | armsNil =>
    intro _ as has
    cases has
    exact ⟨fun _ _ _ => rfl, fun _ => by simp [armsLive, Arm.live, CodeKind.Once]⟩
  | @armsCons ns u pth q ch chars b as _ _ ih1 ih2 =>
    intro hap as' has
    cases has
    obtain ⟨h1, h2⟩ := ih2 hap as rfl
    have h3 := ih1 hap
    refine ⟨fun ch' body hne => ?_, fun hnd => ?_⟩
    · simp only [List.mem_cons, not_or] at hne
      have : ([ch'] == [ch]) = false := by simp [hne.1]
      simp [Arm.covers, this, h1 ch' body hne.2] 
    · rw [List.nodup_cons] at hnd
      have h4 : blockLive (.addI 1 :: b) = blockLive b := by simp [blockLive, Stmt.live, Stmt.diverges]
      simp only [armsLive, Arm.live, h4, h1 ch _ hnd.1, Bool.not_false, Bool.and_true, Bool.and_eq_true, h3, h2 hnd.2, CodeKind.Once,
        List.mem_cons, forall_eq_or_imp, List.append_assoc, List.cons_append, List.nil_append]

end Wayfinder
