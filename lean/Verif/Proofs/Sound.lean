import Verif.Spec.Sound
import Verif.Proofs.Flow
import Verif.Proofs.Ast
/-!
# Checked programs do not go wrong
-/

namespace Wayfinder

variable {W : World} {path m : Bytes}

/-- The value is of the type. -/
def ValOk (W : World) : Ty → Val W → Prop
  | .usize, .usize _ => True
  | .str, .str _ => True
  | .user t, .user v => ∃ text, W.parse t text = .ok v
  | _, _ => False

/-- The variables have the types of the scope. -/
def EnvTyped (W : World) (sc : Scope) (env : List (Str × Val W)) : Prop :=
  List.Forall₂ (fun a b => b.1 = a.1 ∧ ValOk W a.2 b.2) sc env

theorem lookup_typed {sc : Scope} {env : List (Str × Val W)} (h : EnvTyped W sc env) (x : Str) :
    (lookupVar x sc = none ∧ lookupVar x env = none) ∨
    ∃ t v, lookupVar x sc = some t ∧ lookupVar x env = some v ∧ ValOk W t v := by
  induction h with
  | nil => exact .inl ⟨rfl, rfl⟩
  | @cons a b sc env hab _ ih =>
    obtain ⟨y, t⟩ := a
    obtain ⟨z, v⟩ := b
    obtain ⟨h1, h2⟩ := hab
    simp only at h1 h2
    subst h1
    simp only [lookupVar]
    by_cases hx : z = x
    · simp only [hx, if_true]
      exact .inr ⟨t, v, rfl, rfl, h2⟩
    · simpa only [hx, if_false] using ih

theorem free_typed {sc : Scope} {env : List (Str × Val W)} (h : EnvTyped W sc env) {x : Str}
    (hf : sc.free x = true) : lookupVar x env = none := by
  rcases lookup_typed h x with ⟨-, h2⟩ | ⟨t, v, h1, -, -⟩
  · exact h2
  · simp [Scope.free, h1] at hf

theorem asUsize_typed (hW : W.Sound) {t : Ty} {v : Val W} (h : ValOk W t v) (ht : t.isUsize = true) :
    ∃ n, v.asUsize = some n := by
  cases t <;> cases v <;> simp only [ValOk] at h <;> simp only [Ty.isUsize, Bool.false_eq_true, beq_iff_eq] at ht
  · exact ⟨_, rfl⟩
  · subst ht
    obtain ⟨text, h⟩ := h
    exact Option.isSome_iff_exists.1 (hW _ _ h)

theorem readI_typed (hW : W.Sound) {sc : Scope} {s : State W} (h : EnvTyped W sc s.env)
    (hi : sc.index c!"i" = true) : ∃ n, s.readI = some n := by
  simp only [State.readI]
  rcases lookup_typed h c!"i" with ⟨-, h2⟩ | ⟨t, v, h1, h2, h3⟩
  · rw [h2]; exact ⟨_, rfl⟩
  · rw [h2]
    simp only [Scope.index, h1] at hi
    exact asUsize_typed hW h3 hi

theorem readLen_typed (hW : W.Sound) {sc : Scope} {s : State W} (h : EnvTyped W sc s.env)
    (hi : sc.index c!"len" = true) : ∃ n, s.readLen path = some n := by
  simp only [State.readLen]
  rcases lookup_typed h c!"len" with ⟨-, h2⟩ | ⟨t, v, h1, h2, h3⟩
  · rw [h2]; exact ⟨_, rfl⟩
  · rw [h2]
    simp only [Scope.index, h1] at hi
    exact asUsize_typed hW h3 hi

/-- The literal gives the value. -/
structure Builds (W : World) (a : MethodArm) (v : RouteVal W) : Prop where
  modules : v.modules = a.modules
  name : v.name = a.name
  nones : v.nones = a.nones
  fields : FieldsOf W a.captures v.params

/-- The answer is not an error of the model, and what is returned is made by one of the literals `A` for the method. -/
def OutOk (W : World) (m : Bytes) (A : List MethodArm) : Outcome W → Prop
  | .rejected => False
  | .route v => ∃ a ∈ A, m = a.method.display.map asciiByte ∧ a.isRedirect = false ∧ Builds W a v
  | .redirect v => ∃ a ∈ A, m = a.method.display.map asciiByte ∧ a.isRedirect = true ∧ Builds W a v
  | _ => True

theorem OutOk.mono {A B : List MethodArm} (h : ∀ a ∈ A, a ∈ B) : ∀ {o : Outcome W}, OutOk W m A o → OutOk W m B o
  | .rejected, ho => ho
  | .route _, ⟨a, ha, ho⟩ => ⟨a, h a ha, ho⟩
  | .redirect _, ⟨a, ha, ho⟩ => ⟨a, h a ha, ho⟩
  | .notFound, _ => trivial
  | .notAllowed, _ => trivial
  | .err _ _, _ => trivial
  | .panic, _ => trivial

/-- The result is as the scope and the literals say. -/
def FlowOk (W : World) (m : Bytes) (A : List MethodArm) (sc : Scope) : Flow W → Prop
  | .ret o => OutOk W m A o
  | .next s => EnvTyped W sc s.env

theorem capture_typed {sc : Scope} {env : List (Str × Val W)} (h : EnvTyped W sc env) : ∀ (ps : List Param),
    (ps.all fun p => match lookupVar p.name sc with
      | some (.user t) => t == p.typ
      | some .usize => p.typ == c!"usize"
      | _ => false) = true → ∃ fs, captureFields env ps = some fs ∧ FieldsOf W ps fs
  | [], _ => ⟨[], rfl, .nil⟩
  | p :: ps, ha => by
    simp only [List.all_cons, Bool.and_eq_true] at ha
    obtain ⟨fs, h1, h2⟩ := capture_typed h ps ha.2
    rcases lookup_typed h p.name with ⟨h3, -⟩ | ⟨t, v, h3, h4, h5⟩
    · simp [h3] at ha
    · have ha1 := ha.1
      rw [h3] at ha1
      simp only [captureFields, h4, h1]
      cases t <;> cases v <;> simp only [ValOk] at h5 <;> simp only [Bool.false_eq_true, beq_iff_eq] at ha1
      · exact ⟨_, if_pos ha1, .cons ⟨rfl, ha1⟩ h2⟩
      · subst ha1
        exact ⟨_, rfl, .cons ⟨rfl, h5⟩ h2⟩

theorem methods_typed {sc : Scope} {s : State W} (h : EnvTyped W sc s.env) : ∀ (as : List MethodArm),
    as.all (MethodArm.typed sc) = true → OutOk W m as (execMethods m s as)
  | [], _ => trivial
  | a :: as, ha => by
    simp only [List.all_cons, Bool.and_eq_true] at ha
    simp only [execMethods]
    split
    · rename_i hm
      simp only [MethodArm.typed, Bool.and_eq_true] at ha
      obtain ⟨fs, h1, h2⟩ := capture_typed h a.captures ha.1.2
      rw [h1]
      simp only
      split
      · rename_i hr
        exact ⟨a, by simp, hm, hr, rfl, rfl, rfl, h2⟩
      · rename_i hr
        exact ⟨a, by simp, hm, by simpa using hr, rfl, rfl, rfl, h2⟩
    · exact (methods_typed h as ha.2).mono (fun a ha => by simp [ha])

theorem FlowOk.mono {A B : List MethodArm} (h : ∀ a ∈ A, a ∈ B) {sc : Scope} : ∀ {f : Flow W},
    FlowOk W m A sc f → FlowOk W m B sc f
  | .ret _, hf => OutOk.mono h hf
  | .next _, hf => hf

theorem blockFits_cons {value gone : Bool} {s : Stmt} {ss : List Stmt} (h : blockFits value gone (s :: ss) = true) :
    (∃ v, s.fits v = true) ∧ ∃ v g, blockFits v g ss = true := by
  simp only [blockFits] at h
  split at h
  · rename_i hb
    refine ⟨⟨_, h⟩, false, false, ?_⟩
    simp only [Bool.and_eq_true] at hb
    have := hb.2
    clear h hb
    induction ss with
    | nil => rfl
    | cons a as ih =>
      simp only [List.all_cons, Bool.and_eq_true] at this
      cases a <;> simp only [Stmt.isBlank, Bool.false_eq_true, false_and] at this
      simp only [blockFits, Stmt.isExpr, Bool.false_and, Bool.false_eq_true, if_false, Stmt.fits, Stmt.diverges,
        Bool.or_self, Bool.not_false, Bool.true_and]
      exact ih this.2
  · simp only [Bool.and_eq_true] at h
    exact ⟨⟨_, h.1⟩, _, _, h.2⟩

mutual
theorem Stmt.check_sound (hW : W.Sound) : ∀ (st : Stmt) (v : Bool), st.fits v = true → ∀ {sc sc' : Scope}, st.check sc = some sc' →
    ∀ {s : State W}, EnvTyped W sc s.env → FlowOk W m st.literals sc' (st.exec path m s)
  | .blank, _, _, sc, sc', hc, s, he => by cases hc; exact he
  | .letStart, _, _, sc, sc', hc, s, he => by
    simp only [Stmt.check] at hc
    split at hc
    · rename_i hi
      cases hc
      obtain ⟨n, hn⟩ := readI_typed hW he hi
      simp only [Stmt.exec, hn]
      exact .cons ⟨rfl, trivial⟩ he
    · cases hc
  | .addI n, _, _, sc, sc', hc, s, he => by
    simp only [Stmt.check] at hc
    split at hc
    · rename_i hi
      cases hc
      simp only [Stmt.exec, free_typed he hi]
      exact he
    · cases hc
  | .retNotFound, _, _, sc, sc', hc, s, he => trivial
  | .ifThen c body, v, hf, sc, sc', hc, s, he => by
    simp only [Stmt.check] at hc
    split at hc
    · rename_i hi
      cases hc
      simp only [Bool.and_eq_true] at hi
      obtain ⟨i, h1⟩ := readI_typed hW he hi.1.1
      obtain ⟨l, h2⟩ := readLen_typed (path := path) hW he hi.1.2
      obtain ⟨sc', h3⟩ := Option.isSome_iff_exists.1 hi.2
      have hb : blockFits false false body = true := by
        simp only [Stmt.fits, Bool.and_eq_true] at hf; exact hf.2
      simp only [Stmt.exec, Cond.eval, h1, h2]
      split
      · contradiction
      · have := checkBlock_sound hW body _ _ hb h3 he
        split
        · rename_i o ho
          rw [ho] at this
          exact (this : OutOk W m _ o)
        · exact he
      · exact he
    · cases hc
  | .matchMethod arms, _, _, sc, sc', hc, s, he => by
    simp only [Stmt.check] at hc
    split at hc
    · rename_i hi
      simp only [Bool.and_eq_true] at hi
      simp only [Stmt.exec, State.methodOk, free_typed he hi.1, Option.isNone_none, if_true]
      exact methods_typed he arms hi.2
    · cases hc
  | .matchPath n arms, v, hf, sc, sc', hc, s, he => by
    simp only [Stmt.check] at hc
    split at hc
    · rename_i hi
      cases hc
      simp only [Bool.and_eq_true] at hi
      obtain ⟨i, h1⟩ := readI_typed hW he hi.1.2
      simp only [Stmt.fits, Bool.and_eq_true] at hf
      simp only [Stmt.exec, State.pathOk, free_typed he hi.1.1, Option.isNone_none, h1]
      split
      · exact checkArms_sound hW arms v hf.1 hf.2 hi.2 _ he
      · trivial
    · cases hc
  | .whileScan, _, _, sc, sc', hc, s, he => by
    simp only [Stmt.check] at hc
    split at hc
    · rename_i hi
      cases hc
      simp only [Bool.and_eq_true] at hi
      obtain ⟨l, h2⟩ := readLen_typed (path := path) hW he hi.2
      simp only [Stmt.exec, State.pathOk, free_typed he hi.1.1, free_typed he hi.1.2, Option.isNone_none, h2]
      split
      · trivial
      · exact he
    · cases hc
  | .letText, _, _, sc, sc', hc, s, he => by
    simp only [Stmt.check] at hc
    split at hc
    · rename_i hi
      cases hc
      simp only [Bool.and_eq_true] at hi
      obtain ⟨i, h1⟩ := readI_typed hW he hi.2
      have hs : ∃ n, (lookupVar c!"start" s.env).bind Val.asUsize = some n := by
        rcases lookup_typed he c!"start" with ⟨h3, -⟩ | ⟨t, v, h3, h4, h5⟩
        · simp [h3] at hi
        · rw [h4]
          exact asUsize_typed hW h5 (by simpa [h3] using hi.1.2)
      obtain ⟨st, h2⟩ := hs
      simp only [Stmt.exec, State.pathOk, free_typed he hi.1.1, Option.isNone_none, h2, h1]
      split
      · split
        · trivial
        · exact .cons ⟨rfl, trivial⟩ he
      · trivial
    · cases hc
  | .letParam name typ, _, _, sc, sc', hc, s, he => by
    simp only [Stmt.check] at hc
    split at hc
    · rename_i h1 _
      cases hc
      rcases lookup_typed he c!"text" with ⟨h3, -⟩ | ⟨t, v, h3, h4, h5⟩
      · rw [h3] at h1; cases h1
      · rw [h3] at h1
        cases h1
        cases v <;> simp only [ValOk] at h5
        simp only [Stmt.exec, h4]
        split
        · trivial
        · rename_i v hv
          exact .cons ⟨rfl, _, hv⟩ he
    · cases hc
theorem checkBlock_sound (hW : W.Sound) : ∀ (b : List Stmt) (v g : Bool), blockFits v g b = true → ∀ {sc sc' : Scope},
    checkBlock b sc = some sc' → ∀ {s : State W}, EnvTyped W sc s.env → FlowOk W m (blockLiterals b) sc' (execBlock path m b s)
  | [], _, _, _, sc, sc', hc, s, he => by cases hc; exact he
  | st :: sts, v, g, hf, sc, sc', hc, s, he => by
    obtain ⟨⟨v1, f1⟩, v2, g2, f2⟩ := blockFits_cons hf
    simp only [checkBlock] at hc
    split at hc
    · cases hc
    · rename_i sc1 h1
      have := st.check_sound hW v1 f1 h1 he
      simp only [execBlock, blockLiterals]
      split
      · rename_i o ho
        rw [ho] at this
        exact this.mono (fun a ha => by simp [ha])
      · rename_i s' hs
        rw [hs] at this
        exact (checkBlock_sound hW sts v2 g2 f2 hc this).mono (fun a ha => by simp [ha])
theorem checkArms_sound (hW : W.Sound) : ∀ (as : List Arm) (v : Bool), as.any Arm.isWild = true → armsFit v as = true →
    ∀ {sc : Scope}, checkArms as sc = true → ∀ (slice : Bytes) {s : State W}, EnvTyped W sc s.env →
    FlowOk W m (armsLiterals as) sc (execArms path m slice as s)
  | [], _, hw, _, _, _, _, _, _ => by cases hw
  | .bytes pat body :: as, v, hw, hf, sc, hc, slice, s, he => by
    simp only [List.any_cons, Arm.isWild, Bool.false_or] at hw
    simp only [armsFit, Arm.fits, Bool.and_eq_true] at hf
    simp only [checkArms, Arm.check, Bool.and_eq_true] at hc
    obtain ⟨sc', h1⟩ := Option.isSome_iff_exists.1 hc.1
    have hb := checkBlock_sound hW body _ _ hf.1 h1 he
    simp only [execArms, Arm.exec, armsLiterals, Arm.literals]
    split
    · rename_i f hx
      split at hx
      · split at hx
        · rename_i o ho
          cases hx
          rw [ho] at hb
          exact hb.mono (fun a ha => by simp [ha])
        · cases hx
          exact he
      · cases hx
    · exact (checkArms_sound hW as v hw hf.2 hc.2 slice he).mono (fun a ha => by simp [ha])
  | .wildNotFound :: as, _, _, _, _, _, _, _, _ => trivial
  | .wildNothing :: as, _, _, _, _, _, _, _, he => he
  | .someSlash :: as, _, _, hf, _, _, _, _, _ => by simp [armsFit, Arm.fits] at hf
  | .stray _ :: as, _, _, hf, _, _, _, _, _ => by simp [armsFit, Arm.fits] at hf
end

/-- A program that passes the checks answers. -/
theorem call_sound (hW : W.Sound) {body : List Stmt} (hc : compiles body = true) (hr : returns body = true) (path m : Bytes) :
    OutOk W m (blockLiterals body) (callMatchRoute W body path m) := by
  rw [callMatchRoute, if_pos hc]
  simp only [compiles, Bool.and_eq_true] at hc
  obtain ⟨sc, h1⟩ := Option.isSome_iff_exists.1 hc.2
  have := checkBlock_sound (path := path) (m := m) hW body _ _ hr h1 (s := initialState W path) .nil
  obtain ⟨o, ho⟩ := blockDiverges_sound (W := W) (path := path) (method := m) body
    (by simpa using blockFits_diverges body false hr) (initialState W path)
  rw [ho] at this ⊢
  exact this

end Wayfinder
