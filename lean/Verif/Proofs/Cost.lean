import Verif.Spec.Cost
import Verif.Proofs.Code
/-!
# Emitted code executes few statements

Every piece of emitted code returns, and the statements it executes are bounded by what is left of
the path.
-/

namespace Wayfinder

variable {W : World} {path m : Bytes}

theorem turns_scan (len : Nat) : ∀ (bs : Bytes) (i i' : Nat), scan len bs i = some i' → i' = i + turns len bs i
  | [], i, i', h => by
    simp only [scan] at h
    split at h
    · cases h
    · simp only [Option.some.injEq] at h; simp [turns, h]
  | b :: bs, i, i', h => by
    simp only [scan] at h
    by_cases hi : i < len
    · rw [if_pos hi] at h
      by_cases hb : b = asciiByte '/'
      · rw [if_pos hb] at h
        simp only [Option.some.injEq] at h
        simp [turns, hb, h]
      · rw [if_neg hb] at h
        have := turns_scan len bs (i + 1) i' h
        rw [turns, if_pos ⟨hi, hb⟩]
        omega
    · rw [if_neg hi] at h
      simp only [Option.some.injEq] at h
      rw [turns, if_neg fun hc => hi hc.1]; omega

theorem turns_le (len : Nat) : ∀ (bs : Bytes) (i : Nat), turns len bs i ≤ bs.length
  | [], _ => by simp [turns]
  | b :: bs, i => by
    have := turns_le len bs (i + 1)
    simp only [turns]
    split <;> simp <;> omega

/-- A piece of code as the statements from the state `s` on: it returns, after at most `n` statements. -/
def Ends (path m : Bytes) (b : List Stmt) (s : State W) (n : Nat) : Prop :=
  (∃ o, execBlock path m b s = .ret o) ∧ blockSteps path m b s ≤ n

theorem Ends.mono {b : List Stmt} {s : State W} {n k : Nat} (h : Ends path m b s n) (hk : n ≤ k) :
    Ends path m b s k := ⟨h.1, Nat.le_trans h.2 hk⟩

theorem ends_ret {st : Stmt} {sts : List Stmt} {s : State W} {o : Outcome W} {n : Nat}
    (h : st.exec path m s = .ret o) (hn : st.steps path m s ≤ n) : Ends path m (st :: sts) s n := by
  constructor
  · exact ⟨o, by simp [execBlock, h]⟩
  · simpa [blockSteps, h] using hn

theorem ends_next {st : Stmt} {sts : List Stmt} {s s' : State W} {n k : Nat}
    (h : st.exec path m s = .next s') (hs : Ends path m sts s' k) (hn : st.steps path m s + k ≤ n) :
    Ends path m (st :: sts) s n := by
  obtain ⟨⟨o, ho⟩, hk⟩ := hs
  constructor
  · exact ⟨o, by simp [execBlock, h, ho]⟩
  · simp only [blockSteps, h]; omega

theorem ends_blank {sts : List Stmt} {s : State W} {n : Nat} (h : Ends path m sts s n) :
    Ends path m (.blank :: sts) s n :=
  ends_next (st := .blank) rfl h (by simp [Stmt.steps])

/-- An `if` whose body returns. -/
theorem ends_if {c : Cond} {body sts : List Stmt} {s : State W} {n k : Nat} (hb : Ends path m body s k)
    (hk : k + 1 ≤ n) (hs : Ends path m sts s (n - 1)) : Ends path m (.ifThen c body :: sts) s n := by
  cases hc : c.eval path s with
  | none => exact ends_ret (o := .rejected) (by simp [Stmt.exec, hc]) (by simp [Stmt.steps, hc]; omega)
  | some t =>
    cases t with
    | true =>
      obtain ⟨⟨o, ho⟩, hle⟩ := hb
      exact ends_ret (o := o) (by simp [Stmt.exec, hc, ho]) (by simp [Stmt.steps, hc]; omega)
    | false => exact ends_next (by simp [Stmt.exec, hc]) hs (by simp [Stmt.steps, hc]; omega)

theorem ends_retNotFound {sts : List Stmt} {s : State W} : Ends path m (.retNotFound :: sts) s 1 :=
  ends_ret (o := .notFound) (by simp [Stmt.exec]) (by simp [Stmt.steps])

theorem ends_matchMethod {arms : List MethodArm} {sts : List Stmt} {s : State W} :
    Ends path m (.matchMethod arms :: sts) s 2 := by
  by_cases hm : s.methodOk = true
  · exact ends_ret (o := execMethods m s arms) (by simp [Stmt.exec, hm]) (by simp [Stmt.steps])
  · exact ends_ret (o := .rejected) (by simp [Stmt.exec, hm]) (by simp [Stmt.steps])

theorem ends_ownMethods {d : FlattenedRoute} {sts : List Stmt} {s : State W} {n : Nat} (hn : 3 ≤ n)
    (h : Ends path m sts s (n - 1)) : Ends path m (ownMethods (some d) ++ sts) s n := by
  simp only [ownMethods]
  split
  · exact ends_if ends_matchMethod (by omega) h
  · exact h.mono (by omega)

theorem ends_separatorHead {d : FlattenedRoute} {sts : List Stmt} {s : State W} {n : Nat} (hn : 3 ≤ n)
    (h : Ends path m sts s (n - 1)) : Ends path m (separatorHead (some d) ++ sts) s n := by
  simp only [separatorHead]
  split
  · exact ends_if ends_matchMethod (by omega) h
  · exact ends_if ends_retNotFound (by omega) h

/-- The match of a literal that skips it, followed by the code behind it. -/
theorem ends_literal {w : Str} {l n : Nat} {sts : List Stmt} {s : State W} (hw : w ≠ []) (hn : 2 ≤ n)
    (h : s.i + 1 ≤ path.length → ∀ k, 1 ≤ k → s.i + k ≤ path.length →
      Ends path m sts { s with i := s.i + k } (n - 2)) :
    Ends path m (.matchPath l [.bytes w [.addI l], .wildNotFound] :: sts) s n := by
  cases hp : s.pathOk with
  | false => exact ends_ret (o := .rejected) (by simp [Stmt.exec, hp]) (by simp [Stmt.steps, hp]; omega)
  | true =>
    cases hI : s.readI with
    | none => exact ends_ret (o := .rejected) (by simp [Stmt.exec, hp, hI]) (by simp [Stmt.steps, hp, hI]; omega)
    | some i =>
      by_cases hr : i + l ≤ path.length
      · by_cases he : List.take l (List.drop i path) = w.map asciiByte
        · cases hlk : lookupVar c!"i" s.env with
          | some v =>
            exact ends_ret (o := .rejected)
              (by simp [Stmt.exec, hp, hI, hr, execArms, Arm.exec, he, execBlock, hlk])
              (by simp [Stmt.steps, hp, hI, hr, armsSteps, Arm.exec, he, execBlock, hlk, Arm.steps, blockSteps,
                Stmt.exec]; omega)
          | none =>
            have hi : i = s.i := by
              simp only [State.readI, hlk, Option.some.injEq] at hI; exact hI.symm
            subst hi
            have hl : 1 ≤ l := by
              have := congrArg List.length he
              simp only [List.length_take, List.length_drop, List.length_map] at this
              have : 0 < w.length := List.length_pos_iff.2 hw
              omega
            refine ends_next (k := n - 2) (s' := { s with i := s.i + l })
              (by simp [Stmt.exec, hp, hI, hr, execArms, Arm.exec, he, execBlock, hlk])
              (h (by omega) l hl hr) ?_
            simp [Stmt.steps, hp, hI, hr, armsSteps, Arm.exec, he, execBlock, hlk, Arm.steps, blockSteps, Stmt.exec]
            omega
        · exact ends_ret (o := .notFound)
            (by simp [Stmt.exec, hp, hI, hr, execArms, Arm.exec, he])
            (by simp [Stmt.steps, hp, hI, hr, armsSteps, Arm.exec, he, Arm.steps]; omega)
      · exact ends_ret (o := .panic) (by simp [Stmt.exec, hp, hI, hr]) (by simp [Stmt.steps, hp, hI, hr]; omega)

/-- Reading the text of a parameter, followed by the code behind it. -/
theorem ends_dynamic {x : Str} {ty : Option Str} {sts : List Stmt} {s : State W} {n : Nat}
    (hi : s.i ≤ path.length) (hn : 3 ≤ n)
    (h : ∀ (s' : State W), s.i ≤ s'.i → s'.i ≤ path.length →
      Ends path m sts s' (n - 3 - (s'.i - s.i))) (hlen : path.length - s.i + 3 ≤ n) :
    Ends path m ([.blank, .whileScan, .blank, .letText, .letParam x ty, .blank] ++ sts) s n := by
  refine ends_blank ?_
  cases hp : s.pathOk with
  | false => 
    refine ends_ret (o := .rejected) (by simp [Stmt.exec, hp]) ?_
    have := turns_le ((s.readLen path).getD 0) (path.drop s.i) s.i
    simp only [List.length_drop] at this
    simp only [Stmt.steps]; omega
  | true =>
    have hle := turns_le ((s.readLen path).getD 0) (path.drop s.i) s.i
    simp only [List.length_drop] at hle
    have hst : Stmt.whileScan.steps path m s ≤ n := by simp only [Stmt.steps]; omega
    cases hlk : lookupVar c!"i" s.env with
    | some v => exact ends_ret (o := .rejected) (by simp [Stmt.exec, hp, hlk]) hst
    | none =>
      cases hlen' : s.readLen path with
      | none => exact ends_ret (o := .rejected) (by simp [Stmt.exec, hp, hlk, hlen']) hst
      | some len =>
        simp only [hlen', Option.getD_some] at hle
        cases hsc : scan len (path.drop s.i) s.i with
        | none => exact ends_ret (o := .panic) (by simp [Stmt.exec, hp, hlk, hlen', hsc]) hst
        | some i' =>
          have hi' := turns_scan _ _ _ _ hsc
          refine ends_next (k := n - (i' - s.i) - 1) (s' := { s with i := i' })
            (by simp [Stmt.exec, hp, hlk, hlen', hsc]) ?_
            (by simp only [Stmt.steps, hlen', Option.getD_some]; omega)
          refine ends_blank ?_
          generalize hs1 : ({ s with i := i' } : State W) = s1
          have e1 : s1.i = i' := by rw [← hs1]
          cases hx : Stmt.letText.exec path m s1 with
          | ret o => exact ends_ret hx (by simp [Stmt.steps]; omega)
          | next s2 =>
            have e2 : s2.i = s1.i := by
              simp only [Stmt.exec] at hx
              split at hx
              · split at hx
                · split at hx
                  · cases hx
                  · simp only [Flow.next.injEq] at hx; rw [← hx]
                · cases hx
              · cases hx
            refine ends_next (k := n - (i' - s.i) - 2) hx ?_ (by simp [Stmt.steps]; omega)
            cases hy : (Stmt.letParam x ty).exec path m s2 with
            | ret o => exact ends_ret hy (by simp [Stmt.steps]; omega)
            | next s3 =>
              have e3 : s3.i = s2.i := by
                simp only [Stmt.exec] at hy
                split at hy
                · split at hy
                  · cases hy
                  · simp only [Flow.next.injEq] at hy; rw [← hy]
                · cases hy
              refine ends_next (k := n - (i' - s.i) - 3) hy ?_ (by simp [Stmt.steps]; omega)
              refine ends_blank ?_
              have := h s3 (by omega) (by omega)
              exact this.mono (by omega)

/-- The constant part of the bound. -/
def CodeKind.extra : CodeKind → Nat
  | .block .. => 10
  | .enter .. => 3
  | .kids .. => 3
  | .arms .. => 2

/-- The bound for the code of a kind. -/
def CodeKind.bound (k : CodeKind) (path : Bytes) (i : Nat) : Nat := 10 * (path.length - i) + k.extra

theorem code_ends {k : CodeKind} {b : List Stmt} (h : Code k b) :
    ∀ s : State W, s.i ≤ path.length → Ends path m b s (k.bound path s.i) := by
  induction h with
  | plain hp hk ih =>
    intro s hi
    refine ends_ownMethods (by simp [CodeKind.bound, CodeKind.extra]) ?_
    exact (ih s hi).mono (by simp [CodeKind.bound, CodeKind.extra])
  | param hn hseg hcap hst hb ih =>
    intro s hi
    refine ends_ownMethods (by simp [CodeKind.bound, CodeKind.extra]) ?_
    cases hI : s.readI with
    | none =>
      exact ends_ret (o := .rejected) (by simp [Stmt.exec, hI])
        (by simp [Stmt.steps, CodeKind.bound, CodeKind.extra])
    | some i =>
      refine ends_next (k := 10 * (path.length - s.i) + 8) (by simp [Stmt.exec, hI]; rfl) ?_
        (by simp [Stmt.steps, CodeKind.bound, CodeKind.extra]; omega)
      refine ends_dynamic (by simpa using hi) (by omega) ?_ (by simp; omega)
      intro s' h1 h2
      simp only at h1
      exact (ih s' h2).mono (by simp only [CodeKind.bound, CodeKind.extra]; omega)
  | @both rs ns qs pth q n p b sb w l c _ hn hseg hcap hw hpre _ hsb hb ihs ihb =>
    intro s hi
    refine ends_ownMethods (by simp [CodeKind.bound, CodeKind.extra]) (ends_blank ?_)
    cases hI : s.readI with
    | none =>
      exact ends_ret (o := .rejected) (by simp [Stmt.exec, hI])
        (by simp [Stmt.steps, CodeKind.bound, CodeKind.extra])
    | some i =>
      refine ends_next (k := 10 * (path.length - s.i) + 8) (s' := { s with env := (c!"start", .usize i) :: s.env })
        (by simp [Stmt.exec, hI]) ?_
        (by simp [Stmt.steps, CodeKind.bound, CodeKind.extra]; omega)
      refine ends_blank ?_
      generalize hs1 : ({ s with env := (c!"start", .usize i) :: s.env } : State W) = s1
      have e1 : s1.i = s.i := by rw [← hs1]
      rw [← e1]
      rw [← e1] at hi
      have hrest : Ends path m (dynamicHead p.name b ++ b) s1 (10 * (path.length - s1.i) + 6) := by
        refine ends_dynamic hi (by omega) ?_ (by omega)
        intro s' h1 h2
        exact (ihb s' h2).mono (by simp only [CodeKind.bound, CodeKind.extra]; omega)
      cases hc : c.eval path s1 with
      | none => exact ends_ret (o := .rejected) (by simp [Stmt.exec, hc]) (by simp [Stmt.steps, hc])
      | some t =>
        cases t with
        | false => exact ends_next (by simp [Stmt.exec, hc]) hrest (by simp [Stmt.steps, hc]; omega)
        | true =>
          have hin : Stmt.steps path m (.matchPath l [.bytes w (.addI l :: sb), .wildNothing]) s1 + 1 ≤
                10 * (path.length - s1.i) + 8 ∧
              ((∃ o, Stmt.exec path m (.matchPath l [.bytes w (.addI l :: sb), .wildNothing]) s1 = .ret o) ∨
                Stmt.exec path m (.matchPath l [.bytes w (.addI l :: sb), .wildNothing]) s1 = .next s1 ∧
                Stmt.steps path m (.matchPath l [.bytes w (.addI l :: sb), .wildNothing]) s1 = 1) := by
            cases hp : s1.pathOk with
            | false => exact ⟨by simp [Stmt.steps, hp], .inl ⟨.rejected, by simp [Stmt.exec, hp]⟩⟩
            | true =>
              cases hI1 : s1.readI with
              | none => exact ⟨by simp [Stmt.steps, hI1], .inl ⟨.rejected, by simp [Stmt.exec, hI1]⟩⟩
              | some j =>
                by_cases hr : j + l ≤ path.length
                · by_cases he : List.take l (List.drop j path) = w.map asciiByte
                  · cases hlk : lookupVar c!"i" s1.env with
                    | some v =>
                      exact ⟨by
                        simp [Stmt.steps, hp, hI1, hr, armsSteps, Arm.exec, he, execBlock, hlk, Arm.steps,
                          blockSteps, Stmt.exec], .inl ⟨.rejected, by
                        simp [Stmt.exec, hp, hI1, hr, execArms, Arm.exec, he, execBlock, hlk]⟩⟩
                    | none =>
                      have hj : j = s1.i := by
                        simp only [State.readI, hlk, Option.some.injEq] at hI1; exact hI1.symm
                      subst hj
                      have hl : 1 ≤ l := by
                        have := congrArg List.length he
                        simp only [List.length_take, List.length_drop, List.length_map] at this
                        have : 0 < w.length := List.length_pos_iff.2 hw
                        omega
                      obtain ⟨⟨o, ho⟩, hk⟩ := ihs { s1 with i := s1.i + l } hr
                      simp only [CodeKind.bound, CodeKind.extra] at hk
                      refine ⟨?_, .inl ⟨o, ?_⟩⟩
                      · simp only [Stmt.steps, hp, hI1, hr, if_true, armsSteps, Arm.exec, he, execBlock, hlk,
                          Stmt.exec, ho, Arm.steps, blockSteps]
                        omega
                      · simp [Stmt.exec, hp, hI1, hr, execArms, Arm.exec, he, execBlock, hlk, ho]
                  · exact ⟨by simp [Stmt.steps, hp, hI1, hr, armsSteps, Arm.exec, he, Arm.steps],
                      .inr ⟨by simp [Stmt.exec, hp, hI1, hr, execArms, Arm.exec, he],
                        by simp [Stmt.steps, hp, hI1, hr, armsSteps, Arm.exec, he, Arm.steps]⟩⟩
                · exact ⟨by simp [Stmt.steps, hp, hI1, hr], .inl ⟨.panic, by simp [Stmt.exec, hp, hI1, hr]⟩⟩
          generalize Stmt.matchPath l [.bytes w (.addI l :: sb), .wildNothing] = st at hin
          rcases hin with ⟨hle, ⟨o, ho⟩ | ⟨ho, hst⟩⟩
          · exact ends_ret (o := o) (by simp [Stmt.exec, hc, execBlock, ho])
              (by simp only [Stmt.steps, hc, if_true, blockSteps, ho]; omega)
          · exact ends_next (s' := s1) (by simp [Stmt.exec, hc, execBlock, ho]) hrest
              (by simp only [Stmt.steps, hc, if_true, blockSteps, ho, hst]; omega)
  | @enter r pth q b hb ih =>
    intro s hi
    refine ends_separatorHead (by simp [CodeKind.bound, CodeKind.extra]) (ends_literal (by decide)
      (by simp [CodeKind.bound, CodeKind.extra]) ?_)
    intro h1 k hk hle
    exact (ih { s with i := s.i + k } hle).mono (by simp only [CodeKind.bound, CodeKind.extra]; omega)
  | none hno =>
    intro s hi
    exact ends_retNotFound.mono (by simp [CodeKind.bound, CodeKind.extra])
  | sep hn hseg huniq _ hb ih =>
    intro s hi
    exact (ih s hi).mono (by simp [CodeKind.bound, CodeKind.extra])
  | chain _ hw hex hall _ hb ih =>
    intro s hi
    refine ends_if ends_retNotFound (by simp [CodeKind.bound, CodeKind.extra]) (ends_literal hw
      (by simp [CodeKind.bound, CodeKind.extra]) ?_)
    intro h1 k hk hle
    exact (ih { s with i := s.i + k } hle).mono (by simp only [CodeKind.bound, CodeKind.extra]; omega)
  | branch hall hex _ _ hb ih =>
    intro s hi
    refine ends_if ends_retNotFound (by simp [CodeKind.bound, CodeKind.extra]) ((ih s hi).mono ?_)
    simp [CodeKind.bound, CodeKind.extra]
  | armsNil =>
    intro s hi
    cases hp : s.pathOk with
    | false =>
      exact ends_ret (o := .rejected) (by simp [Stmt.exec, hp])
        (by simp [Stmt.steps, hp, CodeKind.bound, CodeKind.extra])
    | true =>
      cases hI : s.readI with
      | none =>
        exact ends_ret (o := .rejected) (by simp [Stmt.exec, hI])
          (by simp [Stmt.steps, hI, CodeKind.bound, CodeKind.extra])
      | some j =>
        by_cases hr : j + 1 ≤ path.length
        · exact ends_ret (o := .notFound) (by simp [Stmt.exec, hp, hI, hr, execArms, Arm.exec])
            (by simp [Stmt.steps, hp, hI, hr, armsSteps, Arm.exec, Arm.steps, CodeKind.bound, CodeKind.extra])
        · exact ends_ret (o := .panic) (by simp [Stmt.exec, hp, hI, hr])
            (by simp [Stmt.steps, hp, hI, hr, CodeKind.bound, CodeKind.extra])
  | @armsCons ns u pth q ch chars b as hb has ihb ihas =>
    intro s hi
    cases hp : s.pathOk with
    | false =>
      exact ends_ret (o := .rejected) (by simp [Stmt.exec, hp])
        (by simp [Stmt.steps, hp, CodeKind.bound, CodeKind.extra])
    | true =>
      cases hI : s.readI with
      | none =>
        exact ends_ret (o := .rejected) (by simp [Stmt.exec, hI])
          (by simp [Stmt.steps, hI, CodeKind.bound, CodeKind.extra])
      | some j =>
        by_cases hr : j + 1 ≤ path.length
        · by_cases he : List.take 1 (List.drop j path) = [ch].map asciiByte
          · cases hlk : lookupVar c!"i" s.env with
            | some v =>
              exact ends_ret (o := .rejected)
                (by simp only [Stmt.exec, hp, hI, hr, if_true, execArms, Arm.exec, he, execBlock, hlk])
                (by
                  simp only [Stmt.steps, hp, hI, hr, if_true, armsSteps, Arm.exec, he, execBlock, hlk, Arm.steps,
                    blockSteps, Stmt.exec, CodeKind.bound, CodeKind.extra]
                  omega)
            | none =>
              have hj : j = s.i := by simp only [State.readI, hlk, Option.some.injEq] at hI; exact hI.symm
              subst hj
              obtain ⟨⟨o, ho⟩, hk⟩ := ihb { s with i := s.i + 1 } hr
              simp only [CodeKind.bound, CodeKind.extra] at hk
              refine ends_ret (o := o) ?_ ?_
              · simp only [Stmt.exec, hp, hI, hr, if_true, execArms, Arm.exec, he, execBlock, hlk, ho]
              · simp only [Stmt.steps, hp, hI, hr, if_true, armsSteps, Arm.exec, he, execBlock, hlk,
                  Stmt.exec, ho, Arm.steps, blockSteps, CodeKind.bound, CodeKind.extra]
                omega
          · obtain ⟨⟨o, ho⟩, hk⟩ := ihas s hi
            simp only [execBlock, Stmt.exec, hp, hI, hr, if_true] at ho
            simp only [blockSteps, Stmt.steps, hp, hI, hr, if_true, CodeKind.bound, CodeKind.extra] at hk
            have ho' : execArms path m (List.take 1 (List.drop j path)) as s = .ret o := by
              cases hx : execArms path m (List.take 1 (List.drop j path)) as s with
              | ret o' => rw [hx] at ho; simpa using ho
              | next s' => rw [hx] at ho; simp at ho
            refine ends_ret (o := o) ?_ ?_
            · simp only [Stmt.exec, hp, hI, hr, if_true, execArms, Arm.exec, he, if_false, ho']
            · simp only [Stmt.steps, hp, hI, hr, if_true, armsSteps, Arm.exec, he, if_false, CodeKind.bound,
                CodeKind.extra]
              omega
        · exact ends_ret (o := .panic) (by simp [Stmt.exec, hp, hI, hr])
            (by simp [Stmt.steps, hp, hI, hr, CodeKind.bound, CodeKind.extra])

end Wayfinder
