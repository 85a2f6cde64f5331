import Verif.Spec.Sums
import Verif.Proofs.Code
import Verif.Proofs.Cost
import Verif.Proofs.Demand
/-!
# Bounds for the sums of a call

Code in which `i` is only advanced behind a slice that was in range keeps `i` within the path.
-/

namespace Wayfinder

/-- The number in a condition is at most `N`. -/
def Cond.small (N : Nat) : Cond → Prop
  | .iAddGtLen n => n ≤ N
  | .iAddLeLen n => n ≤ N
  | .iEqLen => True
  | .iLeLen => True

mutual
/-- The numbers are at most `N`, `i` is not rebound, and is advanced only in arms of a sufficiently long match. -/
def Stmt.careful (N : Nat) : Stmt → Prop
  | .addI _ => False
  | .ifThen c body => c.small N ∧ blockCareful N 0 body
  | .matchPath n arms => n ≤ N ∧ armsCareful N n arms
  | .letParam x _ => x ≠ c!"i"
  | .blank => True
  | .letStart => True
  | .retNotFound => True
  | .matchMethod _ => True
  | .whileScan => True
  | .letText => True
/-- The same for a list of statements before which `i` may be advanced by `k`. -/
def blockCareful (N : Nat) : Nat → List Stmt → Prop
  | _, [] => True
  | k, .addI n :: sts => n ≤ k ∧ blockCareful N (k - n) sts
  | _, st :: sts => st.careful N ∧ blockCareful N 0 sts
/-- The same for the arms of a match of `k` bytes. -/
def armsCareful (N : Nat) : Nat → List Arm → Prop
  | _, [] => True
  | k, .bytes _ body :: as => blockCareful N k body ∧ armsCareful N k as
  | k, _ :: as => armsCareful N k as
end

variable {W : World} {path m : Bytes} {N : Nat}

/-- The state that careful code keeps: `i` is the counter, and within the path. -/
structure Inside (path : Bytes) (k : Nat) (s : State W) : Prop where
  bound : s.i + k ≤ path.length
  free : lookupVar c!"i" s.env = none

theorem Inside.readI {k : Nat} {s : State W} (h : Inside path k s) : s.readI = some s.i := by
  simp [State.readI, h.free]

theorem Inside.weaken {k j : Nat} {s : State W} (h : Inside path k s) (hj : j ≤ k) : Inside path j s :=
  ⟨by have := h.bound; omega, h.free⟩

/-- What is claimed of code run in the state `s`. -/
def Keeps (path : Bytes) (N : Nat) (sums : List Nat) (f : Flow W) : Prop :=
  (∀ n ∈ sums, n ≤ path.length + N) ∧ ∀ s', f = .next s' → Inside path 0 s'

theorem scanSums_le (len : Nat) : ∀ (bs : Bytes) (i : Nat), ∀ n ∈ scanSums len bs i, n ≤ i + bs.length + 1
  | [], i, n, h => by
    simp only [scanSums] at h
    split at h <;> simp at h
    omega
  | b :: bs, i, n, h => by
    simp only [scanSums] at h
    split at h
    · simp only [List.mem_cons] at h
      rcases h with rfl | h
      · simp
      · split at h
        · cases h
        · simp only [List.mem_cons] at h
          rcases h with rfl | h
          · simp
          · have := scanSums_le len bs (i + 1) n h
            simp only [List.length_cons]
            omega
    · cases h

mutual
theorem Stmt.keeps (hN : 1 ≤ N) : ∀ (st : Stmt) (s : State W), st.careful N → Inside path 0 s →
    Keeps path N (st.sums path m s) (st.exec path m s)
  | .blank, s, _, hs => ⟨by simp [Stmt.sums], by simp [Stmt.exec]; exact hs⟩
  | .letStart, s, _, hs => by
    refine ⟨by simp [Stmt.sums], fun s' h => ?_⟩
    simp only [Stmt.exec, hs.readI, Flow.next.injEq] at h
    subst h
    exact ⟨hs.bound, by simpa [lookupVar] using hs.free⟩
  | .addI n, s, hc, _ => by simp [Stmt.careful] at hc
  | .retNotFound, s, _, _ => ⟨by simp [Stmt.sums], by simp [Stmt.exec]⟩
  | .ifThen c body, s, hc, hs => by
    simp only [Stmt.careful] at hc
    obtain ⟨hsm, hbody⟩ := hc
    have hb := execBlock_keeps hN body 0 s hbody hs
    have h1 : ∀ n ∈ c.sums s, n ≤ path.length + N := by
      have := hs.bound
      cases c <;> simp only [Cond.sums, hs.readI, Cond.small] at hsm ⊢ <;> simp <;> omega
    refine ⟨fun n hn => ?_, fun s' h => ?_⟩
    · simp only [Stmt.sums, List.mem_append] at hn
      rcases hn with hn | hn
      · exact h1 n hn
      · split at hn
        · exact hb.1 n hn
        · cases hn
    · simp only [Stmt.exec] at h
      split at h
      · cases h
      · split at h
        · cases h
        · rename_i s1 hx
          simp only [Flow.next.injEq] at h
          subst h
          exact ⟨(hb.2 s1 hx).bound, hs.free⟩
      · simp only [Flow.next.injEq] at h
        subst h
        exact hs
  | .matchMethod arms, s, _, _ => by
    refine ⟨by simp [Stmt.sums], fun s' h => ?_⟩
    simp only [Stmt.exec] at h
    split at h <;> cases h
  | .matchPath n arms, s, hc, hs => by
    simp only [Stmt.careful] at hc
    obtain ⟨hn, harms⟩ := hc
    have hb := hs.bound
    have hI := hs.readI
    by_cases hr : s.i + n ≤ path.length
    · have ha := execArms_keeps hN ((path.drop s.i).take n) arms n s harms ⟨hr, hs.free⟩
      refine ⟨fun x hx => ?_, fun s' h => ?_⟩
      · simp only [Stmt.sums, hI, hr, if_true, List.mem_cons] at hx
        rcases hx with rfl | hx
        · omega
        · exact ha.1 x hx
      · simp only [Stmt.exec, hI] at h
        cases hp : s.pathOk with
        | false => simp [hp] at h
        | true =>
          simp only [hp, hr, if_true] at h
          exact ha.2 s' h
    · refine ⟨fun x hx => ?_, fun s' h => ?_⟩
      · simp only [Stmt.sums, hI, hr, if_false, List.mem_singleton] at hx
        omega
      · simp only [Stmt.exec, hI] at h
        cases hp : s.pathOk <;> simp [hp, hr] at h
  | .whileScan, s, _, hs => by
    have hb := hs.bound
    refine ⟨fun n hn => ?_, fun s' h => ?_⟩
    · simp only [Stmt.sums] at hn
      have := scanSums_le _ _ _ n hn
      simp only [List.length_drop] at this
      omega
    · simp only [Stmt.exec] at h
      split at h
      · split at h
        · cases h
        · rename_i i' hsc
          simp only [Flow.next.injEq] at h
          subst h
          have h1 := turns_scan _ _ _ _ hsc
          have h2 : i' ≤ s.i + (path.drop s.i).length := by
            rw [h1]; exact Nat.add_le_add_left (turns_le _ _ _) _
          refine ⟨?_, hs.free⟩
          simp only [List.length_drop] at h2
          simp only
          omega
      · cases h
  | .letText, s, _, hs => by
    refine ⟨by simp [Stmt.sums], fun s' h => ?_⟩
    simp only [Stmt.exec] at h
    split at h
    · split at h
      · split at h
        · cases h
        · simp only [Flow.next.injEq] at h
          subst h
          exact ⟨hs.bound, by simpa [lookupVar] using hs.free⟩
      · cases h
    · cases h
  | .letParam x _, s, hc, hs => by
    refine ⟨by simp [Stmt.sums], fun s' h => ?_⟩
    simp only [Stmt.careful] at hc
    simp only [Stmt.exec] at h
    split at h
    · split at h
      · cases h
      · simp only [Flow.next.injEq] at h
        subst h
        exact ⟨hs.bound, by simpa [lookupVar, hc] using hs.free⟩
    · cases h
theorem execBlock_keeps (hN : 1 ≤ N) : ∀ (sts : List Stmt) (k : Nat) (s : State W), blockCareful N k sts →
    Inside path k s → Keeps path N (blockSums path m sts s) (execBlock path m sts s)
  | [], k, s, _, hs => ⟨by simp [blockSums], by simp [execBlock]; exact hs.weaken (Nat.zero_le _)⟩
  | st :: sts, k, s, hc, hs => by
    have key : ∀ j, blockCareful N j sts → (∀ n ∈ st.sums path m s, n ≤ path.length + N) →
        (∀ s', st.exec path m s = .next s' → Inside path j s') →
        Keeps path N (blockSums path m (st :: sts) s) (execBlock path m (st :: sts) s) := by
      intro j hj h1 h2
      cases hx : st.exec path m s with
      | ret o =>
        refine ⟨fun n hn => ?_, fun s' h => ?_⟩
        · simp only [blockSums, hx, List.append_nil] at hn
          exact h1 n hn
        · simp only [execBlock, hx] at h
          cases h
      | next s' =>
        have ih := execBlock_keeps hN sts j s' hj (h2 s' hx)
        refine ⟨fun n hn => ?_, fun s'' h => ?_⟩
        · simp only [blockSums, hx, List.mem_append] at hn
          exact hn.elim (h1 n) (ih.1 n)
        · simp only [execBlock, hx] at h
          exact ih.2 s'' h
    by_cases hst : ∃ n, st = .addI n
    · obtain ⟨n, rfl⟩ := hst
      simp only [blockCareful] at hc
      have hb := hs.bound
      refine key (k - n) hc.2 (fun x hx => ?_) (fun s' h => ?_)
      · simp only [Stmt.sums, List.mem_singleton] at hx
        omega
      · simp only [Stmt.exec, hs.free, Flow.next.injEq] at h
        subst h
        exact ⟨by simp only; omega, hs.free⟩
    · have hc' : st.careful N ∧ blockCareful N 0 sts := by
        cases st with
        | addI n => exact absurd ⟨n, rfl⟩ hst
        | _ => simpa only [blockCareful] using hc
      have h := Stmt.keeps hN st s hc'.1 (hs.weaken (Nat.zero_le _))
      exact key 0 hc'.2 h.1 h.2
theorem execArms_keeps (hN : 1 ≤ N) (slice : Bytes) : ∀ (as : List Arm) (k : Nat) (s : State W), armsCareful N k as →
    Inside path k s → Keeps path N (armsSums path m slice as s) (execArms path m slice as s)
  | [], _, _, _, _ => ⟨by simp [armsSums], by simp [execArms]⟩
  | .bytes pat body :: as, k, s, hc, hs => by
    simp only [armsCareful] at hc
    by_cases hp : slice = pat.map asciiByte
    · have hb := execBlock_keeps hN body k s hc.1 hs
      cases hx : execBlock path m body s with
      | ret o =>
        refine ⟨fun n hn => hb.1 n ?_, fun s' h => ?_⟩
        · simpa [armsSums, Arm.exec, hp, hx, Arm.sums] using hn
        · simp [execArms, Arm.exec, hp, hx] at h
      | next s1 =>
        refine ⟨fun n hn => hb.1 n ?_, fun s' h => ?_⟩
        · simpa [armsSums, Arm.exec, hp, hx, Arm.sums] using hn
        · simp only [execArms, Arm.exec, hp, if_true, hx, Flow.next.injEq] at h
          subst h
          exact ⟨(hb.2 s1 hx).bound, hs.free⟩
    · have ih := execArms_keeps hN slice as k s hc.2 hs
      simpa [armsSums, execArms, Arm.exec, hp] using ih
  | .wildNotFound :: as, k, s, _, hs => ⟨by simp [armsSums, Arm.exec, Arm.sums], by simp [execArms, Arm.exec]⟩
  | .wildNothing :: as, k, s, _, hs =>
    ⟨by simp [armsSums, Arm.exec, Arm.sums], by simp [execArms, Arm.exec]; exact hs.weaken (Nat.zero_le _)⟩
  | .someSlash :: as, k, s, _, hs => ⟨by simp [armsSums, Arm.exec, Arm.sums], by simp [execArms, Arm.exec]⟩
  | .stray _ :: as, k, s, _, hs => ⟨by simp [armsSums, Arm.exec, Arm.sums], by simp [execArms, Arm.exec]⟩
end

/-! ## Generated code is careful -/

open Rust (Stays check_cons check_append)

theorem careful_cons {st : Stmt} {sts : List Stmt} (h : st.careful N) (hs : blockCareful N 0 sts) :
    blockCareful N 0 (st :: sts) := by
  cases st with
  | addI n => simp [Stmt.careful] at h
  | _ => simp only [blockCareful]; exact ⟨h, hs⟩

theorem careful_append : ∀ {a b : List Stmt}, (∀ st ∈ a, st.careful N) → blockCareful N 0 b → blockCareful N 0 (a ++ b)
  | [], _, _, hb => hb
  | _ :: _, _, ha, hb => careful_cons (ha _ (List.mem_cons_self ..))
      (careful_append (fun st h => ha st (List.mem_cons_of_mem _ h)) hb)

theorem own_careful (d : Option FlattenedRoute) : ∀ st ∈ ownMethods d, st.careful N := by
  intro s hs
  unfold ownMethods at hs
  split at hs
  · split at hs
    · simp only [writeMethods, List.mem_singleton] at hs
      subst hs
      simp [Stmt.careful, Cond.small, blockCareful]
    · cases hs
  · cases hs

theorem sepHead_careful (d : Option FlattenedRoute) : ∀ st ∈ separatorHead d, st.careful N := by
  intro s hs
  unfold separatorHead at hs
  split at hs
  · split at hs <;> simp only [writeMethods, List.mem_singleton] at hs <;>
      (subst hs; simp [Stmt.careful, Cond.small, blockCareful])
  · simp only [List.mem_singleton] at hs
    subst hs; simp [Stmt.careful, Cond.small, blockCareful]

theorem head_careful {x : Str} {b : List Stmt} (hx : x ≠ c!"i") : ∀ st ∈ dynamicHead x b, st.careful N := by
  intro s hs
  simp only [dynamicHead, List.mem_cons, List.not_mem_nil, or_false] at hs
  rcases hs with rfl | rfl | rfl | rfl | rfl | rfl <;> first | trivial | (simp only [Stmt.careful]; first | exact hx | trivial)

theorem own_stays' (d : Option FlattenedRoute) : ∀ s ∈ ownMethods d, Stays s := by
  intro s hs
  unfold ownMethods at hs
  split at hs
  · split at hs
    · simp only [writeMethods, List.mem_singleton] at hs
      subst hs; trivial
    · cases hs
  · cases hs

theorem sepHead_stays' (d : Option FlattenedRoute) : ∀ s ∈ separatorHead d, Stays s := by
  intro s hs
  unfold separatorHead at hs
  split at hs
  · split at hs <;> simp only [writeMethods, List.mem_singleton] at hs <;> (subst hs; trivial)
  · simp only [List.mem_singleton] at hs
    subst hs; trivial

theorem head_scope' {x : Str} {b : List Stmt} {sc : Scope} (h : (checkBlock (dynamicHead x b ++ b) sc).isSome = true) :
    ∃ T, (checkBlock b ((x, .user T) :: (c!"text", .str) :: sc)).isSome = true := by
  simp only [dynamicHead, List.cons_append, List.nil_append] at h
  obtain ⟨-, h⟩ := check_cons (by trivial) h
  obtain ⟨-, h⟩ := check_cons (by trivial) h
  obtain ⟨-, h⟩ := check_cons (by trivial) h
  rw [checkBlock] at h
  cases h1 : Stmt.letText.check sc with
  | none => simp [h1] at h
  | some sc1 =>
    simp only [h1] at h
    have hsc1 : sc1 = (c!"text", .str) :: sc := by
      simp only [Stmt.check] at h1
      split at h1 <;> simp_all
    subst hsc1
    rw [checkBlock] at h
    generalize inferType x b = ty at h
    cases ty with
    | none => simp [Stmt.check] at h
    | some T =>
      simp only [Stmt.check, lookupVar, if_true] at h
      exact ⟨T, (check_cons (by trivial) h).2⟩

/-- Behind the `/` in front of a block `i` is advanced, so it is not the name of a parameter. -/
theorem enter_free {r : Routes} {pth : List PathSegment} {q : List Param} {b : List Stmt} (h : Code (.enter r pth q) b)
    {x : Str} {T : Ty} {sc : Scope} (hc : (checkBlock b ((x, T) :: sc)).isSome = true) : x ≠ c!"i" := by
  cases h
  obtain ⟨-, h⟩ := check_append (sepHead_stays' _) hc
  obtain ⟨h, -⟩ := check_cons (by trivial) h
  rintro rfl
  simp [Stmt.check, checkArms, Arm.check, checkBlock, Scope.free, lookupVar] at h

/-- The fixed segments that a piece of code is about are no longer than `L`. -/
def CodeKind.texts (L : Nat) : CodeKind → Prop
  | .block r _ _ => TextsAtMost L r
  | .enter r _ _ => TextsAtMost L r
  | .kids ns _ _ _ => ∀ n ∈ ns, (∀ s, n.pathSegment = .static s → s.length ≤ L) ∧ TextsAtMost L n.routes
  | .arms ns _ _ _ _ => ∀ n ∈ ns, (∀ s, n.pathSegment = .static s → s.length ≤ L) ∧ TextsAtMost L n.routes

theorem TextsAtMost.kids {L : Nat} {rs : List Resource} {ns : List NestedRoutes} {qs : List Param}
    (h : TextsAtMost L (.mk rs ns qs)) : ∀ n ∈ ns, (∀ s, n.pathSegment = .static s → s.length ≤ L) ∧ TextsAtMost L n.routes := by
  intro n hn
  obtain ⟨seg, sub⟩ := n
  refine ⟨fun s hs => ?_, fun segs above node hr s hs => ?_⟩
  · have := h _ _ _ (.child (r := .mk rs ns qs) hn (.here sub)) s
    exact this (by simp at hs; simp [hs])
  · exact h _ _ _ (.child (r := .mk rs ns qs) hn hr) s (List.mem_cons_of_mem _ hs)

theorem code_careful {L : Nat} (hL : 1 ≤ L) {k : CodeKind} {b : List Stmt} (h : Code k b) : ∀ sc : Scope, k.texts L →
    (checkBlock b sc).isSome = true → blockCareful L 0 b := by
  induction h with
  | @plain rs ns qs pth q cb _ _ ih =>
    intro sc ht hc
    exact careful_append (own_careful _) (ih sc ht.kids (check_append (own_stays' _) hc).2)
  | @param rs ns qs pth q n p b hn hseg hcap hst hb ih =>
    intro sc ht hc
    obtain ⟨-, hc⟩ := check_append (own_stays' _) hc
    rw [checkBlock] at hc
    cases h1 : Stmt.letStart.check sc with
    | none => simp [h1] at hc
    | some sc1 =>
      simp only [h1] at hc
      obtain ⟨T, hc⟩ := head_scope' hc
      exact careful_append (own_careful _) (careful_cons trivial
        (careful_append (head_careful (enter_free hb hc)) (ih _ (ht.kids n hn).2 hc)))
  | @both rs ns qs pth q n p b sb w l c hl hn hseg hcap hw hpre hst hsb hb ihs ihb =>
    intro sc ht hc
    obtain ⟨-, hc⟩ := check_append (own_stays' _) hc
    obtain ⟨-, hc⟩ := check_cons (by trivial) hc
    rw [checkBlock] at hc
    cases h1 : Stmt.letStart.check sc with
    | none => simp [h1] at hc
    | some sc1 =>
      simp only [h1] at hc
      obtain ⟨-, hc⟩ := check_cons (by trivial) hc
      obtain ⟨hif, hc⟩ := check_cons (by trivial) hc
      obtain ⟨T, hc⟩ := head_scope' hc
      have hsbc : (checkBlock sb sc1).isSome = true := by
        simp only [Stmt.check] at hif
        split at hif
        · rename_i hand
          simp only [Bool.and_eq_true] at hand
          obtain ⟨h2, -⟩ := check_cons (by trivial) hand.2
          simp only [Stmt.check] at h2
          split at h2
          · rename_i hand
            simp only [Bool.and_eq_true, checkArms, Arm.check] at hand
            exact (check_cons (by trivial) hand.2.1).2
          · cases h2
        · cases hif
      have hwL : l ≤ L := by
        obtain ⟨⟨s, hs, hle⟩, -⟩ := hl
        obtain ⟨n', hn', hseg'⟩ := mem_staticTexts.1 hs
        exact Nat.le_trans hle ((ht.kids n' hn').1 s hseg')
      have hsbd := ihs sc1 ht.kids hsbc
      refine careful_append (own_careful _) (careful_cons trivial (careful_cons trivial (careful_cons trivial
        (careful_cons ?_ (careful_append (head_careful (enter_free hb hc)) (ihb _ (ht.kids n hn).2 hc))))))
      have hsm : c.small L := by
        rcases hl.2 with rfl | rfl
        · trivial
        · simp only [Cond.small]; omega
      simp only [Stmt.careful, blockCareful, armsCareful, and_true]
      refine ⟨hsm, by omega, Nat.le_refl _, ?_⟩
      rw [Nat.sub_self]
      exact hsbd
  | @enter r pth q b hb ih =>
    intro sc ht hc
    obtain ⟨-, hc⟩ := check_append (sepHead_stays' _) hc
    obtain ⟨-, hc⟩ := check_cons (by trivial) hc
    refine careful_append (sepHead_careful _) (careful_cons ?_ (ih sc ht hc))
    simp [Stmt.careful, armsCareful, blockCareful, hL]
  | none _ => intro sc _ _; simp [blockCareful, Stmt.careful]
  | sep hn _ _ _ _ ih =>
    intro sc ht hc
    exact ih sc (ht _ hn).2 hc
  | @chain ns u w pth q b l c hl hw hex hall _ hb ih =>
    intro sc ht hc
    obtain ⟨-, hc⟩ := check_cons (by trivial) hc
    obtain ⟨-, hc⟩ := check_cons (by trivial) hc
    have hwL : w.length ≤ L := by
      obtain ⟨n, hn, rest, hseg⟩ := hex
      obtain ⟨rest', rfl⟩ := hall n hn rest hseg
      have := (ht n hn).1 _ hseg
      simp only [List.length_append] at this
      omega
    have hsm : c.small L := by
      rcases hl.2 with rfl | rfl
      · trivial
      · simp only [Cond.small]; omega
    refine careful_cons ?_ (careful_cons ?_ (ih sc ht hc))
    · simp [Stmt.careful, blockCareful, hsm]
    · simp only [Stmt.careful, armsCareful, blockCareful, and_true]
      omega
  | branch _ _ _ _ _ ih =>
    intro sc ht hc
    obtain ⟨-, hc⟩ := check_cons (by trivial) hc
    exact careful_cons (by simp [Stmt.careful, blockCareful, Cond.small]) (ih sc ht hc)
  | armsNil => intro sc _ _; simp [blockCareful, Stmt.careful, armsCareful, hL]
  | @armsCons ns u pth q ch chars b as _ _ ih1 ih2 =>
    intro sc ht hc
    have hc' : (checkBlock b sc).isSome = true ∧ (checkBlock [.matchPath 1 as] sc).isSome = true := by
      obtain ⟨h1, -⟩ := check_cons (by trivial) hc
      simp only [Stmt.check] at h1
      split at h1
      · rename_i hand
        simp only [Bool.and_eq_true, checkArms, Arm.check] at hand
        refine ⟨(check_cons (by trivial) hand.2.1).2, ?_⟩
        simp [checkBlock, Stmt.check, hand.1.1, hand.1.2, hand.2.2]
      · cases h1
    have h1 := ih1 sc ht hc'.1
    have h2 := ih2 sc ht hc'.2
    simp only [blockCareful, Stmt.careful, armsCareful, and_true] at h2 ⊢
    exact ⟨h2.1, ⟨Nat.le_refl _, h1⟩, h2.2⟩

theorem careful_prefix : ∀ {a b : List Stmt} {k : Nat}, blockCareful N k (a ++ b) → blockCareful N k a
  | [], _, _, _ => by simp [blockCareful]
  | st :: a, b, k, h => by
    by_cases hst : ∃ n, st = .addI n
    · obtain ⟨n, rfl⟩ := hst
      simp only [List.cons_append, blockCareful] at h ⊢
      exact ⟨h.1, careful_prefix h.2⟩
    · cases st with
      | addI n => exact absurd ⟨n, rfl⟩ hst
      | _ =>
        simp only [List.cons_append, blockCareful] at h ⊢
        exact ⟨h.1, careful_prefix h.2⟩

theorem TextsAtMost.mono {L L' : Nat} {r : Routes} (h : TextsAtMost L r) (hL : L ≤ L') : TextsAtMost L' r :=
  fun segs above node hr s hs => Nat.le_trans (h segs above node hr s hs) hL

mutual
/-- Every configuration has a longest fixed segment. -/
theorem texts_bound : ∀ r : Routes, ∃ L, 1 ≤ L ∧ TextsAtMost L r
  | .mk rs ns qs => by
    obtain ⟨L, hL, h⟩ := texts_boundL ns
    refine ⟨L, hL, fun segs above node hr s hs => ?_⟩
    cases hr with
    | here => cases hs
    | @child _ _ seg sub segs q hm hr =>
      obtain ⟨h1, h2⟩ := h _ hm
      rcases List.mem_cons.1 hs with hs | hs
      · exact h1 s hs.symm
      · exact h2 _ _ _ hr s hs
theorem texts_boundL : ∀ ns : List NestedRoutes, ∃ L, 1 ≤ L ∧ ∀ n ∈ ns,
    (∀ s, n.pathSegment = .static s → s.length ≤ L) ∧ TextsAtMost L n.routes
  | [] => ⟨1, Nat.le_refl _, by simp⟩
  | .mk seg r :: ns => by
    obtain ⟨L1, h1, hr⟩ := texts_bound r
    obtain ⟨L2, h2, hns⟩ := texts_boundL ns
    obtain ⟨L3, h3⟩ : ∃ L, ∀ s, seg = .static s → s.length ≤ L := by
      cases seg with
      | static s => exact ⟨s.length, fun s' h => by cases h; exact Nat.le_refl _⟩
      | dynamic p => exact ⟨0, fun s' h => by cases h⟩
    refine ⟨L1 + L2 + L3, by omega, fun n hn => ?_⟩
    rcases List.mem_cons.1 hn with rfl | hn
    · exact ⟨fun s hs => Nat.le_trans (h3 s hs) (by omega), hr.mono (by omega)⟩
    · exact ⟨fun s hs => Nat.le_trans ((hns n hn).1 s hs) (by omega), (hns n hn).2.mono (by omega)⟩
end

end Wayfinder
