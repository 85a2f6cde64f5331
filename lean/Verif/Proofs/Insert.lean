import Verif.Spec.Insert
import Verif.Proofs.Flat
import Verif.Proofs.Layout
/-!
# Lemmas about inserted lines
-/

namespace Wayfinder

theorem blockLevel_append (k : Nat) (a b : List (Nat × RouteLine)) : blockLevel k (a ++ b) = blockLevel (blockLevel k a) b := by
  induction a generalizing k with
  | nil => rfl
  | cons l a ih => obtain ⟨j, l⟩ := l; cases l <;> exact ih _

theorem trail_append (acc : List (Nat × PathSegment)) (a b : List (Nat × RouteLine)) : trail acc (a ++ b) = trail (trail acc a) b := by
  induction a generalizing acc with
  | nil => rfl
  | cons l a ih => obtain ⟨j, l⟩ := l; cases l <;> exact ih _

/-- Lines that are not segments. -/
def Flatly (ls : List (Nat × RouteLine)) : Prop := ∀ x ∈ ls, ∀ s, x.2 ≠ .segment s

theorem flatly_level {ls : List (Nat × RouteLine)} (h : Flatly ls) (k : Nat) : blockLevel k ls = k := by
  induction ls with
  | nil => rfl
  | cons l ls ih =>
    obtain ⟨j, l⟩ := l
    cases l with
    | segment s => exact absurd rfl (h (j, .segment s) (by simp) s)
    | query => exact ih fun x hx => h x (by simp [hx])
    | resource => exact ih fun x hx => h x (by simp [hx])

theorem flatly_trail {ls : List (Nat × RouteLine)} (h : Flatly ls) (acc : List (Nat × PathSegment)) : trail acc ls = acc := by
  induction ls with
  | nil => rfl
  | cons l ls ih =>
    obtain ⟨j, l⟩ := l
    cases l with
    | segment s => exact absurd rfl (h (j, .segment s) (by simp) s)
    | query => exact ih fun x hx => h x (by simp [hx])
    | resource => exact ih fun x hx => h x (by simp [hx])

theorem flatly_own (qs : List Param) (rs : List Resource) (k : Nat) :
    Flatly (qs.map (fun p => (k, RouteLine.query p)) ++ rs.flatMap (Resource.lines k)) := by
  intro x hx s
  rw [List.mem_append, List.mem_map, List.mem_flatMap] at hx
  rcases hx with ⟨p, _, rfl⟩ | ⟨r, _, hx⟩
  · simp
  · simp only [Resource.lines, List.mem_cons, List.mem_map] at hx
    rcases hx with rfl | ⟨p, _, rfl⟩ <;> simp

mutual
theorem lines_ge : ∀ (r : Routes) (k : Nat), ∀ x ∈ r.lines k, k ≤ x.1
  | .mk rs ns qs, k, x, hx => by
    rw [Routes.lines, List.mem_append, List.mem_append, List.mem_map, List.mem_flatMap] at hx
    rcases hx with (⟨p, _, rfl⟩ | ⟨r, _, hx⟩) | hx
    · exact Nat.le_refl _
    · simp only [Resource.lines, List.mem_cons, List.mem_map] at hx
      rcases hx with rfl | ⟨p, _, rfl⟩
      · exact Nat.le_refl _
      · exact Nat.le_succ _
    · exact childLines_ge ns k x hx
theorem childLines_ge : ∀ (ns : List NestedRoutes) (k : Nat), ∀ x ∈ childLines ns k, k ≤ x.1
  | [], _, x, hx => by rw [childLines] at hx; cases hx
  | .mk s r :: ns, k, x, hx => by
    rw [childLines, NestedRoutes.lines, List.mem_append, List.mem_cons] at hx
    rcases hx with (rfl | hx) | hx
    · exact Nat.le_refl _
    · exact Nat.le_trans (Nat.le_succ k) (lines_ge r (k + 1) x hx)
    · exact childLines_ge ns k x hx
end

theorem childLines_append (ns ns' : List NestedRoutes) (k : Nat) : childLines (ns ++ ns') k = childLines ns k ++ childLines ns' k := by
  induction ns with
  | nil => rw [List.nil_append, childLines, List.nil_append]
  | cons n ns ih => rw [List.cons_append, childLines, childLines, ih, List.append_assoc]

theorem blockLevel_ge {k m : Nat} {ls : List (Nat × RouteLine)} (h : ∀ x ∈ ls, k ≤ x.1) (hm : k + 1 ≤ m) : k + 1 ≤ blockLevel m ls := by
  induction ls generalizing m with
  | nil => exact hm
  | cons l ls ih =>
    obtain ⟨j, l⟩ := l
    have hl : ∀ x ∈ ls, k ≤ x.1 := fun x hx => h x (by simp [hx])
    cases l with
    | segment s => exact ih hl (Nat.succ_le_succ (h _ (List.mem_cons_self)))
    | query => exact ih hl hm
    | resource => exact ih hl hm

/-- The children of a block give it a deeper level. -/
theorem blockLevel_children {k : Nat} {a b : List (Nat × RouteLine)} {ns : List NestedRoutes} (h : childLines ns k = a ++ b)
    (hl : blockLevel k a ≤ k) : a = [] := by
  cases a with
  | nil => rfl
  | cons l a =>
    cases ns with
    | nil => rw [childLines] at h; cases h
    | cons n ns =>
      obtain ⟨s, r⟩ := n
      rw [childLines, NestedRoutes.lines] at h
      have hl' : l = (k, .segment s) := by simpa using (List.cons.inj h).1.symm
      subst hl'
      have : k + 1 ≤ blockLevel (k + 1) a := by
        refine blockLevel_ge (fun x hx => ?_) (Nat.le_refl _)
        have hx' : x ∈ childLines (.mk s r :: ns) k := by
          rw [childLines, NestedRoutes.lines, h]
          simp [hx]
        exact childLines_ge _ _ _ hx'
      simp only [blockLevel] at hl
      omega

theorem trail_lower {k : Nat} {ls : List (Nat × RouteLine)} (h : ∀ x ∈ ls, k ≤ x.1) (acc : List (Nat × PathSegment)) :
    (trail acc ls).filter (fun x => decide (x.1 < k)) = acc.filter (fun x => decide (x.1 < k)) := by
  induction ls generalizing acc with
  | nil => rfl
  | cons l ls ih =>
    obtain ⟨j, l⟩ := l
    have hl : ∀ x ∈ ls, k ≤ x.1 := fun x hx => h x (by simp [hx])
    cases l with
    | segment s =>
      have hj : k ≤ j := h _ (List.mem_cons_self)
      rw [trail, ih hl, List.filter_append, List.filter_filter]
      have : decide (j < k) = false := by simp; omega
      simp only [List.filter_cons, this, List.filter_nil, Bool.false_eq_true, if_false, List.append_nil]
      refine List.filter_congr fun x _ => ?_
      simp only [decide_eq_decide, Bool.and_eq_decide]
      simp
      omega
    | query => exact ih hl acc
    | resource => exact ih hl acc

theorem children_split {k K : Nat} (hK : K ≤ k) : ∀ (ns : List NestedRoutes) (a b : List (Nat × RouteLine)), childLines ns K = a ++ b →
    (∀ j l more, b = (j, l) :: more → j ≤ k) → k ≤ blockLevel K a →
    (k = K ∧ ∃ before after, ns = before ++ after ∧ a = childLines before K ∧ b = childLines after K) ∨
    (K < k ∧ ∃ before seg sub after a' b', ns = before ++ .mk seg sub :: after ∧ a = childLines before K ++ (K, .segment seg) :: a' ∧
      sub.lines (K + 1) = a' ++ b' ∧ b = b' ++ childLines after K)
  | [], a, b, h, _, hl => by
    rw [childLines] at h
    obtain ⟨rfl, rfl⟩ := List.append_eq_nil_iff.1 h.symm
    simp only [blockLevel] at hl
    exact .inl ⟨by omega, [], [], rfl, by rw [childLines], by rw [childLines]⟩
  | .mk seg sub :: ns, a, b, h, hb, hl => by
    have hall := h
    rw [childLines, NestedRoutes.lines, List.cons_append] at h
    cases a with
    | nil =>
      simp only [blockLevel] at hl
      exact .inl ⟨by omega, [], .mk seg sub :: ns, rfl, by rw [childLines], by rw [hall, List.nil_append]⟩
    | cons l a =>
      obtain ⟨rfl, ht⟩ := List.cons.inj h
      simp only [blockLevel] at hl
      rcases List.append_eq_append_iff.1 ht with ⟨a2, rfl, h2⟩ | ⟨b1, h1, rfl⟩
      · by_cases ha : a2 = []
        · subst ha
          rw [List.nil_append] at h2
          subst h2
          rw [List.append_nil] at *
          rcases Nat.eq_or_lt_of_le hK with rfl | hlt
          · exact .inl ⟨rfl, [.mk seg sub], ns, rfl, by rw [childLines, childLines, NestedRoutes.lines, List.append_nil], rfl⟩
          · exact .inr ⟨hlt, [], seg, sub, ns, sub.lines (K + 1), [], rfl, by rw [childLines, List.nil_append],
              by rw [List.append_nil], by rw [List.nil_append]⟩
        · rw [blockLevel_append] at hl
          have hstart : blockLevel (blockLevel (K + 1) (sub.lines (K + 1))) a2 = blockLevel K a2 := by
            cases a2 with
            | nil => exact absurd rfl ha
            | cons l2 a2 =>
              cases ns with
              | nil => rw [childLines] at h2; cases h2
              | cons n ns =>
                obtain ⟨s2, r2⟩ := n
                rw [childLines, NestedRoutes.lines] at h2
                have : l2 = (K, .segment s2) := by simpa using (List.cons.inj h2).1.symm
                subst this
                rfl
          rw [hstart] at hl
          rcases children_split hK ns a2 b h2 hb hl with ⟨h3, before, after, rfl, rfl, rfl⟩ | ⟨h3, before, seg', sub', after, a', b', rfl, rfl, h4, rfl⟩
          · exact .inl ⟨h3, .mk seg sub :: before, after, rfl, by rw [childLines, NestedRoutes.lines, List.cons_append], rfl⟩
          · exact .inr ⟨h3, .mk seg sub :: before, seg', sub', after, a', b', rfl,
              by rw [childLines, NestedRoutes.lines, List.cons_append]; simp, h4, rfl⟩
      · by_cases hb1 : b1 = []
        · subst hb1
          rw [List.append_nil] at h1
          subst h1
          rw [List.nil_append] at *
          rcases Nat.eq_or_lt_of_le hK with rfl | hlt
          · exact .inl ⟨rfl, [.mk seg sub], ns, rfl, by rw [childLines, childLines, NestedRoutes.lines, List.append_nil], rfl⟩
          · exact .inr ⟨hlt, [], seg, sub, ns, sub.lines (K + 1), [], rfl, by rw [childLines, List.nil_append],
              by rw [List.append_nil], by rw [List.nil_append]⟩
        · obtain ⟨⟨j, l1⟩, b1', rfl⟩ := List.exists_cons_of_ne_nil hb1
          have hj := hb j l1 _ rfl
          have hj' : K + 1 ≤ j := lines_ge sub (K + 1) (j, l1) (by rw [h1]; simp)
          exact .inr ⟨by omega, [], seg, sub, ns, a, _, rfl, by rw [childLines, List.nil_append], h1, rfl⟩

/-- A block's own lines and those of its children. -/
theorem own_split {rs : List Resource} {ns : List NestedRoutes} {qs : List Param} {K : Nat} {a b : List (Nat × RouteLine)}
    (h : (Routes.mk rs ns qs).lines K = a ++ b) :
    (∃ a', a = qs.map (fun p => (K, RouteLine.query p)) ++ rs.flatMap (Resource.lines K) ++ a' ∧ childLines ns K = a' ++ b) ∨
    (∃ b', b' ≠ [] ∧ qs.map (fun p => (K, RouteLine.query p)) ++ rs.flatMap (Resource.lines K) = a ++ b' ∧ b = b' ++ childLines ns K) := by
  rw [Routes.lines] at h
  rcases List.append_eq_append_iff.1 h with ⟨a', h1, h2⟩ | ⟨b', h1, h2⟩
  · exact .inl ⟨a', h1, h2⟩
  · by_cases hb : b' = []
    · subst hb
      exact .inl ⟨[], by rw [List.append_nil] at *; exact h1.symm, by rw [List.nil_append] at *; exact h2.symm⟩
    · exact .inr ⟨b', hb, h1, h2⟩

theorem trail_own {acc : List (Nat × PathSegment)} {K : Nat} (hacc : ∀ x ∈ acc, x.1 < K) {ls : List (Nat × RouteLine)}
    (h : ∀ x ∈ ls, K ≤ x.1) : (trail acc ls).filter (fun x => decide (x.1 < K)) = acc := by
  rw [trail_lower h]
  exact List.filter_eq_self.2 fun x hx => decide_eq_true (hacc x hx)

/-- A child is added to the block that is open at its level. -/
theorem insert_child (n : NestedRoutes) {k : Nat} : ∀ (r : Routes) (K : Nat) (a b : List (Nat × RouteLine)) (acc : List (Nat × PathSegment)),
    (∀ x ∈ acc, x.1 < K) → r.lines K = a ++ b → SegmentNext k b → K ≤ k → k ≤ blockLevel K a → ∃ segs old new r',
      Edited r segs old new r' ∧ AddsChild n old new ∧ r'.lines K = a ++ n.lines k ++ b ∧
      ((trail acc a).filter (fun x => decide (x.1 < k))).map Prod.snd = acc.map Prod.snd ++ segs := by
  intro r
  induction r using Routes.ind with
  | h rs ns qs ih =>
    intro K a b acc hacc h hb hK hl
    rcases own_split h with ⟨a', rfl, h'⟩ | ⟨b', hb', h1, rfl⟩
    · rw [blockLevel_append, flatly_level (flatly_own qs rs K)] at hl
      have hb2 : ∀ j l more, b = (j, l) :: more → j ≤ k := by
        rintro j l more rfl
        rcases hb with hb | ⟨j', s, more', hb, hj⟩
        · cases hb
        · cases hb
          exact hj
      rcases children_split hK ns a' b h' hb2 hl with ⟨rfl, before, after, rfl, rfl, rfl⟩ | ⟨hlt, before, seg, sub, after, a2, b2, rfl, rfl, h3, rfl⟩
      · refine ⟨[], _, _, _, .here _ _, .mk rs before after qs, ?_, ?_⟩
        · rw [Routes.lines, childLines_append, childLines]
          simp only [List.append_assoc]
        · rw [List.append_nil, trail_append, flatly_trail (flatly_own qs rs k), trail_own hacc (childLines_ge before k)]
      · have hb3 : SegmentNext k b2 := by
          rcases hb with hb | ⟨j, s, more, hb, hj⟩
          · exact .inl (List.append_eq_nil_iff.1 hb).1
          · cases b2 with
            | nil => exact .inl rfl
            | cons x b2 =>
              obtain ⟨rfl, _⟩ := List.cons.inj hb
              exact .inr ⟨j, s, b2, rfl, hj⟩
        have hl2 : k ≤ blockLevel (K + 1) a2 := by
          rw [blockLevel_append] at hl
          exact hl
        obtain ⟨segs, old, new, sub', g1, g2, g3, g4⟩ := ih (.mk seg sub) (by simp) (K + 1) a2 b2 (acc ++ [(K, seg)]) (by
          intro x hx
          rcases List.mem_append.1 hx with hx | hx
          · exact Nat.lt_succ_of_lt (hacc x hx)
          · rw [List.mem_singleton.1 hx]
            exact Nat.lt_succ_self K) h3 hb3 hlt hl2
        refine ⟨seg :: segs, old, new, _, .child (rs := rs) (before := before) (after := after) (qs := qs) g1, g2, ?_, ?_⟩
        · rw [Routes.lines, childLines_append, childLines, NestedRoutes.lines, g3]
          simp only [List.append_assoc, List.cons_append]
        · rw [trail_append, flatly_trail (flatly_own qs rs K), trail_append, trail, trail_own hacc (childLines_ge before K), g4]
          simp
    · exfalso
      obtain ⟨x, b2, rfl⟩ := List.exists_cons_of_ne_nil hb'
      rcases hb with hb | ⟨j, s, more, hb, _⟩
      · cases hb
      · obtain ⟨rfl, _⟩ := List.cons.inj hb
        exact flatly_own qs rs K (j, .segment s) (by rw [h1]; simp) s rfl

/-- Where the resources of a block are divided. -/
theorem resources_split {rs : List Resource} {K : Nat} {a b : List (Nat × RouteLine)} (h : rs.flatMap (Resource.lines K) = a ++ b)
    (hb : b = [] ∨ ∃ m r ms x more, b = (K, .resource m r ms x) :: more) :
    ∃ before after, rs = before ++ after ∧ a = before.flatMap (Resource.lines K) ∧ b = after.flatMap (Resource.lines K) := by
  induction rs generalizing a with
  | nil =>
    obtain ⟨rfl, rfl⟩ := List.append_eq_nil_iff.1 h.symm
    exact ⟨[], [], rfl, rfl, rfl⟩
  | cons r rs ih =>
    rw [List.flatMap_cons] at h
    rcases List.append_eq_append_iff.1 h with ⟨a2, rfl, h2⟩ | ⟨b2, h1, rfl⟩
    · obtain ⟨before, after, rfl, rfl, rfl⟩ := ih h2
      exact ⟨r :: before, after, rfl, rfl, rfl⟩
    · cases a with
      | nil => exact ⟨[], r :: rs, rfl, rfl, by rw [List.flatMap_cons, h1]; rfl⟩
      | cons x a =>
        rw [Resource.lines] at h1
        obtain ⟨rfl, ht⟩ := List.cons.inj h1
        replace ht : r.queryParameters.map (fun p => (K + 1, RouteLine.query p)) = a ++ b2 := ht
        cases b2 with
        | nil =>
          rw [List.append_nil] at ht
          exact ⟨[r], rs, rfl, by rw [← ht]; simp [Resource.lines], rfl⟩
        | cons y b2 =>
          exfalso
          have hy : y ∈ r.queryParameters.map fun p => (K + 1, RouteLine.query p) := by rw [ht]; simp
          obtain ⟨p, _, rfl⟩ := List.mem_map.1 hy
          rcases hb with hb | ⟨m, r, ms, x, more, hb⟩ <;> cases hb

/-- A resource is added to the block that is open at its level. -/
theorem insert_resource (x : Resource) {k : Nat} : ∀ (r : Routes) (K : Nat) (a b : List (Nat × RouteLine)) (acc : List (Nat × PathSegment)),
    (∀ x ∈ acc, x.1 < K) → r.lines K = a ++ b → ResourceNext k b → K ≤ k → k = blockLevel K a → ∃ segs old new r',
      Edited r segs old new r' ∧ AddsResource x old new ∧ r'.lines K = a ++ x.lines k ++ b ∧
      ((trail acc a).filter (fun x => decide (x.1 < k))).map Prod.snd = acc.map Prod.snd ++ segs := by
  intro r
  induction r using Routes.ind with
  | h rs ns qs ih =>
    intro K a b acc hacc h hb hK hl
    -- in the block itself
    have own : k = K → ∀ b', qs.map (fun p => (K, RouteLine.query p)) ++ rs.flatMap (Resource.lines K) = a ++ b' →
        b = b' ++ childLines ns K → ∃ segs old new r', Edited (.mk rs ns qs) segs old new r' ∧ AddsResource x old new ∧
          r'.lines K = a ++ x.lines k ++ b ∧
          ((trail acc a).filter (fun x => decide (x.1 < k))).map Prod.snd = acc.map Prod.snd ++ segs := by
      rintro rfl b' h1 rfl
      have hb' : b' = [] ∨ ∃ m r ms x more, b' = (k, .resource m r ms x) :: more := by
        cases b' with
        | nil => exact .inl rfl
        | cons y b' =>
          right
          rcases hb with (hb | ⟨j, s, more, hb, _⟩) | ⟨m, r, ms, x, more, hb⟩
          · cases hb
          · obtain ⟨rfl, _⟩ := List.cons.inj hb
            exact absurd rfl (flatly_own qs rs k (j, .segment s) (by rw [h1]; simp) s)
          · obtain ⟨rfl, _⟩ := List.cons.inj hb
            exact ⟨m, r, ms, x, b', rfl⟩
      have hq : ∃ a', a = qs.map (fun p => (k, RouteLine.query p)) ++ a' ∧ rs.flatMap (Resource.lines k) = a' ++ b' := by
        rcases List.append_eq_append_iff.1 h1 with ⟨a', h2, h3⟩ | ⟨b2, h2, h3⟩
        · exact ⟨a', h2, h3⟩
        · cases b2 with
          | nil => exact ⟨[], by rw [List.append_nil] at *; exact h2.symm, by rw [List.nil_append] at *; exact h3.symm⟩
          | cons y b2 =>
            exfalso
            have hy : y ∈ qs.map (fun p => (k, RouteLine.query p)) := by rw [h2]; simp
            obtain ⟨p, _, rfl⟩ := List.mem_map.1 hy
            rcases hb' with rfl | ⟨m, r, ms, x, more, rfl⟩ <;> cases h3
      obtain ⟨a', rfl, h3⟩ := hq
      obtain ⟨before, after, rfl, rfl, rfl⟩ := resources_split h3 hb'
      refine ⟨[], _, _, _, .here _ _, .mk before after ns qs, ?_, ?_⟩
      · rw [Routes.lines, List.flatMap_append, List.flatMap_cons]
        simp only [List.append_assoc]
      · rw [List.append_nil, trail_own hacc]
        intro y hy
        exact lines_ge (.mk (before ++ after) ns qs) k y (by rw [h]; exact List.mem_append.2 (.inl hy))
    rcases own_split h with ⟨a', rfl, h'⟩ | ⟨b', hb', h1, h2⟩
    · rw [blockLevel_append, flatly_level (flatly_own qs rs K)] at hl
      rcases Nat.eq_or_lt_of_le hK with rfl | hlt
      · have ha' := blockLevel_children h' (Nat.le_of_eq hl.symm)
        subst ha'
        rw [List.append_nil] at *
        exact own rfl [] (by rw [List.append_nil]) (by rw [List.nil_append, h', List.nil_append])
      · have hb2 : ∀ j l more, b = (j, l) :: more → j ≤ k := by
          rintro j l more rfl
          rcases hb with (hb | ⟨j', s, more', hb, hj⟩) | ⟨m, r, ms, x, more, hb⟩ <;> cases hb
          · exact hj
          · exact Nat.le_refl _
        rcases children_split hK ns a' b h' hb2 (Nat.le_of_eq hl) with ⟨rfl, _⟩ | ⟨hlt, before, seg, sub, after, a2, b2, rfl, rfl, h3, rfl⟩
        · exact absurd hlt (Nat.lt_irrefl _)
        · have hb3 : ResourceNext k b2 := by
            cases b2 with
            | nil => exact .inl (.inl rfl)
            | cons y b2 =>
              rcases hb with (hb | ⟨j, s, more, hb, hj⟩) | ⟨m, r, ms, x, more, hb⟩
              · cases hb
              · obtain ⟨rfl, _⟩ := List.cons.inj hb
                exact .inl (.inr ⟨j, s, b2, rfl, hj⟩)
              · obtain ⟨rfl, _⟩ := List.cons.inj hb
                exact .inr ⟨m, r, ms, x, b2, rfl⟩
          have hl2 : k = blockLevel (K + 1) a2 := by
            rw [blockLevel_append] at hl
            exact hl
          obtain ⟨segs, old, new, sub', g1, g2, g3, g4⟩ := ih (.mk seg sub) (by simp) (K + 1) a2 b2 (acc ++ [(K, seg)]) (by
            intro x hx
            rcases List.mem_append.1 hx with hx | hx
            · exact Nat.lt_succ_of_lt (hacc x hx)
            · rw [List.mem_singleton.1 hx]
              exact Nat.lt_succ_self K) h3 hb3 hlt hl2
          refine ⟨seg :: segs, old, new, _, .child (rs := rs) (before := before) (after := after) (qs := qs) g1, g2, ?_, ?_⟩
          · rw [Routes.lines, childLines_append, childLines, NestedRoutes.lines, g3]
            simp only [List.append_assoc, List.cons_append]
          · rw [trail_append, flatly_trail (flatly_own qs rs K), trail_append, trail, trail_own hacc (childLines_ge before K), g4]
            simp
    · have : k = K := by
        have hf : Flatly a := fun y hy => flatly_own qs rs K y (by rw [h1]; simp [hy])
        rw [flatly_level hf] at hl
        exact hl
      exact own this b' h1 h2

end Wayfinder
