import Verif.Spec.Truncate
import Verif.Proofs.Layout
import Verif.Props.Grammar
import Verif.Tests.Check
/-!
# A text has one reading as lines, and what the beginning of a file says
-/

namespace Wayfinder

variable (cfg : ParseCfg)

/-! ## One reading as lines -/

/-- Read what a line says, behind its indentation. -/
def readLine (i : Str) : Option (RouteLine × Str) :=
  match pQueryParameter cfg 0 i with
  | .ok rest p => some (.query p, rest)
  | _ =>
    match (pBind (pMethod cfg) fun m => pBind (pChar ' ') fun _ => pBind (pTarget cfg) fun t => pPure (m, t)) i with
    | .ok rest (m, t) => some (.resource m t.1 t.2.1 t.2.2, rest)
    | _ =>
      match pPathSegment cfg 0 i with
      | .ok rest s => some (.segment s, rest)
      | _ => none

theorem query_not {i : Str} (h : i.head? ≠ some '[') {rest : Str} {p : Param} : pQueryParameter cfg 0 i ≠ .ok rest p := by
  intro hq
  obtain ⟨t, -, rfl⟩ := query_inv cfg hq
  simp [spaces] at h

theorem method_not_child {seg : PathSegment} {s : Str} (hs : SegmentText cfg seg s) {e : Str} (he : Eols e) (hne : e ≠ []) (r : Str) {rest : Str}
    {m : Method} (hm : pMethod cfg (s ++ (e ++ r)) = .ok rest m) : rest.head? ≠ some ' ' := by
  obtain ⟨v, hv, hl⟩ := (C34_verbs cfg _ _ _).1 hm
  cases hs with
  | static hw =>
    cases rest with
    | nil => simp
    | cons c0 rest =>
      intro hc0
      obtain rfl : c0 = ' ' := by simpa using hc0
      have h1 : (s ++ (e ++ r)).takeWhile (fun c => !isWs c) = s := by
        rw [List.takeWhile_append_of_pos (fun c hc => by
          simp [(wordChar_notWs cfg ((wordChar_iff cfg c).2 (hw.2 c hc))).1])]
        cases he with
        | nil => exact absurd rfl hne
        | lf _ => simp [isWs]
        | crlf _ => simp [isWs]
      have h2 : (v ++ ' ' :: rest).takeWhile (fun c => !isWs c) = v := by
        rw [List.takeWhile_append_of_pos (fun c hc => by simp [((verb_chars hl).2 c hc).1])]
        simp [isWs]
      have hsv : s = v := by rw [← h1, ← h2, hv]
      subst hsv
      have h3 := List.append_cancel_left hv
      cases he with
      | nil => exact hne rfl
      | lf _ => simp at h3
      | crlf _ => simp at h3
  | dynamic ht =>
    exfalso
    have h4 := (verb_chars hl).1
    cases hv0 : v with
    | nil => exact h4 hv0
    | cons c v =>
      have h5 : c = '{' := by
        have := congrArg List.head? hv
        simp [hv0] at this
        exact this.symm
      have h6 : c.toLower ∈ m.display.map Char.toLower := by
        rw [← hl, hv0]; simp
      rw [h5] at h6
      revert h6
      cases m <;> decide

theorem eols_notWord {e : Str} (he : Eols e) (hne : e ≠ []) (r : Str) : NotWord cfg (e ++ r) := by
  cases he with
  | nil => exact absurd rfl hne
  | lf _ => exact notWord_cons cfg (nonWord_notWord cfg (by decide) (by decide))
  | crlf _ => exact notWord_cons cfg (nonWord_notWord cfg (by decide) (by decide))

/-- A line is its indentation and something that can be read. -/
theorem line_read {level : Nat} {l : RouteLine} {u : Str} (h : LineText cfg level l u) : ∃ v, u = spaces level ++ v ∧ v ≠ [] ∧
    (∀ r, Plain (v ++ r)) ∧ ∀ e rest, Eols e → e ≠ [] → Plain (rest.dropWhile isWs) → readLine cfg (v ++ (e ++ rest)) = some (l, e ++ rest) := by
  cases h with
  | @query p t ht =>
    refine ⟨c!"[" ++ t ++ c!"]", by simp, by simp, fun r c hc => ?_, fun e rest _ _ _ => ?_⟩
    · simp at hc; subst hc; exact ⟨rfl, by decide⟩
    · have := queryText_ok cfg (level := 0) ht (e ++ rest)
      rw [show spaces 0 = [] from rfl, List.nil_append] at this
      rw [readLine, this]
  | @resource m b ms x v a t hv ha ht =>
    have hl := (verbText_iff _ _).1 hv
    obtain ⟨h1, h2⟩ := verb_chars hl
    refine ⟨v ++ c!" " ++ a ++ t, by simp, by simp, fun r c hc => ?_, fun e rest he hne hr => ?_⟩
    · cases v with
      | nil => exact absurd rfl h1
      | cons d v =>
        simp at hc; subst hc
        have := h2 d (by simp)
        exact ⟨this.1, this.2.1⟩
    · have hq : ∀ rest' p, pQueryParameter cfg 0 (v ++ c!" " ++ a ++ t ++ (e ++ rest)) ≠ .ok rest' p := fun _ _ => query_not cfg (by
        cases v with
        | nil => exact absurd rfl h1
        | cons d v => simpa using (h2 d (by simp)).2.2)
      have hm : (pBind (pMethod cfg) fun m => pBind (pChar ' ') fun _ => pBind (pTarget cfg) fun t => pPure (m, t))
          (v ++ c!" " ++ a ++ t ++ (e ++ rest)) = .ok (e ++ rest) (m, b, ms, x) := by
        have e1 : v ++ c!" " ++ a ++ t ++ (e ++ rest) = v ++ (' ' :: (a ++ t ++ (e ++ rest))) := by simp
        unfold pBind
        rw [e1, (C34_verbs cfg (v ++ (' ' :: (a ++ t ++ (e ++ rest)))) _ m).2 ⟨v, rfl, hl⟩]
        simp only [pChar, if_true]
        rw [arrowText_ok cfg ha ht (eols_notWord cfg he hne rest) (by rw [dropWs_blanks he.blanks]; exact hr)]
        rfl
      unfold readLine
      split
      · rename_i h; exact absurd h (hq _ _)
      · rw [hm]
  | @segment s t hs =>
    refine ⟨t, rfl, ?_, segmentText_plain cfg hs, fun e rest he hne hr => ?_⟩
    · cases hs with
      | static hw => exact hw.1
      | dynamic => simp
    · unfold readLine
      split
      · rename_i h; exact absurd h (query_not cfg (segmentText_head cfg hs _))
      · split
        · rename_i h
          exfalso
          obtain ⟨m, r1, h1, h2⟩ := bind_ok h
          obtain ⟨_, r2, h3, h4⟩ := bind_ok h2
          have := method_not_child cfg hs he hne rest h1
          rw [char_inv h3] at this
          simp at this
        · have := segmentText_ok cfg hs 0 (eols_notWord cfg he hne rest)
          rw [show spaces 0 = [] from rfl, List.nil_append] at this
          rw [this]

/-- Indentation is not part of what is behind it. -/
theorem spaces_cancel {k k' : Nat} {v v' : Str} (hv : NoWs v) (hv' : NoWs v') (hne : v ≠ []) (hne' : v' ≠ [])
    (h : spaces k ++ v = spaces k' ++ v') : k = k' ∧ v = v' := by
  induction k generalizing k' with
  | zero =>
    cases k' with
    | zero => exact ⟨rfl, h⟩
    | succ k' =>
      rw [spaces_succ] at h
      rw [show spaces 0 ++ v = v from rfl] at h
      exact absurd (hv ' ' (by rw [h]; rfl)) (by decide)
  | succ k ih =>
    cases k' with
    | zero =>
      rw [spaces_succ] at h
      rw [show spaces 0 ++ v' = v' from rfl] at h
      exact absurd (hv' ' ' (by rw [← h]; rfl)) (by decide)
    | succ k' =>
      rw [spaces_succ, spaces_succ] at h
      simp only [List.cons_append, List.cons.injEq, true_and] at h
      obtain ⟨rfl, h1⟩ := ih h
      exact ⟨rfl, h1⟩

theorem eols_cancel {e e' r r' : Str} (he : Eols e) (he' : Eols e') (hr : NoEol r) (hr' : NoEol r') (h : e ++ r = e' ++ r') :
    e = e' ∧ r = r' := by
  obtain ⟨l, h1⟩ := eols0_ok he hr
  obtain ⟨l', h2⟩ := eols0_ok he' hr'
  rw [h, h2] at h1
  obtain ⟨rfl, -⟩ := Res.ok.inj h1
  exact ⟨List.append_cancel_right h, rfl⟩

theorem lines_plain {ls : List (Nat × RouteLine)} {t : Str} (h : LinesText cfg ls t) : Plain (t.dropWhile isWs) ∧ NoEol t := by
  cases h with
  | nil => exact ⟨fun c hc => by simp at hc, fun c hc => by simp at hc⟩
  | @cons level l ls u e t hl _ _ _ =>
    obtain ⟨v, rfl, -, h1, -⟩ := line_read cfg hl
    simp only [List.append_assoc]
    refine ⟨?_, noEol_spaces fun c hc => ?_⟩
    · rw [dropWs_spaces, dropWs_noWs (h1 _).noWs]
      exact h1 _
    · have := (h1 _ c hc).1
      simp only [isWs, Bool.or_eq_false_iff, beq_eq_false_iff_ne] at this
      simp [notEol, this]

/-- A text has at most one reading as lines. -/
theorem lines_unique {ls ls' : List (Nat × RouteLine)} {t : Str} (h : LinesText cfg ls t) (h' : LinesText cfg ls' t) : ls = ls' := by
  induction h generalizing ls' with
  | nil =>
    generalize hn : ([] : Str) = t at h'
    cases h' with
    | nil => rfl
    | cons hl he hne hls =>
      simp only [List.nil_eq, List.append_eq_nil_iff] at hn
      exact absurd hn.1.2 hne
  | @cons level l ls u e t hl he hne hls ih =>
    generalize hx : u ++ e ++ t = x at h'
    cases h' with
    | nil =>
      simp only [List.append_eq_nil_iff] at hx
      exact absurd hx.1.2 hne
    | @cons level' l' ls' u' e' t' hl' he' hne' hls' =>
      obtain ⟨v, rfl, hv, hp, hr⟩ := line_read cfg hl
      obtain ⟨v', rfl, hv', hp', hr'⟩ := line_read cfg hl'
      simp only [List.append_assoc] at hx
      obtain ⟨rfl, hx1⟩ := spaces_cancel (hp _).noWs (hp' _).noWs (by simp [hv]) (by simp [hv']) hx
      have h1 := hr e t he hne (lines_plain cfg hls).1
      rw [hx1, hr' e' t' he' hne' (lines_plain cfg hls').1] at h1
      simp only [Option.some.injEq, Prod.mk.injEq] at h1
      obtain ⟨rfl, h1⟩ := h1
      obtain ⟨rfl, rfl⟩ := eols_cancel he' he (lines_plain cfg hls').2 (lines_plain cfg hls).2 h1
      rw [ih hls']

/-! ## Cutting lines -/

theorem PlainLines.text {ls : List (Nat × RouteLine)} {t : Str} (h : PlainLines cfg ls t) : LinesText cfg ls t := by
  induction h with
  | nil => exact .nil
  | cons h1 _ h2 h3 _ ih => exact .cons h1 h2 h3 ih

theorem eols_cut {a b : Str} (h : Eols (a ++ b)) (hl : a = [] ∨ a.getLast? = some '\n') : Eols a := by
  generalize hx : a ++ b = x at h
  induction h generalizing a with
  | nil =>
    rw [(List.append_eq_nil_iff.1 hx).1]
    exact .nil
  | @lf t h ih =>
    cases a with
    | nil => exact .nil
    | cons c a =>
      simp only [List.cons_append, List.cons.injEq] at hx
      obtain ⟨rfl, hx⟩ := hx
      refine .lf (ih ?_ hx)
      cases a with
      | nil => exact .inl rfl
      | cons d a => right; simpa using hl
  | @crlf t h ih =>
    cases a with
    | nil => exact .nil
    | cons c a =>
      simp only [List.cons_append, List.cons.injEq] at hx
      obtain ⟨rfl, hx⟩ := hx
      cases a with
      | nil => simp at hl
      | cons d a =>
        simp only [List.cons_append, List.cons.injEq] at hx
        obtain ⟨rfl, hx⟩ := hx
        refine .crlf (ih ?_ hx)
        cases a with
        | nil => exact .inl rfl
        | cons d a => right; simpa using hl

/-- A text of plain lines that is cut behind a newline. -/
theorem plain_cut {ls : List (Nat × RouteLine)} {t : Str} (h : PlainLines cfg ls t) {j k : Str} (hj : j ++ k = t)
    (hl : j = [] ∨ j.getLast? = some '\n') : ∃ a b, ls = a ++ b ∧ PlainLines cfg a j := by
  induction h generalizing j with
  | nil =>
    rw [(List.append_eq_nil_iff.1 hj).1]
    exact ⟨[], [], rfl, .nil⟩
  | @cons level l ls u e t hlt ho he hne hls ih =>
    rw [List.append_assoc] at hj
    rcases List.append_eq_append_iff.1 hj with ⟨w, rfl, hk⟩ | ⟨w, rfl, hw⟩
    · rcases hl with rfl | hl
      · exact ⟨[], (level, l) :: ls, rfl, .nil⟩
      · obtain ⟨j', rfl⟩ := List.getLast?_eq_some_iff.1 hl
        exact absurd rfl (ho '\n' (by simp)).1
    · rcases List.append_eq_append_iff.1 hw.symm with ⟨w', rfl, hk⟩ | ⟨w', rfl, hw'⟩
      · cases w with
        | nil =>
          rw [List.append_nil] at hl ⊢
          rcases hl with rfl | hl
          · exact ⟨[], (level, l) :: ls, rfl, .nil⟩
          · obtain ⟨j', rfl⟩ := List.getLast?_eq_some_iff.1 hl
            exact absurd rfl (ho '\n' (by simp)).1
        | cons c w =>
          refine ⟨[(level, l)], ls, rfl, ?_⟩
          have := PlainLines.cons hlt ho (eols_cut he (a := c :: w) (.inr ?_)) (by simp) .nil
          · simpa using this
          · rcases hl with hl | hl
            · simp at hl
            · simpa [List.getLast?_append] using hl
      · obtain ⟨a, b, rfl, h1⟩ := ih hw'.symm (by
          cases w' with
          | nil => exact .inl rfl
          | cons c w' =>
            right
            rcases hl with hl | hl
            · simp at hl
            · simpa [List.getLast?_append] using hl)
        refine ⟨(level, l) :: a, b, rfl, ?_⟩
        have := PlainLines.cons hlt ho he hne h1
        simpa using this

/-! ## Beginnings of trees -/

theorem queries_prefix {k : Nat} {qs qs' : List Param} {b y : List (Nat × RouteLine)} (hy : ∀ p more, y ≠ (k, .query p) :: more)
    (h : qs'.map (fun p => (k, RouteLine.query p)) ++ b = qs.map (fun p => (k, .query p)) ++ y) : qs' <+: qs := by
  induction qs' generalizing qs with
  | nil => exact List.nil_prefix
  | cons q qs' ih =>
    cases qs with
    | nil => exact absurd h.symm (hy _ _)
    | cons q2 qs =>
      simp only [List.map_cons, List.cons_append, List.cons.injEq, Prod.mk.injEq, RouteLine.query.injEq, true_and] at h
      obtain ⟨rfl, h1⟩ := h
      exact List.cons_prefix_cons.2 ⟨rfl, ih h1⟩

theorem no_query {k j : Nat} (hj : k ≤ j) {l : List Resource} {z : List (Nat × RouteLine)} (h : l ≠ [] ∨ Behind k z) (p : Param)
    (more : List (Nat × RouteLine)) : l.flatMap (Resource.lines k) ++ z ≠ (j, .query p) :: more := by
  intro he
  cases l with
  | nil =>
    rcases h with h | h
    · exact h rfl
    · rcases h with rfl | ⟨i, l, m, rfl, hi | ⟨rfl, s, rfl⟩⟩
      · simp at he
      · simp at he; omega
      · simp at he
  | cons r l => simp [Resource.lines] at he

theorem resources_begin {k : Nat} {rs' rs : List Resource} {b y : List (Nat × RouteLine)} (hne : rs' ≠ []) (hy : Behind k y)
    (h : rs'.flatMap (Resource.lines k) ++ b = rs.flatMap (Resource.lines k) ++ y) : ∃ done x own more,
      rs' = done ++ [{ x with queryParameters := own }] ∧ rs = done ++ x :: more ∧ own <+: x.queryParameters := by
  induction rs' generalizing rs with
  | nil => exact absurd rfl hne
  | cons x' rs' ih =>
    obtain ⟨m', ms', nm', b', qs'⟩ := x'
    cases rs with
    | nil =>
      rcases hy with rfl | ⟨j, l, m, rfl, hj | ⟨rfl, s, rfl⟩⟩
      · simp [Resource.lines] at h
      · simp only [Resource.lines, List.flatMap_cons, List.cons_append, List.flatMap_nil, List.nil_append, List.cons.injEq, Prod.mk.injEq] at h; omega
      · simp [Resource.lines] at h
    | cons x rs =>
      obtain ⟨m, ms, nm, b2, qs⟩ := x
      simp only [List.flatMap_cons, List.append_assoc, Resource.lines, List.cons_append, List.cons.injEq, Prod.mk.injEq,
        RouteLine.resource.injEq, true_and] at h
      obtain ⟨⟨rfl, rfl, rfl, rfl⟩, h1⟩ := h
      cases rs' with
      | nil => exact ⟨[], _, qs', rs, rfl, rfl, queries_prefix (no_query (by omega) (.inr hy)) h1⟩
      | cons x2 rs' =>
        obtain ⟨rfl, h2⟩ := queries_cancel (no_query (by omega) (.inl (by simp))) (no_query (by omega) (.inr hy)) h1
        obtain ⟨done, x, own, more, g1, g2, g3⟩ := ih (by simp) h2
        exact ⟨_ :: done, x, own, more, by rw [g1]; rfl, by rw [g2]; rfl, g3⟩

mutual
theorem begins_of : ∀ (r' r : Routes) (k : Nat) (b z : List (Nat × RouteLine)), r'.Full → r.Full → Beneath k z →
    r'.lines k ++ b = r.lines k ++ z → Begins r' r
  | .mk rs' ns' qs', .mk rs ns qs, k, b, z, hf', hf, hz, h => by
    rw [Routes.Full] at hf hf'
    rw [Routes.lines, Routes.lines] at h
    simp only [List.append_assoc] at h
    have hz' := (beneath_children (ns := ns) hz).1
    cases ns' with
    | nil =>
      have hne : rs' ≠ [] := hf'.1.resolve_right (by simp)
      obtain ⟨rfl, h1⟩ := queries_cancel (no_query (Nat.le_refl _) (.inl hne)) (no_query (Nat.le_refl _) (.inr hz')) h
      rw [childLines, List.nil_append] at h1
      obtain ⟨done, x, own, more, rfl, rfl, h2⟩ := resources_begin hne hz' h1
      exact .resource done x more ns _ h2
    | cons n' ns' =>
      have hb : Behind k (childLines (n' :: ns') k ++ b) := by
        obtain ⟨s, r⟩ := n'
        rw [childLines, NestedRoutes.lines]
        exact .inr ⟨k, _, _, rfl, .inr ⟨rfl, s, rfl⟩⟩
      obtain ⟨rfl, h1⟩ := queries_cancel (no_query (Nat.le_refl _) (.inr hb)) (no_query (Nat.le_refl _) (.inr hz')) h
      obtain ⟨rfl, h2⟩ := resources_cancel hb hz' h1
      obtain ⟨done, seg, r1', r1, more, g1, rfl, g3⟩ := begins_children (n' :: ns') ns k b z (by simp) hf'.2 hf.2 hz h2
      rw [g1]
      exact .child rs' done seg more _ g3
theorem begins_children : ∀ (ns' ns : List NestedRoutes) (k : Nat) (b z : List (Nat × RouteLine)), ns' ≠ [] → FullAll ns' → FullAll ns →
    Beneath k z → childLines ns' k ++ b = childLines ns k ++ z →
    ∃ done seg r1' r1 more, ns' = done ++ [.mk seg r1'] ∧ ns = done ++ .mk seg r1 :: more ∧ Begins r1' r1
  | [], _, _, _, _, hne, _, _, _, _ => absurd rfl hne
  | .mk s' r' :: ns', [], k, b, z, _, _, _, hz, h => by
    rcases hz with rfl | ⟨j, l, m, rfl, hj⟩
    · simp [childLines, NestedRoutes.lines] at h
    · simp [childLines, NestedRoutes.lines] at h; omega
  | .mk s' r' :: ns', .mk s r :: ns, k, b, z, _, hf', hf, hz, h => by
    simp only [childLines, NestedRoutes.lines, List.cons_append, List.append_assoc, List.cons.injEq, Prod.mk.injEq, RouteLine.segment.injEq,
      true_and] at h
    simp only [FullAll, NestedRoutes.Full] at hf hf'
    obtain ⟨rfl, h1⟩ := h
    cases ns' with
    | nil =>
      rw [childLines, List.nil_append] at h1
      exact ⟨[], s', r', r, ns, rfl, rfl, begins_of r' r (k + 1) b _ hf'.1 hf.1 (beneath_children hz).2 h1⟩
    | cons n' ns' =>
      have hb : Beneath (k + 1) (childLines (n' :: ns') k ++ b) := by
        obtain ⟨s, r⟩ := n'
        rw [childLines, NestedRoutes.lines]
        exact .inr ⟨k, _, _, rfl, by omega⟩
      obtain ⟨rfl, h2⟩ := block_cancel r' r (k + 1) _ _ hb (beneath_children hz).2 h1
      obtain ⟨done, seg, r1', r1, more, g1, g2, g3⟩ := begins_children (n' :: ns') ns k b z (by simp) hf'.2 hf.2 hz h2
      exact ⟨.mk s' r' :: done, seg, r1', r1, more, by rw [g1]; rfl, by rw [g2]; rfl, g3⟩
end

theorem childLines_app (ns ns' : List NestedRoutes) (k : Nat) : childLines (ns ++ ns') k = childLines ns k ++ childLines ns' k := by
  induction ns with
  | nil => simp [childLines]
  | cons n ns ih => simp [childLines, ih]

theorem Begins.lines {r' r : Routes} (h : Begins r' r) : ∀ k, r'.lines k <+: r.lines k := by
  induction h with
  | resource done x more ns qs h =>
    intro k
    obtain ⟨rest, h⟩ := h
    refine ⟨rest.map (fun p => (k + 1, .query p)) ++ more.flatMap (Resource.lines k) ++ childLines ns k, ?_⟩
    simp [Routes.lines, Resource.lines, childLines, ← h]
  | child rs done seg more qs _ ih =>
    intro k
    obtain ⟨rest, h⟩ := ih (k + 1)
    refine ⟨rest ++ childLines more k, ?_⟩
    simp [Routes.lines, childLines_app, childLines, NestedRoutes.lines, ← h]

theorem fullAll_app {ns ns' : List NestedRoutes} : FullAll (ns ++ ns') ↔ FullAll ns ∧ FullAll ns' := by
  induction ns with
  | nil => simp [FullAll]
  | cons n ns ih => simp [FullAll, ih, and_assoc]

theorem Begins.full {r' r : Routes} (h : Begins r' r) (hf : r.Full) : r'.Full := by
  induction h with
  | resource => simp [Routes.Full, FullAll]
  | child rs done seg more qs _ ih =>
    simp only [Routes.Full, fullAll_app, FullAll, NestedRoutes.Full] at hf ⊢
    exact ⟨.inr (by simp), hf.2.1, ih hf.2.2.1, trivial⟩

/-- The beginnings of a tree are what can be read from the beginnings of its lines. -/
theorem begins_iff {r' r : Routes} (hf : r.Full) (k : Nat) : Begins r' r ↔ r'.Full ∧ r'.lines k <+: r.lines k := by
  constructor
  · exact fun h => ⟨h.full hf, h.lines k⟩
  · rintro ⟨h1, b, h2⟩
    exact begins_of r' r k b [] h1 hf (.inl rfl) (by rw [h2, List.append_nil])

theorem ends_cons {y : Nat × RouteLine} {a : List (Nat × RouteLine)} : EndsInResource (y :: a) ↔
    EndsInResource a ∨ (∃ k m b ms x, y = (k, .resource m b ms x)) ∧ ∀ z ∈ a, ∃ j p, z = (j, .query p) := by
  constructor
  · rintro ⟨before, k, m, b, ms, x, qs, h, hq⟩
    cases before with
    | nil =>
      simp only [List.nil_append, List.cons.injEq] at h
      obtain ⟨rfl, rfl⟩ := h
      exact .inr ⟨⟨k, m, b, ms, x, rfl⟩, hq⟩
    | cons z before =>
      simp only [List.cons_append, List.cons.injEq] at h
      exact .inl ⟨before, k, m, b, ms, x, qs, h.2, hq⟩
  · rintro (⟨before, k, m, b, ms, x, qs, rfl, hq⟩ | ⟨⟨k, m, b, ms, x, rfl⟩, hq⟩)
    · exact ⟨y :: before, k, m, b, ms, x, qs, rfl, hq⟩
    · exact ⟨[], k, m, b, ms, x, a, rfl, hq⟩

theorem accepts_cut {base : Nat} {s : Spot} {a b : List (Nat × RouteLine)} (h : s.accepts base (a ++ b)) :
    s.accepts base a ↔ EndsInResource a ∨ (∃ k, s = .filled k) ∧ ∀ z ∈ a, ∃ j p, z = (j, .query p) := by
  induction a generalizing s with
  | nil =>
    cases s with
    | fresh k => simp [Spot.accepts, EndsInResource]
    | filled k => simp [Spot.accepts]
  | cons y a ih =>
    rw [List.cons_append, accepts_cons] at h
    obtain ⟨s', h1, h2⟩ := h
    have : s.accepts base (y :: a) ↔ s'.accepts base a := by
      rw [accepts_cons, h1]
      simp
    rw [this, ih h2, ends_cons]
    obtain ⟨j, l⟩ := y
    cases s with
    | fresh k =>
      cases l <;> simp only [Spot.next] at h1 <;> split at h1 <;> simp at h1 <;> subst h1 <;> simp
    | filled k =>
      cases l <;> simp only [Spot.next] at h1 <;> split at h1 <;> simp at h1 <;> subst h1 <;> simp

/-! ## Declarations in order -/

theorem childrenInOrder_app (ns ns' : List NestedRoutes) (segs : List PathSegment) (above : List Param) :
    childrenInOrder (ns ++ ns') segs above = childrenInOrder ns segs above ++ childrenInOrder ns' segs above := by
  induction ns with
  | nil => simp [childrenInOrder]
  | cons n ns ih => simp [childrenInOrder, ih]

theorem Begins.inOrder {r' r : Routes} (h : Begins r' r) : ∀ segs above, ∃ done sg q x own more,
    r'.inOrder segs above = done ++ [(sg, q, { x with queryParameters := own })] ∧ r.inOrder segs above = done ++ (sg, q, x) :: more ∧
      own <+: x.queryParameters := by
  induction h with
  | resource done x more ns qs h =>
    intro segs above
    exact ⟨done.map fun x => (segs, above ++ qs, x), segs, above ++ qs, x, _, more.map (fun x => (segs, above ++ qs, x)) ++
      childrenInOrder ns segs (above ++ qs), by simp [Routes.inOrder, childrenInOrder], by simp [Routes.inOrder], h⟩
  | child rs done seg more qs _ ih =>
    intro segs above
    obtain ⟨dn, sg, q, x, own, mr, h1, h2, h3⟩ := ih (segs ++ [seg]) (above ++ qs)
    exact ⟨rs.map (fun x => (segs, above ++ qs, x)) ++ childrenInOrder done segs (above ++ qs) ++ dn, sg, q, x, own,
      mr ++ childrenInOrder more segs (above ++ qs), by simp [Routes.inOrder, childrenInOrder_app, childrenInOrder, NestedRoutes.inOrder, h1],
      by simp [Routes.inOrder, childrenInOrder_app, childrenInOrder, NestedRoutes.inOrder, h2], h3⟩

mutual
theorem inOrder_flat : ∀ (r : Routes) (segs : List PathSegment) (above : List Param), r.inOrder segs above =
    (flattenRoutes r segs above).flatMap fun v => v.resources.map fun x => (v.path, v.queryParameters, x)
  | .mk rs ns qs, segs, above => by
    rw [Routes.inOrder, flattenRoutes, List.flatMap_cons, inOrder_flats ns]
theorem inOrder_flats : ∀ (ns : List NestedRoutes) (segs : List PathSegment) (above : List Param), childrenInOrder ns segs above =
    (flattenNesteds ns segs above).flatMap fun v => v.resources.map fun x => (v.path, v.queryParameters, x)
  | [], segs, above => by simp [childrenInOrder, flattenNesteds]
  | .mk s r :: ns, segs, above => by
    rw [childrenInOrder, NestedRoutes.inOrder, flattenNesteds, flattenNested, List.flatMap_append, inOrder_flats ns, inOrder_flat r]
end

/-- These are the declarations. -/
theorem mem_inOrder {r : Routes} {segs : List PathSegment} {query : List Param} {res : Resource} :
    (segs, query, res) ∈ r.inOrder [] [] ↔ Declares r segs query res := by
  rw [inOrder_flat]
  exact Rust.mem_declared

end Wayfinder
