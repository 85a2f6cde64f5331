import Verif.Proofs.Refine
import Verif.Spec.Shape
import Mathlib.Data.List.Nodup
import Mathlib.Data.List.Pairwise
/-!
# When the emitted code has the right shape
-/

namespace Wayfinder

theorem shapely_mk {rs : List Resource} {ns : List NestedRoutes} {qs : List Param} :
    Shapely (.mk rs ns qs) ↔ LocalOk ns ∧
      (∀ n ∈ ns, ∀ s, n.pathSegment = .static s → Shapely n.routes) ∧
      (∀ n ∈ ns, ∀ p, n.pathSegment = .dynamic p → captor ns = some p.name → Shapely n.routes) := by
  constructor
  · intro h
    refine ⟨h _ _ _ (.here _), ?_, ?_⟩
    · rintro ⟨seg, r⟩ hn s hs segs q node hl
      simp only [NestedRoutes.pathSegment_mk] at hs
      subst hs
      exact h _ _ _ (.static (r := .mk rs ns qs) hn hl)
    · rintro ⟨seg, r⟩ hn p hs hc segs q node hl
      simp only [NestedRoutes.pathSegment_mk] at hs
      subst hs
      exact h _ _ _ (.dynamic (r := .mk rs ns qs) hn hc hl)
  · rintro ⟨h1, h2, h3⟩ segs q node hl
    cases hl with
    | here => exact h1
    | static hn hl => exact h2 _ hn _ rfl _ _ _ hl
    | dynamic hn hc hl => exact h3 _ hn _ rfl hc _ _ _ hl

/-- Conditions on the static children whose text begins with `u`. -/
structure StatOk (ns : List NestedRoutes) (u : Str) : Prop where
  ascii : ∀ n ∈ ns, ∀ rest, n.pathSegment = .static (u ++ rest) → ∀ c ∈ rest, byteStrChar c = true
  free : ∀ n ∈ ns, ∀ n' ∈ ns, ∀ rest rest', n.pathSegment = .static (u ++ rest) →
    n'.pathSegment = .static (u ++ rest') → rest <+: rest' → rest = rest'
  sub : ∀ n ∈ ns, ∀ rest, n.pathSegment = .static (u ++ rest) → Shapely n.routes

/-- Going on with `w`, when all such children do. -/
theorem statOk_extend {ns : List NestedRoutes} {u w : Str}
    (h : ∀ n ∈ ns, ∀ rest, n.pathSegment = .static (u ++ rest) → ∃ rest', rest = w ++ rest')
    (hne : ∃ n ∈ ns, ∃ rest, n.pathSegment = .static (u ++ rest)) :
    StatOk ns u ↔ (∀ c ∈ w, byteStrChar c = true) ∧ StatOk ns (u ++ w) := by
  constructor
  · intro hs
    refine ⟨?_, ?_, ?_, ?_⟩
    · obtain ⟨n, hn, rest, hseg⟩ := hne
      obtain ⟨rest', rfl⟩ := h n hn rest hseg
      intro c hc
      exact hs.ascii n hn _ hseg c (by simp [hc])
    · intro n hn rest hseg c hc
      exact hs.ascii n hn (w ++ rest) (by simpa using hseg) c (by simp [hc])
    · intro n hn n' hn' rest rest' hseg hseg' hp
      have := hs.free n hn n' hn' (w ++ rest) (w ++ rest') (by simpa using hseg) (by simpa using hseg')
        ((List.prefix_append_right_inj w).2 hp)
      exact List.append_cancel_left this
    · intro n hn rest hseg
      exact hs.sub n hn (w ++ rest) (by simpa using hseg)
  · rintro ⟨hw, hs⟩
    refine ⟨?_, ?_, ?_⟩
    · intro n hn rest hseg c hc
      obtain ⟨rest', rfl⟩ := h n hn rest hseg
      rcases List.mem_append.1 hc with hc | hc
      · exact hw c hc
      · exact hs.ascii n hn rest' (by simpa using hseg) c hc
    · intro n hn n' hn' rest rest' hseg hseg' hp
      obtain ⟨r1, rfl⟩ := h n hn rest hseg
      obtain ⟨r2, rfl⟩ := h n' hn' rest' hseg'
      rw [hs.free n hn n' hn' r1 r2 (by simpa using hseg) (by simpa using hseg')
        ((List.prefix_append_right_inj w).1 hp)]
    · intro n hn rest hseg
      obtain ⟨r1, rfl⟩ := h n hn rest hseg
      exact hs.sub n hn r1 (by simpa using hseg)

/-- The claim for blocks. -/
def BlockShape (fuel : Nat) : Prop :=
  ∀ (t : RouteTrie) (body : List Stmt) (r : Routes) (pth : List PathSegment) (q : List Param),
    t.depth ≤ fuel → codegenTrie fuel t = .ok body → Rep t (BlockItems r pth q) →
    DistinctSiblings r → (blockShapeOk body = true ↔ Shapely r)

/-- The claim for nodes inside a segment. -/
def StaticShape (gen : RouteTrie → Except GenFail (List Stmt)) (bound : Nat)
    (own : RouteTrie → Prop) : Prop :=
  ∀ (t : RouteTrie) (body : List Stmt) (ns : List NestedRoutes) (u : Str) (pth : List PathSegment)
    (q : List Param),
    t.depth ≤ bound → own t → gen t = .ok body → Desc t (StaticItems ns u pth q) →
    (ns.Pairwise fun a b => ¬ SameSlot a.pathSegment b.pathSegment) →
    (∀ n ∈ ns, DistinctSiblings n.routes) → (blockShapeOk body = true ↔ StatOk ns u)

theorem writeMethods_shape (v : FlattenedRoute) : blockShapeOk (writeMethods v) = true := by
  simp [writeMethods, blockShapeOk, Stmt.shapeOk]

theorem ownMethods_shape (d : Option FlattenedRoute) : blockShapeOk (ownMethods d) = true := by
  cases d with
  | none => rfl
  | some v =>
    simp only [ownMethods]
    split
    · exact writeMethods_shape v
    · rfl

theorem separatorHead_shape (d : Option FlattenedRoute) : blockShapeOk (separatorHead d) = true := by
  cases d with
  | none => rfl
  | some v =>
    simp only [separatorHead]
    split
    · exact writeMethods_shape v
    · rfl

theorem sep_shape (d : Option FlattenedRoute) (b : List Stmt) :
    blockShapeOk (separatorHead d ++ (.matchPath 1 [.bytes c!"/" [.addI 1], .wildNotFound] :: b)) =
      blockShapeOk b := by
  rw [blockShapeOk_append, separatorHead_shape]
  simp [blockShapeOk, Stmt.shapeOk, armsShapeOk, Arm.shapeOk, byteStrChar]

theorem dynamicHead_shape (x : Str) (b : List Stmt) : blockShapeOk (dynamicHead x b) = true := by
  simp [dynamicHead, blockShapeOk, Stmt.shapeOk]

/-- Shape of an ambiguous match. -/
theorem ambiguousArms_shape {gen : RouteTrie → Except GenFail (List Stmt)} :
    ∀ {cs : List (Charlike × RouteTrie)} {arms : List Arm}, ambiguousArms gen cs = .ok arms →
      (armsShapeOk arms = true ↔ ∀ k c, (k, c) ∈ cs →
        ∃ ch, k = .static ch ∧ byteStrChar ch = true ∧ ∃ b, gen c = .ok b ∧ blockShapeOk b = true)
  | [], arms, h => by
    simp only [ambiguousArms, Except.ok.injEq] at h; subst h; simp [armsShapeOk]
  | (.static ch, t) :: cs, arms, h => by
    simp only [ambiguousArms] at h
    cases hg : gen t with
    | error e => simp [hg] at h
    | ok b =>
      simp only [hg] at h
      cases hr : ambiguousArms gen cs with
      | error e => simp [hr] at h
      | ok as =>
        simp only [hr, Except.ok.injEq] at h
        subst h
        simp only [armsShapeOk, Arm.shapeOk, Bool.and_eq_true, blockShapeOk, Stmt.shapeOk, true_and,
          List.all_cons, List.all_nil, and_true, ambiguousArms_shape hr]
        constructor
        · rintro ⟨⟨h1, h2⟩, h3⟩ k c hm
          rcases List.mem_cons.1 hm with hm | hm
          · obtain ⟨rfl, rfl⟩ := Prod.mk.inj hm
            exact ⟨ch, rfl, h1, b, hg, h2⟩
          · exact h3 k c hm
        · intro hall
          obtain ⟨ch', hk, h1, b', hb', h2⟩ := hall _ _ (List.mem_cons_self ..)
          cases hk
          rw [hg] at hb'; cases hb'
          exact ⟨⟨h1, h2⟩, fun k c hm => hall k c (List.mem_cons_of_mem _ hm)⟩
  | (.dynamic p, t) :: cs, arms, h => by
    simp only [ambiguousArms] at h
    cases hg : writeDynamic gen p t with
    | error e => simp [hg] at h
    | ok b =>
      simp only [hg, Except.ok.injEq] at h
      subst h
      simp only [armsShapeOk, Arm.shapeOk, Bool.false_and, Bool.false_eq_true, false_iff]
      intro hall
      obtain ⟨ch', hk, _⟩ := hall _ _ (List.mem_cons_self ..)
      cases hk
  | (.separator, t) :: cs, arms, h => by
    simp only [ambiguousArms] at h
    cases hr : ambiguousArms gen cs with
    | error e => simp [hr] at h
    | ok as =>
      simp only [hr, Except.ok.injEq] at h
      subst h
      simp only [armsShapeOk, Arm.shapeOk, Bool.false_and, Bool.false_eq_true, false_iff]
      intro hall
      obtain ⟨ch', hk, _⟩ := hall _ _ (List.mem_cons_self ..)
      cases hk

/-- Without a parameter child every static child was generated. -/
theorem ambiguousArms_gen {gen : RouteTrie → Except GenFail (List Stmt)} :
    ∀ {cs : List (Charlike × RouteTrie)} {arms : List Arm} {ch : Char} {c : RouteTrie},
      ambiguousArms gen cs = .ok arms → findDynamic cs = none → (Charlike.static ch, c) ∈ cs →
      ∃ b, gen c = .ok b
  | (.static ch', t) :: cs, arms, ch, c, h, hd, hm => by
    simp only [ambiguousArms] at h
    cases hg : gen t with
    | error e => simp [hg] at h
    | ok b =>
      simp only [hg] at h
      cases hr : ambiguousArms gen cs with
      | error e => simp [hr] at h
      | ok as =>
        rcases List.mem_cons.1 hm with hm | hm
        · obtain ⟨_, rfl⟩ := Prod.mk.inj hm
          exact ⟨b, hg⟩
        · exact ambiguousArms_gen hr (by simpa [findDynamic] using hd) hm
  | (.dynamic p, t) :: cs, arms, ch, c, h, hd, hm => by simp [findDynamic] at hd
  | (.separator, t) :: cs, arms, ch, c, h, hd, hm => by
    simp only [ambiguousArms] at h
    cases hr : ambiguousArms gen cs with
    | error e => simp [hr] at h
    | ok as =>
      rcases List.mem_cons.1 hm with hm | hm
      · cases hm
      · exact ambiguousArms_gen hr (by simpa [findDynamic] using hd) hm

theorem unambiguousPrefix_acc : ∀ (fuel : Nat) (s : Str) (l : Nat) (t : RouteTrie) (s' : Str) (l' : Nat)
    (t' : RouteTrie), unambiguousPrefix fuel s l t = (s', l', t') → ∃ w, s' = s ++ w
  | 0, s, l, t, s', l', t', h => by
    simp only [unambiguousPrefix, Prod.mk.injEq] at h; exact ⟨[], by simp [h.1]⟩
  | fuel + 1, s, l, t, s', l', t', h => by
    simp only [unambiguousPrefix] at h
    split at h
    · simp only [Prod.mk.injEq] at h; exact ⟨[], by simp [h.1]⟩
    · split at h
      · obtain ⟨w, hw⟩ := unambiguousPrefix_acc _ _ _ _ _ _ _ h
        exact ⟨_, by rw [hw, List.append_assoc]⟩
      · simp only [Prod.mk.injEq] at h; exact ⟨[], by simp [h.1]⟩

theorem extend_of_kids {ns : List NestedRoutes} {u w : Str} (hk : kidsFrom ns u = kidsFrom ns (u ++ w)) :
    ∀ n ∈ ns, ∀ rest, n.pathSegment = .static (u ++ rest) → ∃ rest', rest = w ++ rest' := by
  intro n hn rest hseg
  have : n ∈ kidsFrom ns (u ++ w) := by rw [← hk]; exact mem_kidsFrom.2 ⟨hn, rest, hseg⟩
  obtain ⟨_, rest', hseg'⟩ := mem_kidsFrom.1 this
  rw [hseg] at hseg'
  simp only [PathSegment.static.injEq, List.append_assoc, List.append_cancel_left_eq] at hseg'
  exact ⟨rest', hseg'⟩

/-- Another child next to a separator. -/
theorem other_child {t : RouteTrie} {P : List Charlike → FlattenedRoute → Prop} (h : Desc t P)
    {k : Charlike} {c : RouteTrie} (hm : (k, c) ∈ t.children)
    (hne : ∀ k' c', t.children ≠ [(k', c')]) : ∃ k' c', (k', c') ∈ t.children ∧ k' ≠ k := by
  match hcs : t.children with
  | [] => rw [hcs] at hm; cases hm
  | [(k', c')] => exact absurd hcs (hne k' c')
  | (k1, c1) :: (k2, c2) :: rest =>
    have hs := h.wf.sorted_children
    rw [hcs] at hs
    have h12 : Charlike.cmp k1 k2 = .lt := (List.pairwise_cons.1 hs).1 _ (List.mem_cons_self ..)
    have hne12 : k1 ≠ k2 := Charlike.orderCmp.ne_of_lt h12
    by_cases h1 : k1 = k
    · exact ⟨k2, c2, by simp, fun h => hne12 (h1.trans h.symm)⟩
    · exact ⟨k1, c1, by simp, h1⟩

theorem staticShape {fuel : Nat} (hA : BlockShape fuel)
    (hC : StaticShape (codegenTrie fuel) fuel fun t => t.data = none) :
    StaticShape (genChildren fuel) (fuel + 1) fun _ => True := by
  intro t body ns u pth q hdep _ hgen hdesc hpw hsub
  simp only [genChildren] at hgen
  split at hgen
  · rename_i hcs
    simp only [Except.ok.injEq] at hgen
    subst hgen
    have hk := desc_kids_nil hdesc hcs
    have hno : ∀ n ∈ ns, ∀ rest, n.pathSegment ≠ .static (u ++ rest) := by
      intro n hn rest hseg
      have : n ∈ kidsFrom ns u := mem_kidsFrom.2 ⟨hn, rest, hseg⟩
      rw [hk] at this; cases this
    simp only [blockShapeOk, Stmt.shapeOk, Bool.and_self, true_iff]
    exact ⟨fun n hn rest h => absurd h (hno n hn rest), fun n hn _ _ rest _ h => absurd h (hno n hn rest),
      fun n hn rest h => absurd h (hno n hn rest)⟩
  · rename_i seg c hcs
    have hm : (seg, c) ∈ t.children := by rw [hcs]; simp
    have hlt := Trie.depth_lt_of_mem hm
    cases seg with
    | dynamic x => exact absurd hm (no_dynamic_child hdesc x c)
    | separator =>
      simp only [genSingle] at hgen
      cases hg : codegenTrie fuel c with
      | error e => simp [hg] at hgen
      | ok b =>
        simp only [hg, Except.ok.injEq] at hgen
        subst hgen
        obtain ⟨n, hn, hseg, hk, hrep⟩ := desc_sep_only hdesc hcs hpw
        simp only [List.append_assoc, List.cons_append, List.nil_append, sep_shape]
        rw [hA c b _ _ _ (by omega) hg hrep (hsub n hn)]
        have hall : ∀ n' ∈ ns, ∀ rest, n'.pathSegment = .static (u ++ rest) → n' = n ∧ rest = [] := by
          intro n' hn' rest hseg'
          have : n' ∈ kidsFrom ns u := mem_kidsFrom.2 ⟨hn', rest, hseg'⟩
          rw [hk] at this
          simp only [List.mem_cons, List.not_mem_nil, or_false] at this
          subst this
          rw [hseg] at hseg'
          exact ⟨rfl, by simpa using hseg'⟩
        constructor
        · intro h
          refine ⟨?_, ?_, ?_⟩
          · intro n' hn' rest hseg' c hc
            rw [(hall n' hn' rest hseg').2] at hc; cases hc
          · intro n' hn' n'' hn'' rest rest' hseg' hseg'' _
            rw [(hall n' hn' rest hseg').2, (hall n'' hn'' rest' hseg'').2]
          · intro n' hn' rest hseg'
            rw [(hall n' hn' rest hseg').1]; exact h
        · intro h; exact h.sub n hn [] (by simpa using hseg)
    | static ch =>
      simp only [genSingle] at hgen
      cases hsc : staticChain fuel [ch] c with
      | mk str c' =>
        simp only [hsc] at hgen
        obtain ⟨w, rfl, hrep, hk, hdd⟩ := staticChain_desc fuel [ch] (u ++ [ch]) c str c'
          (hdesc.static_child hm) hsc
        cases hg : codegenTrie fuel c' with
        | error e => simp [hg] at hgen
        | ok b =>
          simp only [hg, Except.ok.injEq] at hgen
          subst hgen
          have hk2 : kidsFrom ns u = kidsFrom ns (u ++ ch :: w) := by
            rw [kids_of_single hdesc (ch := ch) (by
              intro k c' hm'
              rw [hcs] at hm'
              simp only [List.mem_cons, Prod.mk.injEq, List.not_mem_nil, or_false] at hm'
              exact .inl hm'.1) hm, hk]
            simp
          obtain ⟨n1, hn1, rest1, hseg1⟩ := (static_child_iff hdesc ch).1 ⟨c, hm⟩
          rw [statOk_extend (w := ch :: w) (extend_of_kids hk2) ⟨n1, hn1, _, hseg1⟩]
          rw [← hC c' b ns (u ++ ch :: w) pth q (by omega) (rep_static_data hrep) hg
            (by simpa using hrep.desc) hpw hsub]
          simp only [List.cons_append, List.nil_append, blockShapeOk, Stmt.shapeOk, armsShapeOk,
            Arm.shapeOk, Bool.and_true, Bool.true_and, Bool.and_eq_true, List.all_eq_true]
  · rename_i hne1 hne2
    have hfd : findDynamic t.children = none :=
      findDynamic_none.2 fun x c' => no_dynamic_child hdesc x c'
    simp only [genMulti, hfd] at hgen
    split at hgen
    · cases hgen
    · cases hg : ambiguousArms (codegenTrie fuel) t.children with
      | error e => simp [hg] at hgen
      | ok arms =>
        simp only [hg, Except.ok.injEq] at hgen
        subst hgen
        have hsimp : blockShapeOk ((if (none : Option (Str × RouteTrie)).isSome = true then
            [Stmt.blank, .letStart, .blank] else []) ++
            [.ifThen .iEqLen [.retNotFound], .matchPath 1 (arms ++ [.wildNotFound])]) =
            armsShapeOk arms := by
          simp [blockShapeOk, Stmt.shapeOk, armsShapeOk_append, armsShapeOk, Arm.shapeOk]
        rw [hsimp, ambiguousArms_shape hg]
        constructor
        · intro hall
          have hnosep : ∀ n ∈ ns, n.pathSegment ≠ .static u := by
            intro n hn hseg
            obtain ⟨t', hm'⟩ := (sep_child_iff hdesc).2 ⟨n, hn, hseg⟩
            obtain ⟨ch, hk, _⟩ := hall _ _ hm'
            cases hk
          have hst : ∀ n ∈ ns, ∀ rest, n.pathSegment = .static (u ++ rest) →
              ∃ ch rest', rest = ch :: rest' ∧ byteStrChar ch = true ∧ StatOk ns (u ++ [ch]) := by
            intro n hn rest hseg
            cases rest with
            | nil => exact absurd (by simpa using hseg) (hnosep n hn)
            | cons ch rest =>
              obtain ⟨t', hm'⟩ := (static_child_iff hdesc ch).2 ⟨n, hn, rest, hseg⟩
              obtain ⟨ch', hk, hb, b, hgb, hsb⟩ := hall _ _ hm'
              cases hk
              have hltd := Trie.depth_lt_of_mem hm'
              have hrep' := hdesc.static_child hm'
              exact ⟨ch, rest, rfl, hb, (hC t' b ns (u ++ [ch]) pth q (by omega)
                (rep_static_data hrep') hgb hrep'.desc hpw hsub).1 hsb⟩
          refine ⟨?_, ?_, ?_⟩
          · intro n hn rest hseg c hc
            obtain ⟨ch, rest', rfl, hb, hs⟩ := hst n hn rest hseg
            rcases List.mem_cons.1 hc with hc | hc
            · rw [hc]; exact hb
            · exact hs.ascii n hn rest' (by simpa using hseg) c hc
          · intro n hn n' hn' rest rest' hseg hseg' hp
            obtain ⟨ch, r1, rfl, hb, hs⟩ := hst n hn rest hseg
            obtain ⟨ch', r2, rfl, _⟩ := hst n' hn' rest' hseg'
            rw [List.cons_prefix_cons] at hp
            obtain ⟨rfl, hp⟩ := hp
            rw [hs.free n hn n' hn' r1 r2 (by simpa using hseg) (by simpa using hseg') hp]
          · intro n hn rest hseg
            obtain ⟨ch, r1, rfl, hb, hs⟩ := hst n hn rest hseg
            exact hs.sub n hn r1 (by simpa using hseg)
        · intro hs k c hm
          have hltd := Trie.depth_lt_of_mem hm
          cases k with
          | dynamic x => exact absurd hm (no_dynamic_child hdesc x c)
          | separator =>
            exfalso
            obtain ⟨n, hn, hseg⟩ := (sep_child_iff hdesc).1 ⟨c, hm⟩
            obtain ⟨k', c', hm', hk'⟩ := other_child hdesc hm (fun k' c' h => hne2 k' c' h)
            cases k' with
            | dynamic x => exact absurd hm' (no_dynamic_child hdesc x c')
            | separator => exact hk' rfl
            | static ch =>
              obtain ⟨n', hn', rest, hseg'⟩ := (static_child_iff hdesc ch).1 ⟨c', hm'⟩
              have := hs.free n hn n' hn' [] (ch :: rest) (by simpa using hseg) hseg' (List.nil_prefix)
              cases this
          | static ch =>
            obtain ⟨n, hn, rest, hseg⟩ := (static_child_iff hdesc ch).1 ⟨c, hm⟩
            have hb := hs.ascii n hn (ch :: rest) hseg ch (by simp)
            refine ⟨ch, rfl, hb, ?_⟩
            have hgb : ∃ b, codegenTrie fuel c = .ok b := ambiguousArms_gen hg hfd hm
            obtain ⟨b, hgb⟩ := hgb
            have hrep' := hdesc.static_child hm
            refine ⟨b, hgb, (hC c b ns (u ++ [ch]) pth q (by omega) (rep_static_data hrep') hgb
              hrep'.desc hpw hsub).2 ⟨?_, ?_, ?_⟩⟩
            · intro n' hn' r1 hseg' c' hc'
              exact hs.ascii n' hn' (ch :: r1) (by simpa using hseg') c' (by simp [hc'])
            · intro n' hn' n'' hn'' r1 r2 h1 h2 hp
              have := hs.free n' hn' n'' hn'' (ch :: r1) (ch :: r2) (by simpa using h1)
                (by simpa using h2) (by rw [List.cons_prefix_cons]; exact ⟨rfl, hp⟩)
              simpa using this
            · intro n' hn' r1 hseg'
              exact hs.sub n' hn' (ch :: r1) (by simpa using hseg')

/-- The same for a whole node inside a static segment. -/
theorem staticShape_node {fuel : Nat} (hB : StaticShape (genChildren fuel) (fuel + 1) fun _ => True) :
    StaticShape (codegenTrie (fuel + 1)) (fuel + 1) fun t => t.data = none := by
  intro t body ns u pth q hdep hown hgen hrep hpw hsub
  obtain ⟨cb, hcb, rfl⟩ := codegenTrie_succ_ok hgen
  rw [hown]
  exact hB t cb ns u pth q hdep trivial hcb hrep hpw hsub

theorem staticTexts_nodup {ns : List NestedRoutes}
    (hpw : ns.Pairwise fun a b => ¬ SameSlot a.pathSegment b.pathSegment) : (staticTexts ns).Nodup := by
  unfold staticTexts List.Nodup
  rw [List.pairwise_filterMap]
  refine hpw.imp fun {a b} h => ?_
  intro x hx y hy hxy
  apply h
  cases ha : a.pathSegment <;> cases hb : b.pathSegment <;> simp_all [SameSlot]

theorem paramNames_nodup {ns : List NestedRoutes}
    (hpw : ns.Pairwise fun a b => ¬ SameSlot a.pathSegment b.pathSegment) : (paramNames ns).Nodup := by
  unfold paramNames List.Nodup
  rw [List.pairwise_filterMap]
  refine hpw.imp fun {a b} h => ?_
  intro x hx y hy hxy
  apply h
  cases ha : a.pathSegment <;> cases hb : b.pathSegment <;> simp_all [SameSlot]

theorem pairwise_of_mem {α : Type} {R : α → α → Prop} (hsym : ∀ a b, R a b → R b a) {l : List α}
    (h : l.Pairwise R) {a b : α} (ha : a ∈ l) (hb : b ∈ l) (hab : a ≠ b) : R a b := by
  induction l with
  | nil => cases ha
  | cons x xs ih =>
    obtain ⟨h1, h2⟩ := List.pairwise_cons.1 h
    rcases List.mem_cons.1 ha with ha | ha <;> rcases List.mem_cons.1 hb with hb | hb
    · exact absurd (ha.trans hb.symm) hab
    · rw [ha]; exact h1 b hb
    · rw [hb]; exact hsym _ _ (h1 a ha)
    · exact ih h2 ha hb

theorem statOk_nil_iff {ns : List NestedRoutes}
    (hpw : ns.Pairwise fun a b => ¬ SameSlot a.pathSegment b.pathSegment) :
    StatOk ns [] ↔ (∀ s ∈ staticTexts ns, ∀ c ∈ s, byteStrChar c = true) ∧
      ((staticTexts ns).Pairwise fun a b => ¬ a <+: b ∧ ¬ b <+: a) ∧
      (∀ n ∈ ns, ∀ s, n.pathSegment = .static s → Shapely n.routes) := by
  constructor
  · intro h
    refine ⟨?_, ?_, ?_⟩
    · intro s hs c hc
      obtain ⟨n, hn, hseg⟩ := mem_staticTexts.1 hs
      exact h.ascii n hn s hseg c hc
    · refine (staticTexts_nodup hpw).pairwise_of_forall_ne ?_
      intro a ha b hb hab
      obtain ⟨n, hn, hseg⟩ := mem_staticTexts.1 ha
      obtain ⟨n', hn', hseg'⟩ := mem_staticTexts.1 hb
      exact ⟨fun hp => hab (h.free n hn n' hn' a b hseg hseg' hp),
        fun hp => hab (h.free n' hn' n hn b a hseg' hseg hp).symm⟩
    · intro n hn s hseg
      exact h.sub n hn s hseg
  · rintro ⟨h1, h2, h3⟩
    refine ⟨?_, ?_, ?_⟩
    · intro n hn rest hseg
      exact h1 rest (mem_staticTexts.2 ⟨n, hn, hseg⟩)
    · intro n hn n' hn' a b hseg hseg' hp
      by_contra hab
      have := pairwise_of_mem (fun _ _ h => ⟨h.2, h.1⟩) h2 (mem_staticTexts.2 ⟨n, hn, hseg⟩)
        (mem_staticTexts.2 ⟨n', hn', hseg'⟩) hab
      exact this.1 hp
    · intro n hn rest hseg
      exact h3 n hn rest hseg

/-- A block without parameter children. -/
theorem shapely_static {rs : List Resource} {ns : List NestedRoutes} {qs : List Param}
    (hpw : ns.Pairwise fun a b => ¬ SameSlot a.pathSegment b.pathSegment) (hpar : paramNames ns = []) :
    Shapely (.mk rs ns qs) ↔ StatOk ns [] := by
  rw [shapely_mk, statOk_nil_iff hpw]
  constructor
  · rintro ⟨h1, h2, _⟩
    exact ⟨h1.ascii, h1.prefixFree, h2⟩
  · rintro ⟨h1, h2, h3⟩
    refine ⟨⟨h1, h2, fun h => absurd hpar h, fun h => absurd hpar h⟩, h3, ?_⟩
    intro n hn p hseg hc
    simp [captor, hpar] at hc

/-- A block in which the parameter `x` captures. -/
theorem shapely_param {rs : List Resource} {ns : List NestedRoutes} {qs : List Param} {x : Str}
    (hpw : ns.Pairwise fun a b => ¬ SameSlot a.pathSegment b.pathSegment)
    (hcap : captor ns = some x) {n : NestedRoutes} (hn : n ∈ ns) {p : Param}
    (hseg : n.pathSegment = .dynamic p) (hx : p.name = x) :
    Shapely (.mk rs ns qs) ↔ StatOk ns [] ∧ Shapely n.routes ∧
      (staticTexts ns = [] → ∃ y, paramNames ns = [y]) ∧
      ∃ c, ∀ s ∈ staticTexts ns, s.head? = some c := by
  have hpar : paramNames ns ≠ [] := by
    intro h
    have : p.name ∈ paramNames ns := mem_paramNames.2 ⟨n, hn, p, hseg, rfl⟩
    rw [h] at this; cases this
  rw [shapely_mk, statOk_nil_iff hpw]
  constructor
  · rintro ⟨h1, h2, h3⟩
    exact ⟨⟨h1.ascii, h1.prefixFree, h2⟩, h3 n hn p hseg (by rw [hcap, hx]), h1.oneParam hpar,
      h1.initial hpar⟩
  · rintro ⟨⟨h1, h2, h3⟩, h4, h5, h6⟩
    refine ⟨⟨h1, h2, fun _ => h5, fun _ => h6⟩, h3, ?_⟩
    intro n' hn' p' hseg' hc
    have : n' = n := by
      refine unique_static hpw hn' hn ?_
      rw [hseg, hseg']
      rw [hcap, Option.some.injEq] at hc
      simp [SameSlot, ← hc, hx]
    rw [this]; exact h4

/-- The code that captures a parameter. -/
theorem dynShape {fuel : Nat} (hA : ∀ k < fuel, BlockShape k)
    {t c : RouteTrie} {db : List Stmt} {rs : List Resource} {ns : List NestedRoutes} {qs : List Param}
    {pth : List PathSegment} {q : List Param} {x : Str}
    (hdesc : Desc t (BlockItems (.mk rs ns qs) pth q))
    (hm : (Charlike.dynamic x, c) ∈ t.children) (hdep : c.depth ≤ fuel)
    (hgen : writeDynamic (codegenTrie fuel) x c = .ok db)
    (hpw : ns.Pairwise fun a b => ¬ SameSlot a.pathSegment b.pathSegment)
    (hsub : ∀ n ∈ ns, DistinctSiblings n.routes) :
    ∃ n ∈ ns, ∃ p, n.pathSegment = .dynamic p ∧ p.name = x ∧
      (blockShapeOk db = true ↔ Shapely n.routes) := by
  obtain ⟨c2, hc2, b, hb, rfl⟩ := writeDynamic_ok hgen
  obtain ⟨n, hn, p, hseg, rfl, hdata, hpaths, hrep⟩ := hdesc.dynamic_child hpw hm
  have hrep2 := hrep c2 hc2
  obtain ⟨k, b2, rfl, hb2, hbeq⟩ := codegenTrie_sep hb hc2 hdata
  have hlt : c2.depth < c.depth := Trie.depth_lt_of_mem (k := .separator) (by rw [hc2]; simp)
  refine ⟨n, hn, p, hseg, rfl, ?_⟩
  rw [blockShapeOk_append, dynamicHead_shape, hbeq, sep_shape, Bool.true_and]
  exact hA k (by omega) c2 b2 n.routes _ _ (by omega) hb2 hrep2 (hsub n hn)

/-- The children of a block with a parameter child. -/
theorem paramBlockShape {fuel : Nat} (hA : ∀ k < fuel, BlockShape k)
    (hC : StaticShape (codegenTrie fuel) fuel fun t => t.data = none)
    {t : RouteTrie} {cb : List Stmt} {rs : List Resource} {ns : List NestedRoutes} {qs : List Param}
    {pth : List PathSegment} {q : List Param}
    (hdep : t.depth ≤ fuel + 1) (hgen : genChildren fuel t = .ok cb)
    (hdesc : Desc t (BlockItems (.mk rs ns qs) pth q))
    (hds : DistinctSiblings (.mk rs ns qs)) (hpar : paramNames ns ≠ []) :
    blockShapeOk cb = true ↔ Shapely (.mk rs ns qs) := by
  obtain ⟨hpw, hsub⟩ := distinctSiblings_mk.1 hds
  obtain ⟨y, hy⟩ := List.exists_mem_of_ne_nil _ hpar
  obtain ⟨cy, hmy⟩ := (dynamic_child_iff hdesc y).2 hy
  have hfd : ∃ x c, findDynamic t.children = some (x, c) := by
    cases hf : findDynamic t.children with
    | none => exact absurd hmy (findDynamic_none.1 hf y cy)
    | some xc => exact ⟨xc.1, xc.2, rfl⟩
  obtain ⟨x, c, hfd⟩ := hfd
  have hmx := findDynamic_mem hfd
  have hxin : x ∈ paramNames ns := (dynamic_child_iff hdesc x).1 ⟨c, hmx⟩
  have hcap : captor ns = some x := captor_eq hxin fun y' hy' => by
    obtain ⟨c', hm'⟩ := (dynamic_child_iff hdesc y').2 hy'
    exact findDynamic_least hdesc.wf.sorted_children hfd y' c' hm'
  have hltx := Trie.depth_lt_of_mem hmx
  simp only [genChildren] at hgen
  split at hgen
  · rename_i hcs; rw [hcs] at hmx; cases hmx
  · -- the parameter is the only child
    rename_i seg c' hcs
    have : (seg, c') = (Charlike.dynamic x, c) := by
      rw [hcs] at hmx; exact (List.mem_singleton.1 hmx).symm
    obtain ⟨rfl, rfl⟩ := Prod.mk.inj this
    simp only [genSingle] at hgen
    cases hg : writeDynamic (codegenTrie fuel) x c' with
    | error e => simp [hg] at hgen
    | ok db =>
      simp only [hg, Except.ok.injEq] at hgen
      subst hgen
      obtain ⟨n, hn, p, hseg, hx, hiff⟩ := dynShape hA hdesc hmx (by omega) hg hpw hsub
      have hnost : ∀ n ∈ ns, ∀ s, n.pathSegment ≠ .static s := by
        intro n hn s hseg
        cases s with
        | nil =>
          obtain ⟨c2, hm2⟩ := (block_sep_child_iff hdesc).2 ⟨n, hn, hseg⟩
          rw [hcs] at hm2; simp at hm2
        | cons ch rest =>
          obtain ⟨c2, hm2⟩ := (block_static_child_iff hdesc ch).2 ⟨n, hn, rest, hseg⟩
          rw [hcs] at hm2; simp at hm2
      have hst : staticTexts ns = [] := by
        cases hs : staticTexts ns with
        | nil => rfl
        | cons a as =>
          obtain ⟨n, hn, hseg⟩ := mem_staticTexts.1 (show a ∈ staticTexts ns by rw [hs]; simp)
          exact absurd hseg (hnost n hn a)
      have hone : ∃ y, paramNames ns = [y] := by
        refine ⟨x, ?_⟩
        have hall : ∀ z ∈ paramNames ns, z = x := by
          intro z hz
          obtain ⟨c', hm'⟩ := (dynamic_child_iff hdesc z).2 hz
          rw [hcs] at hm'
          simp only [List.mem_cons, Prod.mk.injEq, Charlike.dynamic.injEq, List.not_mem_nil,
            or_false] at hm'
          exact hm'.1
        have hl := length_one_of_unique (paramNames_nodup hpw) hxin hall
        obtain ⟨z, hz⟩ := List.length_eq_one_iff.1 hl
        rw [hz, hall z (by rw [hz]; simp)]
      rw [shapely_param hpw hcap hn hseg hx]
      have h1 : blockShapeOk (Stmt.letStart :: db) = blockShapeOk db := by
        simp [blockShapeOk, Stmt.shapeOk]
      rw [h1, hiff]
      constructor
      · intro h
        refine ⟨⟨fun n hn rest h => absurd h (hnost n hn _), fun n hn _ _ rest _ h => absurd h (hnost n hn _),
          fun n hn rest h => absurd h (hnost n hn _)⟩, h, fun _ => hone, 'x', by simp [hst]⟩
      · exact fun h => h.2.1
  · -- several children
    rename_i hne0 hne1
    simp only [genMulti, hfd, Option.isSome_some, if_true] at hgen
    have hnofuel : fuel ≠ 0 := by
      rintro rfl
      have := c.depth_pos
      omega
    obtain ⟨k, rfl⟩ := Nat.exists_eq_succ_of_ne_zero hnofuel
    cases hup : unambiguousPrefix (k + 1) [] 0 t with
    | mk un ln =>
      obtain ⟨l, next⟩ := ln
      simp only [hup] at hgen
      have hup' := hup
      simp only [unambiguousPrefix] at hup'
      split at hgen
      · rename_i hun
        cases hgn : codegenTrie (k + 1) next with
        | error e => simp [hgn] at hgen
        | ok sb =>
          simp only [hgn] at hgen
          cases hg : writeDynamic (codegenTrie (k + 1)) x c with
          | error e => simp [hg] at hgen
          | ok db =>
            simp only [hg, Except.ok.injEq] at hgen
            subst hgen
            obtain ⟨n, hn, p, hseg, hx, hiff⟩ := dynShape hA hdesc hmx (by omega) hg hpw hsub
            split at hup'
            · simp only [Prod.mk.injEq] at hup'
              exact absurd hup'.1.symm hun
            rename_i hnosep
            have hns : ∀ c, (Charlike.separator, c) ∉ t.children := fun c hm =>
              hnosep (List.any_eq_true.2 ⟨_, hm, rfl⟩)
            split at hup'
            case h_2 =>
              simp only [Prod.mk.injEq] at hup'
              exact absurd hup'.1.symm hun
            rename_i ch t1 hopt
            have hm1 : (Charlike.static ch, t1) ∈ t.children := mem_staticOptions.1 (by rw [hopt]; simp)
            have hlt1 := Trie.depth_lt_of_mem hm1
            have hdep1 : t1.depth ≤ k + 1 := by omega
            have hkids0 : kidsFrom ns [] = kidsFrom ns [ch] := by
              apply kidsFrom_extend (u := []) (w := [ch])
              intro n hn rest hseg
              simp only [List.nil_append] at hseg
              cases rest with
              | nil =>
                obtain ⟨c2, hm2⟩ := (block_sep_child_iff hdesc).2 ⟨n, hn, hseg⟩
                exact absurd hm2 (hns c2)
              | cons ch' rest =>
                obtain ⟨c2, hm2⟩ := (block_static_child_iff hdesc ch').2 ⟨n, hn, rest, hseg⟩
                have := mem_staticOptions.2 hm2
                rw [hopt] at this
                simp only [List.mem_cons, Prod.mk.injEq, List.not_mem_nil, or_false] at this
                exact ⟨rest, by simp [this.1]⟩
            obtain ⟨n1, hn1, rest1, hseg1⟩ := (block_static_child_iff hdesc ch).1 ⟨t1, hm1⟩
            obtain ⟨w, rfl, hrepn, hkw, hdn, hcase⟩ := unambiguousPrefix_desc k _ [ch] _ _ _ _ _
              (hdesc.block_static_child hm1) hdep1 ⟨n1, hn1, rest1, by simpa using hseg1⟩ hup'
            have hkids : kidsFrom ns [] = kidsFrom ns ([] ++ (ch :: w)) := by
              rw [hkids0, hkw]; rfl
            have hext := extend_of_kids hkids
            simp only [List.nil_append, List.cons_append] at hrepn hgn ⊢
            rw [shapely_param hpw hcap hn hseg hx,
              statOk_extend hext ⟨n1, hn1, _, by simpa using hseg1⟩, ← hiff]
            have hstat := hC next sb ns (ch :: w) pth (q ++ qs) (by omega) (rep_static_data hrepn) hgn
              hrepn.desc hpw hsub
            simp only [List.nil_append, ← hstat]
            have hinit : ∀ s ∈ staticTexts ns, s.head? = some ch := by
              intro s hs
              obtain ⟨n', hn', hseg'⟩ := mem_staticTexts.1 hs
              obtain ⟨rest', rfl⟩ := hext n' hn' s (by simpa using hseg')
              rfl
            have hsne : staticTexts ns ≠ [] := by
              intro h
              have : ch :: rest1 ∈ staticTexts ns := mem_staticTexts.2 ⟨n1, hn1, hseg1⟩
              rw [h] at this; cases this
            simp only [blockShapeOk, Stmt.shapeOk, armsShapeOk, Arm.shapeOk, Bool.and_true, Bool.true_and,
              Bool.and_eq_true, List.all_eq_true]
            constructor
            · rintro ⟨⟨h1, h2⟩, h3⟩
              exact ⟨⟨h1, h2⟩, h3, fun h => absurd h hsne, ch, hinit⟩
            · rintro ⟨⟨h1, h2⟩, h3, _⟩
              exact ⟨⟨h1, h2⟩, h3⟩
      · rename_i hun
        have hun' : un = [] := by simpa using hun
        subst hun'
        cases hg : ambiguousArms (codegenTrie (k + 1)) t.children with
        | error e => simp [hg] at hgen
        | ok arms =>
          simp only [hg, Except.ok.injEq] at hgen
          subst hgen
          -- the parameter arm makes the code malformed
          have hbad : armsShapeOk arms ≠ true := by
            intro h
            obtain ⟨ch, hk, _⟩ := (ambiguousArms_shape hg).1 h _ _ hmx
            cases hk
          have hbad' : blockShapeOk ([Stmt.blank, .letStart, .blank] ++
              [.ifThen .iEqLen [.retNotFound], .matchPath 1 (arms ++ [.wildNotFound])]) = true ↔
              armsShapeOk arms = true := by
            simp [blockShapeOk, Stmt.shapeOk, armsShapeOk_append, armsShapeOk, Arm.shapeOk]
          rw [hbad']
          refine ⟨fun h => absurd h hbad, fun h => ?_⟩
          exfalso
          have hloc := (shapely_mk.1 h).1
          obtain ⟨ch, hch⟩ := hloc.initial hpar
          split at hup'
          · rename_i hsep
            obtain ⟨⟨k', c'⟩, hm', hk'⟩ := List.any_eq_true.1 hsep
            cases k' with
            | static _ => simp [Charlike.isSep] at hk'
            | dynamic _ => simp [Charlike.isSep] at hk'
            | separator =>
              obtain ⟨n, hn, hseg⟩ := (block_sep_child_iff hdesc).1 ⟨c', hm'⟩
              have := hch [] (mem_staticTexts.2 ⟨n, hn, hseg⟩)
              simp at this
          · rename_i hnosep
            have hns : ∀ c, (Charlike.separator, c) ∉ t.children := fun c hm =>
              hnosep (List.any_eq_true.2 ⟨_, hm, rfl⟩)
            split at hup'
            · rename_i ch' t1 hopt
              obtain ⟨w, hw⟩ := unambiguousPrefix_acc k _ _ _ _ _ _ hup'
              simp at hw
            · rename_i hopt
              -- no static children, or two initials
              have hch1 : ∀ ch' c', (Charlike.static ch', c') ∈ t.children → ch' = ch := by
                intro ch' c' hm'
                obtain ⟨n, hn, rest, hseg⟩ := (block_static_child_iff hdesc ch').1 ⟨c', hm'⟩
                have := hch _ (mem_staticTexts.2 ⟨n, hn, hseg⟩)
                simpa using this
              cases hso : staticOptions t.children with
              | nil =>
                have hst : staticTexts ns = [] := by
                  cases hs : staticTexts ns with
                  | nil => rfl
                  | cons a as =>
                    exfalso
                    obtain ⟨n, hn, hseg⟩ := mem_staticTexts.1
                      (show a ∈ staticTexts ns by rw [hs]; simp)
                    cases a with
                    | nil =>
                      obtain ⟨c2, hm2⟩ := (block_sep_child_iff hdesc).2 ⟨n, hn, hseg⟩
                      exact hns c2 hm2
                    | cons ch rest =>
                      obtain ⟨c2, hm2⟩ := (block_static_child_iff hdesc ch).2 ⟨n, hn, rest, hseg⟩
                      have := mem_staticOptions.2 hm2
                      rw [hso] at this; cases this
                obtain ⟨y, hy⟩ := hloc.oneParam hpar hst
                obtain ⟨k', c', hm', hk'⟩ := other_child hdesc hmx (fun k' c' h => hne1 k' c' h)
                cases k' with
                | separator => exact hns c' hm'
                | static ch' =>
                  have := mem_staticOptions.2 hm'
                  rw [hso] at this; cases this
                | dynamic z =>
                  have h1 : z ∈ paramNames ns := (dynamic_child_iff hdesc z).1 ⟨c', hm'⟩
                  rw [hy] at h1 hxin
                  simp only [List.mem_cons, List.not_mem_nil, or_false] at h1 hxin
                  exact hk' (by rw [h1, hxin])
              | cons a as =>
                obtain ⟨ch', c'⟩ := a
                have hm' : (Charlike.static ch', c') ∈ t.children :=
                  mem_staticOptions.1 (by rw [hso]; simp)
                obtain rfl := hch1 _ _ hm'
                have hl := length_one_of_unique (staticOptions_nodup hdesc.wf.sorted_children)
                  (mem_staticOptions.2 hm') (by
                    rintro ⟨ch2, c2⟩ hz
                    have hz' := mem_staticOptions.1 hz
                    obtain rfl := hch1 _ _ hz'
                    rw [hdesc.unique hz' hm'])
                obtain ⟨⟨z1, z2⟩, hz⟩ := List.length_eq_one_iff.1 hl
                exact hopt z1 z2 hz

/-- One step of the induction for blocks. -/
theorem blockShape {fuel : Nat} (hA : ∀ k ≤ fuel, BlockShape k)
    (hC : StaticShape (codegenTrie fuel) fuel fun t => t.data = none) : BlockShape (fuel + 1) := by
  intro t body r pth q hdep hgen hrep hds
  obtain ⟨cb, hcb, rfl⟩ := codegenTrie_succ_ok hgen
  obtain ⟨rs, ns, qs⟩ := r
  obtain ⟨hpw, hsub⟩ := distinctSiblings_mk.1 hds
  rw [blockShapeOk_append, ownMethods_shape, Bool.true_and]
  by_cases hpar : paramNames ns = []
  · have hdesc : Desc t (StaticItems ns [] pth (q ++ qs)) := hrep.desc.congr fun k ks v => by
      cases k with
      | static ch => exact blockItems_static
      | separator => exact blockItems_sep
      | dynamic x =>
        constructor
        · intro h
          obtain ⟨n, hn, p, ks', hseg, hx, _⟩ := blockItems_dynamic.1 h
          have : x ∈ paramNames ns := mem_paramNames.2 ⟨n, hn, p, hseg, hx⟩
          rw [hpar] at this; cases this
        · intro h; exact absurd h staticItems_dynamic
    rw [shapely_static hpw hpar]
    exact staticShape (hA fuel (Nat.le_refl _)) hC t cb ns [] pth (q ++ qs) hdep trivial hcb hdesc hpw
      hsub
  · exact paramBlockShape (fun k hk => hA k (Nat.le_of_lt hk)) hC hdep hcb hrep.desc hds hpar

theorem shapeClaims : ∀ fuel, BlockShape fuel ∧
    StaticShape (codegenTrie fuel) fuel fun t => t.data = none := by
  intro fuel
  induction fuel using Nat.strongRecOn with
  | ind fuel ih =>
    cases fuel with
    | zero =>
      constructor
      · intro t body r pth q _ hgen
        simp [codegenTrie] at hgen
      · intro t body ns u pth q _ _ hgen
        simp [codegenTrie] at hgen
    | succ fuel =>
      have hA : ∀ k ≤ fuel, BlockShape k := fun k hk => (ih k (by omega)).1
      have hC := (ih fuel (by omega)).2
      exact ⟨blockShape hA hC, staticShape_node (staticShape (hA fuel (Nat.le_refl _)) hC)⟩

/-- The emitted function is well-formed exactly for the configurations described by `Shapely`. -/
theorem matcherBody_shape {r : Routes} {body : List Stmt} (hbody : matcherBody r = .ok body) :
    blockShapeOk body = true ↔ Shapely r := by
  simp only [matcherBody] at hbody
  cases ht : toTrie r with
  | none => simp [ht] at hbody
  | some t =>
    simp only [ht] at hbody
    exact (shapeClaims t.depth).1 t body r [] [] (Nat.le_refl _) hbody (toTrie_rep ht)
      ((toTrie_isSome_iff r).1 ⟨t, ht⟩)

end Wayfinder
