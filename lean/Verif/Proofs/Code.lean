import Verif.Proofs.Shape
/-!
# The form of generated code

An inductive description of the code emitted for configurations whose code has the right shape.
-/

namespace Wayfinder

/-- What a piece of code is for. -/
inductive CodeKind where
  /-- a block reached by the path `pth` -/
  | block (r : Routes) (pth : List PathSegment) (q : List Param)
  /-- the `/` in front of a block, or the end of the path -/
  | enter (r : Routes) (pth : List PathSegment) (q : List Param)
  /-- the static children whose text begins with `u`, after `u` -/
  | kids (ns : List NestedRoutes) (u : Str) (pth : List PathSegment) (q : List Param)
  /-- the arms for the given next characters -/
  | arms (ns : List NestedRoutes) (u : Str) (pth : List PathSegment) (q : List Param) (chars : Str)

/-- All static children whose text begins with `u` go on with the same character. -/
def Forced (ns : List NestedRoutes) (u : Str) : Prop :=
  ∃ ch, ∀ n ∈ ns, ∀ rest, n.pathSegment = .static (u ++ rest) → ∃ rest', rest = ch :: rest'

/-- Code of each kind. -/
inductive Code : CodeKind → List Stmt → Prop where
  | plain {rs : List Resource} {ns : List NestedRoutes} {qs : List Param} {pth : List PathSegment}
      {q : List Param} {cb : List Stmt} :
      paramNames ns = [] → Code (.kids ns [] pth (q ++ qs)) cb →
      Code (.block (.mk rs ns qs) pth q) (ownMethods (some ⟨pth, rs, q ++ qs⟩) ++ cb)
  | param {rs : List Resource} {ns : List NestedRoutes} {qs : List Param} {pth : List PathSegment}
      {q : List Param} {n : NestedRoutes} {p : Param} {b : List Stmt} :
      n ∈ ns → n.pathSegment = .dynamic p → captor ns = some p.name → staticTexts ns = [] →
      Code (.enter n.routes (pth ++ [.dynamic p]) (q ++ qs)) b →
      Code (.block (.mk rs ns qs) pth q) (ownMethods (some ⟨pth, rs, q ++ qs⟩) ++
        (.letStart :: (dynamicHead p.name b ++ b)))
  | both {rs : List Resource} {ns : List NestedRoutes} {qs : List Param} {pth : List PathSegment}
      {q : List Param} {n : NestedRoutes} {p : Param} {b sb : List Stmt} {w : Str} {l : Nat} {c : Cond} :
      ((∃ s ∈ staticTexts ns, l ≤ s.length) ∧ (c = .iLeLen ∨ c = .iAddLeLen l)) →
      n ∈ ns → n.pathSegment = .dynamic p → captor ns = some p.name → w ≠ [] →
      (∀ s ∈ staticTexts ns, w <+: s) → staticTexts ns ≠ [] →
      Code (.kids ns w pth (q ++ qs)) sb →
      Code (.enter n.routes (pth ++ [.dynamic p]) (q ++ qs)) b →
      Code (.block (.mk rs ns qs) pth q) (ownMethods (some ⟨pth, rs, q ++ qs⟩) ++
        (.blank :: .letStart :: .blank ::
          .ifThen c [.matchPath l [.bytes w (.addI l :: sb), .wildNothing]] ::
          (dynamicHead p.name b ++ b)))
  | enter {r : Routes} {pth : List PathSegment} {q : List Param} {b : List Stmt} :
      Code (.block r pth q) b →
      Code (.enter r pth q) (separatorHead (some ⟨pth, r.resources, q ++ r.queryParameters⟩) ++
        (.matchPath 1 [.bytes c!"/" [.addI 1], .wildNotFound] :: b))
  | none {ns : List NestedRoutes} {u : Str} {pth : List PathSegment} {q : List Param} :
      (∀ n ∈ ns, ∀ rest, n.pathSegment ≠ .static (u ++ rest)) →
      Code (.kids ns u pth q) [.retNotFound]
  | sep {ns : List NestedRoutes} {u : Str} {pth : List PathSegment} {q : List Param}
      {n : NestedRoutes} {b : List Stmt} :
      n ∈ ns → n.pathSegment = .static u →
      (∀ n' ∈ ns, ∀ rest, n'.pathSegment = .static (u ++ rest) → n' = n) →
      kidsFrom ns u = [n] →
      Code (.enter n.routes (pth ++ [.static u]) q) b → Code (.kids ns u pth q) b
  | chain {ns : List NestedRoutes} {u w : Str} {pth : List PathSegment} {q : List Param}
      {b : List Stmt} {l : Nat} {c : Cond} :
      (l = w.length ∧ (c = .iEqLen ∨ c = .iAddGtLen l)) →
      w ≠ [] → (∃ n ∈ ns, ∃ rest, n.pathSegment = .static (u ++ rest)) →
      (∀ n ∈ ns, ∀ rest, n.pathSegment = .static (u ++ rest) → ∃ rest', rest = w ++ rest') →
      ¬ Forced ns (u ++ w) →
      Code (.kids ns (u ++ w) pth q) b →
      Code (.kids ns u pth q) (.ifThen c [.retNotFound] ::
        .matchPath l [.bytes w [.addI l], .wildNotFound] :: b)
  | branch {ns : List NestedRoutes} {u : Str} {pth : List PathSegment} {q : List Param} {chars : Str}
      {as : List Arm} :
      (∀ n ∈ ns, ∀ rest, n.pathSegment = .static (u ++ rest) →
        ∃ ch rest', ch ∈ chars ∧ rest = ch :: rest') →
      (∀ ch ∈ chars, ∃ n ∈ ns, ∃ rest, n.pathSegment = .static (u ++ ch :: rest)) →
      2 ≤ chars.length → chars.Nodup →
      Code (.arms ns u pth q chars) [.matchPath 1 as] →
      Code (.kids ns u pth q) [.ifThen .iEqLen [.retNotFound], .matchPath 1 as]
  | armsNil {ns : List NestedRoutes} {u : Str} {pth : List PathSegment} {q : List Param} :
      Code (.arms ns u pth q []) [.matchPath 1 [.wildNotFound]]
  | armsCons {ns : List NestedRoutes} {u : Str} {pth : List PathSegment} {q : List Param} {ch : Char}
      {chars : Str} {b : List Stmt} {as : List Arm} :
      Code (.kids ns (u ++ [ch]) pth q) b → Code (.arms ns u pth q chars) [.matchPath 1 as] →
      Code (.arms ns u pth q (ch :: chars)) [.matchPath 1 (.bytes [ch] (.addI 1 :: b) :: as)]

/-- The claim for blocks. -/
def BlockCode (fuel : Nat) : Prop :=
  ∀ (t : RouteTrie) (body : List Stmt) (r : Routes) (pth : List PathSegment) (q : List Param),
    t.depth ≤ fuel → codegenTrie fuel t = .ok body → Rep t (BlockItems r pth q) →
    DistinctSiblings r → blockShapeOk body = true → Code (.block r pth q) body

/-- The claim for nodes inside a segment. -/
def StaticCode (gen : RouteTrie → Except GenFail (List Stmt)) (bound : Nat)
    (own : RouteTrie → Prop) : Prop :=
  ∀ (t : RouteTrie) (body : List Stmt) (ns : List NestedRoutes) (u : Str) (pth : List PathSegment)
    (q : List Param),
    t.depth ≤ bound → own t → gen t = .ok body → Desc t (StaticItems ns u pth q) →
    (ns.Pairwise fun a b => ¬ SameSlot a.pathSegment b.pathSegment) →
    (∀ n ∈ ns, DistinctSiblings n.routes) → blockShapeOk body = true → Code (.kids ns u pth q) body

/-- The arms of an ambiguous match without malformed arms. -/
theorem ambiguousArms_code {gen : RouteTrie → Except GenFail (List Stmt)} {ns : List NestedRoutes}
    {u : Str} {pth : List PathSegment} {q : List Param} :
    ∀ {cs : List (Charlike × RouteTrie)} {arms : List Arm}, ambiguousArms gen cs = .ok arms →
      armsShapeOk arms = true →
      (∀ ch c b, (Charlike.static ch, c) ∈ cs → gen c = .ok b → blockShapeOk b = true →
        Code (.kids ns (u ++ [ch]) pth q) b) →
      Code (.arms ns u pth q ((staticOptions cs).map Prod.fst)) [.matchPath 1 (arms ++ [.wildNotFound])]
  | [], arms, h, _, _ => by
    simp only [ambiguousArms, Except.ok.injEq] at h; subst h; exact .armsNil
  | (.static ch, t) :: cs, arms, h, hs, hk => by
    simp only [ambiguousArms] at h
    cases hg : gen t with
    | error e => simp [hg] at h
    | ok b =>
      simp only [hg] at h
      cases hr : ambiguousArms gen cs with
      | error e => simp [hr] at h
      | ok as =>
        simp only [hr, Except.ok.injEq] at h
        subst h
        simp only [armsShapeOk, Arm.shapeOk, Bool.and_eq_true, blockShapeOk, Stmt.shapeOk,
          true_and] at hs
        have h1 := hk ch t b (by simp) hg hs.1.2
        have h2 := ambiguousArms_code hr hs.2 (fun ch c b hm => hk ch c b (List.mem_cons_of_mem _ hm))
        simpa [staticOptions] using Code.armsCons h1 h2
  | (.dynamic p, t) :: cs, arms, h, hs, _ => by
    simp only [ambiguousArms] at h
    cases hg : writeDynamic gen p t with
    | error e => simp [hg] at h
    | ok b =>
      simp only [hg, Except.ok.injEq] at h
      subst h
      simp [armsShapeOk, Arm.shapeOk] at hs
  | (.separator, t) :: cs, arms, h, hs, _ => by
    simp only [ambiguousArms] at h
    cases hr : ambiguousArms gen cs with
    | error e => simp [hr] at h
    | ok as =>
      simp only [hr, Except.ok.injEq] at h
      subst h
      simp [armsShapeOk, Arm.shapeOk] at hs

/-- With enough fuel a run of single static children is followed to its end. -/
theorem staticChain_stop : ∀ {fuel : Nat} {acc : Str} {t : RouteTrie} {s : Str} {t' : RouteTrie},
    t.depth ≤ fuel → staticChain fuel acc t = (s, t') → ∀ ch c, t'.children ≠ [(.static ch, c)]
  | 0, _, t, _, _, hd, _ => by have := t.depth_pos; omega
  | fuel + 1, acc, t, s, t', hd, h => by
    simp only [staticChain] at h
    split at h
    · rename_i ch c hch
      have := Trie.depth_lt_of_mem (k := .static ch) (c := c) (t := t) (by rw [hch]; simp)
      exact staticChain_stop (by omega) h
    · rename_i hno
      simp only [Prod.mk.injEq] at h
      obtain ⟨_, rfl⟩ := h
      exact hno

theorem not_forced {t : RouteTrie} {ns : List NestedRoutes} {u : Str} {pth : List PathSegment}
    {q : List Param} (hdesc : Desc t (StaticItems ns u pth q))
    (hex : ∃ n ∈ ns, ∃ rest, n.pathSegment = .static (u ++ rest))
    (hno : ∀ ch c, t.children ≠ [(.static ch, c)]) : ¬ Forced ns u := by
  rintro ⟨ch, hall⟩
  have hkey : ∀ k c, (k, c) ∈ t.children → k = .static ch := by
    intro k c hm
    cases k with
    | dynamic x => exact absurd hm (no_dynamic_child hdesc x c)
    | separator =>
      obtain ⟨n, hn, hseg⟩ := (sep_child_iff hdesc).1 ⟨c, hm⟩
      obtain ⟨_, h⟩ := hall n hn [] (by simpa using hseg)
      cases h
    | static ch' =>
      obtain ⟨n, hn, rest, hseg⟩ := (static_child_iff hdesc ch').1 ⟨c, hm⟩
      obtain ⟨_, h⟩ := hall n hn _ hseg
      rw [(List.cons.inj h).1]
  obtain ⟨n, hn, rest, hseg⟩ := hex
  obtain ⟨rest', rfl⟩ := hall n hn rest hseg
  obtain ⟨c, hm⟩ := (static_child_iff hdesc ch).2 ⟨n, hn, rest', hseg⟩
  have hs := hdesc.wf.sorted_children
  cases hcs : t.children with
  | nil => rw [hcs] at hm; cases hm
  | cons a as =>
    cases as with
    | nil =>
      obtain ⟨k, c'⟩ := a
      have := hkey k c' (by rw [hcs]; simp)
      subst this
      exact hno ch c' hcs
    | cons b bs =>
      have ha := hkey a.1 a.2 (by rw [hcs]; simp)
      have hb := hkey b.1 b.2 (by rw [hcs]; simp)
      rw [hcs] at hs
      have := (List.pairwise_cons.1 hs).1 b (by simp)
      rw [ha, hb] at this
      exact Charlike.orderCmp.lt_irrefl _ this

theorem staticOptions_all {cs : List (Charlike × RouteTrie)}
    (hd : ∀ x c, (Charlike.dynamic x, c) ∉ cs) (hs : ∀ c, (Charlike.separator, c) ∉ cs) :
    (staticOptions cs).length = cs.length := by
  induction cs with
  | nil => rfl
  | cons a as ih =>
    obtain ⟨k, c⟩ := a
    have ih := ih (fun x c h => hd x c (List.mem_cons_of_mem _ h)) (fun c h => hs c (List.mem_cons_of_mem _ h))
    cases k with
    | static ch => simpa [staticOptions] using ih
    | dynamic x => exact absurd (List.mem_cons_self ..) (hd x c)
    | separator => exact absurd (List.mem_cons_self ..) (hs c)

theorem staticOptions_chars_nodup {cs : List (Charlike × RouteTrie)} (hs : SortedKeys Charlike.cmp cs) :
    ((staticOptions cs).map Prod.fst).Nodup := by
  induction cs with
  | nil => simp [staticOptions]
  | cons a as ih =>
    obtain ⟨k, c⟩ := a
    obtain ⟨h1, h2⟩ := List.pairwise_cons.1 hs
    cases k with
    | dynamic x => simpa [staticOptions] using ih h2
    | separator => simpa [staticOptions] using ih h2
    | static ch =>
      have : (staticOptions ((Charlike.static ch, c) :: as)) = (ch, c) :: staticOptions as := by
        simp [staticOptions]
      rw [this, List.map_cons, List.nodup_cons]
      refine ⟨fun hmem => ?_, ih h2⟩
      obtain ⟨⟨ch', c'⟩, hm, rfl⟩ := List.mem_map.1 hmem
      have := h1 _ (mem_staticOptions.1 hm)
      exact Charlike.orderCmp.lt_irrefl _ this

theorem staticCode {fuel : Nat} (hA : BlockCode fuel)
    (hC : StaticCode (codegenTrie fuel) fuel fun t => t.data = none) :
    StaticCode (genChildren fuel) (fuel + 1) fun _ => True := by
  intro t body ns u pth q hdep _ hgen hdesc hpw hsub hshape
  simp only [genChildren] at hgen
  split at hgen
  · rename_i hcs
    simp only [Except.ok.injEq] at hgen
    subst hgen
    have hk := desc_kids_nil hdesc hcs
    refine .none fun n hn rest hseg => ?_
    have : n ∈ kidsFrom ns u := mem_kidsFrom.2 ⟨hn, rest, hseg⟩
    rw [hk] at this; cases this
  · rename_i seg c hcs
    have hm : (seg, c) ∈ t.children := by rw [hcs]; simp
    have hlt := Trie.depth_lt_of_mem hm
    cases seg with
    | dynamic x => exact absurd hm (no_dynamic_child hdesc x c)
    | separator =>
      simp only [genSingle] at hgen
      cases hg : codegenTrie fuel c with
      | error e => simp [hg] at hgen
      | ok b =>
        simp only [hg, Except.ok.injEq] at hgen
        subst hgen
        obtain ⟨n, hn, hseg, hk, hrep⟩ := desc_sep_only hdesc hcs hpw
        simp only [List.append_assoc, List.cons_append, List.nil_append, sep_shape] at hshape ⊢
        rw [rep_block_data hrep]
        refine .sep hn hseg ?_ hk (.enter (hA c b _ _ _ (by omega) hg hrep (hsub n hn) hshape))
        intro n' hn' rest hseg'
        have : n' ∈ kidsFrom ns u := mem_kidsFrom.2 ⟨hn', rest, hseg'⟩
        rw [hk] at this
        simpa using this
    | static ch =>
      simp only [genSingle] at hgen
      cases hsc : staticChain fuel [ch] c with
      | mk str c' =>
        simp only [hsc] at hgen
        obtain ⟨w, rfl, hrep, hk, hdd⟩ := staticChain_desc fuel [ch] (u ++ [ch]) c str c'
          (hdesc.static_child hm) hsc
        cases hg : codegenTrie fuel c' with
        | error e => simp [hg] at hgen
        | ok b =>
          simp only [hg, Except.ok.injEq] at hgen
          subst hgen
          have hk2 : kidsFrom ns u = kidsFrom ns (u ++ ch :: w) := by
            rw [kids_of_single hdesc (ch := ch) (by
              intro k c' hm'
              rw [hcs] at hm'
              simp only [List.mem_cons, Prod.mk.injEq, List.not_mem_nil, or_false] at hm'
              exact .inl hm'.1) hm, hk]
            simp
          obtain ⟨n1, hn1, rest1, hseg1⟩ := (static_child_iff hdesc ch).1 ⟨c, hm⟩
          simp only [List.cons_append, List.nil_append, blockShapeOk, Stmt.shapeOk, armsShapeOk,
            Arm.shapeOk, Bool.and_true, Bool.true_and, Bool.and_eq_true] at hshape ⊢
          refine .chain ⟨utf8Len_eq hshape.1, ?_⟩ (by simp) ⟨n1, hn1, _, hseg1⟩ (extend_of_kids hk2) ?_ ?_
          · split
            · exact .inl rfl
            · exact .inr rfl
          · refine not_forced (by simpa using hrep.desc) ?_ (staticChain_stop (by omega) hsc)
            obtain ⟨rest', hrest'⟩ := extend_of_kids hk2 n1 hn1 _ hseg1
            exact ⟨n1, hn1, rest', by rw [hseg1, hrest', List.append_assoc]⟩
          exact hC c' b ns (u ++ ch :: w) pth q (by omega) (rep_static_data hrep) hg
            (by simpa using hrep.desc) hpw hsub hshape.2
  · have hfd : findDynamic t.children = none :=
      findDynamic_none.2 fun x c' => no_dynamic_child hdesc x c'
    simp only [genMulti, hfd] at hgen
    split at hgen
    · cases hgen
    · cases hg : ambiguousArms (codegenTrie fuel) t.children with
      | error e => simp [hg] at hgen
      | ok arms =>
        simp only [hg, Except.ok.injEq] at hgen
        subst hgen
        have hsh : armsShapeOk arms = true := by
          simpa [blockShapeOk, Stmt.shapeOk, armsShapeOk_append, armsShapeOk, Arm.shapeOk] using hshape
        have hnosep : ∀ c, (Charlike.separator, c) ∉ t.children := by
          intro c hm
          obtain ⟨ch, hk, _⟩ := (ambiguousArms_shape hg).1 hsh _ _ hm
          cases hk
        have hstat := staticOptions_all (fun x c => no_dynamic_child hdesc x c) hnosep
        refine .branch (chars := (staticOptions t.children).map Prod.fst) ?_ ?_ ?_
          (staticOptions_chars_nodup hdesc.wf.sorted_children) (ambiguousArms_code hg hsh ?_)
        · intro n hn rest hseg
          cases rest with
          | nil =>
            obtain ⟨c, hm⟩ := (sep_child_iff hdesc).2 ⟨n, hn, by simpa using hseg⟩
            exact absurd hm (hnosep c)
          | cons ch rest =>
            obtain ⟨c, hm⟩ := (static_child_iff hdesc ch).2 ⟨n, hn, rest, hseg⟩
            exact ⟨ch, rest, List.mem_map.2 ⟨(ch, c), mem_staticOptions.2 hm, rfl⟩, rfl⟩
        · intro ch hch
          obtain ⟨⟨ch', c⟩, hm, rfl⟩ := List.mem_map.1 hch
          exact (static_child_iff hdesc ch').1 ⟨c, mem_staticOptions.1 hm⟩
        · rw [List.length_map, hstat]
          rename_i h0 h1 _
          cases hcs : t.children with
          | nil => exact absurd hcs h0
          | cons a as =>
            cases as with
            | nil => exact absurd hcs (h1 a.1 a.2)
            | cons b bs => simp
        · intro ch c b hm hgb hsb
          have hltd := Trie.depth_lt_of_mem hm
          have hrep' := hdesc.static_child hm
          exact hC c b ns (u ++ [ch]) pth q (by omega) (rep_static_data hrep') hgb hrep'.desc hpw hsub hsb

/-- The same for a whole node inside a static segment. -/
theorem staticCode_node {fuel : Nat} (hB : StaticCode (genChildren fuel) (fuel + 1) fun _ => True) :
    StaticCode (codegenTrie (fuel + 1)) (fuel + 1) fun t => t.data = none := by
  intro t body ns u pth q hdep hown hgen hrep hpw hsub hshape
  obtain ⟨cb, hcb, rfl⟩ := codegenTrie_succ_ok hgen
  rw [hown] at hshape ⊢
  exact hB t cb ns u pth q hdep trivial hcb hrep hpw hsub hshape

/-- The code that captures a parameter. -/
theorem dynCode {fuel : Nat} (hA : ∀ k < fuel, BlockCode k)
    {t c : RouteTrie} {db : List Stmt} {rs : List Resource} {ns : List NestedRoutes} {qs : List Param}
    {pth : List PathSegment} {q : List Param} {x : Str}
    (hdesc : Desc t (BlockItems (.mk rs ns qs) pth q))
    (hm : (Charlike.dynamic x, c) ∈ t.children) (hdep : c.depth ≤ fuel)
    (hgen : writeDynamic (codegenTrie fuel) x c = .ok db)
    (hpw : ns.Pairwise fun a b => ¬ SameSlot a.pathSegment b.pathSegment)
    (hsub : ∀ n ∈ ns, DistinctSiblings n.routes) (hshape : blockShapeOk db = true) :
    ∃ n ∈ ns, ∃ p, n.pathSegment = .dynamic p ∧ p.name = x ∧
      ∃ b, db = dynamicHead p.name b ++ b ∧
        Code (.enter n.routes (pth ++ [.dynamic p]) (q ++ qs)) b := by
  obtain ⟨c2, hc2, b, hb, rfl⟩ := writeDynamic_ok hgen
  obtain ⟨n, hn, p, hseg, rfl, hdata, hpaths, hrep⟩ := hdesc.dynamic_child hpw hm
  have hrep2 := hrep c2 hc2
  obtain ⟨k, b2, rfl, hb2, hbeq⟩ := codegenTrie_sep hb hc2 hdata
  have hlt : c2.depth < c.depth := Trie.depth_lt_of_mem (k := .separator) (by rw [hc2]; simp)
  refine ⟨n, hn, p, hseg, rfl, b, rfl, ?_⟩
  rw [blockShapeOk_append, dynamicHead_shape, hbeq, sep_shape, Bool.true_and] at hshape
  rw [hbeq, rep_block_data hrep2]
  exact .enter (hA k (by omega) c2 b2 n.routes _ _ (by omega) hb2 hrep2 (hsub n hn) hshape)

/-- The children of a block with a parameter child. -/
theorem paramBlockCode {fuel : Nat} (hA : ∀ k < fuel, BlockCode k)
    (hC : StaticCode (codegenTrie fuel) fuel fun t => t.data = none)
    {t : RouteTrie} {cb : List Stmt} {rs : List Resource} {ns : List NestedRoutes} {qs : List Param}
    {pth : List PathSegment} {q : List Param}
    (hdep : t.depth ≤ fuel + 1) (hgen : genChildren fuel t = .ok cb)
    (hdesc : Desc t (BlockItems (.mk rs ns qs) pth q))
    (hds : DistinctSiblings (.mk rs ns qs)) (hpar : paramNames ns ≠ [])
    (hshape : blockShapeOk cb = true) :
    Code (.block (.mk rs ns qs) pth q) (ownMethods (some ⟨pth, rs, q ++ qs⟩) ++ cb) := by
  obtain ⟨hpw, hsub⟩ := distinctSiblings_mk.1 hds
  obtain ⟨y, hy⟩ := List.exists_mem_of_ne_nil _ hpar
  obtain ⟨cy, hmy⟩ := (dynamic_child_iff hdesc y).2 hy
  have hfd : ∃ x c, findDynamic t.children = some (x, c) := by
    cases hf : findDynamic t.children with
    | none => exact absurd hmy (findDynamic_none.1 hf y cy)
    | some xc => exact ⟨xc.1, xc.2, rfl⟩
  obtain ⟨x, c, hfd⟩ := hfd
  have hmx := findDynamic_mem hfd
  have hxin : x ∈ paramNames ns := (dynamic_child_iff hdesc x).1 ⟨c, hmx⟩
  have hcap : captor ns = some x := captor_eq hxin fun y' hy' => by
    obtain ⟨c', hm'⟩ := (dynamic_child_iff hdesc y').2 hy'
    exact findDynamic_least hdesc.wf.sorted_children hfd y' c' hm'
  have hltx := Trie.depth_lt_of_mem hmx
  simp only [genChildren] at hgen
  split at hgen
  · rename_i hcs; rw [hcs] at hmx; cases hmx
  · -- the parameter is the only child
    rename_i seg c' hcs
    have : (seg, c') = (Charlike.dynamic x, c) := by
      rw [hcs] at hmx; exact (List.mem_singleton.1 hmx).symm
    obtain ⟨rfl, rfl⟩ := Prod.mk.inj this
    simp only [genSingle] at hgen
    cases hg : writeDynamic (codegenTrie fuel) x c' with
    | error e => simp [hg] at hgen
    | ok db =>
      simp only [hg, Except.ok.injEq] at hgen
      subst hgen
      have hsdb : blockShapeOk db = true := by simpa [blockShapeOk, Stmt.shapeOk] using hshape
      obtain ⟨n, hn, p, hseg, rfl, b, rfl, hcode⟩ := dynCode hA hdesc hmx (by omega) hg hpw hsub hsdb
      have hst : staticTexts ns = [] := by
        cases hs : staticTexts ns with
        | nil => rfl
        | cons a as =>
          exfalso
          obtain ⟨n, hn, hseg⟩ := mem_staticTexts.1 (show a ∈ staticTexts ns by rw [hs]; simp)
          cases a with
          | nil =>
            obtain ⟨c2, hm2⟩ := (block_sep_child_iff hdesc).2 ⟨n, hn, hseg⟩
            rw [hcs] at hm2; simp at hm2
          | cons ch rest =>
            obtain ⟨c2, hm2⟩ := (block_static_child_iff hdesc ch).2 ⟨n, hn, rest, hseg⟩
            rw [hcs] at hm2; simp at hm2
      exact .param hn hseg hcap hst hcode
  · -- several children
    simp only [genMulti, hfd, Option.isSome_some, if_true] at hgen
    have hnofuel : fuel ≠ 0 := by
      rintro rfl
      have := c.depth_pos
      omega
    obtain ⟨k, rfl⟩ := Nat.exists_eq_succ_of_ne_zero hnofuel
    cases hup : unambiguousPrefix (k + 1) [] 0 t with
    | mk un ln =>
      obtain ⟨l, next⟩ := ln
      simp only [hup] at hgen
      have hup' := hup
      simp only [unambiguousPrefix] at hup'
      split at hgen
      · rename_i hun
        cases hgn : codegenTrie (k + 1) next with
        | error e => simp [hgn] at hgen
        | ok sb =>
          simp only [hgn] at hgen
          cases hg : writeDynamic (codegenTrie (k + 1)) x c with
          | error e => simp [hg] at hgen
          | ok db =>
            simp only [hg, Except.ok.injEq] at hgen
            subst hgen
            simp only [List.nil_append, List.cons_append, blockShapeOk, Stmt.shapeOk, armsShapeOk,
              Arm.shapeOk, Bool.and_true, Bool.true_and, Bool.and_eq_true] at hshape
            obtain ⟨n, hn, p, hseg, rfl, b, rfl, hcode⟩ := dynCode hA hdesc hmx (by omega) hg hpw hsub
              hshape.2
            split at hup'
            · simp only [Prod.mk.injEq] at hup'
              exact absurd hup'.1.symm hun
            rename_i hnosep
            have hns : ∀ c, (Charlike.separator, c) ∉ t.children := fun c hm =>
              hnosep (List.any_eq_true.2 ⟨_, hm, rfl⟩)
            split at hup'
            case h_2 =>
              simp only [Prod.mk.injEq] at hup'
              exact absurd hup'.1.symm hun
            rename_i ch t1 hopt
            have hm1 : (Charlike.static ch, t1) ∈ t.children := mem_staticOptions.1 (by rw [hopt]; simp)
            have hlt1 := Trie.depth_lt_of_mem hm1
            have hdep1 : t1.depth ≤ k + 1 := by omega
            have hkids0 : kidsFrom ns [] = kidsFrom ns [ch] := by
              apply kidsFrom_extend (u := []) (w := [ch])
              intro n hn rest hseg
              simp only [List.nil_append] at hseg
              cases rest with
              | nil =>
                obtain ⟨c2, hm2⟩ := (block_sep_child_iff hdesc).2 ⟨n, hn, hseg⟩
                exact absurd hm2 (hns c2)
              | cons ch' rest =>
                obtain ⟨c2, hm2⟩ := (block_static_child_iff hdesc ch').2 ⟨n, hn, rest, hseg⟩
                have := mem_staticOptions.2 hm2
                rw [hopt] at this
                simp only [List.mem_cons, Prod.mk.injEq, List.not_mem_nil, or_false] at this
                exact ⟨rest, by simp [this.1]⟩
            obtain ⟨n1, hn1, rest1, hseg1⟩ := (block_static_child_iff hdesc ch).1 ⟨t1, hm1⟩
            obtain ⟨w, rfl, hrepn, hkw, hdn, hcase⟩ := unambiguousPrefix_desc k _ [ch] _ _ _ _ _
              (hdesc.block_static_child hm1) hdep1 ⟨n1, hn1, rest1, by simpa using hseg1⟩ hup'
            have hkids : kidsFrom ns [] = kidsFrom ns ([] ++ (ch :: w)) := by
              rw [hkids0, hkw]; rfl
            have hext := extend_of_kids hkids
            simp only [List.nil_append, List.cons_append] at hrepn hgn ⊢
            have hst : staticTexts ns ≠ [] := by
              have := mem_staticTexts.2 ⟨n1, hn1, hseg1⟩
              intro h0; rw [h0] at this; cases this
            refine .both ⟨?_, ?_⟩ hn hseg hcap (by simp) ?_ hst ?_ hcode
            · refine ⟨_, mem_staticTexts.2 ⟨n1, hn1, hseg1⟩, ?_⟩
              obtain ⟨rest', hrest'⟩ := hext n1 hn1 (ch :: rest1) (by simpa using hseg1)
              rw [hrest']
              simp only [List.length_cons, List.length_append]
              rcases hcase with ⟨h, _⟩ | ⟨h, hnosep', _⟩
              · split <;> omega
              · have : rest' ≠ [] := by
                  rintro rfl
                  obtain ⟨c2, hm2⟩ := (sep_child_iff hrepn.desc).2 ⟨n1, hn1, by rw [hseg1, hrest']; simp⟩
                  exact hnosep' c2 hm2
                have := List.length_pos_iff.2 this
                split <;> omega
            · generalize (if l = 0 then 1 else l) = j
              by_cases hj : j = 1
              · exact .inl (if_pos hj)
              · exact .inr (if_neg hj)
            · intro s hs
              obtain ⟨n', hn', hseg'⟩ := mem_staticTexts.1 hs
              obtain ⟨rest', rfl⟩ := hext n' hn' s (by simpa using hseg')
              exact List.prefix_append ..
            · exact hC next sb ns (ch :: w) pth (q ++ qs) (by omega) (rep_static_data hrepn) hgn
                hrepn.desc hpw hsub hshape.1.2
      · cases hg : ambiguousArms (codegenTrie (k + 1)) t.children with
        | error e => simp [hg] at hgen
        | ok arms =>
          simp only [hg, Except.ok.injEq] at hgen
          subst hgen
          have hsh : armsShapeOk arms = true := by
            simpa [blockShapeOk, Stmt.shapeOk, armsShapeOk_append, armsShapeOk, Arm.shapeOk] using hshape
          obtain ⟨ch, hk, _⟩ := (ambiguousArms_shape hg).1 hsh _ _ hmx
          cases hk

/-- One step of the induction for blocks. -/
theorem blockCode {fuel : Nat} (hA : ∀ k ≤ fuel, BlockCode k)
    (hC : StaticCode (codegenTrie fuel) fuel fun t => t.data = none) : BlockCode (fuel + 1) := by
  intro t body r pth q hdep hgen hrep hds hshape
  obtain ⟨cb, hcb, rfl⟩ := codegenTrie_succ_ok hgen
  obtain ⟨rs, ns, qs⟩ := r
  obtain ⟨hpw, hsub⟩ := distinctSiblings_mk.1 hds
  rw [blockShapeOk_append, ownMethods_shape, Bool.true_and] at hshape
  rw [rep_block_data hrep]
  by_cases hpar : paramNames ns = []
  · have hdesc : Desc t (StaticItems ns [] pth (q ++ qs)) := hrep.desc.congr fun k ks v => by
      cases k with
      | static ch => exact blockItems_static
      | separator => exact blockItems_sep
      | dynamic x =>
        constructor
        · intro h
          obtain ⟨n, hn, p, ks', hseg, hx, _⟩ := blockItems_dynamic.1 h
          have : x ∈ paramNames ns := mem_paramNames.2 ⟨n, hn, p, hseg, hx⟩
          rw [hpar] at this; cases this
        · intro h; exact absurd h staticItems_dynamic
    exact .plain hpar (staticCode (hA fuel (Nat.le_refl _)) hC t cb ns [] pth (q ++ qs) hdep trivial hcb
      hdesc hpw hsub hshape)
  · exact paramBlockCode (fun k hk => hA k (Nat.le_of_lt hk)) hC hdep hcb hrep.desc hds hpar hshape

theorem codeClaims : ∀ fuel, BlockCode fuel ∧
    StaticCode (codegenTrie fuel) fuel fun t => t.data = none := by
  intro fuel
  induction fuel using Nat.strongRecOn with
  | ind fuel ih =>
    cases fuel with
    | zero =>
      constructor
      · intro t body r pth q _ hgen
        simp [codegenTrie] at hgen
      · intro t body ns u pth q _ _ hgen
        simp [codegenTrie] at hgen
    | succ fuel =>
      have hA : ∀ k ≤ fuel, BlockCode k := fun k hk => (ih k (by omega)).1
      have hC := (ih fuel (by omega)).2
      exact ⟨blockCode hA hC, staticCode_node (staticCode (hA fuel (Nat.le_refl _)) hC)⟩

/-- The emitted function has the described form if its shape is right. -/
theorem matcherBody_code {r : Routes} {body : List Stmt} (hbody : matcherBody r = .ok body)
    (hshape : blockShapeOk body = true) : Code (.block r [] []) body := by
  simp only [matcherBody] at hbody
  cases ht : toTrie r with
  | none => simp [ht] at hbody
  | some t =>
    simp only [ht] at hbody
    exact (codeClaims t.depth).1 t body r [] [] (Nat.le_refl _) hbody (toTrie_rep ht)
      ((toTrie_isSome_iff r).1 ⟨t, ht⟩) hshape

end Wayfinder
