import Verif.Proofs.Sim
import Verif.Spec.Shape
/-!
# The generated program computes the reference router: induction over the trie
-/

namespace Wayfinder

variable {W : World} {path m : Bytes}

/-- Behind the segments `pth`, no parameter disturbs the variables of the function, nor is it
disturbed by those. -/
def Unhidden (pth : List PathSegment) (r : Routes) : Prop :=
  ∀ segs above node, LiveRoute r segs above node → ∀ p ∈ dynamics (pth ++ segs),
    p.name ∉ ownNames ∧ (paramNames node.routes ≠ [] → p.name ≠ c!"start" ∧ p.name ≠ c!"text")

theorem unhidden_static {rs : List Resource} {ns : List NestedRoutes} {qs : List Param}
    {pth : List PathSegment} (h : Unhidden pth (.mk rs ns qs)) {n : NestedRoutes} (hn : n ∈ ns) {s : Str}
    (hs : n.pathSegment = .static s) : Unhidden (pth ++ [.static s]) n.routes := by
  intro segs above node hl
  obtain ⟨seg, sub⟩ := n
  simp only [NestedRoutes.pathSegment_mk] at hs
  subst hs
  have := h _ _ _ (.static (r := .mk rs ns qs) hn hl)
  simpa using this

theorem unhidden_param {rs : List Resource} {ns : List NestedRoutes} {qs : List Param}
    {pth : List PathSegment} (h : Unhidden pth (.mk rs ns qs)) {n : NestedRoutes} (hn : n ∈ ns) {p : Param}
    (hs : n.pathSegment = .dynamic p) (hc : captor ns = some p.name) :
    Unhidden (pth ++ [.dynamic p]) n.routes := by
  intro segs above node hl
  obtain ⟨seg, sub⟩ := n
  simp only [NestedRoutes.pathSegment_mk] at hs
  subst hs
  have := h _ _ _ (.dynamic (r := .mk rs ns qs) hn hc hl)
  simpa using this

theorem Unhidden.own {pth : List PathSegment} {p : Param} {r : Routes} (h : Unhidden (pth ++ [.dynamic p]) r) :
    p.name ∉ ownNames :=
  (h _ _ _ (.here _) p (by simp [dynamics_append, dynamics])).1

theorem Unhidden.caps {pth : List PathSegment} {rs : List Resource} {ns : List NestedRoutes}
    {qs : List Param} (h : Unhidden pth (.mk rs ns qs)) (hp : paramNames ns ≠ []) {caps : Caps W}
    (hd : dynamics pth = caps.map Prod.fst) :
    (∀ pv ∈ caps, pv.1.name ≠ c!"start") ∧ ∀ pv ∈ caps, pv.1.name ≠ c!"text" := by
  have : ∀ pv ∈ caps, pv.1.name ≠ c!"start" ∧ pv.1.name ≠ c!"text" := fun pv hpv =>
    (h _ _ _ (.here _) pv.1 (by
      rw [List.append_nil, hd]; exact List.mem_map_of_mem hpv)).2 hp
  exact ⟨fun pv hpv => (this pv hpv).1, fun pv hpv => (this pv hpv).2⟩

/-- What the code for a block does. -/
def BlockClaim (W : World) (path m : Bytes) (fuel : Nat) : Prop :=
  ∀ (t : RouteTrie) (body : List Stmt) (r : Routes) (pth : List PathSegment) (q : List Param)
    (caps : Caps W) (s : State W),
    t.depth ≤ fuel → codegenTrie fuel t = .ok body → Rep t (BlockItems r pth q) →
    DistinctSiblings r → Unhidden pth r → dynamics pth = caps.map Prod.fst → Accepted body →
    EnvOk caps s.env → s.i ≤ path.length →
    execBlock path m body s = .ret (route W m r q caps (path.drop s.i))

/-- What the code for a node inside a static segment does; `own` restricts the element stored at
the node itself. -/
def StaticClaim (W : World) (path m : Bytes) (gen : RouteTrie → Except GenFail (List Stmt))
    (bound : Nat) (own : RouteTrie → Prop) : Prop :=
  ∀ (t : RouteTrie) (body : List Stmt) (ns : List NestedRoutes) (u : Str) (pth : List PathSegment)
    (q : List Param) (caps : Caps W) (s : State W),
    t.depth ≤ bound → own t → gen t = .ok body → Desc t (StaticItems ns u pth q) →
    (ns.Pairwise fun a b => ¬ SameSlot a.pathSegment b.pathSegment) →
    (∀ n ∈ ns, DistinctSiblings n.routes ∧
      ∀ s, n.pathSegment = .static s → Unhidden (pth ++ [.static s]) n.routes) →
    dynamics pth = caps.map Prod.fst → Accepted body → EnvOk caps s.env → s.i ≤ path.length →
    execBlock path m body s =
      .ret ((routeStatic W m (kidsFrom ns u) q caps (bytesOf u ++ path.drop s.i)).getD .notFound)

theorem exec_separatorHead {caps : Caps W} {s : State W} {c : RouteTrie} {r : Routes}
    {pth : List PathSegment} {q : List Param} (hr : Rep c (BlockItems r pth q))
    (hd : dynamics pth = caps.map Prod.fst) (henv : EnvOk caps s.env) (rest : List Stmt) :
    execBlock path m (separatorHead c.data ++ rest) s =
      if s.i = path.length then .ret (atEnd m r q caps) else execBlock path m rest s := by
  rw [rep_block_data hr]
  simp only [separatorHead]
  by_cases hrs : r.resources = []
  · simp only [hrs, List.length_nil, ne_eq, not_true, if_false, List.cons_append, List.nil_append,
      exec_ifEnd henv, atEnd, if_true]
  · have : r.resources.length ≠ 0 := by simpa using hrs
    rw [if_pos this, exec_writeMethods henv _ hd]
    simp only [atEnd, if_neg hrs]

/-- The separator and what follows it. -/
theorem sepSim {fuel : Nat} (hA : BlockClaim W path m fuel) {caps : Caps W} {s : State W}
    {c : RouteTrie} {b : List Stmt} {r : Routes} {pth : List PathSegment} {q : List Param}
    (hdep : c.depth ≤ fuel) (hgen : codegenTrie fuel c = .ok b) (hr : Rep c (BlockItems r pth q))
    (hds : DistinctSiblings r) (hhy : Unhidden pth r) (hd : dynamics pth = caps.map Prod.fst)
    (hok : Accepted b) (henv : EnvOk caps s.env) (hi : s.i ≤ path.length) :
    execBlock path m (separatorHead c.data ++
        (.matchPath 1 [.bytes c!"/" [.addI 1], .wildNotFound] :: b)) s =
      .ret (enter W m r q caps (path.drop s.i)) := by
  rw [exec_separatorHead hr hd henv]
  by_cases he : s.i = path.length
  · rw [if_pos he]
    have : path.drop s.i = [] := by rw [List.drop_eq_nil_iff]; omega
    rw [this]; rfl
  · rw [if_neg he, exec_matchLit henv (by omega)]
    have hlt : s.i < path.length := by omega
    rw [List.drop_eq_getElem_cons hlt]
    have htk : List.take 1 (path[s.i] :: path.drop (s.i + 1)) = [path[s.i]] := rfl
    rw [htk]
    simp only [enter]
    by_cases hb : path[s.i] = slash
    · rw [if_pos (by rw [hb]; rfl), if_pos hb]
      have := hA c b r pth q caps { s with i := s.i + 1 } hdep hgen hr hds hhy hd hok henv (by simp; omega)
      rw [this]
    · rw [if_neg hb, if_neg]
      intro h
      apply hb
      have : bytesOf c!"/" = [slash] := rfl
      rw [this] at h
      simpa using h

theorem desc_kids_nil {t : RouteTrie} {ns : List NestedRoutes} {u : Str} {pth : List PathSegment}
    {q : List Param} (h : Desc t (StaticItems ns u pth q)) (hc : t.children = []) :
    kidsFrom ns u = [] := by
  cases hk : kidsFrom ns u with
  | nil => rfl
  | cons n rest =>
    exfalso
    obtain ⟨hn, rest, hseg⟩ := mem_kidsFrom.1 (show n ∈ kidsFrom ns u by rw [hk]; simp)
    cases rest with
    | nil =>
      obtain ⟨t', hm⟩ := (sep_child_iff h).2 ⟨n, hn, by simpa using hseg⟩
      rw [hc] at hm; cases hm
    | cons ch rest =>
      obtain ⟨t', hm⟩ := (static_child_iff h ch).2 ⟨n, hn, rest, hseg⟩
      rw [hc] at hm; cases hm

/-- A node below which only the separator follows. -/
theorem desc_sep_only {t c : RouteTrie} {ns : List NestedRoutes} {u : Str} {pth : List PathSegment}
    {q : List Param} (h : Desc t (StaticItems ns u pth q)) (hc : t.children = [(.separator, c)])
    (hd : ns.Pairwise fun a b => ¬ SameSlot a.pathSegment b.pathSegment) :
    ∃ n ∈ ns, n.pathSegment = .static u ∧ kidsFrom ns u = [n] ∧
      Rep c (BlockItems n.routes (pth ++ [.static u]) q) := by
  have hm : (Charlike.separator, c) ∈ t.children := by rw [hc]; simp
  obtain ⟨n, hn, hseg⟩ := (sep_child_iff h).1 ⟨c, hm⟩
  refine ⟨n, hn, hseg, kidsFrom_single hd hn hseg ?_, h.sep_child hd hm hn hseg⟩
  intro n' hn' rest hseg'
  cases rest with
  | nil => rfl
  | cons ch rest =>
    obtain ⟨t', hm'⟩ := (static_child_iff h ch).2 ⟨n', hn', rest, hseg'⟩
    rw [hc] at hm'
    simp at hm'

/-- Which arm of an ambiguous match is taken. -/
theorem exec_ambiguousArms {gen : RouteTrie → Except GenFail (List Stmt)} {caps : Caps W} {s : State W}
    (henv : EnvOk caps s.env) (b : UInt8) :
    ∀ {cs : List (Charlike × RouteTrie)} {arms : List Arm}, ambiguousArms gen cs = .ok arms →
      AcceptedArms (arms ++ [.wildNotFound]) →
      (∃ ch c body, (Charlike.static ch, c) ∈ cs ∧ asciiByte ch = b ∧ gen c = .ok body ∧
        ∀ o, execBlock path m body { s with i := s.i + 1 } = .ret o →
          execArms path m [b] (arms ++ [.wildNotFound]) s = .ret o) ∨
      ((∀ ch c, (Charlike.static ch, c) ∈ cs → asciiByte ch ≠ b) ∧
        execArms path m [b] (arms ++ [.wildNotFound]) s = .ret .notFound)
  | [], arms, h, _ => by
    simp only [ambiguousArms, Except.ok.injEq] at h
    subst h
    right
    simp [execArms, Arm.exec]
  | (.static ch, t) :: cs, arms, h, hok => by
    simp only [ambiguousArms] at h
    cases hg : gen t with
    | error e => simp [hg] at h
    | ok body =>
      simp only [hg] at h
      cases hr : ambiguousArms gen cs with
      | error e => simp [hr] at h
      | ok as =>
        simp only [hr, Except.ok.injEq] at h
        subst h
        by_cases hb : asciiByte ch = b
        · left
          refine ⟨ch, t, body, List.mem_cons_self .., hb, hg, fun o ho => ?_⟩
          simp only [List.cons_append, execArms, Arm.exec, List.map_cons, List.map_nil, hb, if_true,
            exec_addI henv, ho]
        · have hne : ¬ [b] = [asciiByte ch] := by
            intro h; exact hb (by simpa using h.symm)
          have hstep : execArms path m [b] (.bytes [ch] (.addI 1 :: body) :: as ++ [.wildNotFound]) s =
              execArms path m [b] (as ++ [.wildNotFound]) s := by
            simp [execArms, Arm.exec, hne]
          rcases exec_ambiguousArms henv b hr (AcceptedArms.tail hok) with
            ⟨ch', c', body', hm, hb', hg', ho⟩ | ⟨hall, ho⟩
          · left
            exact ⟨ch', c', body', List.mem_cons_of_mem _ hm, hb', hg', fun o h => by
              rw [hstep]; exact ho o h⟩
          · right
            refine ⟨?_, by rw [hstep]; exact ho⟩
            intro ch' c' hm
            rcases List.mem_cons.1 hm with hm | hm
            · simp only [Prod.mk.injEq, Charlike.static.injEq] at hm
              rw [hm.1]; exact hb
            · exact hall ch' c' hm
  | (.dynamic p, t) :: cs, arms, h, hok => by
    obtain ⟨ch, hk, _⟩ := ambiguousArms_accepted h hok _ _ (List.mem_cons_self ..)
    cases hk
  | (.separator, t) :: cs, arms, h, hok => by
    obtain ⟨ch, hk, _⟩ := ambiguousArms_accepted h hok _ _ (List.mem_cons_self ..)
    cases hk

/-- Code for the children of a node inside a static segment, or of a block without parameters. -/
theorem staticSim {fuel : Nat} (hA : BlockClaim W path m fuel)
    (hC : StaticClaim W path m (codegenTrie fuel) fuel fun t => t.data = none) :
    StaticClaim W path m (genChildren fuel) (fuel + 1) fun _ => True := by
  intro t body ns u pth q caps s hdep _ hgen hdesc hpw hsub hd hok henv hi
  simp only [genChildren] at hgen
  split at hgen
  · rename_i hcs
    simp only [Except.ok.injEq] at hgen
    subst hgen
    rw [exec_retNotFound, desc_kids_nil hdesc hcs]
    simp [routeStatic]
  · rename_i seg c hcs
    have hm : (seg, c) ∈ t.children := by rw [hcs]; simp
    have hlt := Trie.depth_lt_of_mem hm
    cases seg with
    | dynamic x => exact absurd hm (no_dynamic_child hdesc x c)
    | separator =>
      simp only [genSingle] at hgen
      cases hg : codegenTrie fuel c with
      | error e => simp [hg] at hgen
      | ok b =>
        simp only [hg, Except.ok.injEq] at hgen
        subst hgen
        obtain ⟨n, hn, hseg, hk, hrep⟩ := desc_sep_only hdesc hcs hpw
        have hok' : Accepted b := hok.append.2
        have := sepSim hA (by omega) hg hrep (hsub n hn).1 ((hsub n hn).2 u hseg)
          (by rw [dynamics_append, hd]; simp [dynamics]) hok' henv hi
        simp only [List.append_assoc, List.cons_append, List.nil_append]
        rw [this, hk]
        simp only [routeStatic, routeStatic1_prefix hseg, Option.getD_some]
    | static ch =>
      simp only [genSingle] at hgen
      cases hsc : staticChain fuel [ch] c with
      | mk str c' =>
        simp only [hsc] at hgen
        obtain ⟨w, rfl, hrep, hk, hdd⟩ := staticChain_desc fuel [ch] (u ++ [ch]) c str c'
          (hdesc.static_child hm) hsc
        cases hg : codegenTrie fuel c' with
        | error e => simp [hg] at hgen
        | ok b =>
          simp only [hg, Except.ok.injEq] at hgen
          subst hgen
          simp only [List.cons_append, List.nil_append] at hok hrep ⊢
          have hchars := (Accepted.tail hok).matchPath.bytes.1
          have hokb := hok.tail.tail
          have hlen := utf8Len_eq hchars
          rw [hlen]
          have hk2 : kidsFrom ns u = kidsFrom ns (u ++ ch :: w) := by
            rw [kids_of_single hdesc (ch := ch) (by
              intro k c' hm'
              rw [hcs] at hm'
              simp only [List.mem_cons, Prod.mk.injEq, List.not_mem_nil, or_false] at hm'
              exact .inl hm'.1) hm, hk]
            simp
          rw [exec_lenTest henv (by simp) hi]
          by_cases hshort : path.length < s.i + (ch :: w).length
          · rw [if_pos hshort, routeStatic_chain_stop hk2]
            · rfl
            · intro hp
              have := hp.length_le
              simp only [bytesOf_length, List.length_drop] at this
              omega
          · rw [if_neg hshort, exec_matchLit henv (by omega)]
            by_cases hp : (path.drop s.i).take (ch :: w).length = bytesOf (ch :: w)
            · rw [if_pos hp]
              have := hC c' b ns (u ++ ch :: w) pth q caps { s with i := s.i + (ch :: w).length }
                (by omega) (rep_static_data hrep) hg (by simpa using hrep.desc) hpw hsub hd hokb henv (by simp only; omega)
              rw [this, hk2]
              have hbs : path.drop s.i = bytesOf (ch :: w) ++ path.drop (s.i + (ch :: w).length) := by
                rw [← hp, ← List.drop_drop, List.take_append_drop]
              rw [hbs]
              simp
            · rw [if_neg hp, routeStatic_chain_stop hk2]
              · rfl
              · intro hpre
                apply hp
                have := List.prefix_iff_eq_take.1 hpre
                rw [bytesOf_length] at this
                exact this.symm
  · have hfd : findDynamic t.children = none :=
      findDynamic_none.2 fun x c' => no_dynamic_child hdesc x c'
    simp only [genMulti, hfd] at hgen
    split at hgen
    · cases hgen
    · cases hg : ambiguousArms (codegenTrie fuel) t.children with
      | error e => simp [hg] at hgen
      | ok arms =>
        simp only [hg, Except.ok.injEq] at hgen
        subst hgen
        simp only [Option.isSome_none, Bool.false_eq_true, if_false, List.nil_append] at hok ⊢
        have harms := (Accepted.tail hok).matchPath
        have hall := ambiguousArms_accepted hg harms
        have hnosep : ∀ n ∈ ns, n.pathSegment ≠ .static u := by
          intro n hn hseg
          obtain ⟨t', hm'⟩ := (sep_child_iff hdesc).2 ⟨n, hn, hseg⟩
          obtain ⟨ch, hk, _⟩ := hall _ _ hm'
          cases hk
        have hchars : ∀ n ∈ ns, ∀ c' rest, n.pathSegment = .static (u ++ c' :: rest) →
            byteStrChar c' = true := by
          intro n hn c' rest hseg
          obtain ⟨t', hm'⟩ := (static_child_iff hdesc c').2 ⟨n, hn, rest, hseg⟩
          obtain ⟨ch, hk, hb, _⟩ := hall _ _ hm'
          cases hk; exact hb
        rw [exec_ifEnd henv]
        by_cases he : s.i = path.length
        · rw [if_pos he]
          have hnil : path.drop s.i = [] := by rw [List.drop_eq_nil_iff]; omega
          rw [routeStatic_stop hnosep]
          · rfl
          · intro n hn c' rest hseg
            rw [hnil]; simp
        · rw [if_neg he]
          have hlt : s.i < path.length := by omega
          have hcons := List.drop_eq_getElem_cons hlt
          have hexec : ∀ o, execArms path m [path[s.i]] (arms ++ [.wildNotFound]) s = .ret o →
              execBlock path m [.matchPath 1 (arms ++ [.wildNotFound])] s = .ret o := by
            intro o ho
            have h1 : s.i + 1 ≤ path.length := hlt
            have h2 : List.take 1 (path.drop s.i) = [path[s.i]] := by rw [hcons]; rfl
            simp only [execBlock, Stmt.exec, State.pathOk, henv.path, Option.isNone_none,
              readI_eq henv, h1, if_true, h2, ho]
          apply hexec
          rcases exec_ambiguousArms henv (path[s.i]) hg harms with
            ⟨ch, c, b, hm, hb, hgb, ho⟩ | ⟨hnone, ho⟩
          · apply ho
            obtain ⟨ch', hk', hbc, b', hb', hokb⟩ := hall _ _ hm
            cases hk'
            rw [hgb, Except.ok.injEq] at hb'
            subst hb'
            have hltd := Trie.depth_lt_of_mem hm
            have := hC c b ns (u ++ [ch]) pth q caps { s with i := s.i + 1 } (by omega)
              (rep_static_data (hdesc.static_child hm)) hgb (hdesc.static_child hm).desc hpw hsub hd hokb henv hlt
            rw [this, hcons, ← hb, routeStatic_step hnosep hbc hchars]
          · rw [ho, routeStatic_stop hnosep]
            · rfl
            · intro n hn c' rest hseg h
              obtain ⟨t', hm'⟩ := (static_child_iff hdesc c').2 ⟨n, hn, rest, hseg⟩
              rw [hcons] at h
              exact hnone _ _ hm' (Option.some.inj h).symm

/-- The same for a whole node inside a static segment. -/
theorem staticSim_node {fuel : Nat} (hB : StaticClaim W path m (genChildren fuel) (fuel + 1) fun _ => True) :
    StaticClaim W path m (codegenTrie (fuel + 1)) (fuel + 1) fun t => t.data = none := by
  intro t body ns u pth q caps s hdep hown hgen hrep hpw hsub hd hok henv hi
  obtain ⟨cb, hcb, rfl⟩ := codegenTrie_succ_ok hgen
  rw [hown] at hok ⊢
  exact hB t cb ns u pth q caps s hdep trivial hcb hrep hpw hsub hd hok henv hi

end Wayfinder
