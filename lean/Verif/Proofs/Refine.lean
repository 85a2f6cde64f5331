import Verif.Proofs.Simulation
/-!
# The generated program computes the reference router: blocks with parameters, and the result
-/

namespace Wayfinder

variable {W : World} {path m : Bytes}

/-! ## The inferred type is the declared type -/

theorem find?_name_append {a b : List Param} {p : Param}
    (h : ∀ p' ∈ a, p'.name ≠ p.name) :
    (a ++ p :: b).find? (fun p' => p'.name == p.name) = some p := by
  rw [List.find?_append]
  have : a.find? (fun p' => p'.name == p.name) = none := by
    rw [List.find?_eq_none]
    intro p' hp'
    simpa using h p' hp'
  rw [this]
  simp [List.find?]

/-- In accepted code behind a parameter, the type inferred for the parameter is the declared one and
no parameter further out has its name. -/
theorem inferred_type {b : List Stmt} {c : RouteTrie} {pth : List PathSegment} {p : Param} {T : Str}
    (hlits : ∀ a ∈ blockLiterals b, FromElement c a)
    (hpaths : ∀ ks v, c.get ks = some v → ∃ more, v.path = pth ++ .dynamic p :: more)
    (hok : Accepted b) (hT : inferType p.name b = some T) :
    T = p.typ ∧ ∀ p' ∈ dynamics pth, p'.name ≠ p.name := by
  have huse : useBlock p.name b = some (some T) := by
    unfold inferType at hT
    split at hT
    · rename_i t ht; rw [ht]; simpa using hT
    · cases hT
  obtain ⟨a, ha, p', hfind, hp'⟩ := useBlock_literal _ _ _ huse
  obtain ⟨ks, v, hv, hav⟩ := hlits a ha
  obtain ⟨more, hpath⟩ := hpaths ks v hv
  simp only [methodArms, List.mem_map] at hav
  obtain ⟨res, _, rfl⟩ := hav
  have hnd := hok.nodup _ ha
  have hdyn : dynamics v.path = dynamics pth ++ p :: dynamics more := by
    rw [hpath, dynamics_append]
    simp [dynamics]
  simp only [MethodArm.fieldNames, hdyn, List.map_append, List.map_cons, List.append_assoc] at hnd
  have hfresh : ∀ p' ∈ dynamics pth, p'.name ≠ p.name := by
    intro p'' hp'' heq
    rw [List.nodup_append] at hnd
    exact hnd.2.2 p''.name (List.mem_map_of_mem hp'') p.name (by simp) heq
  refine ⟨?_, hfresh⟩
  simp only [hdyn] at hfind
  rw [find?_name_append hfresh, Option.some.injEq] at hfind
  rw [← hp', hfind]

/-! ## Parameters -/

theorem Desc.dynamic_child {t c : RouteTrie} {rs : List Resource} {ns : List NestedRoutes}
    {qs : List Param} {pth : List PathSegment} {q : List Param} {x : Str}
    (h : Desc t (BlockItems (.mk rs ns qs) pth q))
    (hpw : ns.Pairwise fun a b => ¬ SameSlot a.pathSegment b.pathSegment)
    (hm : (Charlike.dynamic x, c) ∈ t.children) :
    ∃ n ∈ ns, ∃ p, n.pathSegment = .dynamic p ∧ p.name = x ∧
      c.data = none ∧
      (∀ ks v, c.get ks = some v → ∃ more, v.path = pth ++ .dynamic p :: more) ∧
      ∀ c2, c.children = [(.separator, c2)] →
        Rep c2 (BlockItems n.routes (pth ++ [.dynamic p]) (q ++ qs)) := by
  obtain ⟨ks, v, hv⟩ := h.item_of hm
  obtain ⟨n, hn, p, ks', hseg, hx, _, _⟩ := blockItems_dynamic.1 hv
  have hrep := h.child_rep (h.mem_iff.1 hm)
  have huniq : ∀ n' ∈ ns, ∀ p', n'.pathSegment = .dynamic p' → p'.name = x → n' = n ∧ p' = p := by
    intro n' hn' p' hseg' hx'
    have : n' = n := unique_static hpw hn' hn (by rw [hseg, hseg']; simp [SameSlot, hx, hx'])
    subst this
    rw [hseg] at hseg'
    simp only [PathSegment.dynamic.injEq] at hseg'
    exact ⟨rfl, hseg'.symm⟩
  refine ⟨n, hn, p, hseg, hx, ?_, ?_, ?_⟩
  · cases hd : c.data with
    | none => rfl
    | some v' =>
      have := (hrep.get [] v').1 (by simp [hd])
      obtain ⟨_, _, _, _, _, _, h0, _⟩ := blockItems_dynamic.1 this
      cases h0
  · intro ks v hg
    obtain ⟨n', hn', p', ks', hseg', hx', _, hb⟩ := blockItems_dynamic.1 ((hrep.get ks v).1 hg)
    obtain ⟨rfl, rfl⟩ := huniq n' hn' p' hseg' hx'
    obtain ⟨segs, hs⟩ := flattenRoutes_path hb.1
    exact ⟨segs, by simpa using hs⟩
  · intro c2 hc2
    have hm2 : (Charlike.separator, c2) ∈ c.children := by rw [hc2]; simp
    refine (hrep.desc.child_rep (hrep.desc.mem_iff.1 hm2)).congr fun ks v => ?_
    rw [blockItems_dynamic]
    constructor
    · rintro ⟨n', hn', p', ks', hseg', hx', hk, hb⟩
      obtain ⟨rfl, rfl⟩ := huniq n' hn' p' hseg' hx'
      simp only [List.cons.injEq, true_and] at hk
      rw [hk]; exact hb
    · intro hb
      exact ⟨n, hn, p, ks, hseg, hx, rfl, hb⟩

theorem dropWhile_slash {bs : Bytes} {b : UInt8} {rest : Bytes}
    (h : bs.dropWhile (· ≠ slash) = b :: rest) : b = slash := by
  have := List.head?_dropWhile_not (· ≠ slash) bs
  rw [h] at this
  simpa using this

/-- The code that captures a parameter. -/
theorem dynSim {fuel : Nat} (hA : ∀ k < fuel, BlockClaim W path m k) {caps : Caps W} {s : State W}
    {t c : RouteTrie} {db : List Stmt} {rs : List Resource} {ns : List NestedRoutes} {qs : List Param}
    {pth : List PathSegment} {q : List Param} {x : Str}
    (hdesc : Desc t (BlockItems (.mk rs ns qs) pth q))
    (hm : (Charlike.dynamic x, c) ∈ t.children) (hdep : c.depth ≤ fuel)
    (hgen : writeDynamic (codegenTrie fuel) x c = .ok db)
    (hpw : ns.Pairwise fun a b => ¬ SameSlot a.pathSegment b.pathSegment)
    (hsub : ∀ n ∈ ns, DistinctSiblings n.routes) (hhy : Unhidden pth (.mk rs ns qs))
    (hcap : captor ns = some x)
    (hd : dynamics pth = caps.map Prod.fst) (hok : Accepted db) (henv : EnvOk caps s.env)
    (hi : s.i ≤ path.length) (hstart : lookupVar c!"start" s.env = some (.usize s.i)) :
    execBlock path m db s = .ret (routeParam W m x ns (q ++ qs) caps (path.drop s.i)) := by
  obtain ⟨c2, hc2, b, hb, rfl⟩ := writeDynamic_ok hgen
  obtain ⟨n, hn, p, hseg, rfl, hdata, hpaths, hrep⟩ := hdesc.dynamic_child hpw hm
  have hrep2 := hrep c2 hc2
  obtain ⟨k, b2, rfl, hb2, hbeq⟩ := codegenTrie_sep hb hc2 hdata
  have hokb := hok.append.2
  have hokb2 : Accepted b2 := by rw [hbeq] at hokb; exact hokb.append.2.tail
  obtain ⟨T, hT⟩ := (hok.append.1.tail.tail.tail.tail).letParam
  have hwf := hdesc.wf.of_child (hdesc.mem_iff.1 hm)
  obtain ⟨rfl, hfresh⟩ := inferred_type (codegenTrie_literals _ c b hwf hb) hpaths hokb hT
  have hhy' := unhidden_param hhy hn hseg hcap
  have hpar : paramNames ns ≠ [] := by
    intro hnil; simp [captor, hnil] at hcap
  rw [exec_dynamicHead henv hi hstart hT]
  have hlt : c2.depth < c.depth := Trie.depth_lt_of_mem (k := .separator) (by rw [hc2]; simp)
  have hgoal : ∀ o, routeParam1 W m p.name n (q ++ qs) caps (path.drop s.i) = some o →
      routeParam W m p.name ns (q ++ qs) caps (path.drop s.i) = o := fun o ho =>
    routeParam_unique hseg rfl ho hn hpw
  obtain ⟨seg, r⟩ := n
  simp only [NestedRoutes.pathSegment_mk] at hseg
  subst hseg
  simp only [routeParam1, if_true] at hgoal
  cases hu : fromUtf8 ((path.drop s.i).takeWhile (· ≠ slash)) with
  | none =>
    simp only [hu] at hgoal ⊢
    rw [hgoal _ rfl]
  | some text =>
    simp only [hu] at hgoal ⊢
    cases hparse : W.parse p.typ text with
    | error e =>
      simp only [hparse] at hgoal ⊢
      rw [hgoal _ rfl]
    | ok v =>
      simp only [hparse] at hgoal ⊢
      have hlen := length_takeWhile_add_dropWhile (· ≠ slash) (path.drop s.i)
      rw [List.length_drop] at hlen
      have hdw : path.drop (s.i + ((path.drop s.i).takeWhile (· ≠ slash)).length) =
          (path.drop s.i).dropWhile (· ≠ slash) := by
        rw [← List.drop_drop]
        conv => lhs; rhs; rw [← List.takeWhile_append_dropWhile (p := (· ≠ slash)) (l := path.drop s.i)]
        simp only [List.drop_left']
      have henv2 := (henv.text (hhy.caps hpar hd).2 (.str text)).param hhy'.own (v := v) (fun pv hpv => by
        refine hfresh pv.1 ?_
        rw [hd]; exact List.mem_map_of_mem hpv)
      have := sepSim (hA k (by omega)) (s := State.mk (s.i + ((path.drop s.i).takeWhile (· ≠ slash)).length)
              ((p.name, .user v) :: (c!"text", .str text) :: s.env)) (by omega) hb2 hrep2
        (by simpa using hsub _ hn) hhy' (by
          rw [dynamics_append, hd]; simp [dynamics]) hokb2 henv2 (by simp only; omega)
      rw [hbeq, this, hgoal (enter W m r (q ++ qs) (caps ++ [(p, v)])
        (path.drop (s.i + ((path.drop s.i).takeWhile (· ≠ slash)).length)))]
      · rfl
      · rw [hdw]
        cases hdd : (path.drop s.i).dropWhile (· ≠ slash) with
        | nil => rfl
        | cons b0 rest =>
          simp only [enter]
          rw [if_pos (dropWhile_slash hdd)]

/-! ## Which parameter captures -/

theorem findDynamic_least : ∀ {cs : List (Charlike × RouteTrie)} {x : Str} {c : RouteTrie},
    SortedKeys Charlike.cmp cs → findDynamic cs = some (x, c) →
    ∀ y c', (Charlike.dynamic y, c') ∈ cs → y = x ∨ Str.cmp x y = .lt
  | (k, t) :: cs, x, c, hs, h, y, c', hm => by
    unfold SortedKeys at hs
    obtain ⟨h1, h2⟩ := List.pairwise_cons.1 hs
    cases k with
    | dynamic z =>
      simp only [findDynamic, Option.some.injEq, Prod.mk.injEq] at h
      obtain ⟨rfl, rfl⟩ := h
      rcases List.mem_cons.1 hm with hm | hm
      · simp only [Prod.mk.injEq, Charlike.dynamic.injEq] at hm
        exact .inl hm.1
      · right
        have := h1 _ hm
        simpa [Charlike.cmp] using this
    | static z =>
      simp only [findDynamic] at h
      rcases List.mem_cons.1 hm with hm | hm
      · cases hm
      · exact findDynamic_least h2 h y c' hm
    | separator =>
      simp only [findDynamic] at h
      rcases List.mem_cons.1 hm with hm | hm
      · cases hm
      · exact findDynamic_least h2 h y c' hm

theorem dynamic_child_iff {t : RouteTrie} {rs : List Resource} {ns : List NestedRoutes}
    {qs : List Param} {pth : List PathSegment} {q : List Param}
    (h : Desc t (BlockItems (.mk rs ns qs) pth q)) (x : Str) :
    (∃ c, (Charlike.dynamic x, c) ∈ t.children) ↔ x ∈ paramNames ns := by
  rw [mem_paramNames]
  constructor
  · rintro ⟨c, hm⟩
    obtain ⟨ks, v, hv⟩ := h.item_of hm
    obtain ⟨n, hn, p, ks', hseg, hx, _⟩ := blockItems_dynamic.1 hv
    exact ⟨n, hn, p, hseg, hx⟩
  · rintro ⟨n, hn, p, hseg, hx⟩
    exact h.child_of (ks := [.separator]) (blockItems_dynamic.2
      ⟨n, hn, p, [], hseg, hx, rfl, blockItems_self _ _ _⟩)

/-- A block seen as a node with static children only describes the static part. -/
theorem block_static_child_iff {t : RouteTrie} {rs : List Resource} {ns : List NestedRoutes}
    {qs : List Param} {pth : List PathSegment} {q : List Param}
    (h : Desc t (BlockItems (.mk rs ns qs) pth q)) (ch : Char) :
    (∃ c, (Charlike.static ch, c) ∈ t.children) ↔
      ∃ n ∈ ns, ∃ rest, n.pathSegment = .static (ch :: rest) := by
  constructor
  · rintro ⟨c, hm⟩
    obtain ⟨ks, v, hv⟩ := h.item_of hm
    obtain ⟨n, hn, rest, ks', hseg, _, _⟩ := staticItems_static.1 (blockItems_static.1 hv)
    exact ⟨n, hn, rest, by simpa using hseg⟩
  · rintro ⟨n, hn, rest, hseg⟩
    refine h.child_of (ks := rest.map .static ++ [.separator])
      (v := ⟨pth ++ [.static (ch :: rest)], n.routes.resources, q ++ qs ++ n.routes.queryParameters⟩) ?_
    refine blockItems_static.2 ⟨n, hn, ch :: rest, [], hseg, by simp, blockItems_self _ _ _⟩

theorem block_sep_child_iff {t : RouteTrie} {rs : List Resource} {ns : List NestedRoutes}
    {qs : List Param} {pth : List PathSegment} {q : List Param}
    (h : Desc t (BlockItems (.mk rs ns qs) pth q)) :
    (∃ c, (Charlike.separator, c) ∈ t.children) ↔ ∃ n ∈ ns, n.pathSegment = .static [] := by
  constructor
  · rintro ⟨c, hm⟩
    obtain ⟨ks, v, hv⟩ := h.item_of hm
    obtain ⟨n, hn, hseg, _⟩ := staticItems_sep.1 (blockItems_sep.1 hv)
    exact ⟨n, hn, hseg⟩
  · rintro ⟨n, hn, hseg⟩
    exact h.child_of (ks := []) (blockItems_sep.2 (staticItems_sep.2 ⟨n, hn, hseg, blockItems_self _ _ _⟩))

theorem Desc.block_static_child {t t' : RouteTrie} {rs : List Resource} {ns : List NestedRoutes}
    {qs : List Param} {pth : List PathSegment} {q : List Param}
    (h : Desc t (BlockItems (.mk rs ns qs) pth q)) {ch : Char}
    (hm : (Charlike.static ch, t') ∈ t.children) : Rep t' (StaticItems ns [ch] pth (q ++ qs)) :=
  (h.child_rep (h.mem_iff.1 hm)).congr fun _ _ => by
    rw [blockItems_static, staticItems_static]; rfl

theorem staticTexts_kids (ns : List NestedRoutes) :
    (staticTexts ns).length = (kidsFrom ns []).length := by
  induction ns with
  | nil => rfl
  | cons n ns ih =>
    cases hs : n.pathSegment with
    | static s =>
      have h1 : staticTexts (n :: ns) = s :: staticTexts ns := by simp [staticTexts, hs]
      have h2 : kidsFrom (n :: ns) [] = n :: kidsFrom ns [] := by simp [kidsFrom, hs]
      rw [h1, h2, List.length_cons, List.length_cons, ih]
    | dynamic p =>
      have h1 : staticTexts (n :: ns) = staticTexts ns := by simp [staticTexts, hs]
      have h2 : kidsFrom (n :: ns) [] = kidsFrom ns [] := by simp [kidsFrom, hs]
      rw [h1, h2, ih]

theorem staticTexts_of_single {ns : List NestedRoutes} {n : NestedRoutes} {u : Str}
    (hk : kidsFrom ns [] = [n]) (hseg : n.pathSegment = .static u) : staticTexts ns = [u] := by
  have hlen := staticTexts_kids ns
  rw [hk] at hlen
  obtain ⟨u', hu'⟩ := List.length_eq_one_iff.1 hlen
  have hn : n ∈ kidsFrom ns [] := by rw [hk]; simp
  have : u ∈ staticTexts ns := mem_staticTexts.2 ⟨n, (mem_kidsFrom.1 hn).1, hseg⟩
  rw [hu'] at this ⊢
  simp at this
  rw [this]

/-! ## The `if` around the static branch next to a parameter -/

theorem exec_staticBranch_miss {caps : Caps W} {s : State W} (henv : EnvOk caps s.env) {n : Nat}
    {pat : Str} {b rest : List Stmt} (hn : s.i + n ≤ path.length ∨ n ≠ 1)
    (hmiss : s.i + n ≤ path.length → (path.drop s.i).take n ≠ bytesOf pat) :
    execBlock path m (.ifThen (if n = 1 then .iLeLen else .iAddLeLen n)
        [.matchPath n [.bytes pat b, .wildNothing]] :: rest) s = execBlock path m rest s := by
  by_cases hfit : s.i + n ≤ path.length
  · have hmiss' : ¬ (path.drop s.i).take n = pat.map asciiByte := hmiss hfit
    have hc : Cond.eval (if n = 1 then Cond.iLeLen else Cond.iAddLeLen n) path s = some true := by
      by_cases h1 : n = 1
      · simp [h1, Cond.eval, readI_eq henv, readLen_eq henv]; omega
      · simp [h1, Cond.eval, readI_eq henv, readLen_eq henv, hfit]
    simp [execBlock, Stmt.exec, hc, State.pathOk, henv.path, readI_eq henv, hfit, execArms, Arm.exec,
      hmiss']
  · have h1 : n ≠ 1 := by rcases hn with h | h; exact absurd h hfit; exact h
    have hc : Cond.eval (if n = 1 then Cond.iLeLen else Cond.iAddLeLen n) path s = some false := by
      simp [h1, Cond.eval, readI_eq henv, readLen_eq henv]; omega
    simp [execBlock, Stmt.exec, hc]

theorem exec_staticBranch_hit {caps : Caps W} {s : State W} (henv : EnvOk caps s.env) {n : Nat}
    {pat : Str} {b rest : List Stmt} {o : Outcome W} (hn : s.i + n ≤ path.length)
    (hhit : (path.drop s.i).take n = bytesOf pat)
    (ho : execBlock path m b { s with i := s.i + n } = .ret o) :
    execBlock path m (.ifThen (if n = 1 then .iLeLen else .iAddLeLen n)
        [.matchPath n [.bytes pat (.addI n :: b), .wildNothing]] :: rest) s = .ret o := by
  have hhit' : (path.drop s.i).take n = pat.map asciiByte := hhit
  have hc : Cond.eval (if n = 1 then Cond.iLeLen else Cond.iAddLeLen n) path s = some true := by
    by_cases h1 : n = 1
    · simp [h1, Cond.eval, readI_eq henv, readLen_eq henv]; omega
    · simp [h1, Cond.eval, readI_eq henv, readLen_eq henv, hn]
  simp [execBlock, Stmt.exec, hc, State.pathOk, henv.path, readI_eq henv, hn, execArms, Arm.exec,
    hhit', henv.i, ho]

theorem exec_staticBranch_stuck {caps : Caps W} {s : State W} (henv : EnvOk caps s.env)
    {as : List Arm} {rest : List Stmt} (hi : s.i = path.length) :
    execBlock path m (.ifThen .iLeLen [.matchPath 1 as] :: rest) s = .ret .panic := by
  have hc : Cond.eval Cond.iLeLen path s = some true := by
    simp [Cond.eval, readI_eq henv, readLen_eq henv]; omega
  have : ¬ s.i + 1 ≤ path.length := by omega
  simp [execBlock, Stmt.exec, hc, State.pathOk, henv.path, readI_eq henv, this]

/-! ## Blocks -/

theorem staticOptions_nodup {cs : List (Charlike × RouteTrie)} (hs : SortedKeys Charlike.cmp cs) :
    (staticOptions cs).Nodup := by
  unfold SortedKeys at hs
  unfold staticOptions List.Nodup
  rw [List.pairwise_filterMap]
  refine hs.imp ?_
  rintro ⟨k, c⟩ ⟨k', c'⟩ hlt a ha b hb rfl
  cases k with
  | static x =>
    cases k' with
    | static y =>
      simp only [Option.some.injEq] at ha hb
      rw [← ha, Prod.mk.injEq] at hb
      obtain ⟨rfl, _⟩ := hb
      exact Charlike.orderCmp.lt_irrefl _ hlt
    | dynamic y => simp at hb
    | separator => simp at hb
  | dynamic x => simp at ha
  | separator => simp at ha

theorem length_one_of_unique {α : Type} {l : List α} {a : α} (hnd : l.Nodup) (ha : a ∈ l)
    (hall : ∀ z ∈ l, z = a) : l.length = 1 := by
  match l, hnd, ha, hall with
  | [x], _, _, _ => rfl
  | x :: y :: rest, hnd, _, hall =>
    exfalso
    have h1 := hall x (by simp)
    have h2 := hall y (by simp)
    rw [List.nodup_cons] at hnd
    exact hnd.1 (by rw [h1, ← h2]; simp)

/-- The children of a block with a parameter child. -/
theorem paramBlockSim {fuel : Nat} (hA : ∀ k < fuel, BlockClaim W path m k)
    (hC : StaticClaim W path m (codegenTrie fuel) fuel fun t => t.data = none)
    {t : RouteTrie} {cb : List Stmt} {rs : List Resource} {ns : List NestedRoutes} {qs : List Param}
    {pth : List PathSegment} {q : List Param} {caps : Caps W} {s : State W}
    (hdep : t.depth ≤ fuel + 1) (hgen : genChildren fuel t = .ok cb)
    (hdesc : Desc t (BlockItems (.mk rs ns qs) pth q))
    (hds : DistinctSiblings (.mk rs ns qs)) (hhy : Unhidden pth (.mk rs ns qs))
    (hd : dynamics pth = caps.map Prod.fst) (hok : Accepted cb) (henv : EnvOk caps s.env)
    (hi : s.i ≤ path.length) (hpar : paramNames ns ≠ []) :
    execBlock path m cb s = .ret (
      if stuck ns (path.drop s.i) then .panic
      else
        match (if preferStatic ns then routeStatic W m ns (q ++ qs) caps (path.drop s.i) else none) with
        | some o => o
        | none =>
          match captor ns with
          | none => .notFound
          | some x => routeParam W m x ns (q ++ qs) caps (path.drop s.i)) := by
  obtain ⟨hpw, hsub⟩ := distinctSiblings_mk.1 hds
  -- a parameter child exists
  obtain ⟨y, hy⟩ := List.exists_mem_of_ne_nil _ hpar
  obtain ⟨cy, hmy⟩ := (dynamic_child_iff hdesc y).2 hy
  have hfd : ∃ x c, findDynamic t.children = some (x, c) := by
    cases hf : findDynamic t.children with
    | none => exact absurd hmy (findDynamic_none.1 hf y cy)
    | some xc => exact ⟨xc.1, xc.2, rfl⟩
  obtain ⟨x, c, hfd⟩ := hfd
  have hmx := findDynamic_mem hfd
  have hxin : x ∈ paramNames ns := (dynamic_child_iff hdesc x).1 ⟨c, hmx⟩
  have hcap : captor ns = some x := captor_eq hxin fun y' hy' => by
    obtain ⟨c', hm'⟩ := (dynamic_child_iff hdesc y').2 hy'
    exact findDynamic_least hdesc.wf.sorted_children hfd y' c' hm'
  have hltx := Trie.depth_lt_of_mem hmx
  have hpe : (paramNames ns).isEmpty = false := by simpa using hpar
  simp only [hcap]
  simp only [genChildren] at hgen
  split at hgen
  · rename_i hcs; rw [hcs] at hmx; cases hmx
  · -- the parameter is the only child
    rename_i seg c' hcs
    have : (seg, c') = (Charlike.dynamic x, c) := by
      rw [hcs] at hmx; exact (List.mem_singleton.1 hmx).symm
    obtain ⟨rfl, rfl⟩ := Prod.mk.inj this
    simp only [genSingle] at hgen
    cases hg : writeDynamic (codegenTrie fuel) x c' with
    | error e => simp [hg] at hgen
    | ok db =>
      simp only [hg, Except.ok.injEq] at hgen
      subst hgen
      have hst : staticTexts ns = [] := by
        cases hs : staticTexts ns with
        | nil => rfl
        | cons a as =>
          exfalso
          obtain ⟨n, hn, hseg⟩ := mem_staticTexts.1 (show a ∈ staticTexts ns by rw [hs]; simp)
          cases a with
          | nil =>
            obtain ⟨c2, hm2⟩ := (block_sep_child_iff hdesc).2 ⟨n, hn, hseg⟩
            rw [hcs] at hm2; simp at hm2
          | cons ch rest =>
            obtain ⟨c2, hm2⟩ := (block_static_child_iff hdesc ch).2 ⟨n, hn, rest, hseg⟩
            rw [hcs] at hm2; simp at hm2
      have h1 : stuck ns (path.drop s.i) = false := by simp [stuck, hst]
      have h2 : preferStatic ns = false := by simp [preferStatic, hst, hpe]
      have := dynSim (s := State.mk s.i ((c!"start", .usize s.i) :: s.env)) hA hdesc hmx (by omega) hg
        hpw hsub hhy hcap hd hok.tail (henv.start (hhy.caps hpar hd).1 _) hi (by simp [lookupVar])
      rw [exec_letStart henv, this]
      simp [h1, h2]
  · -- several children
    simp only [genMulti, hfd, Option.isSome_some, if_true] at hgen
    have hnofuel : fuel ≠ 0 := by
      rintro rfl
      have := c.depth_pos
      omega
    cases hup : unambiguousPrefix fuel [] 0 t with
    | mk un ln =>
      obtain ⟨l, next⟩ := ln
      simp only [hup] at hgen
      split at hgen
      · rename_i hun
        cases hgn : codegenTrie fuel next with
        | error e => simp [hgn] at hgen
        | ok sb =>
          simp only [hgn] at hgen
          cases hg : writeDynamic (codegenTrie fuel) x c with
          | error e => simp [hg] at hgen
          | ok db =>
            simp only [hg, Except.ok.injEq] at hgen
            subst hgen
            -- the first step of the static run
            obtain ⟨k, rfl⟩ := Nat.exists_eq_succ_of_ne_zero hnofuel
            simp only [unambiguousPrefix] at hup
            split at hup
            · simp only [Prod.mk.injEq] at hup
              exact absurd hup.1.symm hun
            rename_i hnosep
            have hns : ∀ c, (Charlike.separator, c) ∉ t.children := fun c hm =>
              hnosep (List.any_eq_true.2 ⟨_, hm, rfl⟩)
            split at hup
            case h_2 =>
              simp only [Prod.mk.injEq] at hup
              exact absurd hup.1.symm hun
            rename_i ch t1 hopt
            have hm1 : (Charlike.static ch, t1) ∈ t.children := mem_staticOptions.1 (by rw [hopt]; simp)
            have hlt1 := Trie.depth_lt_of_mem hm1
            have hdep1 : t1.depth ≤ k + 1 := by omega
            -- the depth of the first node also fits the remaining fuel
            have hkids0 : kidsFrom ns [] = kidsFrom ns [ch] := by
              apply kidsFrom_extend (u := []) (w := [ch])
              intro n hn rest hseg
              simp only [List.nil_append] at hseg
              cases rest with
              | nil =>
                obtain ⟨c2, hm2⟩ := (block_sep_child_iff hdesc).2 ⟨n, hn, hseg⟩
                exact absurd hm2 (hns c2)
              | cons ch' rest =>
                obtain ⟨c2, hm2⟩ := (block_static_child_iff hdesc ch').2 ⟨n, hn, rest, hseg⟩
                have := mem_staticOptions.2 hm2
                rw [hopt] at this
                simp only [List.mem_cons, Prod.mk.injEq, List.not_mem_nil, or_false] at this
                exact ⟨rest, by simp [this.1]⟩
            obtain ⟨n1, hn1, rest1, hseg1⟩ := (block_static_child_iff hdesc ch).1 ⟨t1, hm1⟩
            obtain ⟨w, rfl, hrepn, hkw, hdn, hcase⟩ := unambiguousPrefix_desc k _ [ch] _ _ _ _ _
              (hdesc.block_static_child hm1) hdep1 ⟨n1, hn1, rest1, by simpa using hseg1⟩ hup
            have hkids : kidsFrom ns [] = kidsFrom ns (ch :: w) := by rw [hkids0, hkw]; rfl
            have hl : l ≠ 0 := by rcases hcase with ⟨h, _⟩ | ⟨h, _⟩ <;> omega
            simp only [List.nil_append, List.cons_append, hl, if_false, exec_blank] at hok hrepn ⊢
            rw [exec_letStart henv, exec_blank]
            have henv2 := henv.start (hhy.caps hpar hd).1 (.usize s.i)
            have hokif := hok.tail.tail.tail
            have hokarm := hokif.ifThen.matchPath.bytes
            have hokdb := hokif.tail
            have hdyn := dynSim (s := State.mk s.i ((c!"start", .usize s.i) :: s.env)) hA hdesc hmx
              (by omega) hg hpw hsub hhy hcap hd hokdb henv2 hi (by simp [lookupVar])
            rcases hcase with ⟨hl', cs, hsepm⟩ | ⟨hl', hnosepn, hopts⟩
            · -- exactly one static child
              have honly := codegenTrie_sep_only hrepn hgn hokarm.2.tail hsepm
              obtain ⟨n, hn, hseg, hkn, _⟩ := desc_sep_only hrepn.desc honly hpw
              have hk1 : kidsFrom ns [] = [n] := by rw [hkids]; exact hkn
              have hst := staticTexts_of_single hk1 hseg
              have hll : l = (ch :: w).length := by simp; omega
              subst hll
              have hpref : preferStatic ns = true := by simp [preferStatic, hst]
              have hrs : ∀ bs : Bytes, routeStatic W m ns (q ++ qs) caps bs =
                  routeStatic1 W m n (q ++ qs) caps bs := by
                intro bs
                rw [routeStatic_kids, hk1]
                simp only [routeStatic]
                cases routeStatic1 W m n (q ++ qs) caps bs <;> rfl
              rw [hpref, if_pos rfl, hrs]
              by_cases hstuck : s.i = path.length ∧ w = []
              · obtain ⟨he, rfl⟩ := hstuck
                have hnil : path.drop s.i = [] := by rw [List.drop_eq_nil_iff]; omega
                have : stuck ns (path.drop s.i) = true := by simp [stuck, hnil, hst, hpe]
                rw [this, if_pos rfl]
                simp only [List.length_cons, List.length_nil, Nat.zero_add, if_true]
                exact exec_staticBranch_stuck henv2 he
              · have hns' : stuck ns (path.drop s.i) = false := by
                  simp only [stuck, hst, hpe]
                  by_cases hw : w = []
                  · have : ¬ path.length ≤ s.i := fun h => hstuck ⟨by omega, hw⟩
                    simp [this]
                  · simp [hw]
                rw [hns']
                simp only [Bool.false_eq_true, if_false]
                have hfit : s.i + (ch :: w).length ≤ path.length ∨ (ch :: w).length ≠ 1 := by
                  by_cases hw : w = []
                  · left
                    subst hw
                    have : s.i ≠ path.length := fun h => hstuck ⟨h, rfl⟩
                    simp; omega
                  · right
                    simpa using hw
                by_cases hhit : (path.drop s.i).take (ch :: w).length = bytesOf (ch :: w)
                · have hfit' : s.i + (ch :: w).length ≤ path.length := by
                    have := congrArg List.length hhit
                    simp only [List.length_take, List.length_drop, bytesOf_length] at this
                    omega
                  have hbs : path.drop s.i = bytesOf (ch :: w) ++ path.drop (s.i + (ch :: w).length) := by
                    rw [← hhit, ← List.drop_drop, List.take_append_drop]
                  have := hC next sb ns (ch :: w) pth (q ++ qs) caps
                    (State.mk (s.i + (ch :: w).length) ((c!"start", .usize s.i) :: s.env))
                    (by omega) (rep_static_data hrepn) hgn hrepn.desc hpw
                    (fun n hn => ⟨hsub n hn, fun s hs => unhidden_static hhy hn hs⟩) hd hokarm.2.tail henv2 hfit'
                  rw [exec_staticBranch_hit (s := State.mk s.i ((c!"start", .usize s.i) :: s.env))
                    henv2 hfit' hhit this]
                  simp only
                  rw [← hbs]
                  have hr1 : routeStatic W m (kidsFrom ns (ch :: w)) (q ++ qs) caps (path.drop s.i) =
                      routeStatic1 W m n (q ++ qs) caps (path.drop s.i) := by
                    rw [← hkids, ← routeStatic_kids, hrs]
                  rw [hr1, hbs, routeStatic1_prefix hseg]
                  rfl
                · rw [exec_staticBranch_miss (s := State.mk s.i ((c!"start", .usize s.i) :: s.env))
                    henv2 hfit (fun _ => hhit), hdyn, routeStatic1_not_prefix hseg]
                  intro hpre
                  apply hhit
                  have := List.prefix_iff_eq_take.1 hpre
                  rw [bytesOf_length] at this
                  exact this.symm
            · -- several static children: the branch is never taken
              have hlen2 : (staticTexts ns).length ≠ 1 := by
                intro hone
                rw [staticTexts_kids, hkids] at hone
                obtain ⟨n, hkn⟩ := List.length_eq_one_iff.1 hone
                obtain ⟨hn, rest, hseg⟩ := mem_kidsFrom.1
                  (show n ∈ kidsFrom ns (ch :: w) by rw [hkn]; simp)
                cases rest with
                | nil =>
                  obtain ⟨c2, hm2⟩ := (sep_child_iff hrepn.desc).2 ⟨n, hn, by simpa using hseg⟩
                  exact hnosepn c2 hm2
                | cons ch' rest =>
                  obtain ⟨c2, hm2⟩ := (static_child_iff hrepn.desc ch').2 ⟨n, hn, rest, hseg⟩
                  apply hopts
                  have hall : ∀ z ∈ staticOptions next.children, z = (ch', c2) := by
                    rintro ⟨ch'', c3⟩ hz
                    have hz' := mem_staticOptions.1 hz
                    obtain ⟨n2, hn2, rest2, hseg2⟩ := (static_child_iff hrepn.desc ch'').1 ⟨c3, hz'⟩
                    have : n2 ∈ kidsFrom ns (ch :: w) := mem_kidsFrom.2 ⟨hn2, _, hseg2⟩
                    rw [hkn] at this
                    simp only [List.mem_cons, List.not_mem_nil, or_false] at this
                    subst this
                    rw [hseg] at hseg2
                    simp only [PathSegment.static.injEq, List.append_cancel_left_eq,
                      List.cons.injEq] at hseg2
                    obtain ⟨rfl, _⟩ := hseg2
                    rw [hrepn.desc.unique hz' hm2]
                  have hnd := staticOptions_nodup hrepn.wf.sorted_children
                  exact length_one_of_unique hnd (mem_staticOptions.2 hm2) hall
              have h1 : stuck ns (path.drop s.i) = false := by
                simp only [stuck, Bool.and_eq_false_iff]
                right
                rw [Bool.eq_false_iff]
                intro h
                apply hlen2
                have := congrArg List.length (beq_iff_eq.1 h)
                simpa using this
              have h2 : preferStatic ns = false := by
                simp [preferStatic, hpe, hlen2]
              rw [exec_staticBranch_miss (s := State.mk s.i ((c!"start", .usize s.i) :: s.env))
                henv2 (.inr (by omega)), hdyn, h1, h2]
              · rfl
              · intro hfit h
                have hh := congrArg List.length h
                simp only [List.length_take, List.length_drop, bytesOf_length, List.length_cons] at hh hfit
                omega
      · cases hg : ambiguousArms (codegenTrie fuel) t.children with
        | error e => simp [hg] at hgen
        | ok arms =>
          simp only [hg, Except.ok.injEq] at hgen
          subst hgen
          simp only [List.cons_append, List.nil_append] at hok
          obtain ⟨ch, hk, _⟩ := ambiguousArms_accepted hg hok.tail.tail.tail.tail.matchPath _ _ hmx
          cases hk

/-- One step of the induction for blocks. -/
theorem blockSim {fuel : Nat} (hA : ∀ k ≤ fuel, BlockClaim W path m k)
    (hC : StaticClaim W path m (codegenTrie fuel) fuel fun t => t.data = none) :
    BlockClaim W path m (fuel + 1) := by
  intro t body r pth q caps s hdep hgen hrep hds hhy hd hok henv hi
  obtain ⟨cb, hcb, rfl⟩ := codegenTrie_succ_ok hgen
  have hokcb := hok.append.2
  obtain ⟨rs, ns, qs⟩ := r
  obtain ⟨hpw, hsub⟩ := distinctSiblings_mk.1 hds
  have hchildren : ¬ (path.drop s.i = [] ∧ rs ≠ []) →
      execBlock path m cb s = .ret (route W m (.mk rs ns qs) q caps (path.drop s.i)) := by
    intro hcond
    simp only [route, if_neg hcond]
    by_cases hpar : paramNames ns = []
    · have hdesc : Desc t (StaticItems ns [] pth (q ++ qs)) := hrep.desc.congr fun k ks v => by
        cases k with
        | static ch => exact blockItems_static
        | separator => exact blockItems_sep
        | dynamic x =>
          constructor
          · intro h
            obtain ⟨n, hn, p, ks', hseg, hx, _⟩ := blockItems_dynamic.1 h
            have : x ∈ paramNames ns := mem_paramNames.2 ⟨n, hn, p, hseg, hx⟩
            rw [hpar] at this; cases this
          · intro h; exact absurd h staticItems_dynamic
      have := staticSim (hA fuel (Nat.le_refl _)) hC t cb ns [] pth (q ++ qs) caps s hdep trivial hcb
        hdesc hpw (fun n hn => ⟨hsub n hn, fun s hs => unhidden_static hhy hn hs⟩) hd hokcb henv hi
      rw [this, ← routeStatic_kids]
      have h1 : stuck ns (path.drop s.i) = false := by simp [stuck, hpar]
      have h2 : preferStatic ns = true := by simp [preferStatic, hpar]
      have h3 : captor ns = none := by simp [captor, hpar]
      simp only [h1, h2, h3, Bool.false_eq_true, if_false, if_true, bytesOf_nil, List.nil_append]
      cases routeStatic W m ns (q ++ qs) caps (path.drop s.i) <;> rfl
    · exact paramBlockSim (fun k hk => hA k (Nat.le_of_lt hk)) hC hdep hcb hrep.desc hds hhy hd hokcb
        henv hi hpar
  have hnil : path.drop s.i = [] ↔ s.i = path.length := by
    rw [List.drop_eq_nil_iff]; omega
  have hown : ownMethods t.data = if rs = [] then [] else writeMethods ⟨pth, rs, q ++ qs⟩ := by
    rw [rep_block_data hrep]
    cases rs <;> rfl
  rw [hown]
  by_cases hrs : rs = []
  · rw [if_pos hrs, List.nil_append, hchildren (by simp [hrs])]
  · rw [if_neg hrs, exec_writeMethods henv _ hd]
    by_cases he : s.i = path.length
    · rw [if_pos he]
      simp only [route]
      rw [if_pos ⟨hnil.2 he, hrs⟩]
    · rw [if_neg he]
      exact hchildren (fun h => he (hnil.1 h.1))

theorem claims (W : World) (path m : Bytes) : ∀ fuel, BlockClaim W path m fuel ∧
    StaticClaim W path m (codegenTrie fuel) fuel fun t => t.data = none := by
  intro fuel
  induction fuel using Nat.strongRecOn with
  | ind fuel ih =>
    cases fuel with
    | zero =>
      constructor
      · intro t body r pth q caps s _ hgen
        simp [codegenTrie] at hgen
      · intro t body ns u pth q caps s _ _ hgen
        simp [codegenTrie] at hgen
    | succ fuel =>
      have hA : ∀ k ≤ fuel, BlockClaim W path m k := fun k hk => (ih k (by omega)).1
      have hC := (ih fuel (by omega)).2
      exact ⟨blockSim hA hC, staticSim_node (staticSim (hA fuel (Nat.le_refl _)) hC)⟩

/-- **Refinement**: if the generated `match_route` compiles, it computes the reference router. -/
theorem callMatchRoute_eq (W : World) {r : Routes} {body : List Stmt} (path m : Bytes)
    (hbody : matcherBody r = .ok body) (hcomp : compiles body = true) (hhy : Unhidden [] r) :
    callMatchRoute W body path m = referenceRouter W r path m := by
  simp only [matcherBody] at hbody
  cases ht : toTrie r with
  | none => simp [ht] at hbody
  | some t =>
    simp only [ht] at hbody
    have hds : DistinctSiblings r := (toTrie_isSome_iff r).1 ⟨t, ht⟩
    have hok : Accepted body := by
      simp only [compiles, Bool.and_eq_true] at hcomp
      exact ⟨hcomp.1, [], hcomp.2⟩
    have hi : (initialState W path).i ≤ path.length := by
      simp only [initialState]
      split
      · rename_i h
        cases path with
        | nil => simp at h
        | cons b rest => simp
      · exact Nat.zero_le _
    have := (claims W path m t.depth).1 t body r [] [] [] (initialState W path) (Nat.le_refl _) hbody
      (toTrie_rep ht) hds hhy (by simp [dynamics]) hok
      ⟨rfl, rfl, rfl, rfl, by simp⟩ hi
    simp only [callMatchRoute, hcomp, if_true, this, referenceRouter]
    congr 1
    simp only [initialState]
    split <;> rfl

end Wayfinder
