import Verif.Spec.Asks
import Verif.Spec.Exact
import Verif.Proofs.Naming
import Verif.Proofs.Demand
import Verif.Proofs.Utf8
/-!
# The calls of `FromStr`: proofs
-/

namespace Wayfinder

open scoped List

variable {W : World} {path m : Bytes}

/-! ## All programs: the first failure ends the call -/

/-- Either all calls succeed and the answer is no error, or exactly the last one fails and is the answer. -/
def Told (l : List Ask) (f : Flow W) : Prop :=
  ((∀ a ∈ l, ∃ v, a.ok (W := W) v) ∧ ∀ x e, f ≠ .ret (.err x e)) ∨
  ∃ before a e, l = before ++ [a] ∧ (∀ b ∈ before, ∃ v, b.ok (W := W) v) ∧ a.fails (W := W) e ∧ f = .ret (.err a.param.name e)

theorem told_nil {f : Flow W} (h : ∀ x e, f ≠ .ret (.err x e)) : Told [] f := .inl ⟨by simp, h⟩

theorem execMethods_no_err (s : State W) : ∀ (arms : List MethodArm) (x : Str) (e : W.E), execMethods m s arms ≠ .err x e
  | [], x, e => by simp [execMethods]
  | a :: as, x, e => by
    simp only [execMethods]
    split
    · split
      · simp
      · split <;> simp
    · exact execMethods_no_err s as x e

mutual
theorem Stmt.told : ∀ (st : Stmt) (s : State W), Told (st.asks path m s) (st.exec path m s)
  | .blank, s => told_nil (by simp [Stmt.exec])
  | .letStart, s => told_nil (by simp only [Stmt.exec]; split <;> simp)
  | .addI n, s => told_nil (by simp only [Stmt.exec]; split <;> simp)
  | .retNotFound, s => told_nil (by simp [Stmt.exec])
  | .whileScan, s => told_nil (by
      simp only [Stmt.exec]
      split
      · split <;> simp
      · simp)
  | .letText, s => told_nil (by
      simp only [Stmt.exec]
      split
      · split
        · split <;> simp
        · simp
      · simp)
  | .matchMethod arms, s => told_nil (by
      simp only [Stmt.exec]
      split
      · simpa using execMethods_no_err s arms
      · simp)
  | .letParam x T, s => by
    simp only [Stmt.asks, Stmt.exec]
    cases hl : lookupVar c!"text" s.env with
    | none => exact told_nil (by simp)
    | some val =>
      cases val with
      | usize n => exact told_nil (by simp)
      | user u => exact told_nil (by simp)
      | str text =>
        cases T with
        | none => exact told_nil (by simp)
        | some ty =>
          simp only
          cases hp : W.parse ty text with
          | ok v => exact .inl ⟨by simp [Ask.ok, hp], by simp⟩
          | error e => exact .inr ⟨[], _, e, rfl, by simp, hp, rfl⟩
  | .ifThen c body, s => by
    simp only [Stmt.asks, Stmt.exec]
    have ih := blockTold body s
    cases hc : c.eval path s with
    | none => exact told_nil (by simp)
    | some t =>
      cases t with
      | false => exact told_nil (by simp)
      | true =>
        simp only [if_true]
        cases hx : execBlock path m body s with
        | ret o => rw [hx] at ih; exact ih
        | next s' =>
          rw [hx] at ih
          rcases ih with ⟨h1, _⟩ | ⟨_, _, _, _, _, _, h⟩
          · exact .inl ⟨h1, by simp⟩
          · cases h
  | .matchPath n arms, s => by
    simp only [Stmt.asks, Stmt.exec]
    cases hp : s.pathOk with
    | false => exact told_nil (by simp)
    | true =>
      cases hI : s.readI with
      | none => exact told_nil (by simp)
      | some i =>
        simp only
        split
        · exact armsTold _ arms s
        · exact told_nil (by simp)
theorem blockTold : ∀ (sts : List Stmt) (s : State W), Told (blockAsks path m sts s) (execBlock path m sts s)
  | [], s => told_nil (by simp [execBlock])
  | st :: sts, s => by
    have h1 := Stmt.told st s
    simp only [blockAsks, execBlock]
    cases hx : st.exec path m s with
    | ret o => rw [hx] at h1; simpa using h1
    | next s' =>
      rw [hx] at h1
      have h2 := blockTold sts s'
      have ha : ∀ a ∈ st.asks path m s, ∃ v, a.ok (W := W) v := by
        rcases h1 with ⟨h1, _⟩ | ⟨_, _, _, _, _, _, h⟩
        · exact h1
        · cases h
      rcases h2 with ⟨h2, h3⟩ | ⟨before, a, e, hl, hb, hf, ho⟩
      · refine .inl ⟨fun a h => ?_, h3⟩
        exact (List.mem_append.1 h).elim (ha a) (h2 a)
      · refine .inr ⟨st.asks path m s ++ before, a, e, by simp [hl], fun b h => ?_, hf, ho⟩
        exact (List.mem_append.1 h).elim (ha b) (hb b)
theorem armsTold (slice : Bytes) : ∀ (as : List Arm) (s : State W),
    Told (armsAsks path m slice as s) (execArms path m slice as s)
  | [], s => told_nil (by simp [execArms])
  | .bytes pat body :: as, s => by
    have ih := blockTold body s
    simp only [armsAsks, execArms, Arm.exec]
    by_cases hp : slice = pat.map asciiByte
    · simp only [hp, if_true]
      cases hx : execBlock path m body s with
      | ret o => rw [hx] at ih; exact ih
      | next s' =>
        rw [hx] at ih
        rcases ih with ⟨h1, _⟩ | ⟨_, _, _, _, _, _, h⟩
        · exact .inl ⟨h1, by simp⟩
        · cases h
    · simp only [hp, if_false]
      exact armsTold slice as s
  | .wildNotFound :: as, s => by simp only [armsAsks, execArms, Arm.exec, Arm.asks]; exact told_nil (by simp)
  | .wildNothing :: as, s => by simp only [armsAsks, execArms, Arm.exec, Arm.asks]; exact told_nil (by simp)
  | .someSlash :: as, s => by simp only [armsAsks, execArms, Arm.exec, Arm.asks]; exact told_nil (by simp)
  | .stray _ :: as, s => by simp only [armsAsks, execArms, Arm.exec, Arm.asks]; exact told_nil (by simp)
end

/-! ## Cutting -/

/-- The first piece ends at the first slash. -/
theorem cut_piece : ∀ bs : Bytes, cut bs = bs.takeWhile (· ≠ slash) :: (cut (bs.dropWhile (· ≠ slash))).tail
  | [] => rfl
  | b :: bs => by
    by_cases hb : b = slash
    · subst hb
      simp [cut, List.takeWhile, List.dropWhile]
    · have := cut_piece bs
      simp only [cut, hb, if_false, this, List.takeWhile, List.dropWhile, ne_eq, not_false_eq_true, decide_true]

/-- Behind the first pieces come fewer. -/
theorem cut_drop_tail : ∀ (k : Nat) (bs : Bytes), (cut (bs.drop k)).tail <+ (cut bs).tail
  | 0, bs => by simp
  | k + 1, [] => by simp
  | k + 1, b :: bs => by
    have ih := cut_drop_tail k bs
    simp only [List.drop_succ_cons]
    refine ih.trans ?_
    simp only [cut]
    split
    · exact List.tail_sublist _
    · split <;> simp_all

/-! ## Following generated code -/

/-- The calls of `FromStr`, and the result. -/
def trace (path m : Bytes) (b : List Stmt) (s : State W) : List Ask × Flow W := (blockAsks path m b s, execBlock path m b s)

variable {caps : Caps W} {s : State W}

/-- Answers without values. -/
def Bare (f : Flow W) : Prop := ∀ v, f ≠ .ret (.route v) ∧ f ≠ .ret (.redirect v)

theorem trace_blank (rest : List Stmt) : trace path m (.blank :: rest) s = trace path m rest s := by
  simp [trace, blockAsks, execBlock, Stmt.exec, Stmt.asks]

theorem trace_letStart (h : EnvOk caps s.env) (rest : List Stmt) :
    trace path m (.letStart :: rest) s = trace path m rest { s with env := (c!"start", .usize s.i) :: s.env } := by
  simp [trace, blockAsks, execBlock, Stmt.exec, Stmt.asks, readI_eq h]

theorem trace_addI (h : EnvOk caps s.env) (n : Nat) (rest : List Stmt) :
    trace path m (.addI n :: rest) s = trace path m rest { s with i := s.i + n } := by
  simp [trace, blockAsks, execBlock, Stmt.exec, Stmt.asks, h.i]

theorem trace_writeMethods (h : EnvOk caps s.env) (v : FlattenedRoute)
    (hd : dynamics v.path = caps.map Prod.fst) (rest : List Stmt) :
    trace path m (writeMethods v ++ rest) s =
      if s.i = path.length then ([], .ret (answer v.resources v.queryParameters caps m)) else trace path m rest s := by
  simp only [writeMethods, List.cons_append, List.nil_append, trace, blockAsks, execBlock, Stmt.exec, Stmt.asks, Cond.eval,
    readI_eq h, readLen_eq h]
  by_cases hi : s.i = path.length
  · simp [hi, State.methodOk, h.method, execMethods_eq m v hd h]
  · have : (s.i == path.length) = false := by simpa using hi
    simp [hi, this]

theorem trace_own (h : EnvOk caps s.env) (v : FlattenedRoute) (hd : dynamics v.path = caps.map Prod.fst) (rest : List Stmt) :
    trace path m (ownMethods (some v) ++ rest) s = ([], .ret (answer v.resources v.queryParameters caps m)) ∨
    trace path m (ownMethods (some v) ++ rest) s = trace path m rest s := by
  simp only [ownMethods]
  split
  · rw [trace_writeMethods h v hd]
    split
    · exact .inl rfl
    · exact .inr rfl
  · exact .inr rfl

theorem trace_retIf (h : EnvOk caps s.env) (c : Cond) (rest : List Stmt) :
    trace path m (.ifThen c [.retNotFound] :: rest) s = ([], .ret .notFound) ∨
    trace path m (.ifThen c [.retNotFound] :: rest) s = trace path m rest s := by
  have hc : ∃ t, c.eval path s = some t := by simp [Cond.eval, readI_eq h, readLen_eq h]
  obtain ⟨t, hc⟩ := hc
  cases t with
  | true => left; simp [trace, blockAsks, execBlock, Stmt.exec, Stmt.asks, hc]
  | false => right; simp [trace, blockAsks, execBlock, Stmt.exec, Stmt.asks, hc]

theorem trace_sepHead (h : EnvOk caps s.env) (v : FlattenedRoute) (hd : dynamics v.path = caps.map Prod.fst) (rest : List Stmt) :
    (∃ o, (o = .notFound ∨ o = answer v.resources v.queryParameters caps m) ∧
      trace path m (separatorHead (some v) ++ rest) s = ([], .ret o)) ∨
    trace path m (separatorHead (some v) ++ rest) s = trace path m rest s := by
  simp only [separatorHead]
  split
  · rw [trace_writeMethods h v hd]
    split
    · exact .inl ⟨_, .inr rfl, rfl⟩
    · exact .inr rfl
  · rcases trace_retIf (path := path) (m := m) h .iEqLen rest with h | h
    · exact .inl ⟨_, .inl rfl, by simpa using h⟩
    · exact .inr (by simpa using h)

/-- `match &path[i..i+n] { b"pat" => { i += n; }, _ => return Ok(Match::NotFound), }` -/
theorem trace_literal (h : EnvOk caps s.env) (n : Nat) (pat : Str) (rest : List Stmt) :
    (∃ o, (o = .notFound ∨ o = .panic) ∧
      trace path m (.matchPath n [.bytes pat [.addI n], .wildNotFound] :: rest) s = ([], .ret o)) ∨
    (s.i + n ≤ path.length ∧ (path.drop s.i).take n = bytesOf pat ∧
      trace path m (.matchPath n [.bytes pat [.addI n], .wildNotFound] :: rest) s = trace path m rest { s with i := s.i + n }) := by
  have hp : s.pathOk = true := by simp [State.pathOk, h.path]
  by_cases hn : s.i + n ≤ path.length
  · by_cases he : (path.drop s.i).take n = pat.map asciiByte
    · refine .inr ⟨hn, he, ?_⟩
      simp [trace, blockAsks, execBlock, Stmt.exec, Stmt.asks, hp, readI_eq h, hn, armsAsks, execArms, Arm.exec, Arm.asks, he, h.i]
    · refine .inl ⟨.notFound, .inl rfl, ?_⟩
      simp [trace, blockAsks, execBlock, Stmt.exec, Stmt.asks, hp, readI_eq h, hn, armsAsks, execArms, Arm.exec, Arm.asks, he]
  · refine .inl ⟨.panic, .inr rfl, ?_⟩
    simp [trace, blockAsks, execBlock, Stmt.exec, Stmt.asks, hp, readI_eq h, hn]

/-- The `if` around the static branch next to a parameter; the static branch always returns. -/
theorem trace_branch (h : EnvOk caps s.env) (c : Cond) (n : Nat) (pat : Str) (sb rest : List Stmt)
    (hret : s.i + n ≤ path.length → ∃ o, (trace path m sb { s with i := s.i + n }).2 = .ret o) :
    trace path m (.ifThen c [.matchPath n [.bytes pat (.addI n :: sb), .wildNothing]] :: rest) s = ([], .ret .panic) ∨
    (s.i + n ≤ path.length ∧
      trace path m (.ifThen c [.matchPath n [.bytes pat (.addI n :: sb), .wildNothing]] :: rest) s =
        trace path m sb { s with i := s.i + n }) ∨
    trace path m (.ifThen c [.matchPath n [.bytes pat (.addI n :: sb), .wildNothing]] :: rest) s = trace path m rest s := by
  have hp : s.pathOk = true := by simp [State.pathOk, h.path]
  have hc : ∃ t, c.eval path s = some t := by simp [Cond.eval, readI_eq h, readLen_eq h]
  obtain ⟨t, hc⟩ := hc
  cases t with
  | false => exact .inr (.inr (by simp [trace, blockAsks, execBlock, Stmt.exec, Stmt.asks, hc]))
  | true =>
    by_cases hn : s.i + n ≤ path.length
    · by_cases he : (path.drop s.i).take n = pat.map asciiByte
      · refine .inr (.inl ⟨hn, ?_⟩)
        obtain ⟨o, ho⟩ := hret hn
        simp only [trace] at ho
        simp [trace, blockAsks, execBlock, Stmt.exec, Stmt.asks, hc, hp, readI_eq h, hn, armsAsks, execArms, Arm.exec, Arm.asks, he,
          h.i, ho]
      · refine .inr (.inr ?_)
        simp [trace, blockAsks, execBlock, Stmt.exec, Stmt.asks, hc, hp, readI_eq h, hn, armsAsks, execArms, Arm.exec, Arm.asks, he]
    · refine .inl ?_
      simp [trace, blockAsks, execBlock, Stmt.exec, Stmt.asks, hc, hp, readI_eq h, hn]

/-- The statements that capture a parameter. -/
theorem trace_dynamicHead (h : EnvOk caps s.env) (hi : s.i ≤ path.length)
    (hstart : lookupVar c!"start" s.env = some (.usize s.i)) {p : Param} {b : List Stmt}
    (ht : inferType p.name b = some p.typ) (rest : List Stmt) :
    trace path m (dynamicHead p.name b ++ rest) s =
      match fromUtf8 ((path.drop s.i).takeWhile (· ≠ slash)) with
      | none => ([], .ret .panic)
      | some text =>
        match W.parse p.typ text with
        | .error e => ([⟨p, text⟩], .ret (.err p.name e))
        | .ok v =>
          let t := trace path m rest
            { i := s.i + ((path.drop s.i).takeWhile (· ≠ slash)).length,
              env := (p.name, .user v) :: (c!"text", .str text) :: s.env }
          (⟨p, text⟩ :: t.1, t.2) := by
  have hscan : scan path.length (path.drop s.i) s.i =
      some (s.i + ((path.drop s.i).takeWhile (· ≠ slash)).length) := by
    have := scan_eq (path.drop s.i) s.i
    rwa [List.length_drop, Nat.add_sub_cancel' hi] at this
  have hlen := length_takeWhile_add_dropWhile (· ≠ slash) (path.drop s.i)
  rw [List.length_drop] at hlen
  have htake : (path.drop s.i).take ((path.drop s.i).takeWhile (· ≠ slash)).length =
      (path.drop s.i).takeWhile (· ≠ slash) := by
    conv => lhs; rhs; rw [← List.takeWhile_append_dropWhile (p := (· ≠ slash)) (l := path.drop s.i)]
    simp only [List.take_left']
  simp only [dynamicHead, List.cons_append, List.nil_append, trace_blank]
  generalize hseg : (path.drop s.i).takeWhile (· ≠ slash) = seg at *
  have hle : s.i + seg.length ≤ path.length := by omega
  simp only [trace, blockAsks, Stmt.asks, execBlock, Stmt.exec, State.pathOk, h.path, Option.isNone_none, h.i, readLen_eq h, hscan,
    State.readI, hstart, Option.bind_some, Val.asUsize]
  rw [if_pos ⟨by omega, hle⟩]
  rw [show s.i + seg.length - s.i = seg.length by omega, htake]
  cases fromUtf8 seg with
  | none => rfl
  | some text =>
    simp only [lookupVar, if_true, ht]
    cases W.parse p.typ text with
    | error e => rfl
    | ok v => rfl

/-- In accepted code behind a parameter, the type inferred for the parameter is the declared one and no parameter further out has its
name. -/
theorem code_inferred {pth : List PathSegment} {r : Routes} {p : Param} {q : List Param} {b : List Stmt}
    (hcode : Code (.enter r (pth ++ [.dynamic p]) q) b) (hd : DistinctSiblings r) (hok : Accepted b) {T : Str}
    (hT : inferType p.name b = some T) : T = p.typ ∧ ∀ p' ∈ dynamics pth, p'.name ≠ p.name := by
  have huse : useBlock p.name b = some (some T) := by
    unfold inferType at hT
    split at hT
    · rename_i t ht; rw [ht]; simpa using hT
    · cases hT
  obtain ⟨a, ha, p', hfind, hp'⟩ := useBlock_literal _ _ _ huse
  have hnda := hok.nodup a ha
  obtain ⟨v, hv, hav⟩ := (code_literals hcode hd a).1 ha
  obtain ⟨more, hpath⟩ := liveItem_path hv
  simp only [methodArms, List.mem_map] at hav
  obtain ⟨res, hres, rfl⟩ := hav
  have hdyn : dynamics v.path = dynamics pth ++ p :: dynamics more := by
    rw [hpath]; simp [CodeKind.pth, dynamics_append, dynamics]
  simp only [MethodArm.fieldNames, hdyn, List.map_append, List.map_cons, List.append_assoc] at hnda
  have hfresh : ∀ p' ∈ dynamics pth, p'.name ≠ p.name := by
    intro p'' hp'' heq
    rw [List.nodup_append] at hnda
    exact hnda.2.2 p''.name (List.mem_map_of_mem hp'') p.name (by simp) heq
  simp only [hdyn] at hfind
  rw [find?_name_append hfresh, Option.some.injEq] at hfind
  exact ⟨by rw [← hp', hfind], hfresh⟩

/-! ## The claim -/

/-- The parameters of some route. -/
def RouteOf (r : Routes) (ps : List Param) : Prop :=
  ∃ segs above node, HasRoute r segs above node ∧ dynamics segs = ps

theorem routeOf_nil (r : Routes) : RouteOf r [] := ⟨[], _, _, .here r, rfl⟩

/-- The parameters that code of a kind may ask for. -/
def CodeKind.Leads : CodeKind → List Param → Prop
  | .block r _ _, ps => RouteOf r ps
  | .enter r _ _, ps => RouteOf r ps
  | .kids ns _ _ _, ps => ps = [] ∨ ∃ n ∈ ns, (∃ s, n.pathSegment = .static s) ∧ RouteOf n.routes ps
  | .arms ns _ _ _ _, ps => ps = [] ∨ ∃ n ∈ ns, (∃ s, n.pathSegment = .static s) ∧ RouteOf n.routes ps

theorem CodeKind.leads_nil (k : CodeKind) : k.Leads [] := by
  cases k with
  | block r _ _ => exact routeOf_nil r
  | enter r _ _ => exact routeOf_nil r
  | kids => exact .inl rfl
  | arms => exact .inl rfl

theorem RouteOf.static {rs : List Resource} {ns : List NestedRoutes} {qs : List Param} {n : NestedRoutes} (hn : n ∈ ns)
    (hs : ∃ s, n.pathSegment = .static s) {ps : List Param} (h : RouteOf n.routes ps) : RouteOf (.mk rs ns qs) ps := by
  obtain ⟨segs, above, node, hr, rfl⟩ := h
  obtain ⟨seg, sub⟩ := n
  obtain ⟨s, hs⟩ := hs
  simp only [NestedRoutes.pathSegment_mk] at hs
  subst hs
  exact ⟨_, _, _, .child (r := .mk rs ns qs) hn hr, by simp [dynamics]⟩

theorem leads_block {rs : List Resource} {ns : List NestedRoutes} {qs : List Param} {u : Str} {pth pth' : List PathSegment}
    {q q' : List Param} {ps : List Param} (h : (CodeKind.kids ns u pth q).Leads ps) :
    (CodeKind.block (.mk rs ns qs) pth' q').Leads ps := by
  rcases h with rfl | ⟨n, hn, hs, h⟩
  · exact routeOf_nil _
  · exact h.static hn hs

theorem RouteOf.param {rs : List Resource} {ns : List NestedRoutes} {qs : List Param} {n : NestedRoutes} (hn : n ∈ ns)
    {p : Param} (hs : n.pathSegment = .dynamic p) {ps : List Param} (h : RouteOf n.routes ps) : RouteOf (.mk rs ns qs) (p :: ps) := by
  obtain ⟨segs, above, node, hr, rfl⟩ := h
  obtain ⟨seg, sub⟩ := n
  simp only [NestedRoutes.pathSegment_mk] at hs
  subst hs
  exact ⟨_, _, _, .child (r := .mk rs ns qs) hn hr, by simp [dynamics]⟩

/-- The pieces of the path that code of a kind may look at as a whole. -/
def CodeKind.pieces : CodeKind → Bytes → List Bytes
  | .block .., bs => cut bs
  | .enter .., bs => (cut bs).tail
  | .kids .., bs => (cut bs).tail
  | .arms .., bs => (cut bs).tail

/-- What the configuration must fulfil. -/
def CodeKind.Sane : CodeKind → Prop
  | .block r pth _ => DistinctSiblings r ∧ Unhidden pth r
  | .enter r pth _ => DistinctSiblings r ∧ Unhidden pth r
  | .kids ns _ pth _ => ∀ n ∈ ns, DistinctSiblings n.routes ∧ ∀ s, n.pathSegment = .static s → Unhidden (pth ++ [.static s]) n.routes
  | .arms ns _ pth _ _ => ∀ n ∈ ns, DistinctSiblings n.routes ∧ ∀ s, n.pathSegment = .static s → Unhidden (pth ++ [.static s]) n.routes

/-- The claim about the calls and the result. -/
structure Good (P : List Param → Prop) (pieces : List Bytes) (caps : Caps W) (t : List Ask × Flow W) : Prop where
  declared : P (t.1.map Ask.param)
  texts : (t.1.map fun a => utf8 a.text) <+ pieces
  returns : ∃ o, t.2 = .ret o
  values : ∀ v, t.2 = .ret (.route v) ∨ t.2 = .ret (.redirect v) → ∃ more : Caps W,
    v.params = (caps ++ more).map (fun pv => (pv.1.name, .user pv.2)) ∧
    List.Forall₂ (fun a pv => a.param = pv.1 ∧ a.ok (W := W) pv.2) t.1 more

theorem good_bare {P : List Param → Prop} {pieces : List Bytes} (hP : P []) {o : Outcome W}
    (h : ∀ v, o ≠ .route v ∧ o ≠ .redirect v) : Good P pieces caps ([], .ret o) where
  declared := hP
  texts := by simp
  returns := ⟨o, rfl⟩
  values v hv := by
    simp only [Flow.ret.injEq] at hv
    exact absurd hv (by simp [h v])

theorem good_answer {P : List Param → Prop} {pieces : List Bytes} (hP : P []) (rs : List Resource) (q : List Param) :
    Good P pieces caps ([], .ret (answer rs q caps m)) where
  declared := hP
  texts := by simp
  returns := ⟨_, rfl⟩
  values v hv := by
    refine ⟨[], ?_, .nil⟩
    simp only [Flow.ret.injEq, answer] at hv
    cases hf : rs.find? (fun r => r.method.bytes = m) with
    | none => simp [hf] at hv
    | some r =>
      simp only [hf] at hv
      split at hv <;> (simp at hv; subst hv; simp)

theorem Good.mono {P Q : List Param → Prop} {ps ps' : List Bytes} {t : List Ask × Flow W} (h : Good P ps caps t)
    (hP : ∀ l, P l → Q l) (hp : ps <+ ps') : Good Q ps' caps t :=
  ⟨hP _ h.declared, h.texts.trans hp, h.returns, h.values⟩

theorem Good.ask {P Q : List Param → Prop} {ps ps' : List Bytes} {p : Param} {v : W.V} {text : Str} {t : List Ask × Flow W}
    (h : Good P ps (caps ++ [(p, v)]) t) (hP : ∀ l, P l → Q (p :: l)) (hp : utf8 text :: ps <+ ps') (hv : W.parse p.typ text = .ok v) :
    Good Q ps' caps (⟨p, text⟩ :: t.1, t.2) where
  declared := hP _ h.declared
  texts := by simpa using (h.texts.cons_cons _).trans hp
  returns := h.returns
  values x hx := by
    obtain ⟨more, h1, h2⟩ := h.values x hx
    exact ⟨(p, v) :: more, by simpa using h1, .cons ⟨rfl, hv⟩ h2⟩

/-- The capturing of a parameter. -/
theorem good_param {rs : List Resource} {ns : List NestedRoutes} {qs : List Param} {pth : List PathSegment}
    {q : List Param} {n : NestedRoutes} {p : Param} {b : List Stmt} (hn : n ∈ ns) (hseg : n.pathSegment = .dynamic p)
    (hcap : captor ns = some p.name) (hb : Code (.enter n.routes (pth ++ [.dynamic p]) (q ++ qs)) b)
    (ih : ∀ (caps : Caps W) (s : State W), (CodeKind.enter n.routes (pth ++ [.dynamic p]) (q ++ qs)).Sane →
      dynamics (pth ++ [.dynamic p]) = caps.map Prod.fst → Accepted b → EnvOk caps s.env → s.i ≤ path.length →
      Good (RouteOf n.routes) (cut (path.drop s.i)).tail caps (trace path m b s))
    (hsane : (CodeKind.block (.mk rs ns qs) pth q).Sane) (hd : dynamics pth = caps.map Prod.fst)
    (hok : Accepted (dynamicHead p.name b ++ b)) (henv : EnvOk caps s.env) (hi : s.i ≤ path.length)
    (hstart : lookupVar c!"start" s.env = some (.usize s.i)) :
    Good (RouteOf (.mk rs ns qs)) (cut (path.drop s.i)) caps (trace path m (dynamicHead p.name b ++ b) s) := by
  have hds := (distinctSiblings_mk.1 hsane.1).2 n hn
  have hhy' := unhidden_param hsane.2 hn hseg hcap
  obtain ⟨T, hT⟩ := (hok.append.1.tail.tail.tail.tail).letParam
  obtain ⟨rfl, hfresh⟩ := code_inferred hb hds hok.append.2 hT
  have hpar : paramNames ns ≠ [] := captor_params hcap
  rw [trace_dynamicHead henv hi hstart hT]
  cases hu : fromUtf8 ((path.drop s.i).takeWhile (· ≠ slash)) with
  | none => exact good_bare (routeOf_nil _) (by simp)
  | some text =>
    simp only
    have htext := utf8_of_fromUtf8 hu
    cases hparse : W.parse p.typ text with
    | error e =>
      simp only
      refine ⟨(routeOf_nil n.routes).param hn hseg, ?_, ⟨_, rfl⟩, by simp⟩
      rw [cut_piece, ← htext.symm]
      simp only [List.map_cons, List.map_nil, ← htext]
      exact (List.nil_sublist _).cons_cons _
    | ok v =>
      simp only
      have hlen := length_takeWhile_add_dropWhile (· ≠ slash) (path.drop s.i)
      rw [List.length_drop] at hlen
      have hdw : path.drop (s.i + ((path.drop s.i).takeWhile (· ≠ slash)).length) =
          (path.drop s.i).dropWhile (· ≠ slash) := by
        rw [← List.drop_drop]
        conv => lhs; rhs; rw [← List.takeWhile_append_dropWhile (p := (· ≠ slash)) (l := path.drop s.i)]
        simp only [List.drop_left']
      have henv2 := (henv.text (hsane.2.caps hpar hd).2 (.str text)).param hhy'.own (v := v) (fun pv hpv => by
        refine hfresh pv.1 ?_
        rw [hd]; exact List.mem_map_of_mem hpv)
      have h := ih (caps ++ [(p, v)]) (State.mk (s.i + ((path.drop s.i).takeWhile (· ≠ slash)).length)
        ((p.name, .user v) :: (c!"text", .str text) :: s.env)) ⟨hds, hhy'⟩ (by
          rw [dynamics_append, hd]; simp [dynamics]) hok.append.2 henv2 (by simp only; omega)
      refine h.ask (fun l hl => hl.param hn hseg) ?_ hparse
      rw [cut_piece (path.drop s.i), ← htext, hdw]

theorem code_good {k : CodeKind} {b : List Stmt} (h : Code k b) : ∀ (caps : Caps W) (s : State W), k.Sane →
    dynamics k.pth = caps.map Prod.fst → Accepted b → EnvOk caps s.env → s.i ≤ path.length →
    Good k.Leads (k.pieces (path.drop s.i)) caps (trace path m b s) := by
  induction h with
  | @plain rs ns qs pth q cb hpar _ ih =>
    intro caps s hsane hd hok henv hi
    rcases trace_own (path := path) (m := m) henv ⟨pth, rs, q ++ qs⟩ hd cb with h | h <;> rw [h]
    · exact good_answer (CodeKind.leads_nil _) _ _
    · refine (ih caps s (fun n hn => ⟨(distinctSiblings_mk.1 hsane.1).2 n hn, fun s hs => unhidden_static hsane.2 hn hs⟩) hd
        hok.append.2 henv hi).mono (fun l => leads_block) (List.tail_sublist _)
  | @param rs ns qs pth q n p b hn hseg hcap hst hb ih =>
    intro caps s hsane hd hok henv hi
    have hpar : paramNames ns ≠ [] := captor_params hcap
    rcases trace_own (path := path) (m := m) henv ⟨pth, rs, q ++ qs⟩ hd (.letStart :: (dynamicHead p.name b ++ b)) with h | h <;> rw [h]
    · exact good_answer (CodeKind.leads_nil _) _ _
    · rw [trace_letStart henv]
      exact good_param (s := { s with env := (c!"start", .usize s.i) :: s.env }) hn hseg hcap hb ih hsane hd hok.append.2.tail
        (henv.start (hsane.2.caps hpar hd).1 _) hi (by simp [lookupVar])
  | @both rs ns qs pth q n p b sb w l c _ hn hseg hcap hw hpre hne hsb hb ihs ihb =>
    intro caps s hsane hd hok henv hi
    have hpar : paramNames ns ≠ [] := captor_params hcap
    rcases trace_own (path := path) (m := m) henv ⟨pth, rs, q ++ qs⟩ hd (.blank :: .letStart :: .blank ::
          .ifThen c [.matchPath l [.bytes w (.addI l :: sb), .wildNothing]] ::
          (dynamicHead p.name b ++ b)) with h | h <;> rw [h]
    · exact good_answer (CodeKind.leads_nil _) _ _
    · rw [trace_blank, trace_letStart henv, trace_blank]
      have henv1 := henv.start (hsane.2.caps hpar hd).1 (.usize s.i)
      have hok1 := hok.append.2.tail.tail.tail
      have hoksb : Accepted sb := hok1.ifThen.matchPath.bytes.2.tail
      have hstat := fun hle => ihs caps { i := s.i + l, env := (c!"start", .usize s.i) :: s.env }
        (fun n hn => ⟨(distinctSiblings_mk.1 hsane.1).2 n hn, fun s hs => unhidden_static hsane.2 hn hs⟩) hd hoksb henv1 hle
      rcases trace_branch (path := path) (m := m) (s := { s with env := (c!"start", .usize s.i) :: s.env }) henv1 c l w sb
        (dynamicHead p.name b ++ b) (fun hle => (hstat hle).returns) with h | ⟨hle, h⟩ | h <;> rw [h]
      · exact good_bare (CodeKind.leads_nil _) (by simp)
      · refine (hstat hle).mono (fun l => leads_block) ?_
        simp only [CodeKind.pieces]
        rw [← List.drop_drop]
        exact (cut_drop_tail _ _).trans (List.tail_sublist _)
      · exact good_param (s := { s with env := (c!"start", .usize s.i) :: s.env }) hn hseg hcap hb ihb hsane hd hok1.tail henv1 hi
          (by simp [lookupVar])
  | @enter r pth q b hb ih =>
    intro caps s hsane hd hok henv hi
    rcases trace_sepHead (path := path) (m := m) henv ⟨pth, r.resources, q ++ r.queryParameters⟩ hd
      (.matchPath 1 [.bytes c!"/" [.addI 1], .wildNotFound] :: b) with ⟨o, ho, h⟩ | h <;> rw [h]
    · rcases ho with rfl | rfl
      · exact good_bare (CodeKind.leads_nil _) (by simp)
      · exact good_answer (CodeKind.leads_nil _) _ _
    · rcases trace_literal (path := path) (m := m) henv 1 c!"/" b with ⟨o, ho, h⟩ | ⟨hle, he, h⟩ <;> rw [h]
      · exact good_bare (CodeKind.leads_nil _) (by rcases ho with rfl | rfl <;> simp)
      · refine (ih caps { s with i := s.i + 1 } hsane hd hok.append.2.tail henv hle).mono (fun l h => h) ?_
        simp only [CodeKind.pieces]
        rw [← List.drop_drop]
        cases hdr : path.drop s.i with
        | nil => rw [hdr] at he; simp [bytesOf] at he
        | cons x rest =>
          rw [hdr] at he
          have hx : x = slash := by simpa [bytesOf, slash] using he
          simp [cut, hx]
  | none hno =>
    intro caps s hsane hd hok henv hi
    have : trace path m [.retNotFound] s = ([], .ret .notFound) := by
      simp [trace, blockAsks, execBlock, Stmt.exec, Stmt.asks]
    rw [this]
    exact good_bare (CodeKind.leads_nil _) (by simp)
  | @sep ns u pth q n b hn hseg huniq _ hb ih =>
    intro caps s hsane hd hok henv hi
    refine (ih caps s ⟨(hsane n hn).1, (hsane n hn).2 u hseg⟩ (by simpa [CodeKind.pth, dynamics_append, dynamics] using hd) hok henv
      hi).mono (fun l h => .inr ⟨n, hn, ⟨u, hseg⟩, h⟩) (List.Sublist.refl _)
  | @chain ns u w pth q b l c _ hw hex hall _ hb ih =>
    intro caps s hsane hd hok henv hi
    rcases trace_retIf (path := path) (m := m) henv c (.matchPath l [.bytes w [.addI l], .wildNotFound] :: b) with h | h <;> rw [h]
    · exact good_bare (CodeKind.leads_nil _) (by simp)
    · rcases trace_literal (path := path) (m := m) henv l w b with ⟨o, ho, h⟩ | ⟨hle, he, h⟩ <;> rw [h]
      · exact good_bare (CodeKind.leads_nil _) (by rcases ho with rfl | rfl <;> simp)
      · refine (ih caps { s with i := s.i + l } hsane hd hok.tail.tail henv hle).mono (fun l h => h) ?_
        simp only [CodeKind.pieces]
        rw [← List.drop_drop]
        exact cut_drop_tail _ _
  | @branch ns u pth q chars as hall hex _ _ hb ih =>
    intro caps s hsane hd hok henv hi
    rcases trace_retIf (path := path) (m := m) henv .iEqLen [.matchPath 1 as] with h | h <;> rw [h]
    · exact good_bare (CodeKind.leads_nil _) (by simp)
    · exact ih caps s hsane hd hok.tail henv hi
  | armsNil =>
    intro caps s hsane hd hok henv hi
    have hp : s.pathOk = true := by simp [State.pathOk, henv.path]
    by_cases hn : s.i + 1 ≤ path.length
    · have : trace path m [.matchPath 1 [.wildNotFound]] s = ([], .ret .notFound) := by
        simp [trace, blockAsks, execBlock, Stmt.exec, Stmt.asks, hp, readI_eq henv, hn, armsAsks, execArms, Arm.exec, Arm.asks]
      rw [this]
      exact good_bare (CodeKind.leads_nil _) (by simp)
    · have : trace path m [.matchPath 1 [.wildNotFound]] s = ([], .ret .panic) := by
        simp [trace, blockAsks, execBlock, Stmt.exec, Stmt.asks, hp, readI_eq henv, hn]
      rw [this]
      exact good_bare (CodeKind.leads_nil _) (by simp)
  | @armsCons ns u pth q ch chars b as _ _ ih1 ih2 =>
    intro caps s hsane hd hok henv hi
    have hp : s.pathOk = true := by simp [State.pathOk, henv.path]
    have hok1 : Accepted b := hok.matchPath.bytes.2.tail
    have hok2 : Accepted [.matchPath 1 as] := by
      obtain ⟨h1, sc, h2⟩ := hok
      simp only [blockShapeOk, Stmt.shapeOk, armsShapeOk, Bool.and_true, Bool.and_eq_true] at h1
      refine ⟨by simp [blockShapeOk, Stmt.shapeOk, h1.2], sc, ?_⟩
      obtain ⟨h2, -⟩ := Rust.check_cons (by trivial) h2
      simp only [Stmt.check] at h2
      split at h2
      · rename_i hand
        simp only [Bool.and_eq_true, checkArms] at hand
        simp [checkBlock, Stmt.check, hand.1.1, hand.1.2, hand.2.2]
      · cases h2
    by_cases hn : s.i + 1 ≤ path.length
    · by_cases he : (path.drop s.i).take 1 = [ch].map asciiByte
      · have hg := ih1 caps { s with i := s.i + 1 } hsane hd hok1 henv hn
        obtain ⟨o, ho⟩ := hg.returns
        have : trace path m [.matchPath 1 (.bytes [ch] (.addI 1 :: b) :: as)] s = trace path m b { s with i := s.i + 1 } := by
          simp only [trace] at ho
          simp [trace, blockAsks, execBlock, Stmt.exec, Stmt.asks, hp, readI_eq henv, hn, armsAsks, execArms, Arm.exec, Arm.asks, he,
            henv.i, ho]
        rw [this]
        refine hg.mono (fun l h => h) ?_
        simp only [CodeKind.pieces]
        rw [← List.drop_drop]
        exact cut_drop_tail _ _
      · have : trace path m [.matchPath 1 (.bytes [ch] (.addI 1 :: b) :: as)] s = trace path m [.matchPath 1 as] s := by
          have he' : ¬ (path.drop s.i).take 1 = [asciiByte ch] := he
          simp [trace, blockAsks, execBlock, Stmt.exec, Stmt.asks, hp, readI_eq henv, hn, armsAsks, execArms, Arm.exec, he']
        rw [this]
        exact ih2 caps s hsane hd hok2 henv hi
    · have : trace path m [.matchPath 1 (.bytes [ch] (.addI 1 :: b) :: as)] s = ([], .ret .panic) := by
        simp [trace, blockAsks, execBlock, Stmt.exec, Stmt.asks, hp, readI_eq henv, hn]
      rw [this]
      exact good_bare (CodeKind.leads_nil _) (by simp)

end Wayfinder
