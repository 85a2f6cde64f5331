import Verif.Proofs.Naming
import Verif.Proofs.Classify
import Verif.Spec.Offset
/-!
# Programs in which `let start = i;` hides a parameter

The induction of `Proofs/Simulation` and `Proofs/Refine` once more, for configurations in which a parameter called `start`
has further parameters behind it.
-/

namespace Wayfinder.Offset

variable {W : World} {path m : Bytes} {S : Prop}

/-- `o` is `o'`, or it is near it and `S` holds. -/
def NearIf (S : Prop) (path : Bytes) (o o' : Outcome W) : Prop := o = o' ∨ S ∧ ∃ n, SegmentAt path n ∧ o = o'.placed n

/-- Execution ends with an answer near `o`. -/
def Gives (S : Prop) (path : Bytes) (f : Flow W) (o : Outcome W) : Prop := ∃ o', f = .ret o' ∧ NearIf S path o' o

theorem gives_ret (o : Outcome W) : Gives S path (.ret o) o := ⟨o, rfl, .inl rfl⟩

/-- The generated variables are not shadowed and every captured parameter is bound to its value, or all but `start`. -/
structure EnvNear (S : Prop) (path : Bytes) (caps : Caps W) (env : List (Str × Val W)) : Prop where
  ok : EnvOk (W := W) [] env
  vals : (∀ pv ∈ caps, lookupVar pv.1.name env = some (.user pv.2)) ∨
    S ∧ ∃ n, SegmentAt path n ∧ ∀ pv ∈ caps, (pv.1.name = c!"start" → pv.1.typ = c!"usize") ∧
      lookupVar pv.1.name env = some (if pv.1.name = c!"start" then .usize n else .user pv.2)

theorem EnvNear.start {caps : Caps W} {env : List (Str × Val W)} (h : EnvNear S path caps env) {n : Nat}
    (hn : caps ≠ [] → SegmentAt path n) (hT : ∀ pv ∈ caps, pv.1.name = c!"start" → pv.1.typ = c!"usize" ∧ S) :
    EnvNear S path caps ((c!"start", .usize n) :: env) where
  ok := h.ok.start (by simp) _
  vals := by
    have hl : ∀ pv ∈ caps, pv.1.name ≠ c!"start" → lookupVar pv.1.name ((c!"start", .usize n) :: env) = some (.user pv.2) := by
      intro pv hpv he
      have : c!"start" ≠ pv.1.name := fun h => he h.symm
      rcases h.vals with h | ⟨_, k, _, h⟩
      · simp [lookupVar, this, h pv hpv]
      · simp [lookupVar, he, this, (h pv hpv).2]
    by_cases hs : ∃ pv ∈ caps, pv.1.name = c!"start"
    · obtain ⟨pv, hpv, he⟩ := hs
      refine .inr ⟨(hT pv hpv he).2, n, hn (List.ne_nil_of_mem hpv), fun pv hpv => ⟨fun he => (hT pv hpv he).1, ?_⟩⟩
      by_cases he : pv.1.name = c!"start"
      · simp [lookupVar, he]
      · rw [hl pv hpv he, if_neg he]
    · exact .inl fun pv hpv => hl pv hpv fun he => hs ⟨pv, hpv, he⟩

theorem EnvNear.text {caps : Caps W} {env : List (Str × Val W)} (h : EnvNear S path caps env)
    (hne : ∀ pv ∈ caps, pv.1.name ≠ c!"text") (v : Val W) : EnvNear S path caps ((c!"text", v) :: env) where
  ok := h.ok.text (by simp) _
  vals := by
    have hl : ∀ pv ∈ caps, lookupVar pv.1.name ((c!"text", v) :: env) = lookupVar pv.1.name env := fun pv hpv => by
      have : c!"text" ≠ pv.1.name := fun he => hne pv hpv he.symm
      simp [lookupVar, this]
    rcases h.vals with h | ⟨hS, k, hk, h⟩
    · exact .inl fun pv hpv => by rw [hl pv hpv, h pv hpv]
    · exact .inr ⟨hS, k, hk, fun pv hpv => ⟨(h pv hpv).1, by rw [hl pv hpv, (h pv hpv).2]⟩⟩

theorem EnvNear.param {caps : Caps W} {env : List (Str × Val W)} (h : EnvNear S path caps env) {p : Param}
    (hp : p.name ∉ ownNames) (hnew : ∀ pv ∈ caps, pv.1.name ≠ p.name) (v : W.V) :
    EnvNear S path (caps ++ [(p, v)]) ((p.name, .user v) :: env) := by
  have hok := (h.ok.param hp (by simp) v)
  refine ⟨⟨hok.i, hok.len, hok.path, hok.method, by simp⟩, ?_⟩
  have hl : ∀ pv ∈ caps, lookupVar pv.1.name ((p.name, Val.user v) :: env) = lookupVar pv.1.name env := fun pv hpv => by
    have hne : p.name ≠ pv.1.name := fun he => hnew pv hpv he.symm
    simp [lookupVar, hne]
  have hp : lookupVar p.name ((p.name, Val.user v) :: env) = some (.user v) := by simp [lookupVar]
  rcases h.vals with h | ⟨hS, k, hk, h⟩
  · refine .inl fun pv hpv => ?_
    rcases List.mem_append.1 hpv with hpv | hpv
    · rw [hl pv hpv, h pv hpv]
    · simp only [List.mem_cons, List.not_mem_nil, or_false] at hpv
      subst hpv; exact hp
  · by_cases hs : p.name = c!"start"
    · refine .inl fun pv hpv => ?_
      rcases List.mem_append.1 hpv with hpv | hpv
      · rw [hl pv hpv, (h pv hpv).2, if_neg (hs ▸ hnew pv hpv)]
      · simp only [List.mem_cons, List.not_mem_nil, or_false] at hpv
        subst hpv; exact hp
    · refine .inr ⟨hS, k, hk, fun pv hpv => ?_⟩
      rcases List.mem_append.1 hpv with hpv | hpv
      · exact ⟨(h pv hpv).1, by rw [hl pv hpv, (h pv hpv).2]⟩
      · simp only [List.mem_cons, List.not_mem_nil, or_false] at hpv
        subst hpv; exact ⟨fun h => absurd h hs, by rw [if_neg hs]; exact hp⟩

/-- A field initialised with a value that has its type. -/
def Fills (env : List (Str × Val W)) (g : Param × W.V → Val W) (pv : Param × W.V) : Prop :=
  lookupVar pv.1.name env = some (g pv) ∧ (g pv = .user pv.2 ∨ pv.1.typ = c!"usize" ∧ ∃ n, g pv = .usize n)

theorem execMethods_vals {caps : Caps W} {s : State W} {g : Param × W.V → Val W} (m : Bytes) (v : FlattenedRoute)
    (hd : dynamics v.path = caps.map Prod.fst) (hg : ∀ pv ∈ caps, Fills s.env g pv) :
    execMethods m s (methodArms v) =
      match v.resources.find? (fun r => r.method.bytes = m) with
      | none => .notAllowed
      | some r =>
        let v : RouteVal W :=
          { modules := r.modules, name := r.name,
            params := caps.map fun pv => (pv.1.name, g pv),
            nones := v.queryParameters.map Param.name ++ r.queryParameters.map Param.name }
        if r.isRedirect then .redirect v else .route v := by
  have hcap : ∀ caps : Caps W, (∀ pv ∈ caps, Fills s.env g pv) →
      captureFields s.env (caps.map Prod.fst) = some (caps.map fun pv => (pv.1.name, g pv)) := by
    intro caps
    induction caps with
    | nil => intro _; simp [captureFields]
    | cons pv caps ih =>
      intro h
      obtain ⟨h1, h3⟩ := h pv (by simp)
      have h2 := ih (fun pv' hpv' => h pv' (by simp [hpv']))
      rcases h3 with h3 | ⟨h3, n, h4⟩
      · simp [captureFields, h1, h2, h3]
      · simp [captureFields, h1, h2, h3, h4]
  have hcap := hcap caps hg
  obtain ⟨pth, rs, qs⟩ := v
  simp only at hd
  rw [← hd] at hcap
  induction rs with
  | nil => simp [methodArms, execMethods]
  | cons r rs ih =>
    simp only [methodArms, List.map_cons, execMethods]
    by_cases hm : m = r.method.display.map asciiByte
    · simp only [hm, if_true, hcap]
      simp [List.find?, Method.bytes, bytesOf]
    · rw [if_neg hm]
      have hm' : ¬ r.method.bytes = m := fun h => hm h.symm
      simp only [List.find?, hm', decide_false]
      exact ih

theorem execMethods_near {caps : Caps W} {s : State W} (m : Bytes) (v : FlattenedRoute)
    (hd : dynamics v.path = caps.map Prod.fst) (henv : EnvNear S path caps s.env) :
    NearIf S path (execMethods m s (methodArms v)) (answer v.resources v.queryParameters caps m) := by
  rcases henv.vals with h | ⟨hS, n, hn, h⟩
  · left
    rw [execMethods_vals (g := fun pv => .user pv.2) m v hd fun pv hpv => ⟨h pv hpv, .inl rfl⟩]; rfl
  · right
    refine ⟨hS, n, hn, ?_⟩
    rw [execMethods_vals (g := fun pv => if pv.1.name = c!"start" then .usize n else .user pv.2) m v hd fun pv hpv => ⟨(h pv hpv).2, by
      by_cases he : pv.1.name = c!"start"
      · exact .inr ⟨(h pv hpv).1 he, n, if_pos he⟩
      · exact .inl (if_neg he)⟩]
    simp only [answer]
    cases v.resources.find? (fun r => r.method.bytes = m) with
    | none => rfl
    | some r =>
      simp only
      by_cases hr : r.isRedirect
      · simp only [hr, if_true, Outcome.placed, RouteVal.placed, List.map_map]
        congr 2
        apply List.map_congr_left
        intro pv _
        by_cases he : pv.1.name = c!"start" <;> simp [he]
      · simp only [hr, if_false, Bool.false_eq_true, Outcome.placed, RouteVal.placed, List.map_map]
        congr 2
        apply List.map_congr_left
        intro pv _
        by_cases he : pv.1.name = c!"start" <;> simp [he]

/-- The methods of a route. -/
theorem exec_methods {caps : Caps W} {s : State W} (h : EnvNear S path caps s.env) (v : FlattenedRoute)
    (hd : dynamics v.path = caps.map Prod.fst) (rest : List Stmt) :
    (s.i = path.length → Gives S path (execBlock path m (writeMethods v ++ rest) s)
      (answer v.resources v.queryParameters caps m)) ∧
    (s.i ≠ path.length → execBlock path m (writeMethods v ++ rest) s = execBlock path m rest s) := by
  simp only [writeMethods, List.cons_append, List.nil_append, execBlock, Stmt.exec, Cond.eval,
    readI_eq h.ok, readLen_eq h.ok]
  constructor
  · intro hi
    refine ⟨_, ?_, execMethods_near m v hd h⟩
    simp [hi, State.methodOk, h.ok.method]
  · intro hi
    have : (s.i == path.length) = false := by simpa using hi
    simp [this]

/-- Behind the segments `pth`, no parameter disturbs the variables of the function; `start` may hide a parameter, and
other variables are hidden by parameters that the path does not reach, or to which it gives a text that cannot be parsed. -/
structure Seen (S : Prop) (W : World) (path : Bytes) (pth : List PathSegment) (r : Routes) : Prop where
  names : ∀ segs above node, LiveRoute r segs above node → ∀ p ∈ dynamics (pth ++ segs),
    paramNames node.routes ≠ [] → p.name ≠ c!"text" ∧ (p.name = c!"start" → p.typ = c!"usize" ∧ S)
  free : ∀ segs p above node, LiveRoute r (segs ++ [.dynamic p]) above node →
    p.name ∉ ownNames ∨ Untaken W path (pth ++ segs ++ [.dynamic p])

/-- `rest` is what follows the segments `pth` in the path, with the values `caps`. -/
def Led (W : World) (path : Bytes) (pth : List PathSegment) (caps : Caps W) (rest : Bytes) : Prop :=
  ∃ parts, Fits W pth caps parts ∧ stripSlash path = spell parts ++ rest

theorem fits_append {s1 s2 : List PathSegment} {c1 c2 : Caps W} {p1 p2 : List Bytes} (h1 : Fits W s1 c1 p1)
    (h2 : Fits W s2 c2 p2) : Fits W (s1 ++ s2) (c1 ++ c2) (p1 ++ p2) := by
  induction h1 with
  | nil => exact h2
  | static s _ ih => exact .static s ih
  | dynamic a b c _ ih => exact .dynamic a b c ih

theorem spell_snoc (parts : List Bytes) (part : Bytes) : spell (parts ++ [part]) = spell parts ++ (part ++ [slash]) := by
  simp [spell]

theorem Led.static {pth : List PathSegment} {caps : Caps W} {u : Str} {rest : Bytes}
    (h : Led W path pth caps (bytesOf u ++ slash :: rest)) : Led W path (pth ++ [.static u]) caps rest := by
  obtain ⟨parts, h1, h2⟩ := h
  refine ⟨parts ++ [bytesOf u], by simpa using fits_append h1 (.static u .nil), ?_⟩
  rw [h2, spell_snoc]; simp

theorem Led.param {pth : List PathSegment} {caps : Caps W} {p : Param} {v : W.V} {part rest : Bytes} {text : Str}
    (h : Led W path pth caps (part ++ slash :: rest)) (h1 : slash ∉ part) (h2 : fromUtf8 part = some text)
    (h3 : W.parse p.typ text = .ok v) : Led W path (pth ++ [.dynamic p]) (caps ++ [(p, v)]) rest := by
  obtain ⟨parts, h4, h5⟩ := h
  refine ⟨parts ++ [part], fits_append h4 (.dynamic h1 h2 h3 .nil), ?_⟩
  rw [h5, spell_snoc]; simp

theorem Led.behind {pth : List PathSegment} {caps : Caps W} {i : Nat} (h : Led W path pth caps (path.drop i)) (hi : i ≤ path.length)
    (hc : caps ≠ []) : SegmentAt path i := by
  obtain ⟨parts, h1, h2⟩ := h
  have hne : parts ≠ [] := by
    rintro rfl
    cases h1
    exact hc rfl
  obtain ⟨front, part, rfl⟩ := List.eq_nil_or_concat parts |>.resolve_left hne
  have hpre : ∃ pre, path = pre ++ stripSlash path := by
    cases path with
    | nil => exact ⟨[], by simp [stripSlash]⟩
    | cons b rest => by_cases hb : b = slash
                     · exact ⟨[slash], by simp [stripSlash, hb]⟩
                     · exact ⟨[], by simp [stripSlash, hb]⟩
  obtain ⟨pre, hpre⟩ := hpre
  rw [h2, List.concat_eq_append, spell_snoc] at hpre
  refine ⟨pre ++ (spell front ++ part), path.drop i, by simpa using hpre, ?_⟩
  have := congrArg List.length hpre
  simp only [List.length_append, List.length_drop, List.length_cons, List.length_nil] at this ⊢
  omega

theorem Led.taken {pth : List PathSegment} {caps : Caps W} {p : Param} {v : W.V} {part rest : Bytes} {text : Str}
    (h : Led W path pth caps (part ++ rest)) (h0 : rest = [] ∨ rest.head? = some slash) (h1 : slash ∉ part)
    (h2 : fromUtf8 part = some text) (h3 : W.parse p.typ text = .ok v) : ¬ Untaken W path (pth ++ [.dynamic p]) := by
  obtain ⟨parts, h4, h5⟩ := h
  intro hu
  refine hu _ _ (fits_append h4 (.dynamic h1 h2 h3 .nil)) ?_
  rw [h5, spell_snoc]
  rcases h0 with rfl | h0
  · simp
  · cases rest with
    | nil => simp at h0
    | cons b more =>
      simp only [List.head?_cons, Option.some.injEq] at h0
      subst h0
      exact ⟨more ++ [slash], by simp⟩

theorem seen_static {rs : List Resource} {ns : List NestedRoutes} {qs : List Param}
    {pth : List PathSegment} (h : Seen S W path pth (.mk rs ns qs)) {n : NestedRoutes} (hn : n ∈ ns) {s : Str}
    (hs : n.pathSegment = .static s) : Seen S W path (pth ++ [.static s]) n.routes := by
  obtain ⟨seg, sub⟩ := n
  simp only [NestedRoutes.pathSegment_mk] at hs
  subst hs
  constructor
  · intro segs above node hl
    have := h.names _ _ _ (.static (r := .mk rs ns qs) hn hl)
    simpa using this
  · intro segs p above node hl
    have := h.free (.static s :: segs) p _ _ (.static (r := .mk rs ns qs) hn hl)
    simpa using this

theorem seen_param {rs : List Resource} {ns : List NestedRoutes} {qs : List Param}
    {pth : List PathSegment} (h : Seen S W path pth (.mk rs ns qs)) {n : NestedRoutes} (hn : n ∈ ns) {p : Param}
    (hs : n.pathSegment = .dynamic p) (hc : captor ns = some p.name) :
    Seen S W path (pth ++ [.dynamic p]) n.routes := by
  obtain ⟨seg, sub⟩ := n
  simp only [NestedRoutes.pathSegment_mk] at hs
  subst hs
  constructor
  · intro segs above node hl
    have := h.names _ _ _ (.dynamic (r := .mk rs ns qs) hn hc hl)
    simpa using this
  · intro segs p' above node hl
    have := h.free (.dynamic p :: segs) p' _ _ (.dynamic (r := .mk rs ns qs) hn hc hl)
    simpa using this

theorem Seen.own {rs : List Resource} {ns : List NestedRoutes} {qs : List Param}
    {pth : List PathSegment} (h : Seen S W path pth (.mk rs ns qs)) {n : NestedRoutes} (hn : n ∈ ns) {p : Param}
    (hs : n.pathSegment = .dynamic p) (hc : captor ns = some p.name) :
    p.name ∉ ownNames ∨ Untaken W path (pth ++ [.dynamic p]) := by
  obtain ⟨seg, sub⟩ := n
  simp only [NestedRoutes.pathSegment_mk] at hs
  subst hs
  have := h.free [] p _ _ (.dynamic (r := .mk rs ns qs) hn hc (.here _))
  simpa using this

theorem Seen.caps {pth : List PathSegment} {rs : List Resource} {ns : List NestedRoutes}
    {qs : List Param} (h : Seen S W path pth (.mk rs ns qs)) (hp : paramNames ns ≠ []) {caps : Caps W}
    (hd : dynamics pth = caps.map Prod.fst) :
    ∀ pv ∈ caps, pv.1.name ≠ c!"text" ∧ (pv.1.name = c!"start" → pv.1.typ = c!"usize" ∧ S) := fun pv hpv =>
  h.names _ _ _ (.here _) pv.1 (by
    rw [List.append_nil, hd]; exact List.mem_map_of_mem hpv) hp

/-- What the code for a block does. -/
def BlockClaim (S : Prop) (W : World) (path m : Bytes) (fuel : Nat) : Prop :=
  ∀ (t : RouteTrie) (body : List Stmt) (r : Routes) (pth : List PathSegment) (q : List Param)
    (caps : Caps W) (s : State W),
    t.depth ≤ fuel → codegenTrie fuel t = .ok body → Rep t (BlockItems r pth q) →
    DistinctSiblings r → Seen S W path pth r → dynamics pth = caps.map Prod.fst → Accepted body →
    EnvNear S path caps s.env → s.i ≤ path.length → Led W path pth caps (path.drop s.i) →
    Gives S path (execBlock path m body s) (route W m r q caps (path.drop s.i))

/-- What the code for a node inside a static segment does; `own` restricts the element stored at
the node itself. -/
def StaticClaim (S : Prop) (W : World) (path m : Bytes) (gen : RouteTrie → Except GenFail (List Stmt))
    (bound : Nat) (own : RouteTrie → Prop) : Prop :=
  ∀ (t : RouteTrie) (body : List Stmt) (ns : List NestedRoutes) (u : Str) (pth : List PathSegment)
    (q : List Param) (caps : Caps W) (s : State W),
    t.depth ≤ bound → own t → gen t = .ok body → Desc t (StaticItems ns u pth q) →
    (ns.Pairwise fun a b => ¬ SameSlot a.pathSegment b.pathSegment) →
    (∀ n ∈ ns, DistinctSiblings n.routes ∧
      ∀ s, n.pathSegment = .static s → Seen S W path (pth ++ [.static s]) n.routes) →
    dynamics pth = caps.map Prod.fst → Accepted body → EnvNear S path caps s.env → s.i ≤ path.length →
    Led W path pth caps (bytesOf u ++ path.drop s.i) →
    Gives S path (execBlock path m body s)
      ((routeStatic W m (kidsFrom ns u) q caps (bytesOf u ++ path.drop s.i)).getD .notFound)

theorem exec_separatorHead {caps : Caps W} {s : State W} {c : RouteTrie} {r : Routes}
    {pth : List PathSegment} {q : List Param} (hr : Rep c (BlockItems r pth q))
    (hd : dynamics pth = caps.map Prod.fst) (henv : EnvNear S path caps s.env) (rest : List Stmt) :
    (s.i = path.length → Gives S path (execBlock path m (separatorHead c.data ++ rest) s) (atEnd m r q caps)) ∧
    (s.i ≠ path.length → execBlock path m (separatorHead c.data ++ rest) s = execBlock path m rest s) := by
  rw [rep_block_data hr]
  simp only [separatorHead]
  by_cases hrs : r.resources = []
  · simp only [hrs, List.length_nil, ne_eq, not_true, if_false, List.cons_append, List.nil_append,
      exec_ifEnd henv.ok, atEnd, if_true]
    exact ⟨fun h => by rw [if_pos h]; exact gives_ret _, fun h => by rw [if_neg h]⟩
  · have : r.resources.length ≠ 0 := by simpa using hrs
    rw [if_pos this]
    simp only [atEnd, if_neg hrs]
    exact exec_methods henv _ hd rest

/-- The separator and what follows it. -/
theorem sepSim {fuel : Nat} (hA : BlockClaim S W path m fuel) {caps : Caps W} {s : State W}
    {c : RouteTrie} {b : List Stmt} {r : Routes} {pth : List PathSegment} {q : List Param}
    (hdep : c.depth ≤ fuel) (hgen : codegenTrie fuel c = .ok b) (hr : Rep c (BlockItems r pth q))
    (hds : DistinctSiblings r) (hhy : Seen S W path pth r) (hd : dynamics pth = caps.map Prod.fst)
    (hok : Accepted b) (henv : EnvNear S path caps s.env) (hi : s.i ≤ path.length)
    (hat : ∀ rest, path.drop s.i = slash :: rest → Led W path pth caps rest) :
    Gives S path (execBlock path m (separatorHead c.data ++
        (.matchPath 1 [.bytes c!"/" [.addI 1], .wildNotFound] :: b)) s)
      (enter W m r q caps (path.drop s.i)) := by
  have hsep := exec_separatorHead (m := m) hr hd henv (.matchPath 1 [.bytes c!"/" [.addI 1], .wildNotFound] :: b)
  by_cases he : s.i = path.length
  · have : path.drop s.i = [] := by rw [List.drop_eq_nil_iff]; omega
    rw [this]
    exact hsep.1 he
  · rw [hsep.2 he, exec_matchLit henv.ok (by omega)]
    have hlt : s.i < path.length := by omega
    rw [List.drop_eq_getElem_cons hlt]
    have htk : List.take 1 (path[s.i] :: path.drop (s.i + 1)) = [path[s.i]] := rfl
    rw [htk]
    simp only [enter]
    by_cases hb : path[s.i] = slash
    · rw [if_pos (by rw [hb]; rfl), if_pos hb]
      exact hA c b r pth q caps { s with i := s.i + 1 } hdep hgen hr hds hhy hd hok henv (by simp; omega)
        (hat _ (by rw [List.drop_eq_getElem_cons hlt, hb]))
    · rw [if_neg hb, if_neg]
      · exact gives_ret _
      intro h
      apply hb
      have : bytesOf c!"/" = [slash] := rfl
      rw [this] at h
      simpa using h

/-- Code for the children of a node inside a static segment, or of a block without parameters. -/
theorem staticSim {fuel : Nat} (hA : BlockClaim S W path m fuel)
    (hC : StaticClaim S W path m (codegenTrie fuel) fuel fun t => t.data = none) :
    StaticClaim S W path m (genChildren fuel) (fuel + 1) fun _ => True := by
  intro t body ns u pth q caps s hdep _ hgen hdesc hpw hsub hd hok henv hi hat
  simp only [genChildren] at hgen
  split at hgen
  · rename_i hcs
    simp only [Except.ok.injEq] at hgen
    subst hgen
    rw [exec_retNotFound, desc_kids_nil hdesc hcs]
    simp only [routeStatic, Option.getD_none]
    exact gives_ret _
  · rename_i seg c hcs
    have hm : (seg, c) ∈ t.children := by rw [hcs]; simp
    have hlt := Trie.depth_lt_of_mem hm
    cases seg with
    | dynamic x => exact absurd hm (no_dynamic_child hdesc x c)
    | separator =>
      simp only [genSingle] at hgen
      cases hg : codegenTrie fuel c with
      | error e => simp [hg] at hgen
      | ok b =>
        simp only [hg, Except.ok.injEq] at hgen
        subst hgen
        obtain ⟨n, hn, hseg, hk, hrep⟩ := desc_sep_only hdesc hcs hpw
        have hok' : Accepted b := hok.append.2
        have := sepSim hA (by omega) hg hrep (hsub n hn).1 ((hsub n hn).2 u hseg)
          (by rw [dynamics_append, hd]; simp [dynamics]) hok' henv hi
          (fun rest hr => by rw [hr] at hat; exact hat.static)
        simp only [List.append_assoc, List.cons_append, List.nil_append]
        rw [hk]
        simp only [routeStatic, routeStatic1_prefix hseg, Option.getD_some]
        exact this
    | static ch =>
      simp only [genSingle] at hgen
      cases hsc : staticChain fuel [ch] c with
      | mk str c' =>
        simp only [hsc] at hgen
        obtain ⟨w, rfl, hrep, hk, hdd⟩ := staticChain_desc fuel [ch] (u ++ [ch]) c str c'
          (hdesc.static_child hm) hsc
        cases hg : codegenTrie fuel c' with
        | error e => simp [hg] at hgen
        | ok b =>
          simp only [hg, Except.ok.injEq] at hgen
          subst hgen
          simp only [List.cons_append, List.nil_append] at hok hrep ⊢
          have hchars := (Accepted.tail hok).matchPath.bytes.1
          have hokb := hok.tail.tail
          have hlen := utf8Len_eq hchars
          rw [hlen]
          have hk2 : kidsFrom ns u = kidsFrom ns (u ++ ch :: w) := by
            rw [kids_of_single hdesc (ch := ch) (by
              intro k c' hm'
              rw [hcs] at hm'
              simp only [List.mem_cons, Prod.mk.injEq, List.not_mem_nil, or_false] at hm'
              exact .inl hm'.1) hm, hk]
            simp
          rw [exec_lenTest henv.ok (by simp) hi]
          by_cases hshort : path.length < s.i + (ch :: w).length
          · rw [if_pos hshort, routeStatic_chain_stop hk2]
            · exact gives_ret _
            · intro hp
              have := hp.length_le
              simp only [bytesOf_length, List.length_drop] at this
              omega
          · rw [if_neg hshort, exec_matchLit henv.ok (by omega)]
            by_cases hp : (path.drop s.i).take (ch :: w).length = bytesOf (ch :: w)
            · rw [if_pos hp]
              have hbs : path.drop s.i = bytesOf (ch :: w) ++ path.drop (s.i + (ch :: w).length) := by
                rw [← hp, ← List.drop_drop, List.take_append_drop]
              have := hC c' b ns (u ++ ch :: w) pth q caps { s with i := s.i + (ch :: w).length }
                (by omega) (rep_static_data hrep) hg (by simpa using hrep.desc) hpw hsub hd hokb henv (by simp only; omega)
                (by rw [hbs] at hat; simpa using hat)
              rw [hk2]
              rw [hbs]
              simpa using this
            · rw [if_neg hp, routeStatic_chain_stop hk2]
              · exact gives_ret _
              · intro hpre
                apply hp
                have := List.prefix_iff_eq_take.1 hpre
                rw [bytesOf_length] at this
                exact this.symm
  · have hfd : findDynamic t.children = none :=
      findDynamic_none.2 fun x c' => no_dynamic_child hdesc x c'
    simp only [genMulti, hfd] at hgen
    split at hgen
    · cases hgen
    · cases hg : ambiguousArms (codegenTrie fuel) t.children with
      | error e => simp [hg] at hgen
      | ok arms =>
        simp only [hg, Except.ok.injEq] at hgen
        subst hgen
        simp only [Option.isSome_none, Bool.false_eq_true, if_false, List.nil_append] at hok ⊢
        have harms := (Accepted.tail hok).matchPath
        have hall := ambiguousArms_accepted hg harms
        have hnosep : ∀ n ∈ ns, n.pathSegment ≠ .static u := by
          intro n hn hseg
          obtain ⟨t', hm'⟩ := (sep_child_iff hdesc).2 ⟨n, hn, hseg⟩
          obtain ⟨ch, hk, _⟩ := hall _ _ hm'
          cases hk
        have hchars : ∀ n ∈ ns, ∀ c' rest, n.pathSegment = .static (u ++ c' :: rest) →
            byteStrChar c' = true := by
          intro n hn c' rest hseg
          obtain ⟨t', hm'⟩ := (static_child_iff hdesc c').2 ⟨n, hn, rest, hseg⟩
          obtain ⟨ch, hk, hb, _⟩ := hall _ _ hm'
          cases hk; exact hb
        rw [exec_ifEnd henv.ok]
        by_cases he : s.i = path.length
        · rw [if_pos he]
          have hnil : path.drop s.i = [] := by rw [List.drop_eq_nil_iff]; omega
          rw [routeStatic_stop hnosep]
          · exact gives_ret _
          · intro n hn c' rest hseg
            rw [hnil]; simp
        · rw [if_neg he]
          have hlt : s.i < path.length := by omega
          have hcons := List.drop_eq_getElem_cons hlt
          have hexec : ∀ o, Gives S path (execArms path m [path[s.i]] (arms ++ [.wildNotFound]) s) o →
              Gives S path (execBlock path m [.matchPath 1 (arms ++ [.wildNotFound])] s) o := by
            rintro o ⟨o', ho, hnear⟩
            refine ⟨o', ?_, hnear⟩
            have h1 : s.i + 1 ≤ path.length := hlt
            have h2 : List.take 1 (path.drop s.i) = [path[s.i]] := by rw [hcons]; rfl
            simp only [execBlock, Stmt.exec, State.pathOk, henv.ok.path, Option.isNone_none,
              readI_eq henv.ok, h1, if_true, h2, ho]
          apply hexec
          rcases exec_ambiguousArms (path := path) (m := m) henv.ok (path[s.i]) hg harms with
            ⟨ch, c, b, hm, hb, hgb, ho⟩ | ⟨hnone, ho⟩
          · obtain ⟨ch', hk', hbc, b', hb', hokb⟩ := hall _ _ hm
            cases hk'
            rw [hgb, Except.ok.injEq] at hb'
            subst hb'
            have hltd := Trie.depth_lt_of_mem hm
            have := hC c b ns (u ++ [ch]) pth q caps { s with i := s.i + 1 } (by omega)
              (rep_static_data (hdesc.static_child hm)) hgb (hdesc.static_child hm).desc hpw hsub hd hokb henv hlt
              (by rw [hcons, ← hb] at hat; simpa [bytesOf] using hat)
            rw [hcons, ← hb, routeStatic_step hnosep hbc hchars, hb]
            obtain ⟨o', h1, h2⟩ := this
            exact ⟨o', ho o' h1, h2⟩
          · rw [ho, routeStatic_stop hnosep]
            · exact gives_ret _
            · intro n hn c' rest hseg h
              obtain ⟨t', hm'⟩ := (static_child_iff hdesc c').2 ⟨n, hn, rest, hseg⟩
              rw [hcons] at h
              exact hnone _ _ hm' (Option.some.inj h).symm

/-- The same for a whole node inside a static segment. -/
theorem staticSim_node {fuel : Nat} (hB : StaticClaim S W path m (genChildren fuel) (fuel + 1) fun _ => True) :
    StaticClaim S W path m (codegenTrie (fuel + 1)) (fuel + 1) fun t => t.data = none := by
  intro t body ns u pth q caps s hdep hown hgen hrep hpw hsub hd hok henv hi hat
  obtain ⟨cb, hcb, rfl⟩ := codegenTrie_succ_ok hgen
  rw [hown] at hok ⊢
  exact hB t cb ns u pth q caps s hdep trivial hcb hrep hpw hsub hd hok henv hi hat


/-- The code that captures a parameter. -/
theorem dynSim {fuel : Nat} (hA : ∀ k < fuel, BlockClaim S W path m k) {caps : Caps W} {s : State W}
    {t c : RouteTrie} {db : List Stmt} {rs : List Resource} {ns : List NestedRoutes} {qs : List Param}
    {pth : List PathSegment} {q : List Param} {x : Str}
    (hdesc : Desc t (BlockItems (.mk rs ns qs) pth q))
    (hm : (Charlike.dynamic x, c) ∈ t.children) (hdep : c.depth ≤ fuel)
    (hgen : writeDynamic (codegenTrie fuel) x c = .ok db)
    (hpw : ns.Pairwise fun a b => ¬ SameSlot a.pathSegment b.pathSegment)
    (hsub : ∀ n ∈ ns, DistinctSiblings n.routes) (hhy : Seen S W path pth (.mk rs ns qs))
    (hcap : captor ns = some x)
    (hd : dynamics pth = caps.map Prod.fst) (hok : Accepted db) (henv : EnvNear S path caps s.env)
    (hi : s.i ≤ path.length) (hat : Led W path pth caps (path.drop s.i)) (hstart : lookupVar c!"start" s.env = some (.usize s.i)) :
    Gives S path (execBlock path m db s) (routeParam W m x ns (q ++ qs) caps (path.drop s.i)) := by
  obtain ⟨c2, hc2, b, hb, rfl⟩ := writeDynamic_ok hgen
  obtain ⟨n, hn, p, hseg, rfl, hdata, hpaths, hrep⟩ := hdesc.dynamic_child hpw hm
  have hrep2 := hrep c2 hc2
  obtain ⟨k, b2, rfl, hb2, hbeq⟩ := codegenTrie_sep hb hc2 hdata
  have hokb := hok.append.2
  have hokb2 : Accepted b2 := by rw [hbeq] at hokb; exact hokb.append.2.tail
  obtain ⟨T, hT⟩ := (hok.append.1.tail.tail.tail.tail).letParam
  have hwf := hdesc.wf.of_child (hdesc.mem_iff.1 hm)
  obtain ⟨rfl, hfresh⟩ := inferred_type (codegenTrie_literals _ c b hwf hb) hpaths hokb hT
  have hhy' := seen_param hhy hn hseg hcap
  have hown' := hhy.own hn hseg hcap
  have hpar : paramNames ns ≠ [] := by
    intro hnil; simp [captor, hnil] at hcap
  rw [exec_dynamicHead henv.ok hi hstart hT]
  have hlt : c2.depth < c.depth := Trie.depth_lt_of_mem (k := .separator) (by rw [hc2]; simp)
  have hgoal : ∀ o, routeParam1 W m p.name n (q ++ qs) caps (path.drop s.i) = some o →
      routeParam W m p.name ns (q ++ qs) caps (path.drop s.i) = o := fun o ho =>
    routeParam_unique hseg rfl ho hn hpw
  obtain ⟨seg, r⟩ := n
  simp only [NestedRoutes.pathSegment_mk] at hseg
  subst hseg
  simp only [routeParam1, if_true] at hgoal
  cases hu : fromUtf8 ((path.drop s.i).takeWhile (· ≠ slash)) with
  | none =>
    simp only [hu] at hgoal ⊢
    rw [hgoal _ rfl]
    exact gives_ret _
  | some text =>
    simp only [hu] at hgoal ⊢
    cases hparse : W.parse p.typ text with
    | error e =>
      simp only [hparse] at hgoal ⊢
      rw [hgoal _ rfl]
      exact gives_ret _
    | ok v =>
      simp only [hparse] at hgoal ⊢
      have hlen := length_takeWhile_add_dropWhile (· ≠ slash) (path.drop s.i)
      rw [List.length_drop] at hlen
      have hdw : path.drop (s.i + ((path.drop s.i).takeWhile (· ≠ slash)).length) =
          (path.drop s.i).dropWhile (· ≠ slash) := by
        rw [← List.drop_drop]
        conv => lhs; rhs; rw [← List.takeWhile_append_dropWhile (p := (· ≠ slash)) (l := path.drop s.i)]
        simp only [List.drop_left']
      have hsplit := List.takeWhile_append_dropWhile (p := (· ≠ slash)) (l := path.drop s.i)
      have hnos : slash ∉ (path.drop s.i).takeWhile (· ≠ slash) := not_mem_takeWhile_slash _
      have hown : p.name ∉ ownNames := hown'.resolve_right (Led.taken (by rw [hsplit]; exact hat) (by
        cases hdd : (path.drop s.i).dropWhile (· ≠ slash) with
        | nil => exact .inl rfl
        | cons b0 rest => exact .inr (by rw [dropWhile_slash hdd]; rfl)) hnos hu hparse)
      have henv2 := (henv.text (fun pv hpv => (hhy.caps hpar hd pv hpv).1) (.str text)).param hown (v := v) (fun pv hpv => by
        refine hfresh pv.1 ?_
        rw [hd]; exact List.mem_map_of_mem hpv)
      have := sepSim (hA k (by omega)) (s := State.mk (s.i + ((path.drop s.i).takeWhile (· ≠ slash)).length)
              ((p.name, .user v) :: (c!"text", .str text) :: s.env)) (by omega) hb2 hrep2
        (by simpa using hsub _ hn) hhy' (by
          rw [dynamics_append, hd]; simp [dynamics]) hokb2 henv2 (by simp only; omega)
        (fun rest hr => Led.param (by rw [← hr, hdw, hsplit]; exact hat) hnos hu hparse)
      rw [hbeq, hgoal (enter W m r (q ++ qs) (caps ++ [(p, v)])
        (path.drop (s.i + ((path.drop s.i).takeWhile (· ≠ slash)).length)))]
      · exact this
      · rw [hdw]
        cases hdd : (path.drop s.i).dropWhile (· ≠ slash) with
        | nil => rfl
        | cons b0 rest =>
          simp only [enter]
          rw [if_pos (dropWhile_slash hdd)]


/-- The children of a block with a parameter child. -/
theorem paramBlockSim {fuel : Nat} (hA : ∀ k < fuel, BlockClaim S W path m k)
    (hC : StaticClaim S W path m (codegenTrie fuel) fuel fun t => t.data = none)
    {t : RouteTrie} {cb : List Stmt} {rs : List Resource} {ns : List NestedRoutes} {qs : List Param}
    {pth : List PathSegment} {q : List Param} {caps : Caps W} {s : State W}
    (hdep : t.depth ≤ fuel + 1) (hgen : genChildren fuel t = .ok cb)
    (hdesc : Desc t (BlockItems (.mk rs ns qs) pth q))
    (hds : DistinctSiblings (.mk rs ns qs)) (hhy : Seen S W path pth (.mk rs ns qs))
    (hd : dynamics pth = caps.map Prod.fst) (hok : Accepted cb) (henv : EnvNear S path caps s.env)
    (hi : s.i ≤ path.length) (hat : Led W path pth caps (path.drop s.i)) (hpar : paramNames ns ≠ []) :
    Gives S path (execBlock path m cb s) (
      if stuck ns (path.drop s.i) then .panic
      else
        match (if preferStatic ns then routeStatic W m ns (q ++ qs) caps (path.drop s.i) else none) with
        | some o => o
        | none =>
          match captor ns with
          | none => .notFound
          | some x => routeParam W m x ns (q ++ qs) caps (path.drop s.i)) := by
  obtain ⟨hpw, hsub⟩ := distinctSiblings_mk.1 hds
  -- a parameter child exists
  obtain ⟨y, hy⟩ := List.exists_mem_of_ne_nil _ hpar
  obtain ⟨cy, hmy⟩ := (dynamic_child_iff hdesc y).2 hy
  have hfd : ∃ x c, findDynamic t.children = some (x, c) := by
    cases hf : findDynamic t.children with
    | none => exact absurd hmy (findDynamic_none.1 hf y cy)
    | some xc => exact ⟨xc.1, xc.2, rfl⟩
  obtain ⟨x, c, hfd⟩ := hfd
  have hmx := findDynamic_mem hfd
  have hxin : x ∈ paramNames ns := (dynamic_child_iff hdesc x).1 ⟨c, hmx⟩
  have hcap : captor ns = some x := captor_eq hxin fun y' hy' => by
    obtain ⟨c', hm'⟩ := (dynamic_child_iff hdesc y').2 hy'
    exact findDynamic_least hdesc.wf.sorted_children hfd y' c' hm'
  have hltx := Trie.depth_lt_of_mem hmx
  have hpe : (paramNames ns).isEmpty = false := by simpa using hpar
  simp only [hcap]
  simp only [genChildren] at hgen
  split at hgen
  · rename_i hcs; rw [hcs] at hmx; cases hmx
  · -- the parameter is the only child
    rename_i seg c' hcs
    have : (seg, c') = (Charlike.dynamic x, c) := by
      rw [hcs] at hmx; exact (List.mem_singleton.1 hmx).symm
    obtain ⟨rfl, rfl⟩ := Prod.mk.inj this
    simp only [genSingle] at hgen
    cases hg : writeDynamic (codegenTrie fuel) x c' with
    | error e => simp [hg] at hgen
    | ok db =>
      simp only [hg, Except.ok.injEq] at hgen
      subst hgen
      have hst : staticTexts ns = [] := by
        cases hs : staticTexts ns with
        | nil => rfl
        | cons a as =>
          exfalso
          obtain ⟨n, hn, hseg⟩ := mem_staticTexts.1 (show a ∈ staticTexts ns by rw [hs]; simp)
          cases a with
          | nil =>
            obtain ⟨c2, hm2⟩ := (block_sep_child_iff hdesc).2 ⟨n, hn, hseg⟩
            rw [hcs] at hm2; simp at hm2
          | cons ch rest =>
            obtain ⟨c2, hm2⟩ := (block_static_child_iff hdesc ch).2 ⟨n, hn, rest, hseg⟩
            rw [hcs] at hm2; simp at hm2
      have h1 : stuck ns (path.drop s.i) = false := by simp [stuck, hst]
      have h2 : preferStatic ns = false := by simp [preferStatic, hst, hpe]
      have := dynSim (s := State.mk s.i ((c!"start", .usize s.i) :: s.env)) hA hdesc hmx (by omega) hg
        hpw hsub hhy hcap hd hok.tail (henv.start (hat.behind hi) fun pv hpv => (hhy.caps hpar hd pv hpv).2) hi hat (by simp [lookupVar])
      rw [exec_letStart henv.ok]
      simpa [h1, h2] using this
  · -- several children
    simp only [genMulti, hfd, Option.isSome_some, if_true] at hgen
    have hnofuel : fuel ≠ 0 := by
      rintro rfl
      have := c.depth_pos
      omega
    cases hup : unambiguousPrefix fuel [] 0 t with
    | mk un ln =>
      obtain ⟨l, next⟩ := ln
      simp only [hup] at hgen
      split at hgen
      · rename_i hun
        cases hgn : codegenTrie fuel next with
        | error e => simp [hgn] at hgen
        | ok sb =>
          simp only [hgn] at hgen
          cases hg : writeDynamic (codegenTrie fuel) x c with
          | error e => simp [hg] at hgen
          | ok db =>
            simp only [hg, Except.ok.injEq] at hgen
            subst hgen
            -- the first step of the static run
            obtain ⟨k, rfl⟩ := Nat.exists_eq_succ_of_ne_zero hnofuel
            simp only [unambiguousPrefix] at hup
            split at hup
            · simp only [Prod.mk.injEq] at hup
              exact absurd hup.1.symm hun
            rename_i hnosep
            have hns : ∀ c, (Charlike.separator, c) ∉ t.children := fun c hm =>
              hnosep (List.any_eq_true.2 ⟨_, hm, rfl⟩)
            split at hup
            case h_2 =>
              simp only [Prod.mk.injEq] at hup
              exact absurd hup.1.symm hun
            rename_i ch t1 hopt
            have hm1 : (Charlike.static ch, t1) ∈ t.children := mem_staticOptions.1 (by rw [hopt]; simp)
            have hlt1 := Trie.depth_lt_of_mem hm1
            have hdep1 : t1.depth ≤ k + 1 := by omega
            -- the depth of the first node also fits the remaining fuel
            have hkids0 : kidsFrom ns [] = kidsFrom ns [ch] := by
              apply kidsFrom_extend (u := []) (w := [ch])
              intro n hn rest hseg
              simp only [List.nil_append] at hseg
              cases rest with
              | nil =>
                obtain ⟨c2, hm2⟩ := (block_sep_child_iff hdesc).2 ⟨n, hn, hseg⟩
                exact absurd hm2 (hns c2)
              | cons ch' rest =>
                obtain ⟨c2, hm2⟩ := (block_static_child_iff hdesc ch').2 ⟨n, hn, rest, hseg⟩
                have := mem_staticOptions.2 hm2
                rw [hopt] at this
                simp only [List.mem_cons, Prod.mk.injEq, List.not_mem_nil, or_false] at this
                exact ⟨rest, by simp [this.1]⟩
            obtain ⟨n1, hn1, rest1, hseg1⟩ := (block_static_child_iff hdesc ch).1 ⟨t1, hm1⟩
            obtain ⟨w, rfl, hrepn, hkw, hdn, hcase⟩ := unambiguousPrefix_desc k _ [ch] _ _ _ _ _
              (hdesc.block_static_child hm1) hdep1 ⟨n1, hn1, rest1, by simpa using hseg1⟩ hup
            have hkids : kidsFrom ns [] = kidsFrom ns (ch :: w) := by rw [hkids0, hkw]; rfl
            have hl : l ≠ 0 := by rcases hcase with ⟨h, _⟩ | ⟨h, _⟩ <;> omega
            simp only [List.nil_append, List.cons_append, hl, if_false, exec_blank] at hok hrepn ⊢
            rw [exec_letStart henv.ok, exec_blank]
            have henv2 := henv.start (hat.behind hi) fun pv hpv => (hhy.caps hpar hd pv hpv).2
            have hokif := hok.tail.tail.tail
            have hokarm := hokif.ifThen.matchPath.bytes
            have hokdb := hokif.tail
            have hdyn := dynSim (s := State.mk s.i ((c!"start", .usize s.i) :: s.env)) hA hdesc hmx
              (by omega) hg hpw hsub hhy hcap hd hokdb henv2 hi hat (by simp [lookupVar])
            rcases hcase with ⟨hl', cs, hsepm⟩ | ⟨hl', hnosepn, hopts⟩
            · -- exactly one static child
              have honly := codegenTrie_sep_only hrepn hgn hokarm.2.tail hsepm
              obtain ⟨n, hn, hseg, hkn, _⟩ := desc_sep_only hrepn.desc honly hpw
              have hk1 : kidsFrom ns [] = [n] := by rw [hkids]; exact hkn
              have hst := staticTexts_of_single hk1 hseg
              have hll : l = (ch :: w).length := by simp; omega
              subst hll
              have hpref : preferStatic ns = true := by simp [preferStatic, hst]
              have hrs : ∀ bs : Bytes, routeStatic W m ns (q ++ qs) caps bs =
                  routeStatic1 W m n (q ++ qs) caps bs := by
                intro bs
                rw [routeStatic_kids, hk1]
                simp only [routeStatic]
                cases routeStatic1 W m n (q ++ qs) caps bs <;> rfl
              rw [hpref, if_pos rfl, hrs]
              by_cases hstuck : s.i = path.length ∧ w = []
              · obtain ⟨he, rfl⟩ := hstuck
                have hnil : path.drop s.i = [] := by rw [List.drop_eq_nil_iff]; omega
                have : stuck ns (path.drop s.i) = true := by simp [stuck, hnil, hst, hpe]
                rw [this, if_pos rfl]
                simp only [List.length_cons, List.length_nil, Nat.zero_add, if_true]
                exact ⟨_, exec_staticBranch_stuck henv2.ok he, .inl rfl⟩
              · have hns' : stuck ns (path.drop s.i) = false := by
                  simp only [stuck, hst, hpe]
                  by_cases hw : w = []
                  · have : ¬ path.length ≤ s.i := fun h => hstuck ⟨by omega, hw⟩
                    simp [this]
                  · simp [hw]
                rw [hns']
                simp only [Bool.false_eq_true, if_false]
                have hfit : s.i + (ch :: w).length ≤ path.length ∨ (ch :: w).length ≠ 1 := by
                  by_cases hw : w = []
                  · left
                    subst hw
                    have : s.i ≠ path.length := fun h => hstuck ⟨h, rfl⟩
                    simp; omega
                  · right
                    simpa using hw
                by_cases hhit : (path.drop s.i).take (ch :: w).length = bytesOf (ch :: w)
                · have hfit' : s.i + (ch :: w).length ≤ path.length := by
                    have := congrArg List.length hhit
                    simp only [List.length_take, List.length_drop, bytesOf_length] at this
                    omega
                  have hbs : path.drop s.i = bytesOf (ch :: w) ++ path.drop (s.i + (ch :: w).length) := by
                    rw [← hhit, ← List.drop_drop, List.take_append_drop]
                  have := hC next sb ns (ch :: w) pth (q ++ qs) caps
                    (State.mk (s.i + (ch :: w).length) ((c!"start", .usize s.i) :: s.env))
                    (by omega) (rep_static_data hrepn) hgn hrepn.desc hpw
                    (fun n hn => ⟨hsub n hn, fun s hs => seen_static hhy hn hs⟩) hd hokarm.2.tail henv2 hfit'
                    (by rw [hbs] at hat; exact hat)
                  obtain ⟨o', ho, hnear⟩ := this
                  refine ⟨o', exec_staticBranch_hit (s := State.mk s.i ((c!"start", .usize s.i) :: s.env))
                    henv2.ok hfit' hhit ho, ?_⟩
                  simp only at hnear
                  rw [← hbs] at hnear
                  have hr1 : routeStatic W m (kidsFrom ns (ch :: w)) (q ++ qs) caps (path.drop s.i) =
                      routeStatic1 W m n (q ++ qs) caps (path.drop s.i) := by
                    rw [← hkids, ← routeStatic_kids, hrs]
                  rw [hr1, hbs, routeStatic1_prefix hseg] at hnear
                  rw [hbs, routeStatic1_prefix hseg]
                  exact hnear
                · rw [exec_staticBranch_miss (s := State.mk s.i ((c!"start", .usize s.i) :: s.env))
                    henv2.ok hfit (fun _ => hhit), routeStatic1_not_prefix hseg]
                  · exact hdyn
                  intro hpre
                  apply hhit
                  have := List.prefix_iff_eq_take.1 hpre
                  rw [bytesOf_length] at this
                  exact this.symm
            · -- several static children: the branch is never taken
              have hlen2 : (staticTexts ns).length ≠ 1 := by
                intro hone
                rw [staticTexts_kids, hkids] at hone
                obtain ⟨n, hkn⟩ := List.length_eq_one_iff.1 hone
                obtain ⟨hn, rest, hseg⟩ := mem_kidsFrom.1
                  (show n ∈ kidsFrom ns (ch :: w) by rw [hkn]; simp)
                cases rest with
                | nil =>
                  obtain ⟨c2, hm2⟩ := (sep_child_iff hrepn.desc).2 ⟨n, hn, by simpa using hseg⟩
                  exact hnosepn c2 hm2
                | cons ch' rest =>
                  obtain ⟨c2, hm2⟩ := (static_child_iff hrepn.desc ch').2 ⟨n, hn, rest, hseg⟩
                  apply hopts
                  have hall : ∀ z ∈ staticOptions next.children, z = (ch', c2) := by
                    rintro ⟨ch'', c3⟩ hz
                    have hz' := mem_staticOptions.1 hz
                    obtain ⟨n2, hn2, rest2, hseg2⟩ := (static_child_iff hrepn.desc ch'').1 ⟨c3, hz'⟩
                    have : n2 ∈ kidsFrom ns (ch :: w) := mem_kidsFrom.2 ⟨hn2, _, hseg2⟩
                    rw [hkn] at this
                    simp only [List.mem_cons, List.not_mem_nil, or_false] at this
                    subst this
                    rw [hseg] at hseg2
                    simp only [PathSegment.static.injEq, List.append_cancel_left_eq,
                      List.cons.injEq] at hseg2
                    obtain ⟨rfl, _⟩ := hseg2
                    rw [hrepn.desc.unique hz' hm2]
                  have hnd := staticOptions_nodup hrepn.wf.sorted_children
                  exact length_one_of_unique hnd (mem_staticOptions.2 hm2) hall
              have h1 : stuck ns (path.drop s.i) = false := by
                simp only [stuck, Bool.and_eq_false_iff]
                right
                rw [Bool.eq_false_iff]
                intro h
                apply hlen2
                have := congrArg List.length (beq_iff_eq.1 h)
                simpa using this
              have h2 : preferStatic ns = false := by
                simp [preferStatic, hpe, hlen2]
              rw [exec_staticBranch_miss (s := State.mk s.i ((c!"start", .usize s.i) :: s.env))
                henv2.ok (.inr (by omega)), h1, h2]
              · exact hdyn
              · intro hfit h
                have hh := congrArg List.length h
                simp only [List.length_take, List.length_drop, bytesOf_length, List.length_cons] at hh hfit
                omega
      · cases hg : ambiguousArms (codegenTrie fuel) t.children with
        | error e => simp [hg] at hgen
        | ok arms =>
          simp only [hg, Except.ok.injEq] at hgen
          subst hgen
          simp only [List.cons_append, List.nil_append] at hok
          obtain ⟨ch, hk, _⟩ := ambiguousArms_accepted hg hok.tail.tail.tail.tail.matchPath _ _ hmx
          cases hk

/-- One step of the induction for blocks. -/
theorem blockSim {fuel : Nat} (hA : ∀ k ≤ fuel, BlockClaim S W path m k)
    (hC : StaticClaim S W path m (codegenTrie fuel) fuel fun t => t.data = none) :
    BlockClaim S W path m (fuel + 1) := by
  intro t body r pth q caps s hdep hgen hrep hds hhy hd hok henv hi hat
  obtain ⟨cb, hcb, rfl⟩ := codegenTrie_succ_ok hgen
  have hokcb := hok.append.2
  obtain ⟨rs, ns, qs⟩ := r
  obtain ⟨hpw, hsub⟩ := distinctSiblings_mk.1 hds
  have hchildren : ¬ (path.drop s.i = [] ∧ rs ≠ []) →
      Gives S path (execBlock path m cb s) (route W m (.mk rs ns qs) q caps (path.drop s.i)) := by
    intro hcond
    simp only [route, if_neg hcond]
    by_cases hpar : paramNames ns = []
    · have hdesc : Desc t (StaticItems ns [] pth (q ++ qs)) := hrep.desc.congr fun k ks v => by
        cases k with
        | static ch => exact blockItems_static
        | separator => exact blockItems_sep
        | dynamic x =>
          constructor
          · intro h
            obtain ⟨n, hn, p, ks', hseg, hx, _⟩ := blockItems_dynamic.1 h
            have : x ∈ paramNames ns := mem_paramNames.2 ⟨n, hn, p, hseg, hx⟩
            rw [hpar] at this; cases this
          · intro h; exact absurd h staticItems_dynamic
      have := staticSim (hA fuel (Nat.le_refl _)) hC t cb ns [] pth (q ++ qs) caps s hdep trivial hcb
        hdesc hpw (fun n hn => ⟨hsub n hn, fun s hs => seen_static hhy hn hs⟩) hd hokcb henv hi
        (by simpa using hat)
      rw [← routeStatic_kids] at this
      have h1 : stuck ns (path.drop s.i) = false := by simp [stuck, hpar]
      have h2 : preferStatic ns = true := by simp [preferStatic, hpar]
      have h3 : captor ns = none := by simp [captor, hpar]
      simp only [bytesOf_nil, List.nil_append] at this
      simp only [h1, h2, h3, Bool.false_eq_true, if_false, if_true]
      cases hr : routeStatic W m ns (q ++ qs) caps (path.drop s.i) <;> rw [hr] at this <;> exact this
    · exact paramBlockSim (fun k hk => hA k (Nat.le_of_lt hk)) hC hdep hcb hrep.desc hds hhy hd hokcb
        henv hi hat hpar
  have hnil : path.drop s.i = [] ↔ s.i = path.length := by
    rw [List.drop_eq_nil_iff]; omega
  have hown : ownMethods t.data = if rs = [] then [] else writeMethods ⟨pth, rs, q ++ qs⟩ := by
    rw [rep_block_data hrep]
    cases rs <;> rfl
  rw [hown]
  by_cases hrs : rs = []
  · rw [if_pos hrs, List.nil_append]
    exact hchildren (by simp [hrs])
  · rw [if_neg hrs]
    have hmeth := exec_methods (m := m) henv ⟨pth, rs, q ++ qs⟩ hd cb
    by_cases he : s.i = path.length
    · simp only [route]
      rw [if_pos ⟨hnil.2 he, hrs⟩]
      exact hmeth.1 he
    · rw [hmeth.2 he]
      exact hchildren (fun h => he (hnil.1 h.1))

theorem claims (S : Prop) (W : World) (path m : Bytes) : ∀ fuel, BlockClaim S W path m fuel ∧
    StaticClaim S W path m (codegenTrie fuel) fuel fun t => t.data = none := by
  intro fuel
  induction fuel using Nat.strongRecOn with
  | ind fuel ih =>
    cases fuel with
    | zero =>
      constructor
      · intro t body r pth q caps s _ hgen
        simp [codegenTrie] at hgen
      · intro t body ns u pth q caps s _ _ hgen
        simp [codegenTrie] at hgen
    | succ fuel =>
      have hA : ∀ k ≤ fuel, BlockClaim S W path m k := fun k hk => (ih k (by omega)).1
      have hC := (ih fuel (by omega)).2
      exact ⟨blockSim hA hC, staticSim_node (staticSim (hA fuel (Nat.le_refl _)) hC)⟩

theorem PlainRoute.no_params {r node : Routes} {segs : List PathSegment} (h : PlainRoute r segs node) :
    routeParams segs = [] := by
  induction h with
  | here r => rfl
  | static _ _ _ ih => simpa [routeParams] using ih

/-- What compiling says about the names of parameters, with nothing said about `start`. -/
theorem seen_of {r : Routes} (hu : ParamsUsed r) (hno : NamesOk r)
    (hlen : ∀ segs p above node, LiveRoute r (segs ++ [.dynamic p]) above node → p.name = c!"len" →
      Untaken W path (segs ++ [.dynamic p])) :
    Seen (StartHidden r) W path [] r := by
  refine ⟨?_, fun segs p above node h1 => ?_⟩
  case refine_2 =>
    obtain ⟨n1, n2, n3⟩ := hno.own _ _ _ _ h1
    by_cases n4 : p.name = c!"len"
    · exact .inr (by simpa using hlen _ _ _ _ h1 n4)
    · exact .inl (by simp [ownNames, n1, n2, n3, n4])
  intro segs above node hl p hp hpar
  rw [List.nil_append, dynamics_eq_routeParams] at hp
  obtain ⟨s1, s2, rfl⟩ := mem_split hp
  obtain ⟨q1, q2, mid, h1, h2⟩ := hl.split
  obtain ⟨p', sub, hn, hc⟩ := captor_live hpar
  have hl' : LiveRoute node [.dynamic p'] (node.queryParameters ++ []) sub := .dynamic hn hc (.here _)
  obtain ⟨s, a, n, hl'', hr⟩ := hu _ _ _ _ (hl.trans hl')
  refine ⟨fun ht => ?_, fun hs => ?_⟩
  · have := (hl.trans hl').trans hl''
    rw [show s1 ++ [PathSegment.dynamic p] ++ s2 ++ [.dynamic p'] ++ s =
      s1 ++ .dynamic p :: (s2 ++ [.dynamic p'] ++ s) by simp] at this
    have := hno.text _ _ _ _ _ this hr ht
    simp [routeParams] at this
  · refine ⟨?_, _, _, _, _, _, _, _, h1, hs, h2, hpar⟩
    refine hno.startType _ _ _ _ h1 hs _ _ _ ((h2.trans hl').trans hl'') hr fun hplain => ?_
    have := PlainRoute.no_params hplain
    simp [routeParams] at this

/-- Every function that compiles is near the reference router, unless a parameter called `len` gets a value; only parameters
behind one called `start` make a difference. -/
theorem call_near_if (W : World) {r : Routes} {body : List Stmt} (path m : Bytes)
    (hbody : matcherBody r = .ok body) (hcomp : compiles body = true)
    (hlen : ∀ segs p above node, LiveRoute r (segs ++ [.dynamic p]) above node → p.name = c!"len" →
      Untaken W path (segs ++ [.dynamic p])) :
    NearIf (StartHidden r) path (callMatchRoute W body path m) (referenceRouter W r path m) := by
  obtain ⟨_, _, hu, hno⟩ := (matcherBody_compiles hbody).1 hcomp
  have hhy := seen_of (W := W) (path := path) hu hno hlen
  simp only [matcherBody] at hbody
  cases ht : toTrie r with
  | none => simp [ht] at hbody
  | some t =>
    simp only [ht] at hbody
    have hds : DistinctSiblings r := (toTrie_isSome_iff r).1 ⟨t, ht⟩
    have hok : Accepted body := by
      simp only [compiles, Bool.and_eq_true] at hcomp
      exact ⟨hcomp.1, [], hcomp.2⟩
    have hi : (initialState W path).i ≤ path.length := by
      simp only [initialState]
      split
      · rename_i h
        cases path with
        | nil => simp at h
        | cons b rest => simp
      · exact Nat.zero_le _
    have hdrop : path.drop (initialState W path).i = stripSlash path := by
      simp only [initialState]
      cases path with
      | nil => simp [stripSlash]
      | cons b rest => by_cases hb : b = slash <;> simp [stripSlash, hb, slash]
    obtain ⟨o, ho, hnear⟩ := (claims _ W path m t.depth).1 t body r [] [] [] (initialState W path) (Nat.le_refl _) hbody
      (toTrie_rep ht) hds hhy (by simp [dynamics]) hok
      ⟨⟨rfl, rfl, rfl, rfl, by simp⟩, .inl (by simp)⟩ hi ⟨[], .nil, by rw [hdrop]; simp [spell]⟩
    have : route W m r [] [] (path.drop (initialState W path).i) = referenceRouter W r path m := by
      simp only [referenceRouter, initialState]
      congr 1
      split <;> rfl
    rw [this] at hnear
    simpa only [callMatchRoute, hcomp, if_true, ho] using hnear

theorem call_near (W : World) {r : Routes} {body : List Stmt} (path m : Bytes)
    (hbody : matcherBody r = .ok body) (hcomp : compiles body = true)
    (hlen : ∀ segs p above node, LiveRoute r (segs ++ [.dynamic p]) above node → p.name = c!"len" →
      Untaken W path (segs ++ [.dynamic p])) :
    (callMatchRoute W body path m).Near path (referenceRouter W r path m) :=
  (call_near_if W path m hbody hcomp hlen).imp_right And.right

end Wayfinder.Offset
