import Verif.Spec.Alike
import Verif.Props.Config
import Verif.Props.File
/-!
# C73: when two configurations answer alike

Two programs give the same answer to every request, whatever `FromStr` does, exactly if their configurations have the same
table: the same open routes, with the same first resource for each verb.
-/

namespace Wayfinder

variable {W : World} {r r' : Routes} {body body' : List Stmt}

/-! ## Steps -/

/-- `sub` is a child of `r` that requests can get to. -/
def OpenStep (r : Routes) (seg : PathSegment) (sub : Routes) : Prop :=
  NestedRoutes.mk seg sub ∈ r.routes ∧
    match seg with
    | .static s => paramNames r.routes = [] ∨ staticTexts r.routes = [s]
    | .dynamic p => captor r.routes = some p.name

theorem OpenStep.open {seg : PathSegment} {sub node : Routes} {segs : List PathSegment} {above : List Param} (h : OpenStep r seg sub)
    (ho : Open sub segs above node) : Open r (seg :: segs) (r.queryParameters ++ above) node := by
  cases seg with
  | static s => exact .static h.1 h.2 ho
  | dynamic p => exact .dynamic h.1 h.2 ho

theorem OpenStep.live {seg : PathSegment} {sub : Routes} (h : OpenStep r seg sub) : LiveRoute r [seg] (r.queryParameters ++ []) sub := by
  cases seg with
  | static s => exact .static h.1 (.here _)
  | dynamic p => exact .dynamic h.1 h.2 (.here _)

theorem Open.step {seg : PathSegment} {segs : List PathSegment} {above : List Param} {node : Routes}
    (h : Open r (seg :: segs) above node) :
    ∃ sub above', OpenStep r seg sub ∧ Open sub segs above' node ∧ above = r.queryParameters ++ above' := by
  cases h with
  | static h1 h2 h3 => exact ⟨_, _, ⟨h1, h2⟩, h3, rfl⟩
  | dynamic h1 h2 h3 => exact ⟨_, _, ⟨h1, h2⟩, h3, rfl⟩

theorem OpenStep.unique {seg : PathSegment} {sub sub' : Routes} (hd : DistinctSiblings r) (h : OpenStep r seg sub) (h' : OpenStep r seg sub') :
    sub = sub' :=
  (same_child hd h.1 h'.1 (by cases seg <;> simp [SameSlot])).2

theorem Full.child (h : Full r) {seg : PathSegment} {sub : Routes} (hn : NestedRoutes.mk seg sub ∈ r.routes) : Full sub :=
  fun _ _ _ hr => h _ _ _ (.child hn hr)

theorem first_some {rs : List Resource} (h : rs ≠ []) :
    ∃ before res after, rs = before ++ res :: after ∧ ∀ o ∈ before, o.method ≠ res.method := by
  cases rs with
  | nil => exact absurd rfl h
  | cons res rs => exact ⟨[], res, rs, rfl, by simp⟩

/-- Some request gets somewhere in every block. -/
theorem Full.bears (r : Routes) : Full r → ∀ q, ∃ x, Serves r q x := by
  induction r using Routes.ind with
  | h rs ns qs ih =>
    intro hf q
    rcases hf _ _ _ (.here _) with h | h
    · obtain ⟨before, res, after, h1, h2⟩ := first_some h
      exact ⟨res.serving [] (q ++ ([] ++ qs).map Param.name), [], .mk rs ns qs, before, res, after, .here _, h1, h2, rfl⟩
    · have : ∃ seg sub, OpenStep (.mk rs ns qs) seg sub := by
        by_cases hp : paramNames ns = []
        · cases ns with
          | nil => exact absurd rfl h
          | cons n ns =>
            obtain ⟨seg, sub⟩ := n
            refine ⟨seg, sub, List.mem_cons_self .., ?_⟩
            cases seg with
            | static s => exact .inl hp
            | dynamic p => simp [paramNames] at hp
        · obtain ⟨p, sub, h1, h2⟩ := captor_child hp
          exact ⟨.dynamic p, sub, h1, h2⟩
      obtain ⟨seg, sub, hst⟩ := this
      obtain ⟨x, above, node, before, res, after, h1, h2, h3, h4⟩ := ih _ hst.1 (hf.child hst.1) (q ++ qs.map Param.name)
      exact ⟨res.serving (seg :: x.segs) (q ++ (qs ++ above ++ node.queryParameters).map Param.name), _, node, before, res, after,
        hst.open h1, h2, h3, by simp [Resource.serving, Routes.queryParameters]⟩

/-- The line of a route of a child. -/
def Serving.under (x : Serving) (seg : PathSegment) : Serving := { x with segs := seg :: x.segs }

theorem OpenStep.serves {seg : PathSegment} {sub : Routes} (hd : DistinctSiblings r) (h : OpenStep r seg sub) (q : List Str) (x : Serving) :
    Serves r q (x.under seg) ↔ Serves sub (q ++ r.queryParameters.map Param.name) x := by
  constructor
  · rintro ⟨above, node, before, res, after, h1, h2, h3, h4⟩
    obtain ⟨sub', above', h5, h6, rfl⟩ := h1.step
    cases h.unique hd h5
    refine ⟨above', node, before, res, after, h6, h2, h3, ?_⟩
    obtain ⟨segs, verb, red, mods, name, query⟩ := x
    simp only [Serving.under, Resource.serving, Serving.mk.injEq, true_and] at h4 ⊢
    simpa using h4
  · rintro ⟨above, node, before, res, after, h1, h2, h3, h4⟩
    refine ⟨_, node, before, res, after, h.open h1, h2, h3, ?_⟩
    obtain ⟨segs, verb, red, mods, name, query⟩ := x
    simp only [Serving.under, Resource.serving, Serving.mk.injEq, true_and] at h4 ⊢
    simpa using h4

theorem Serves.step {q : List Str} {seg : PathSegment} {x : Serving} (h : Serves r q (x.under seg)) : ∃ sub, OpenStep r seg sub := by
  obtain ⟨_, _, _, _, _, h1, _⟩ := h
  obtain ⟨sub, _, h2, _⟩ := h1.step
  exact ⟨sub, h2⟩

/-! ## The same table -/

/-- The same lines, below blocks with the query parameters `q` and `q'`. -/
structure SameTable (r : Routes) (q : List Str) (r' : Routes) (q' : List Str) : Prop where
  sound : Sound r
  sound' : Sound r'
  full : Full r
  full' : Full r'
  same : ∀ x, Serves r q x ↔ Serves r' q' x

variable {q q' : List Str}

theorem SameTable.symm (h : SameTable r q r' q') : SameTable r' q' r q := ⟨h.sound', h.sound, h.full', h.full, fun x => (h.same x).symm⟩

theorem SameTable.step (h : SameTable r q r' q') {seg : PathSegment} {sub : Routes} (hst : OpenStep r seg sub) :
    ∃ sub', OpenStep r' seg sub' ∧
      SameTable sub (q ++ r.queryParameters.map Param.name) sub' (q' ++ r'.queryParameters.map Param.name) := by
  obtain ⟨x, hx⟩ := Full.bears sub (h.full.child hst.1) (q ++ r.queryParameters.map Param.name)
  obtain ⟨sub', hst'⟩ := ((h.same _).1 ((hst.serves h.sound.distinct q x).2 hx)).step
  refine ⟨sub', hst', h.sound.child hst.live, h.sound'.child hst'.live, h.full.child hst.1, h.full'.child hst'.1, fun x => ?_⟩
  rw [← hst.serves h.sound.distinct, h.same, hst'.serves h.sound'.distinct]

theorem SameTable.params (h : SameTable r q r' q') (hp : paramNames r.routes ≠ []) : paramNames r'.routes ≠ [] := by
  obtain ⟨p, sub, h1, h2⟩ := captor_child hp
  obtain ⟨sub', h3, _⟩ := h.step (seg := .dynamic p) ⟨h1, h2⟩
  intro he
  have := h3.2
  simp only [captor_eq_none.2 he] at this
  cases this

theorem SameTable.only (h : SameTable r q r' q') (hp : paramNames r.routes ≠ []) {s : Str} (hs : staticTexts r.routes = [s]) :
    staticTexts r'.routes = [s] := by
  obtain ⟨n, hn, hseg⟩ := mem_staticTexts'.1 (show s ∈ staticTexts r.routes by rw [hs]; simp)
  obtain ⟨seg, sub⟩ := n
  subst hseg
  obtain ⟨sub', h3, _⟩ := h.step (seg := .static s) ⟨hn, .inr hs⟩
  rcases h3.2 with h4 | h4
  · exact absurd h4 (h.params hp)
  · exact h4

theorem SameTable.first (h : SameTable r q r' q') {before after : List Resource} {res : Resource} (hr : r.resources = before ++ res :: after)
    (hb : ∀ o ∈ before, o.method ≠ res.method) :
    ∃ before' res' after', r'.resources = before' ++ res' :: after' ∧ (∀ o ∈ before', o.method ≠ res'.method) ∧
      res.serving [] (q ++ r.queryParameters.map Param.name) = res'.serving [] (q' ++ r'.queryParameters.map Param.name) := by
  have h1 : Serves r q (res.serving [] (q ++ r.queryParameters.map Param.name)) :=
    ⟨[], r, before, res, after, .here _, hr, hb, by simp [Resource.serving]⟩
  obtain ⟨above, node, before', res', after', h2, h3, h4, h5⟩ := (h.same _).1 h1
  have h2 : Open r' [] above node := h2
  cases h2
  exact ⟨before', res', after', h3, h4, by rw [h5]; simp [Resource.serving]⟩

theorem SameTable.resources (h : SameTable r q r' q') (hr : r.resources ≠ []) : r'.resources ≠ [] := by
  obtain ⟨before, res, after, h1, h2⟩ := first_some hr
  obtain ⟨before', res', after', h3, _⟩ := h.first h1 h2
  rw [h3]; simp

theorem SameTable.takes (h : SameTable r q r' q') {p : Param} {sub : Routes} {part : Bytes} {more : List Bytes} (ht : Takes r p sub part more) :
    ∃ sub', Takes r' p sub' part more ∧
      SameTable sub (q ++ r.queryParameters.map Param.name) sub' (q' ++ r'.queryParameters.map Param.name) := by
  obtain ⟨sub', h1, h2⟩ := h.step (seg := .dynamic p) ⟨ht.child, ht.first⟩
  have hp : paramNames r'.routes ≠ [] := by
    intro he
    have := h1.2
    simp only [captor_eq_none.2 he] at this
    cases this
  refine ⟨sub', ⟨h1.1, h1.2, fun s hs => ht.free s (h.symm.only hp hs), fun e1 e2 => ⟨?_, fun c hc => ?_⟩⟩, h2⟩
  · refine Classical.byContradiction fun hr => ?_
    exact h.symm.resources hr (ht.goes e1 e2).1
  · exact (ht.goes e1 e2).2 c (h.symm.only hp hc)

theorem SameTable.cliff (h : SameTable r q r' q') (hc : Cliff r) : Cliff r' := by
  obtain ⟨h1, h2, c, h3⟩ := hc
  refine ⟨?_, h.params h2, c, h.only h2 h3⟩
  exact Classical.byContradiction fun hr => h.symm.resources hr h1

theorem SameTable.arrives {segs : List PathSegment} {above : List Param} {caps : Caps W} {pieces rest : List Bytes} {node : Routes}
    (ha : Arrives W r segs above caps pieces node rest) {q q' : List Str} {r' : Routes} (h : SameTable r q r' q') :
    ∃ above' node', Arrives W r' segs above' caps pieces node' rest ∧
      SameTable node (q ++ above.map Param.name) node' (q' ++ above'.map Param.name) := by
  induction ha generalizing q q' r' with
  | here => exact ⟨_, _, .here _ _, by simpa using h⟩
  | @static r sub node s segs above caps pieces rest hn h1 _ ih =>
    obtain ⟨sub', h2, h3⟩ := h.step (seg := .static s) ⟨hn, h1⟩
    obtain ⟨above', node', h4, h5⟩ := ih h3
    exact ⟨_, node', .static h2.1 h2.2 h4, by simpa using h5⟩
  | @dynamic r sub node p segs above caps part pieces rest v text ht hu hp _ ih =>
    obtain ⟨sub', h2, h3⟩ := h.takes ht
    obtain ⟨above', node', h4, h5⟩ := ih h3
    exact ⟨_, node', .dynamic h2 hu hp h4, by simpa using h5⟩

theorem SameTable.answer {above above' : List Param} (h : SameTable r (above.map Param.name) r' (above'.map Param.name)) (caps : Caps W)
    (m : Bytes) : answer r.resources (above ++ r.queryParameters) caps m = answer r'.resources (above' ++ r'.queryParameters) caps m := by
  cases hf : r.resources.find? (fun r => r.method.bytes = m) with
  | some res =>
    obtain ⟨_, rfl, before, after, h2, h3⟩ := find_verb hf
    have h3 : ∀ o ∈ before, o.method ≠ res.method := fun o ho he => h3 o ho (by rw [he])
    obtain ⟨before', res', after', h4, h5, h6⟩ := h.first h2 h3
    simp only [Resource.serving, Serving.mk.injEq, true_and] at h6
    obtain ⟨e1, e2, e3, e4, e5⟩ := h6
    have a1 := answer_first h2 h3 (above ++ r.queryParameters) caps
    have a2 := answer_first h4 h5 (above' ++ r'.queryParameters) caps
    have e : matchOf res caps (above ++ r.queryParameters) = matchOf res' caps (above' ++ r'.queryParameters) := by
      simp only [matchOf, e3, e4, RouteVal.mk.injEq, true_and]
      simpa using e5
    rw [← e1, ← e2, ← e] at a2
    exact a1.trans a2.symm
  | none =>
    have a1 : Wayfinder.answer r.resources (above ++ r.queryParameters) caps m = .notAllowed := by simp [Wayfinder.answer, hf]
    rw [a1]
    refine (answer_notAllowed.2 fun res' hm he => ?_).symm
    obtain ⟨res1, hf1⟩ : ∃ x, r'.resources.find? (fun r => r.method.bytes = m) = some x := by
      cases hf' : r'.resources.find? (fun r => r.method.bytes = m) with
      | some x => exact ⟨x, rfl⟩
      | none =>
        have := List.find?_eq_none.1 hf' res' hm
        rw [verbBytes_eq] at he
        simp [he] at this
    obtain ⟨_, rfl, before, after, h2, h3⟩ := find_verb hf1
    obtain ⟨before', res2, after', h4, _, h6⟩ := h.symm.first h2 fun o ho he => h3 o ho (by rw [he])
    simp only [Resource.serving, Serving.mk.injEq, true_and] at h6
    have := List.find?_eq_none.1 hf res2 (by rw [h4]; simp)
    rw [h6.1, verbBytes_eq] at this
    simp at this

theorem SameTable.go (h : SameTable r [] r' []) {pieces : List Bytes} (hc : Clear pieces) (m : Bytes) :
    go W m r [] [] pieces = go W m r' [] [] pieces := by
  have half : ∀ {r r' : Routes}, SameTable r [] r' [] → Exactly W r pieces →
      (∀ m q (caps : Caps W), Wayfinder.go W m r q caps pieces = .notFound) ∨
        Wayfinder.go W m r [] [] pieces = Wayfinder.go W m r' [] [] pieces := by
    intro r r' h he
    cases he with
    | answered h1 h2 h3 =>
      obtain ⟨above', node', h4, h5⟩ := h.arrives h1
      rw [go_answered h1 h.sound hc h2 h3, go_answered h4 h.sound' hc h2 (h5.resources h3)]
      exact .inr (h5.answer _ _)
    | fails h1 h2 h3 h4 =>
      obtain ⟨above', node', h5, h6⟩ := h.arrives h1
      obtain ⟨sub', h7, _⟩ := h6.takes h2
      rw [go_fails h1 h.sound hc h2 h3 h4, go_fails h5 h.sound' hc h7 h3 h4]
      exact .inr rfl
    | badText h1 h2 h3 =>
      obtain ⟨above', node', h5, h6⟩ := h.arrives h1
      obtain ⟨sub', h7, _⟩ := h6.takes h2
      rw [go_badText h1 h.sound hc h2 h3, go_badText h5 h.sound' hc h7 h3]
      exact .inr rfl
    | cliff h1 h2 =>
      obtain ⟨above', node', h5, h6⟩ := h.arrives h1
      rw [go_atCliff h1 h.sound hc h2, go_atCliff h5 h.sound' hc (h6.cliff h2)]
      exact .inr rfl
    | notFound h1 => exact .inl h1
  rcases half h (exactly_all W r h.sound _ hc) with h1 | h1
  · rcases half h.symm (exactly_all W r' h.sound' _ hc) with h2 | h2
    · rw [h1, h2]
    · exact h2.symm
  · exact h1

/-! ## What requests show of a configuration -/

/-- Every type parses `fresh` only, and the value is the name of the type. -/
def seeing : World := ⟨Str, Unit, fun typ t => if t = fresh then .ok typ else .error (), fun _ => none⟩

theorem seeing_lenient : Lenient seeing := fun typ => ⟨typ, by simp [seeing]⟩

theorem seeing_ok {typ t : Str} {v : seeing.V} (h : seeing.parse typ t = .ok v) : t = fresh ∧ v = typ := by
  simp only [seeing] at h
  split at h
  · rename_i ht
    injection h with h
    exact ⟨ht, h.symm⟩
  · cases h

theorem static_not_fresh (hs : Sound r) {s : Str} {sub : Routes} (hn : NestedRoutes.mk (.static s) sub ∈ r.routes) :
    s ≠ [] ∧ (∀ c ∈ s, c.toNat < 128) ∧ bytesOf s ≠ utf8 fresh := by
  have h1 := (hs.plain _ _ _ (.child hn (.here _)) _ (List.mem_cons_self ..)).1
  have h2 := (hs.shapely _ _ _ (.here _)).lt (mem_staticTexts'.2 ⟨_, hn, rfl⟩)
  exact ⟨h1, h2, fun e => ascii_not_prefix h1 h2 (by rw [e]; exact List.prefix_refl _)⟩

theorem seeing_segs {segs segs' : List PathSegment} {above above' : List Param} {caps caps' : Caps seeing} {parts rest : List Bytes}
    {node node' : Routes} (hf : Follows seeing r segs above caps parts node) (hs : Sound r) {r' : Routes} (hs' : Sound r')
    (ha : Arrives seeing r' segs' above' caps' (parts ++ [[]]) node' rest) (hfin : Finished rest)
    (hc : caps.map (fun pv => (pv.1.name, pv.2)) = caps'.map fun pv => (pv.1.name, pv.2)) : segs = segs' := by
  induction hf generalizing r' segs' above' caps' with
  | here =>
    generalize hpc : ([] ++ [[]] : List Bytes) = pieces at ha
    cases ha with
    | here => rfl
    | static hn _ _ =>
      simp only [List.nil_append, List.cons.injEq] at hpc
      have := (static_not_fresh hs' hn).1
      have he := hpc.1
      cases ‹Str› with
      | nil => exact absurd rfl this
      | cons c s => simp [bytesOf] at he
    | dynamic _ hu hp _ =>
      simp only [List.nil_append, List.cons.injEq] at hpc
      rw [← hpc.1] at hu
      obtain ⟨rfl, _⟩ := seeing_ok hp
      have := utf8_of_fromUtf8 hu
      rw [utf8_fresh] at this
      cases this
  | @static r sub node s segs above caps parts hn _ _ ih =>
    generalize hpc : bytesOf s :: parts ++ [[]] = pieces at ha
    obtain ⟨h1, h2, h3⟩ := static_not_fresh hs hn
    cases ha with
    | here =>
      rcases hfin with rfl | rfl
      · simp at hpc
      · simp at hpc
    | static hn' hpre' ha' =>
      simp only [List.cons_append, List.cons.injEq] at hpc
      obtain ⟨e1, rfl⟩ := hpc
      cases bytesOf_inj h2 (static_not_fresh hs' hn').2.1 e1
      rw [ih (hs.child (.static hn (.here _))) (hs'.child (.static hn' (.here _))) ha' hc]
    | dynamic ht hu hp ha' =>
      simp only [List.cons_append, List.cons.injEq] at hpc
      obtain ⟨rfl, _⟩ := seeing_ok hp
      rw [← hpc.1] at hu
      exact absurd (utf8_of_fromUtf8 hu) h3
  | @dynamic r sub node p segs above caps parts v part text hn hcap _ _ _ hu hp _ ih =>
    generalize hpc : part :: parts ++ [[]] = pieces at ha
    obtain ⟨rfl, rfl⟩ := seeing_ok hp
    cases ha with
    | here =>
      rcases hfin with rfl | rfl
      · simp at hpc
      · simp at hpc
    | static hn' hpre' ha' =>
      simp only [List.cons_append, List.cons.injEq] at hpc
      rw [utf8_of_fromUtf8 hu] at hpc
      exact absurd hpc.1.symm (static_not_fresh hs' hn').2.2
    | @dynamic _ _ _ p' _ _ _ _ _ _ v' text' ht hu' hp' ha' =>
      simp only [List.cons_append, List.cons.injEq] at hpc
      obtain ⟨rfl, rfl⟩ := hpc
      obtain ⟨rfl, rfl⟩ := seeing_ok hp'
      simp only [List.map_cons, List.cons.injEq] at hc
      have : p = p' := by
        obtain ⟨n, t⟩ := p
        obtain ⟨n', t'⟩ := p'
        have e1 : n = n' := congrArg Prod.fst hc.1
        have e2 : t = t' := congrArg Prod.snd hc.1
        rw [e1, e2]
      subst this
      rw [ih (hs.child (.dynamic hn hcap (.here _))) (hs'.child (.dynamic ht.child ht.first (.here _))) ha' hc.2]

/-- **C73, one direction.** If every answer of the first program is an answer of the second, with `FromStr` as above, then the
table of the first is contained in that of the second.  (Nothing is assumed of blocks without resources here.) -/
theorem C73_shown (h : Supported r body) (hp : PlainTexts r) (h' : Supported r' body') (hp' : PlainTexts r')
    (hall : ∀ path m, callMatchRoute seeing body path m = callMatchRoute seeing body' path m) (x : Serving)
    (hx : Serves r [] x) : Serves r' [] x := by
  obtain ⟨above, node, before, res, after, h1, h2, h3, h4⟩ := hx
  obtain ⟨caps, texts, h5, h6⟩ := h1.follows (h.sound hp) seeing_lenient
  have hm := C02_follows h hp h5 h2 h3 (path := slash :: spell (texts.map utf8)) (by simp [stripSlash, Spells])
  rw [hall] at hm
  obtain ⟨segs', above', caps', node', rest, before', res', after', g1, g2, g3, g4, g5, g6, g7⟩ := (C47_match h' hp' _ _ _ _).1 hm
  simp only [stripSlash, if_true] at g1
  rw [cut_spell (clear_texts h6)] at g1
  simp only [matchOf, RouteVal.mk.injEq] at g7
  obtain ⟨e1, e2, e3, e4⟩ := g7
  have hc : caps.map (fun pv => (pv.1.name, pv.2)) = caps'.map fun pv => (pv.1.name, pv.2) := by
    have e3' := congrArg (List.map (fun nv : Str × Val seeing => (nv.1, match nv.2 with | .user v => some v | _ => none))) e3
    simp only [List.map_map] at e3'
    have := congrArg (List.map (fun nv : Str × Option seeing.V => (nv.1, nv.2.getD ([] : Str)))) e3'
    simp only [List.map_map] at this
    exact this
  have hsegs := seeing_segs h5 (h.sound hp) (h'.sound hp') g1 g2 hc
  refine ⟨above', node', before', res', after', by rw [hsegs]; exact g1.open, g3, g5, ?_⟩
  rw [h4]
  simp only [Resource.serving, Serving.mk.injEq, true_and]
  refine ⟨verbBytes_inj g4, g6, e1, e2, ?_⟩
  simpa using e4

/-- **C73, the other direction.** Configurations with the same table, without empty blocks, answer every request alike. -/
theorem C73_same (h : Supported r body) (hp : PlainTexts r) (h' : Supported r' body') (hp' : PlainTexts r') (hf : Full r)
    (hf' : Full r') (hsame : ∀ x, Serves r [] x ↔ Serves r' [] x) (path m : Bytes) :
    callMatchRoute W body path m = callMatchRoute W body' path m := by
  rw [call_go h, call_go h']
  exact SameTable.go ⟨h.sound hp, h'.sound hp', hf, hf', hsame⟩ (cut_slash _) m

/-- **C73.** -/
theorem C73_exact (h : Supported r body) (hp : PlainTexts r) (h' : Supported r' body') (hp' : PlainTexts r') (hf : Full r)
    (hf' : Full r') :
    (∀ (W : World) path m, callMatchRoute W body path m = callMatchRoute W body' path m) ↔ ∀ x, Serves r [] x ↔ Serves r' [] x :=
  ⟨fun hall x => ⟨C73_shown h hp h' hp' (hall seeing) x, C73_shown h' hp' h hp (fun p m => (hall seeing p m).symm) x⟩,
    fun hsame _ path m => C73_same h hp h' hp' hf hf' hsame path m⟩

/-! ## The table, computed -/

theorem mem_firstOf {res : Resource} : ∀ {rs : List Resource} {seen : List Method}, res ∈ firstOf seen rs ↔
    res.method ∉ seen ∧ ∃ before after, rs = before ++ res :: after ∧ ∀ o ∈ before, o.method ≠ res.method
  | [], seen => by simp [firstOf]
  | a :: rs, seen => by
    have split : (∃ before after, a :: rs = before ++ res :: after ∧ ∀ o ∈ before, o.method ≠ res.method) ↔
        res = a ∨ a.method ≠ res.method ∧ ∃ before after, rs = before ++ res :: after ∧ ∀ o ∈ before, o.method ≠ res.method := by
      constructor
      · rintro ⟨before, after, h1, h2⟩
        cases before with
        | nil => simp at h1; exact .inl h1.1.symm
        | cons b before =>
          simp only [List.cons_append, List.cons.injEq] at h1
          obtain ⟨rfl, rfl⟩ := h1
          exact .inr ⟨h2 _ (by simp), before, after, rfl, fun o ho => h2 o (by simp [ho])⟩
      · rintro (rfl | ⟨h1, before, after, rfl, h2⟩)
        · exact ⟨[], rs, rfl, by simp⟩
        · refine ⟨a :: before, after, rfl, fun o ho => ?_⟩
          rcases List.mem_cons.1 ho with rfl | ho
          · exact h1
          · exact h2 o ho
    simp only [firstOf]
    rw [split]
    split
    · rename_i ha
      rw [mem_firstOf]
      constructor
      · rintro ⟨h1, h2⟩
        exact ⟨h1, .inr ⟨fun e => h1 (e ▸ ha), h2⟩⟩
      · rintro ⟨h1, rfl | ⟨_, h2⟩⟩
        · exact absurd ha h1
        · exact ⟨h1, h2⟩
    · rename_i ha
      rw [List.mem_cons, mem_firstOf]
      constructor
      · rintro (rfl | ⟨h1, h2⟩)
        · exact ⟨ha, .inl rfl⟩
        · simp only [List.mem_cons, not_or] at h1
          exact ⟨h1.2, .inr ⟨fun e => h1.1 e.symm, h2⟩⟩
      · rintro ⟨h1, rfl | ⟨h2, h3⟩⟩
        · exact .inl rfl
        · exact .inr ⟨by simp [h1, Ne.symm h2], h3⟩

theorem mem_tableOfAll {ps ts : List Str} {cap : Option Str} {segs : List PathSegment} {q : List Str} {x : Serving} :
    ∀ {ns : List NestedRoutes}, x ∈ tableOfAll ps ts cap segs q ns ↔ ∃ n ∈ ns, x ∈ tableOfChild ps ts cap segs q n
  | [] => by simp [tableOfAll]
  | n :: ns => by simp [tableOfAll, mem_tableOfAll (ns := ns)]

theorem mem_tableOf (r : Routes) : ∀ (pre : List PathSegment) (q : List Str) (x : Serving),
    x ∈ tableOf pre q r ↔ ∃ y, Serves r q y ∧ x = { y with segs := pre ++ y.segs } := by
  induction r using Routes.ind with
  | h rs ns qs ih =>
    intro pre q x
    simp only [tableOf, List.mem_append, List.mem_map, mem_tableOfAll]
    have hchild : ∀ n ∈ ns, (x ∈ tableOfChild (paramNames ns) (staticTexts ns) (captor ns) pre (q ++ qs.map Param.name) n ↔
        OpenStep (.mk rs ns qs) n.pathSegment n.routes ∧
          ∃ y, Serves n.routes (q ++ qs.map Param.name) y ∧ x = { y with segs := pre ++ [n.pathSegment] ++ y.segs }) := by
      intro n hn
      obtain ⟨seg, sub⟩ := n
      have hn' : NestedRoutes.mk seg sub ∈ (Routes.mk rs ns qs).routes := hn
      cases seg with
      | static s =>
        simp only [tableOfChild]
        split
        · rename_i hc
          have hc' : OpenStep (.mk rs ns qs) (.static s) sub := ⟨hn', hc⟩
          refine (ih _ hn (pre ++ [PathSegment.static s]) (q ++ qs.map Param.name) x).trans ?_
          exact ⟨fun h => ⟨hc', h⟩, fun h => h.2⟩
        · rename_i hc
          simp only [List.not_mem_nil, false_iff]
          rintro ⟨h1, _⟩
          exact hc h1.2
      | dynamic p =>
        simp only [tableOfChild]
        split
        · rename_i hc
          have hc' : OpenStep (.mk rs ns qs) (.dynamic p) sub := ⟨hn', hc⟩
          refine (ih _ hn (pre ++ [PathSegment.dynamic p]) (q ++ qs.map Param.name) x).trans ?_
          exact ⟨fun h => ⟨hc', h⟩, fun h => h.2⟩
        · rename_i hc
          simp only [List.not_mem_nil, false_iff]
          rintro ⟨h1, _⟩
          exact hc h1.2
    constructor
    · rintro (⟨res, h1, rfl⟩ | ⟨n, h1, h2⟩)
      · obtain ⟨_, before, after, h2, h3⟩ := mem_firstOf.1 h1
        exact ⟨res.serving [] (q ++ qs.map Param.name), ⟨[], .mk rs ns qs, before, res, after, .here _, h2, h3,
          by simp [Resource.serving, Routes.queryParameters]⟩, by simp [Resource.serving]⟩
      · obtain ⟨h3, y, ⟨above, node, before, res, after, h4, h5, h6, h7⟩, rfl⟩ := (hchild n h1).1 h2
        refine ⟨y.under n.pathSegment, ⟨_, node, before, res, after, h3.open h4, h5, h6, ?_⟩, by simp [Serving.under]⟩
        obtain ⟨segs, verb, red, mods, name, query⟩ := y
        simp only [Serving.under, Resource.serving, Serving.mk.injEq, true_and] at h7 ⊢
        simpa [Routes.queryParameters] using h7
    · rintro ⟨⟨segs, verb, red, mods, name, query⟩, ⟨above, node, before, res, after, h1, h2, h3, h4⟩, rfl⟩
      cases segs with
      | nil =>
        have h1 : Open (.mk rs ns qs) [] above node := h1
        cases h1
        exact .inl ⟨res, mem_firstOf.2 ⟨by simp, before, after, h2, h3⟩, by
          rw [h4]; simp [Resource.serving, Routes.queryParameters]⟩
      | cons seg segs =>
        obtain ⟨sub, above', h5, h6, rfl⟩ := Open.step h1
        refine .inr ⟨.mk seg sub, h5.1, (hchild _ h5.1).2 ⟨h5, ⟨segs, verb, red, mods, name, query⟩, ?_, by
          simp [NestedRoutes.pathSegment]⟩⟩
        refine ⟨above', node, before, res, after, h6, h2, h3, ?_⟩
        simp only [Resource.serving, Serving.mk.injEq, true_and] at h4 ⊢
        simpa [Routes.queryParameters] using h4

/-- **C73, the table.** The lines of `Serves` can be listed. -/
theorem C73_table (r : Routes) (x : Serving) : x ∈ tableOf [] [] r ↔ Serves r [] x := by
  rw [mem_tableOf]
  constructor
  · rintro ⟨y, h, rfl⟩; simpa using h
  · intro h; exact ⟨x, h, by simp⟩

/-- **C73, decided.** Whether two programs answer alike can be read off the configurations. -/
theorem C73_decided (h : Supported r body) (hp : PlainTexts r) (h' : Supported r' body') (hp' : PlainTexts r') (hf : Full r)
    (hf' : Full r') :
    (∀ (W : World) path m, callMatchRoute W body path m = callMatchRoute W body' path m) ↔ sameTable r r' = true := by
  rw [C73_exact h hp h' hp' hf hf']
  simp only [sameTable, Bool.and_eq_true, List.all_eq_true, decide_eq_true_eq, ← C73_table]
  exact ⟨fun h => ⟨fun x => (h x).1, fun x => (h x).2⟩, fun h x => ⟨h.1 x, h.2 x⟩⟩

/-- **C73, files.** Configurations read from route files have no empty blocks. -/
theorem C73_file {cfg : ParseCfg} {i rest : Str} {c : RouteConfig} (h : routeConfig cfg i = .ok rest c) : Full c.routes :=
  fun segs above node hr => ((C29_written cfg h).2 segs above node hr).2.1

/-! ## Cases -/

namespace Demo

/-- `people` written in another order, with the second `GET` of a block and a type of a query parameter changed: these cannot
be seen. -/
def peopleAnew : Routes :=
  .mk [res .get c!"home" c!"Index"]
    [.mk (.static c!"old") (.mk [⟨.get, [c!"people"], c!"List", true, []⟩] [] []),
     .mk (.static c!"people")
      (.mk [res .post c!"people" c!"Create", res .get c!"people" c!"List"]
        [.mk (.static c!"new") (.mk [res .get c!"people" c!"New"] [] []),
         .mk (.dynamic ⟨c!"id", c!"u32"⟩)
          (.mk [⟨.get, [c!"people"], c!"Show", false, []⟩]
            [.mk (.static c!"edit")
              (.mk [⟨.get, [c!"people"], c!"Edit", false, [⟨c!"tab", c!"usize"⟩]⟩] [] [])]
            [⟨c!"verbose", c!"u8"⟩])]
        [])]
    [⟨c!"lang", c!"String"⟩]

/-- Every block of a tree. -/
def fullAll : Nat → Routes → Bool
  | 0, _ => false
  | n + 1, .mk rs ns _ => (!rs.isEmpty || !ns.isEmpty) && ns.all fun x => fullAll n x.routes

theorem full_of : ∀ (n : Nat) {r : Routes}, fullAll n r = true → Full r
  | 0, r, h => by cases h
  | n + 1, .mk rs ns qs, h => by
    simp only [fullAll, Bool.and_eq_true, Bool.or_eq_true, List.all_eq_true, Bool.not_eq_true'] at h
    intro segs above node hr
    cases hr with
    | here =>
      rcases h.1 with h | h
      · left
        intro e
        change rs = [] at e
        simp [e] at h
      · right
        intro e
        change ns = [] at e
        simp [e] at h
    | child hn hr => exact full_of n (h.2 _ hn) _ _ _ hr

/-- The two answer alike. -/
example : Supported people (bodyOf people) ∧ Supported peopleAnew (bodyOf peopleAnew) ∧
    ∀ (W : World) path m, callMatchRoute W (bodyOf people) path m = callMatchRoute W (bodyOf peopleAnew) path m :=
  have h : Supported peopleAnew (bodyOf peopleAnew) := supported_of (by decide +kernel)
  ⟨people_supported, h, (C73_decided people_supported people_plain h (plainTexts_of (by decide)) (full_of 9 (by decide))
    (full_of 9 (by decide))).2 (by decide +kernel)⟩

/-- The static segment beside the parameter, in a block without resources or children. -/
def hollow : Routes :=
  .mk [] [.mk (.static c!"new") (.mk [] [] []), .mk (.dynamic ⟨c!"id", c!"u32"⟩) (.mk [res .get c!"people" c!"Show"] [] [])] []

/-- The same without it. -/
def solid : Routes := .mk [] [.mk (.dynamic ⟨c!"id", c!"u32"⟩) (.mk [res .get c!"people" c!"Show"] [] [])] []

/-- The type of a path parameter, on the other hand, can be seen. -/
example : ¬ ∀ (W : World) path m, callMatchRoute W (bodyOf solid) path m =
    callMatchRoute W (bodyOf (.mk [] [.mk (.dynamic ⟨c!"id", c!"i64"⟩) (.mk [res .get c!"people" c!"Show"] [] [])] [])) path m := by
  rw [C73_decided (supported_of (by decide +kernel)) (plainTexts_of (by decide)) (supported_of (by decide +kernel))
    (plainTexts_of (by decide)) (full_of 9 (by decide)) (full_of 9 (by decide))]
  decide +kernel

/-- **C73, empty blocks.** Without the condition on blocks, the tables do not decide: the empty block takes requests from
the parameter. -/
theorem C73_hollow : Supported hollow (bodyOf hollow) ∧ PlainTexts hollow ∧ Supported solid (bodyOf solid) ∧ PlainTexts solid ∧
    (∀ x, Serves hollow [] x ↔ Serves solid [] x) ∧
    callMatchRoute world (bodyOf hollow) (bytesOf c!"/new") (bytesOf c!"GET") ≠
      callMatchRoute world (bodyOf solid) (bytesOf c!"/new") (bytesOf c!"GET") := by
  refine ⟨supported_of (by decide +kernel), plainTexts_of (by decide), supported_of (by decide +kernel),
    plainTexts_of (by decide), fun x => ?_, ?_⟩
  · rw [← C73_table, ← C73_table, show tableOf [] [] hollow = tableOf [] [] solid from by decide +kernel]
  · intro h
    have := congrArg shown h
    revert this
    decide +kernel

end Demo

end Wayfinder
