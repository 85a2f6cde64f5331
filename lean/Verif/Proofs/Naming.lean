import Verif.Proofs.Scoping
/-!
# Which configurations compile, whatever their parameters are called
-/

namespace Wayfinder

/-! ## Routes -/

theorem HasRoute.trans {r node node' : Routes} {segs segs' : List PathSegment} {q q' : List Param}
    (h : HasRoute r segs q node) (h' : HasRoute node segs' q' node') :
    HasRoute r (segs ++ segs') (q ++ q') node' := by
  induction h with
  | here => exact h'
  | child hn _ ih => rw [List.append_assoc]; exact .child hn (ih h')

theorem LiveRoute.trans {r node node' : Routes} {segs segs' : List PathSegment} {q q' : List Param}
    (h : LiveRoute r segs q node) (h' : LiveRoute node segs' q' node') :
    LiveRoute r (segs ++ segs') (q ++ q') node' := by
  induction h with
  | here => exact h'
  | static hn _ ih => rw [List.append_assoc]; exact .static hn (ih h')
  | dynamic hn hc _ ih => rw [List.append_assoc]; exact .dynamic hn hc (ih h')

theorem LiveRoute.split : ∀ {segs segs' : List PathSegment} {r node : Routes} {q : List Param}, LiveRoute r (segs ++ segs') q node →
    ∃ q1 q2 mid, LiveRoute r segs q1 mid ∧ LiveRoute mid segs' q2 node
  | [], segs', r, node, q, h => ⟨[], q, r, .here r, h⟩
  | s :: segs, segs', r, node, q, h => by
    cases h with
    | static hn h' =>
      obtain ⟨q1, q2, mid, h1, h2⟩ := LiveRoute.split h'
      exact ⟨_, q2, mid, .static hn h1, h2⟩
    | dynamic hn hc h' =>
      obtain ⟨q1, q2, mid, h1, h2⟩ := LiveRoute.split h'
      exact ⟨_, q2, mid, .dynamic hn hc h1, h2⟩

theorem routeParams_append (a b : List PathSegment) :
    routeParams (a ++ b) = routeParams a ++ routeParams b := by
  simp [routeParams]

theorem mem_routeParams {segs : List PathSegment} {p : Param} :
    p ∈ routeParams segs ↔ PathSegment.dynamic p ∈ segs := by
  simp only [routeParams, List.mem_filterMap]
  constructor
  · rintro ⟨s, hs, h⟩
    cases s with
    | static => cases h
    | dynamic p' =>
      simp only [Option.some.injEq] at h
      exact h ▸ hs
  · intro h; exact ⟨_, h, rfl⟩

theorem same_child {r : Routes} (h : DistinctSiblings r) {a b : PathSegment} {sub sub' : Routes}
    (h1 : NestedRoutes.mk a sub ∈ r.routes) (h2 : NestedRoutes.mk b sub' ∈ r.routes) (hs : SameSlot a b) :
    a = b ∧ sub = sub' := by
  by_contra hne
  have hne : NestedRoutes.mk a sub ≠ .mk b sub' := fun he => hne (by cases he; exact ⟨rfl, rfl⟩)
  have hsym : Std.Symm (fun a b : NestedRoutes => ¬ SameSlot a.pathSegment b.pathSegment) :=
    ⟨fun a b h h' => h (by
      revert h'
      cases a.pathSegment <;> cases b.pathSegment <;> simp [SameSlot] <;> exact Eq.symm)⟩
  exact List.Pairwise.forall (h _ _ _ (.here r)) h1 h2 hne hs

theorem distinct_child {r sub : Routes} (h : DistinctSiblings r) {seg : PathSegment}
    (hn : NestedRoutes.mk seg sub ∈ r.routes) : DistinctSiblings sub :=
  fun _ _ _ hr => h _ _ _ (.child hn hr)

theorem PlainRoute.live {r node : Routes} {segs : List PathSegment} (h : PlainRoute r segs node) :
    (∃ above, LiveRoute r segs above node) ∧ routeParams segs = [] := by
  induction h with
  | here r => exact ⟨⟨[], .here r⟩, rfl⟩
  | static _ hn _ ih =>
    obtain ⟨⟨above, hl⟩, hp⟩ := ih
    exact ⟨⟨_, .static hn hl⟩, hp⟩

theorem Walk.append {r mid node : Routes} {sc scm sc' : Scope} {segs segs' : List PathSegment}
    {q q' : List Param} (h : Walk r sc segs q mid scm) (h' : Walk mid scm segs' q' node sc') :
    Walk r sc (segs ++ segs') (q ++ q') node sc' := by
  induction h with
  | here => exact h'
  | static hn _ ih => rw [List.append_assoc]; exact .static hn (ih h')
  | dynamic hn hc _ ih => rw [List.append_assoc]; exact .dynamic hn hc (ih h')

theorem Walk.split : ∀ {segs segs' : List PathSegment} {r node : Routes} {q : List Param} {sc sc' : Scope},
    Walk r sc (segs ++ segs') q node sc' →
    ∃ q1 q2 mid scm, Walk r sc segs q1 mid scm ∧ Walk mid scm segs' q2 node sc' ∧ q = q1 ++ q2
  | [], segs', r, node, q, sc, sc', h => ⟨[], q, r, sc, .here r sc, h, rfl⟩
  | s :: segs, segs', r, node, q, sc, sc', h => by
    cases h with
    | static hn h' =>
      obtain ⟨q1, q2, mid, scm, h1, h2, rfl⟩ := Walk.split h'
      exact ⟨_, q2, mid, scm, .static hn h1, h2, by simp⟩
    | dynamic hn hc h' =>
      obtain ⟨q1, q2, mid, scm, h1, h2, rfl⟩ := Walk.split h'
      exact ⟨_, q2, mid, scm, .dynamic hn hc h1, h2, by simp⟩

/-- Just behind a parameter, its variable has its type. -/
theorem Walk.last {segs : List PathSegment} {p : Param} {r mid : Routes} {q : List Param} {sc sc' : Scope}
    (h : Walk r sc (segs ++ [.dynamic p]) q mid sc') : lookupVar p.name sc' = some (.user p.typ) := by
  obtain ⟨q1, q2, m, scm, _, h2, _⟩ := h.split
  cases h2 with
  | dynamic hn hc h =>
    cases h
    simp [underParam, lookupVar]

/-- Other variables on the way. -/
theorem Walk.lookup {r node : Routes} {segs : List PathSegment} {q : List Param} {sc sc' : Scope}
    (h : Walk r sc segs q node sc') (hd : DistinctSiblings r) {x : Str}
    (hx : x ∉ (routeParams segs).map Param.name) :
    (x ≠ c!"start" → x ≠ c!"text" → lookupVar x sc' = lookupVar x sc) ∧
    (x = c!"start" → (PlainRoute r segs node → lookupVar x sc' = lookupVar x sc) ∧
      (¬ PlainRoute r segs node → lookupVar x sc' = some .usize)) ∧
    (x = c!"text" → (routeParams segs = [] → lookupVar x sc' = lookupVar x sc) ∧
      (routeParams segs ≠ [] → lookupVar x sc' = some .str)) := by
  induction h with
  | here r sc => exact ⟨fun _ _ => rfl, fun _ => ⟨fun _ => rfl, fun h => absurd (.here r) h⟩,
      fun _ => ⟨fun _ => rfl, fun h => absurd rfl h⟩⟩
  | @static r node s sub segs q sc sc' hn _ ih =>
    obtain ⟨h1, h2, h3⟩ := ih (distinct_child hd hn) hx
    have hne : x ≠ c!"start" → lookupVar x (besides r.routes sc) = lookupVar x sc := by
      intro hs
      unfold besides
      split
      · rfl
      · simp only [lookupVar]; rw [if_neg (fun e => hs e.symm)]
    have hplain : PlainRoute r (.static s :: segs) node ↔
        paramNames r.routes = [] ∧ PlainRoute sub segs node := by
      constructor
      · intro h
        cases h with
        | static hp hn' h =>
          obtain ⟨_, rfl⟩ := same_child hd hn hn' (by simp [SameSlot])
          exact ⟨hp, h⟩
      · rintro ⟨hp, h⟩; exact .static hp hn h
    have hrp : routeParams (.static s :: segs) = routeParams segs := rfl
    refine ⟨fun a b => (h1 a b).trans (hne a), fun hs => ?_, fun ht => ?_⟩
    · rw [hplain]
      constructor
      · rintro ⟨hp, hpl⟩
        rw [(h2 hs).1 hpl]
        simp [besides, hp]
      · intro hnp
        by_cases hpl : PlainRoute sub segs node
        · rw [(h2 hs).1 hpl]
          have : paramNames r.routes ≠ [] := fun hp => hnp ⟨hp, hpl⟩
          simp [besides, this, lookupVar, hs]
        · exact (h2 hs).2 hpl
    · rw [hrp]
      have hs : x ≠ c!"start" := by rw [ht]; decide
      exact ⟨fun h => ((h3 ht).1 h).trans (hne hs), (h3 ht).2⟩
  | @dynamic r node p sub segs q sc sc' hn hc _ ih =>
    have hrp : routeParams (.dynamic p :: segs) = p :: routeParams segs := rfl
    rw [hrp, List.map_cons, List.mem_cons, not_or] at hx
    obtain ⟨h1, h2, h3⟩ := ih (distinct_child hd hn) hx.2
    have hxp : ¬ p.name = x := fun e => hx.1 e.symm
    refine ⟨fun a b => ?_, fun hs => ⟨fun h => (by cases h), fun _ => ?_⟩, fun ht => ⟨fun h => (by cases h), fun _ => ?_⟩⟩
    · rw [h1 a b]
      simp only [underParam, lookupVar]
      rw [if_neg hxp, if_neg (fun e => b e.symm), if_neg (fun e => a e.symm)]
    · have hl : lookupVar x (underParam p sc) = some .usize := by
        simp only [underParam, lookupVar]
        rw [if_neg hxp]
        simp [hs]
      by_cases hpl : PlainRoute sub segs node
      · rw [(h2 hs).1 hpl, hl]
      · exact (h2 hs).2 hpl
    · have hl : lookupVar x (underParam p sc) = some .str := by
        simp only [underParam, lookupVar]
        rw [if_neg hxp]
        simp [ht]
      by_cases hpl : routeParams segs = []
      · rw [(h3 ht).1 hpl, hl]
      · exact (h3 ht).2 hpl

theorem mem_split {segs : List PathSegment} {p : Param} (h : p ∈ routeParams segs) :
    ∃ s1 s2, segs = s1 ++ [.dynamic p] ++ s2 := by
  obtain ⟨s1, s2, h⟩ := List.append_of_mem (mem_routeParams.1 h)
  exact ⟨s1, s2, by rw [h]; simp⟩

/-- A parameter on the way is in scope. -/
theorem Walk.mem {r node : Routes} {segs : List PathSegment} {q : List Param} {sc sc' : Scope}
    (h : Walk r sc segs q node sc') {x : Str} (hx : x ∈ (routeParams segs).map Param.name) :
    lookupVar x sc' ≠ none := by
  obtain ⟨p, hp, rfl⟩ := List.mem_map.1 hx
  obtain ⟨s1, s2, rfl⟩ := mem_split hp
  obtain ⟨q1, q2, mid, scm, h1, h2, _⟩ := h.split
  refine h2.bound ?_
  rw [h1.last]; simp

/-! ## Conditions -/

/-- The literals of all routes type-check. -/
def LiteralsOk (r : Routes) : Prop :=
  ∀ segs above node sc', Walk r [] segs above node sc' →
    ItemTyped ⟨segs, node.resources, above ++ node.queryParameters⟩ sc'

theorem typed_lookup {sc : Scope} {v : FlattenedRoute} (h : ItemTyped v sc) (hr : v.resources ≠ [])
    {p : Param} (hp : p ∈ dynamics v.path) :
    lookupVar p.name sc = some (.user p.typ) ∨ (lookupVar p.name sc = some .usize ∧ p.typ = c!"usize") := by
  obtain ⟨res, hres⟩ := List.exists_mem_of_ne_nil _ hr
  have := (h hr).2 _ (List.mem_map.2 ⟨res, hres, rfl⟩)
  simp only [MethodArm.typed, Bool.and_eq_true, List.all_eq_true] at this
  have := this.2 p hp
  cases hl : lookupVar p.name sc with
  | none => simp [hl] at this
  | some t =>
    cases t with
    | usize => right; exact ⟨rfl, by simpa [hl] using this⟩
    | str => simp [hl] at this
    | user t => left; simpa [hl] using this

theorem typed_nodup {sc : Scope} {v : FlattenedRoute} (h : ItemTyped v sc) {res : Resource}
    (hres : res ∈ v.resources) :
    ((dynamics v.path ++ v.queryParameters ++ res.queryParameters).map Param.name).Nodup := by
  have hr : v.resources ≠ [] := by
    intro hn; rw [hn] at hres; cases hres
  have := (h hr).2 _ (List.mem_map.2 ⟨res, hres, rfl⟩)
  simp only [MethodArm.typed, Bool.and_eq_true, decide_eq_true_eq] at this
  simpa using this.1

theorem names_ok {r : Routes} (hd : DistinctSiblings r) :
    LiteralsOk r ∧ ParamsOk r ↔ FieldsDistinct r ∧ ParamsUsed r ∧ NamesOk r := by
  constructor
  · rintro ⟨hlit, hpar⟩
    have hfd : FieldsDistinct r := by
      intro segs above node hl res hres
      obtain ⟨sc', hw⟩ := hl.walk []
      have := typed_nodup (hlit _ _ _ _ hw) hres
      simpa [dynamics_eq_routeParams, List.append_assoc] using this
    have hpu : ParamsUsed r := by
      intro segs p above node hl
      obtain ⟨_, s, a, n, sc', hw, hr, _⟩ := hpar segs p above node hl
      exact ⟨s, a, n, hw.live, hr⟩
    -- names behind a parameter differ from it
    have hfresh : ∀ {segs : List PathSegment} {p : Param} {segs' : List PathSegment} {above : List Param}
        {node : Routes}, LiveRoute r (segs ++ [.dynamic p] ++ segs') above node → node.resources ≠ [] →
        p.name ∉ (routeParams segs').map Param.name := by
      intro segs p segs' above node hl hr hm
      obtain ⟨res, hres⟩ := List.exists_mem_of_ne_nil _ hr
      have := hfd _ _ _ hl res hres
      simp only [routeParams_append, List.map_append, List.append_assoc] at this
      have h1 := (List.nodup_append.1 this).2.1
      have h2 := (List.nodup_append.1 h1).2.2 p.name (by simp [routeParams]) p.name (by simp [hm])
      exact h2 rfl
    refine ⟨hfd, hpu, ⟨?_, ?_, ?_, ?_, ?_⟩⟩
    · intro segs p above node hl
      obtain ⟨hh, s, a, n, sc', hw, hr, _⟩ := hpar segs p above node hl
      refine ⟨hh.1, hh.2.1, fun he => ?_⟩
      obtain ⟨scm, hwm⟩ := hl.walk []
      obtain ⟨sce, hwe⟩ := hw.live.walk scm
      have h1 := (hlit _ _ _ _ (hwm.append hwe) hr).1
      have h2 := hwe.bound (x := p.name) (by rw [hwm.last]; simp)
      rw [he] at h2
      simp only [Scope.free, Option.isNone_iff_eq_none] at h1
      exact h2 h1
    · intro segs p above node hl
      exact (hpar segs p above node hl).1.2.2
    · intro segs p segs' above node hl hr he
      rw [show segs ++ PathSegment.dynamic p :: segs' = segs ++ [.dynamic p] ++ segs' by simp] at hl
      obtain ⟨sc', hw⟩ := hl.walk []
      obtain ⟨q1, q2, mid, scm, h1, h2, rfl⟩ := hw.split
      by_contra hne
      have hdm : DistinctSiblings mid := fun _ _ _ hx => by
        have := h1.live.hasRoute
        exact hd _ _ _ (HasRoute.trans this hx)
      have hlk := ((h2.lookup hdm (x := p.name) (hfresh hl hr)).2.2 he).2 hne
      rcases typed_lookup (hlit _ _ _ _ hw) hr (p := p) (by
        simp [dynamics_append, dynamics]) with h | h
      · rw [hlk] at h; cases h
      · rw [hlk] at h; cases h.1
    · intro segs p above node hl he
      obtain ⟨_, s, a, n, sc', hw, hr, hnone⟩ := hpar segs p above node hl
      refine ⟨s, n, ?_, hr⟩
      have hdm : DistinctSiblings node := fun _ _ _ hx => hd _ _ _ (HasRoute.trans hl.hasRoute hx)
      by_contra hnp
      have hx : p.name ∉ (routeParams s).map Param.name := fun hm => hw.mem hm hnone
      have := ((hw.lookup hdm hx).2.1 he).2 hnp
      rw [hnone] at this; cases this
    · intro segs p above node hl he segs' above' node' hl' hr hnp
      obtain ⟨scm, hwm⟩ := hl.walk []
      obtain ⟨sce, hwe⟩ := hl'.walk scm
      have hdm : DistinctSiblings node := fun _ _ _ hx => hd _ _ _ (HasRoute.trans hl.hasRoute hx)
      have hlk := ((hwe.lookup hdm (x := p.name) (hfresh (hl.trans hl') hr)).2.1 he).2 hnp
      rcases typed_lookup (hlit _ _ _ _ (hwm.append hwe)) hr (p := p) (by
        simp [dynamics_append, dynamics]) with h | h
      · rw [hlk] at h; cases h
      · exact h.2
  · rintro ⟨hfd, hpu, hno⟩
    have hfresh : ∀ {segs : List PathSegment} {p : Param} {segs' : List PathSegment} {above : List Param}
        {node : Routes}, LiveRoute r (segs ++ [.dynamic p] ++ segs') above node → node.resources ≠ [] →
        p.name ∉ (routeParams segs').map Param.name := by
      intro segs p segs' above node hl hr hm
      obtain ⟨res, hres⟩ := List.exists_mem_of_ne_nil _ hr
      have := hfd _ _ _ hl res hres
      simp only [routeParams_append, List.map_append, List.append_assoc] at this
      have h1 := (List.nodup_append.1 this).2.1
      have h2 := (List.nodup_append.1 h1).2.2 p.name (by simp [routeParams]) p.name (by simp [hm])
      exact h2 rfl
    constructor
    · intro segs above node sc' hw hr
      constructor
      · simp only [Scope.free, Option.isNone_iff_eq_none]
        have hx : c!"method" ∉ (routeParams segs).map Param.name := by
          intro hm
          obtain ⟨p, hp, he⟩ := List.mem_map.1 hm
          obtain ⟨s1, s2, rfl⟩ := mem_split hp
          obtain ⟨q1, q2, mid, scm, h1, _, _⟩ := hw.split
          exact (hno.own _ _ _ _ h1.live).2.2 he
        rw [(hw.lookup hd hx).1 (by decide) (by decide)]
        rfl
      · intro a ha
        obtain ⟨res, hres, rfl⟩ := List.mem_map.1 ha
        simp only [MethodArm.typed, Bool.and_eq_true, decide_eq_true_eq, List.all_eq_true]
        constructor
        · have := hfd _ _ _ hw.live res hres
          simpa [dynamics_eq_routeParams, List.append_assoc] using this
        · intro p hp
          rw [dynamics_eq_routeParams] at hp
          obtain ⟨s1, s2, rfl⟩ := mem_split hp
          obtain ⟨q1, q2, mid, scm, h1, h2, rfl⟩ := hw.split
          have hdm : DistinctSiblings mid := fun _ _ _ hx => hd _ _ _ (HasRoute.trans h1.live.hasRoute hx)
          obtain ⟨ha, hb, hc⟩ := h2.lookup hdm (x := p.name) (hfresh hw.live hr)
          have hlast := h1.last
          by_cases hs : p.name = c!"start"
          · by_cases hpl : PlainRoute mid s2 node
            · rw [(hb hs).1 hpl, hlast]; simp
            · have := hno.startType _ _ _ _ h1.live hs _ _ _ h2.live hr hpl
              rw [(hb hs).2 hpl]; simp [this]
          · by_cases ht : p.name = c!"text"
            · have hl := hw.live
              rw [show s1 ++ [PathSegment.dynamic p] ++ s2 = s1 ++ .dynamic p :: s2 by simp] at hl
              have := hno.text _ _ _ _ _ hl hr ht
              rw [(hc ht).1 this, hlast]; simp
            · rw [ha hs ht, hlast]; simp
    · intro segs p above node hl
      have hown := hno.own _ _ _ _ hl
      refine ⟨⟨hown.1, hown.2.1, hno.len _ _ _ _ hl⟩, ?_⟩
      have hdm : DistinctSiblings node := fun _ _ _ hx => hd _ _ _ (HasRoute.trans hl.hasRoute hx)
      by_cases hs : p.name = c!"start"
      · obtain ⟨s, n, hpl, hr⟩ := hno.startUsed _ _ _ _ hl hs
        obtain ⟨⟨a, hl'⟩, hrp⟩ := hpl.live
        obtain ⟨sc', hw⟩ := hl'.walk []
        refine ⟨s, a, n, sc', hw, hr, ?_⟩
        rw [((hw.lookup hdm (x := p.name) (by simp [hrp])).2.1 hs).1 hpl]
        rfl
      · obtain ⟨s, a, n, hl', hr⟩ := hpu _ _ _ _ hl
        obtain ⟨sc', hw⟩ := hl'.walk []
        refine ⟨s, a, n, sc', hw, hr, ?_⟩
        obtain ⟨ha, _, hc⟩ := hw.lookup hdm (x := p.name) (hfresh (hl.trans hl') hr)
        by_cases ht : p.name = c!"text"
        · have hl2 := hl.trans hl'
          rw [show segs ++ [PathSegment.dynamic p] ++ s = segs ++ .dynamic p :: s by simp] at hl2
          rw [(hc ht).1 (hno.text _ _ _ _ _ hl2 hr ht)]
          rfl
        · rw [ha hs ht]; rfl

theorem distinct_of_body {r : Routes} {body : List Stmt} (hbody : matcherBody r = .ok body) :
    DistinctSiblings r := by
  simp only [matcherBody] at hbody
  cases ht : toTrie r with
  | none => simp [ht] at hbody
  | some t => exact (toTrie_isSome_iff r).1 ⟨t, ht⟩

/-- The emitted function type-checks, granted its shape, exactly if fields are distinct, every
parameter is used, and none has an unfortunate name. -/
theorem matcherBody_typed {r : Routes} {body : List Stmt} (hbody : matcherBody r = .ok body)
    (hshape : blockShapeOk body = true) :
    (checkBlock body []).isSome = true ↔ FieldsDistinct r ∧ ParamsUsed r ∧ NamesOk r := by
  have hds := distinct_of_body hbody
  rw [code_check (matcherBody_code hbody hshape) [] hds Basic.nil, ← names_ok hds]
  refine and_congr_left' ?_
  constructor
  · intro h segs above node sc' hw
    exact h _ sc' ⟨segs, above, node, hw, by simp⟩
  · rintro h v sc' ⟨segs, above, node, hw, rfl⟩
    simpa using h segs above node sc' hw

/-- Exactly which configurations compile. -/
theorem matcherBody_compiles {r : Routes} {body : List Stmt} (hbody : matcherBody r = .ok body) :
    compiles body = true ↔ Shapely r ∧ FieldsDistinct r ∧ ParamsUsed r ∧ NamesOk r := by
  simp only [compiles, Bool.and_eq_true]
  constructor
  · rintro ⟨h1, h2⟩
    exact ⟨(matcherBody_shape hbody).1 h1, (matcherBody_typed hbody h1).1 h2⟩
  · rintro ⟨h1, h2⟩
    have h1' := (matcherBody_shape hbody).2 h1
    exact ⟨h1', (matcherBody_typed hbody h1').2 h2⟩

/-- Names are judged along routes. -/
theorem NamesOk.child {r node : Routes} {segs : List PathSegment} {above : List Param} (h : NamesOk r)
    (hl : LiveRoute r segs above node) : NamesOk node where
  own s p a n hn := h.own (segs ++ s) p _ n (by rw [List.append_assoc]; exact hl.trans hn)
  len s p a n hn := h.len (segs ++ s) p _ n (by rw [List.append_assoc]; exact hl.trans hn)
  text s p s' a n hn := h.text (segs ++ s) p s' _ n (by rw [List.append_assoc]; exact hl.trans hn)
  startUsed s p a n hn := h.startUsed (segs ++ s) p _ n (by rw [List.append_assoc]; exact hl.trans hn)
  startType s p a n hn := h.startType (segs ++ s) p _ n (by rw [List.append_assoc]; exact hl.trans hn)

theorem Hygienic.child {r node : Routes} {segs : List PathSegment} {above : List Param} (h : Hygienic r)
    (hl : LiveRoute r segs above node) : Hygienic node := fun s p a n hn =>
  h (segs ++ s) p _ n (by rw [List.append_assoc]; exact hl.trans hn)

/-- Names other than those of variables are all right. -/
theorem names_of_fresh {r : Routes}
    (h : ∀ segs p above node, LiveRoute r (segs ++ [.dynamic p]) above node → p.name ∉ reservedNames) :
    NamesOk r ∧ Hygienic r := by
  have hne : ∀ {x : Str} {segs p above node}, LiveRoute r (segs ++ [.dynamic p]) above node →
      x ∈ reservedNames → p.name ≠ x := fun hl hx he => h _ _ _ _ hl (he ▸ hx)
  refine ⟨⟨?_, ?_, ?_, ?_, ?_⟩, ?_⟩
  · intro segs p above node hl
    exact ⟨hne hl (by decide), hne hl (by decide), hne hl (by decide)⟩
  · intro segs p above node hl he
    exact absurd he (hne hl (by decide))
  · intro segs p segs' above node hl hr he
    rw [show segs ++ PathSegment.dynamic p :: segs' = segs ++ [.dynamic p] ++ segs' by simp] at hl
    obtain ⟨_, _, _, h1, _⟩ := hl.split
    exact absurd he (hne h1 (by decide))
  · intro segs p above node hl he
    exact absurd he (hne hl (by decide))
  · intro segs p above node hl he
    exact absurd he (hne hl (by decide))
  · intro segs p above node hl
    exact ⟨hne hl (by decide), fun he => absurd he (hne hl (by decide))⟩

/-! ## What is left of the names once the function compiles -/

theorem captor_live {r : Routes} (h : paramNames r.routes ≠ []) :
    ∃ p sub, NestedRoutes.mk (.dynamic p) sub ∈ r.routes ∧ captor r.routes = some p.name := by
  cases hc : captor r.routes with
  | none => exact absurd (captor_eq_none.1 hc) h
  | some x =>
    obtain ⟨n, hn, p, hp, rfl⟩ := mem_paramNames.1 (captor_mem hc)
    obtain ⟨seg, sub⟩ := n
    simp only [NestedRoutes.pathSegment_mk] at hp
    subst hp
    exact ⟨p, sub, hn, rfl⟩

/-- The variables of the emitted function are not disturbed. -/
theorem unhidden_of {r : Routes} (hu : ParamsUsed r) (hno : NamesOk r) (hh : Hygienic r) : Unhidden [] r := by
  intro segs above node hl p hp
  rw [List.nil_append, dynamics_eq_routeParams] at hp
  obtain ⟨s1, s2, rfl⟩ := mem_split hp
  obtain ⟨q1, q2, mid, h1, h2⟩ := hl.split
  obtain ⟨n1, n2, n3⟩ := hno.own _ _ _ _ h1
  obtain ⟨n4, n5⟩ := hh _ _ _ _ h1
  refine ⟨by simp [ownNames, n1, n2, n3, n4], fun hpar => ⟨fun hs => hpar (n5 hs _ _ _ h2), fun ht => ?_⟩⟩
  obtain ⟨p', sub, hn, hc⟩ := captor_live hpar
  have hl' : LiveRoute node [.dynamic p'] (node.queryParameters ++ []) sub := .dynamic hn hc (.here _)
  obtain ⟨s, a, n, hl'', hr⟩ := hu _ _ _ _ (hl.trans hl')
  have := (hl.trans hl').trans hl''
  rw [show s1 ++ [PathSegment.dynamic p] ++ s2 ++ [.dynamic p'] ++ s =
    s1 ++ .dynamic p :: (s2 ++ [.dynamic p'] ++ s) by simp] at this
  have := hno.text _ _ _ _ _ this hr ht
  simp [routeParams] at this

theorem Supported.distinct {r : Routes} {body : List Stmt} (h : Supported r body) :
    DistinctSiblings r := distinct_of_body h.generated

/-- What compiling says about a supported configuration. -/
theorem Supported.conditions {r : Routes} {body : List Stmt} (h : Supported r body) :
    Shapely r ∧ FieldsDistinct r ∧ ParamsUsed r ∧ NamesOk r :=
  (matcherBody_compiles h.generated).1 h.compiles

theorem Supported.unhidden {r : Routes} {body : List Stmt} (h : Supported r body) : Unhidden [] r :=
  unhidden_of h.conditions.2.2.1 h.conditions.2.2.2 h.hygienic

/-- **Refinement**: the generated `match_route` computes the reference router. -/
theorem Supported.call {r : Routes} {body : List Stmt} (h : Supported r body) (W : World)
    (path m : Bytes) : callMatchRoute W body path m = referenceRouter W r path m :=
  callMatchRoute_eq W path m h.generated h.compiles h.unhidden

end Wayfinder
