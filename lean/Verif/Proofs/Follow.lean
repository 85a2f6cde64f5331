import Verif.Proofs.Classify
import Verif.Proofs.Shape
import Verif.Spec.Follow
/-!
# Following a route
-/

namespace Wayfinder

variable {W : World} {m : Bytes}

theorem answer_under (rs : List Resource) (q qs : List Param) (caps : Caps W) (m : Bytes) :
    answer rs (q ++ qs) caps m = (answer rs qs ([] : Caps W) m).under caps q := by
  simp only [answer]
  cases rs.find? (fun r => r.method.bytes = m) with
  | none => rfl
  | some r =>
    simp only
    split <;> simp [Outcome.under]

theorem under_under (caps caps' : Caps W) (q q' : List Param) (o : Outcome W) :
    (o.under caps' q').under caps q = o.under (caps ++ caps') (q ++ q') := by
  cases o <;> simp [Outcome.under]

theorem route_under (W : World) (m : Bytes) (r : Routes) : ∀ (q : List Param) (caps : Caps W) (bs : Bytes),
    route W m r q caps bs = (route W m r [] [] bs).under caps q := by
  induction r using Routes.ind with
  | h rs ns qs ih =>
    intro q caps bs
    have hent : ∀ n ∈ ns, ∀ (q : List Param) (caps : Caps W) rest,
        enter W m n.routes (q ++ qs) caps rest =
          (enter W m n.routes ([] ++ qs) [] rest).under caps q := by
      intro n hn q caps rest
      cases rest with
      | nil =>
        simp only [enter, atEnd]
        split
        · rfl
        · rw [answer_under n.routes.resources (q ++ qs), answer_under n.routes.resources ([] ++ qs),
            under_under]
          simp
      | cons b rest =>
        simp only [enter]
        split
        · rw [ih n hn (q ++ qs), ih n hn ([] ++ qs), under_under]; simp
        · rfl
    rcases route_step W rs ns qs bs with ⟨h1, h2, h⟩ | ⟨c, h1, h2, h3, h4, h⟩ |
      ⟨n, s, rest, _, hn, hseg, hbs, _, h⟩ | ⟨n, p, _, hn, hseg, hcap, _, h⟩ | ⟨_, _, _, h⟩
    · rw [h, h, answer_under]; simp
    · rw [h, h]; rfl
    · rw [h, h]; exact hent n hn q caps rest
    · rw [h, h]
      simp only [capture]
      cases fromUtf8 (bs.takeWhile (· ≠ slash)) with
      | none => rfl
      | some text =>
        simp only
        cases W.parse p.typ text with
        | error e => rfl
        | ok v =>
          simp only
          rw [hent n hn q (caps ++ [(p, v)]), hent n hn [] ([] ++ [(p, v)]), under_under]; simp
    · rw [h, h]; rfl

theorem plainTexts_child {rs : List Resource} {ns : List NestedRoutes} {qs : List Param}
    (h : PlainTexts (.mk rs ns qs)) {n : NestedRoutes} (hn : n ∈ ns) : PlainTexts n.routes := by
  intro segs query node hr s hs
  exact h (n.pathSegment :: segs) _ node
    (HasRoute.child (r := .mk rs ns qs) (sub := n.routes) (by cases n; exact hn) hr) s
    (by simp [hs])

theorem plainTexts_static {rs : List Resource} {ns : List NestedRoutes} {qs : List Param}
    (h : PlainTexts (.mk rs ns qs)) {s : Str} (hs : s ∈ staticTexts ns) : s ≠ [] ∧ '/' ∉ s := by
  obtain ⟨n, hn, hseg⟩ := mem_staticTexts'.1 hs
  exact h [n.pathSegment] _ n.routes
    (HasRoute.child (r := .mk rs ns qs) (sub := n.routes) (by cases n; exact hn) (.here _)) s
    (by simp [hseg])

theorem slash_not_mem_bytesOf {s : Str} (h : '/' ∉ s) (ha : ∀ c ∈ s, byteStrChar c = true) :
    slash ∉ bytesOf s := by
  intro hm
  obtain ⟨c, hc, he⟩ := List.mem_map.1 hm
  have := asciiByte_inj (ha c hc) (by decide) he
  exact h (this ▸ hc)

theorem prefix_slash {a part rest : Bytes} (ha : slash ∉ a) (h : a <+: part ++ slash :: rest) :
    a <+: part := by
  induction part generalizing a with
  | nil =>
    cases a with
    | nil => simp
    | cons b a =>
      rw [List.nil_append, List.cons_prefix_cons] at h
      exact absurd (by simp [h.1]) ha
  | cons c part ih =>
    cases a with
    | nil => simp
    | cons b a =>
      rw [List.cons_append, List.cons_prefix_cons] at h
      rw [List.cons_prefix_cons]
      exact ⟨h.1, ih (fun hm => ha (by simp [hm])) h.2⟩

theorem prefix_bytesOf {a b : Str} (ha : ∀ c ∈ a, byteStrChar c = true)
    (hb : ∀ c ∈ b, byteStrChar c = true) (h : bytesOf a <+: bytesOf b) : a <+: b := by
  induction a generalizing b with
  | nil => simp
  | cons c a ih =>
    cases b with
    | nil => simp at h
    | cons d b =>
      simp only [bytesOf_cons, List.cons_prefix_cons] at h
      obtain ⟨h1, h2⟩ := h
      have := asciiByte_inj (ha c (by simp)) (hb d (by simp)) h1
      subst this
      rw [List.cons_prefix_cons]
      exact ⟨rfl, ih (fun c hc => ha c (by simp [hc])) (fun c hc => hb c (by simp [hc])) h2⟩

/-- The static child whose text begins the path is unique. -/
theorem static_unique {ns : List NestedRoutes} (hok : LocalOk ns)
    (hds : ns.Pairwise fun a b => ¬ SameSlot a.pathSegment b.pathSegment)
    {n n' : NestedRoutes} (hn : n ∈ ns) (hn' : n' ∈ ns) {s s' : Str}
    (hs : n.pathSegment = .static s) (hs' : n'.pathSegment = .static s') {bs : Bytes}
    (hp : bytesOf s <+: bs) (hp' : bytesOf s' <+: bs) : n = n' := by
  have hm : s ∈ staticTexts ns := mem_staticTexts'.2 ⟨n, hn, hs⟩
  have hm' : s' ∈ staticTexts ns := mem_staticTexts'.2 ⟨n', hn', hs'⟩
  have hcomp : s <+: s' ∨ s' <+: s := by
    rcases List.prefix_or_prefix_of_prefix hp hp' with h | h
    · exact .inl (prefix_bytesOf (hok.ascii s hm) (hok.ascii s' hm') h)
    · exact .inr (prefix_bytesOf (hok.ascii s' hm') (hok.ascii s hm) h)
  have heq : s = s' := by
    by_contra hne
    have hsym : Std.Symm (fun a b : Str => ¬ a <+: b ∧ ¬ b <+: a) := ⟨fun a b h => ⟨h.2, h.1⟩⟩
    have := List.Pairwise.forall hok.prefixFree hm hm' hne
    tauto
  subst heq
  by_contra hne
  have hsym : Std.Symm (fun a b : NestedRoutes => ¬ SameSlot a.pathSegment b.pathSegment) :=
    ⟨fun a b h h' => h (by
      revert h'
      cases a.pathSegment <;> cases b.pathSegment <;> simp [SameSlot] <;> exact Eq.symm)⟩
  have := List.Pairwise.forall hds hn hn' hne
  rw [hs, hs'] at this
  simp [SameSlot] at this

theorem dynamic_unique {ns : List NestedRoutes}
    (hds : ns.Pairwise fun a b => ¬ SameSlot a.pathSegment b.pathSegment)
    {n n' : NestedRoutes} (hn : n ∈ ns) (hn' : n' ∈ ns) {p p' : Param}
    (hs : n.pathSegment = .dynamic p) (hs' : n'.pathSegment = .dynamic p')
    (h : p.name = p'.name) : n = n' := by
  by_contra hne
  have hsym : Std.Symm (fun a b : NestedRoutes => ¬ SameSlot a.pathSegment b.pathSegment) :=
    ⟨fun a b h h' => h (by
      revert h'
      cases a.pathSegment <;> cases b.pathSegment <;> simp [SameSlot] <;> exact Eq.symm)⟩
  have := List.Pairwise.forall hds hn hn' hne
  rw [hs, hs'] at this
  simp [SameSlot, h] at this

theorem takeWhile_slash_append {part : Bytes} (h : slash ∉ part) (rest : Bytes)
    (hr : rest = [] ∨ ∃ more, rest = slash :: more) :
    (part ++ rest).takeWhile (· ≠ slash) = part ∧ (part ++ rest).dropWhile (· ≠ slash) = rest := by
  induction part with
  | nil =>
    rcases hr with rfl | ⟨more, rfl⟩
    · exact ⟨rfl, rfl⟩
    · constructor
      · rw [List.nil_append, List.takeWhile_cons]; simp only [ne_eq, not_true, decide_false]; rfl
      · rw [List.nil_append, List.dropWhile_cons]; simp only [ne_eq, not_true, decide_false]; rfl
  | cons b part ih =>
    rw [List.mem_cons, not_or] at h
    have hb : decide (b ≠ slash) = true := decide_eq_true (Ne.symm h.1)
    obtain ⟨h1, h2⟩ := ih h.2
    constructor
    · rw [List.cons_append, List.takeWhile_cons, if_pos hb, h1]
    · rw [List.cons_append, List.dropWhile_cons, if_pos hb, h2]

/-- One step through a static child. -/
theorem route_static {rs : List Resource} {ns : List NestedRoutes} {qs : List Param}
    (hok : LocalOk ns) (hds : ns.Pairwise fun a b => ¬ SameSlot a.pathSegment b.pathSegment)
    {n : NestedRoutes} (hn : n ∈ ns) {s : Str} (hs : n.pathSegment = .static s) (hne : s ≠ [])
    (hpre : paramNames ns = [] ∨ staticTexts ns = [s]) (rest : Bytes)
    (m : Bytes) (q : List Param) (caps : Caps W) :
    route W m (.mk rs ns qs) q caps (bytesOf s ++ rest) = enter W m n.routes (q ++ qs) caps rest := by
  have hbs : bytesOf s ++ rest ≠ [] := by
    cases s with
    | nil => exact absurd rfl hne
    | cons c s => simp
  have hpref : preferStatic ns = true := by
    rcases hpre with h | h <;> simp [preferStatic, h]
  have hm : s ∈ staticTexts ns := mem_staticTexts'.2 ⟨n, hn, hs⟩
  rcases route_step W rs ns qs (bytesOf s ++ rest) with ⟨h1, h2, h⟩ | ⟨c, h1, h2, h3, h4, h⟩ |
      ⟨n', s', rest', _, hn', hseg', hbs', _, h⟩ | ⟨n', p, _, hn', hseg', hcap, hno, h⟩ |
      ⟨_, _, hno, h⟩
  · exact absurd h1 hbs
  · exact absurd h1 hbs
  · have : n = n' := static_unique hok hds hn hn' hs hseg' (List.prefix_append _ _) ⟨rest', hbs'.symm⟩
    subst this
    rw [hs, PathSegment.static.injEq] at hseg'
    subst hseg'
    rw [h, List.append_cancel_left hbs']
  · exact absurd (List.prefix_append _ _) (hno hpref s hm)
  · exact absurd (List.prefix_append _ _) (hno s hm)

/-- One step through a parameter child. -/
theorem route_param {rs : List Resource} {ns : List NestedRoutes} {qs : List Param}
    (hok : LocalOk ns) (hds : ns.Pairwise fun a b => ¬ SameSlot a.pathSegment b.pathSegment)
    (hplain : ∀ s ∈ staticTexts ns, '/' ∉ s)
    {n : NestedRoutes} (hn : n ∈ ns) {p : Param} (hs : n.pathSegment = .dynamic p)
    (hcap : captor ns = some p.name) {part rest : Bytes} (hne : part ≠ []) (hsl : slash ∉ part)
    (hrest : rest = [] ∨ ∃ more, rest = slash :: more)
    (hno : ∀ s, staticTexts ns = [s] → ¬ bytesOf s <+: part)
    (m : Bytes) (q : List Param) (caps : Caps W) :
    route W m (.mk rs ns qs) q caps (part ++ rest) =
      match fromUtf8 part with
      | none => .panic
      | some text =>
        match W.parse p.typ text with
        | .error e => .err p.name e
        | .ok v => enter W m n.routes (q ++ qs) (caps ++ [(p, v)]) rest := by
  have hbs : part ++ rest ≠ [] := by
    cases part with
    | nil => exact absurd rfl hne
    | cons c s => simp
  have hpn : paramNames ns ≠ [] := by
    intro h; rw [captor_eq_none.2 h] at hcap; cases hcap
  rcases route_step W rs ns qs (part ++ rest) with ⟨h1, h2, h⟩ | ⟨c, h1, h2, h3, h4, h⟩ |
      ⟨n', s', rest', _, hn', hseg', hbs', hpref, h⟩ | ⟨n', p', _, hn', hseg', hcap', _, h⟩ |
      ⟨_, hp, _, h⟩
  · exact absurd h1 hbs
  · exact absurd h1 hbs
  · have hm : s' ∈ staticTexts ns := mem_staticTexts'.2 ⟨n', hn', hseg'⟩
    have hone : staticTexts ns = [s'] := by
      simp only [preferStatic, Bool.or_eq_true, List.isEmpty_iff, beq_iff_eq] at hpref
      rcases hpref with h | h
      · exact absurd h hpn
      · obtain ⟨a, ha⟩ := List.length_eq_one_iff.1 h
        rw [ha] at hm ⊢
        simp only [List.mem_cons, List.not_mem_nil, or_false] at hm
        rw [hm]
    have hsl' : slash ∉ bytesOf s' := slash_not_mem_bytesOf (hplain s' hm) (hok.ascii s' hm)
    refine absurd ?_ (hno s' hone)
    have : bytesOf s' <+: part ++ rest := ⟨rest', hbs'.symm⟩
    rcases hrest with rfl | ⟨more, rfl⟩
    · simpa using this
    · exact prefix_slash hsl' this
  · have : n' = n := dynamic_unique hds hn' hn hseg' hs (by
      rw [hcap, Option.some.injEq] at hcap'; exact hcap'.symm)
    subst this
    rw [hs, PathSegment.dynamic.injEq] at hseg'
    subst hseg'
    obtain ⟨h1, h2⟩ := takeWhile_slash_append hsl rest hrest
    rw [h]
    simp only [capture]
    rw [h1, h2]
    rfl
  · exact absurd hp hpn

/-- What a configuration needs for its routes to be followed. -/
structure Sound (r : Routes) : Prop where
  shapely : Shapely r
  distinct : DistinctSiblings r
  plain : PlainTexts r

theorem Sound.child {r node : Routes} {segs : List PathSegment} {above : List Param}
    (h : Sound r) (hl : LiveRoute r segs above node) : Sound node := by
  induction hl with
  | here => exact h
  | @static r node s sub segs q hn _ ih =>
    obtain ⟨rs, ns, qs⟩ := r
    exact ih ⟨fun segs q node hl => h.shapely _ _ node (.static (r := .mk rs ns qs) hn hl),
      (distinctSiblings_mk.1 h.distinct).2 _ hn, plainTexts_child h.plain hn⟩
  | @dynamic r node s sub segs q hn hc _ ih =>
    obtain ⟨rs, ns, qs⟩ := r
    exact ih ⟨fun segs q node hl => h.shapely _ _ node (.dynamic (r := .mk rs ns qs) hn hc hl),
      (distinctSiblings_mk.1 h.distinct).2 _ hn, plainTexts_child h.plain hn⟩

theorem Follows.live {r node : Routes} {segs : List PathSegment} {above : List Param}
    {caps : Caps W} {parts : List Bytes} (h : Follows W r segs above caps parts node) :
    LiveRoute r segs above node := by
  induction h with
  | here => exact .here _
  | static hn _ _ ih => exact .static hn ih
  | dynamic hn hc _ _ _ _ _ _ ih => exact .dynamic hn hc ih

theorem Follows.fits {r node : Routes} {segs : List PathSegment} {above : List Param}
    {caps : Caps W} {parts : List Bytes} (h : Follows W r segs above caps parts node) :
    Fits W segs caps parts := by
  induction h with
  | here => exact .nil
  | static hn _ _ ih => exact .static _ ih
  | dynamic hn hc _ h1 _ h2 h3 _ ih => exact .dynamic h1 h2 h3 ih

/-- Behind a followed route the block reached decides. -/
theorem follows_route {r node : Routes} {segs : List PathSegment} {above : List Param}
    {caps : Caps W} {parts : List Bytes} (h : Follows W r segs above caps parts node)
    (hs : Sound r) (rest : Bytes) (m : Bytes) :
    ∀ (q : List Param) (caps0 : Caps W), route W m r q caps0 (spell parts ++ rest) =
      route W m node (q ++ above) (caps0 ++ caps) rest := by
  induction h with
  | here => intro q caps0; simp
  | @static r sub node s segs above caps parts hn hpre hf ih =>
    intro q caps0
    have hsub := hs.child (.static hn (.here _))
    obtain ⟨rs, ns, qs⟩ := r
    change _ ∈ ns at hn
    have hok : LocalOk ns := hs.shapely _ _ _ (.here _)
    change paramNames ns = [] ∨ staticTexts ns = [s] at hpre
    have hm : s ∈ staticTexts ns := mem_staticTexts'.2 ⟨_, hn, rfl⟩
    have : spell (bytesOf s :: parts) ++ rest = bytesOf s ++ slash :: (spell parts ++ rest) := by simp
    rw [this, route_static hok (distinctSiblings_mk.1 hs.distinct).1 hn rfl
      (plainTexts_static hs.plain hm).1 hpre]
    simp only [enter, if_true, NestedRoutes.routes_mk]
    rw [ih hsub]
    simp [Routes.queryParameters]
  | @dynamic r sub node p segs above caps parts v part text hn hcap hne hsl hno hu hp hf ih =>
    intro q caps0
    have hsub := hs.child (.dynamic hn hcap (.here _))
    obtain ⟨rs, ns, qs⟩ := r
    change _ ∈ ns at hn
    have hok : LocalOk ns := hs.shapely _ _ _ (.here _)
    change captor ns = some p.name at hcap
    change ∀ s, staticTexts ns = [s] → ¬ bytesOf s <+: part at hno
    have : spell (part :: parts) ++ rest = part ++ slash :: (spell parts ++ rest) := by simp
    rw [this, route_param hok (distinctSiblings_mk.1 hs.distinct).1
      (fun s hm => (plainTexts_static hs.plain hm).2) hn rfl hcap hne hsl (.inr ⟨_, rfl⟩) hno]
    simp only [hu, hp, enter, if_true, NestedRoutes.routes_mk]
    rw [ih hsub]
    simp [Routes.queryParameters]

/-- The same without the last `/`. -/
theorem follows_end {r node : Routes} {segs : List PathSegment} {above : List Param}
    {caps : Caps W} {parts : List Bytes} (h : Follows W r segs above caps parts node)
    (hs : Sound r) (m : Bytes) : ∀ (bs : Bytes), bs ++ [slash] = spell parts →
    ∀ (q : List Param) (caps0 : Caps W), route W m r q caps0 bs =
      atEnd m node (q ++ above) (caps0 ++ caps) := by
  induction h with
  | here => intro bs hbs; simp at hbs
  | @static r sub node s segs above caps parts hn hpre hf ih =>
    intro bs hbs q caps0
    have hsub := hs.child (.static hn (.here _))
    obtain ⟨rs, ns, qs⟩ := r
    change _ ∈ ns at hn
    have hok : LocalOk ns := hs.shapely _ _ _ (.here _)
    change paramNames ns = [] ∨ staticTexts ns = [s] at hpre
    have hm : s ∈ staticTexts ns := mem_staticTexts'.2 ⟨_, hn, rfl⟩
    have hstep := route_static (W := W) (rs := rs) (qs := qs) hok
      (distinctSiblings_mk.1 hs.distinct).1 hn rfl (plainTexts_static hs.plain hm).1 hpre
    rcases List.eq_nil_or_concat parts with rfl | ⟨init, last, rfl⟩
    · have : bs = bytesOf s ++ [] := by
        have : bs ++ [slash] = bytesOf s ++ [slash] := by simpa using hbs
        simpa using List.append_cancel_right this
      rw [this, hstep]
      simp only [enter, NestedRoutes.routes_mk]
      cases hf with
      | here => simp [Routes.queryParameters]
    · have : bs = bytesOf s ++ slash :: (spell init ++ last) := by
        have : bs ++ [slash] = (bytesOf s ++ slash :: (spell init ++ last)) ++ [slash] := by
          rw [hbs]; simp [spell_append]
        exact List.append_cancel_right this
      rw [this, hstep]
      simp only [enter, if_true, NestedRoutes.routes_mk]
      rw [ih hsub _ (by simp [spell_append])]
      simp [Routes.queryParameters]
  | @dynamic r sub node p segs above caps parts v part text hn hcap hne hsl hno hu hp hf ih =>
    intro bs hbs q caps0
    have hsub := hs.child (.dynamic hn hcap (.here _))
    obtain ⟨rs, ns, qs⟩ := r
    change _ ∈ ns at hn
    have hok : LocalOk ns := hs.shapely _ _ _ (.here _)
    change captor ns = some p.name at hcap
    change ∀ s, staticTexts ns = [s] → ¬ bytesOf s <+: part at hno
    have hstep := fun rest h => route_param (W := W) (rs := rs) (qs := qs) (rest := rest)
      hok (distinctSiblings_mk.1 hs.distinct).1
      (fun s hm => (plainTexts_static hs.plain hm).2) hn rfl hcap hne hsl h hno
    rcases List.eq_nil_or_concat parts with rfl | ⟨init, last, rfl⟩
    · have : bs = part ++ [] := by
        have : bs ++ [slash] = part ++ [slash] := by simpa using hbs
        simpa using List.append_cancel_right this
      rw [this, hstep _ (.inl rfl)]
      simp only [hu, hp, enter, NestedRoutes.routes_mk]
      cases hf with
      | here => simp [Routes.queryParameters]
    · have : bs = part ++ slash :: (spell init ++ last) := by
        have : bs ++ [slash] = (part ++ slash :: (spell init ++ last)) ++ [slash] := by
          rw [hbs]; simp [spell_append]
        exact List.append_cancel_right this
      rw [this, hstep _ (.inr ⟨_, rfl⟩)]
      simp only [hu, hp, enter, if_true, NestedRoutes.routes_mk]
      rw [ih hsub _ (by simp [spell_append])]
      simp [Routes.queryParameters]

/-- A path that spells an instance of a route with resources is answered by that route. -/
theorem follows_answer {r node : Routes} {segs : List PathSegment} {above : List Param}
    {caps : Caps W} {parts : List Bytes} (h : Follows W r segs above caps parts node)
    (hs : Sound r) (hres : node.resources ≠ []) {bs : Bytes} (hbs : Spells parts bs) (m : Bytes)
    (q : List Param) (caps0 : Caps W) : route W m r q caps0 bs =
      answer node.resources (q ++ above ++ node.queryParameters) (caps0 ++ caps) m := by
  rcases hbs with rfl | hbs
  · have := follows_route h hs [] m q caps0
    rw [List.append_nil] at this
    rw [this]
    obtain ⟨rs, ns, qs⟩ := node
    have hres' : rs ≠ [] := hres
    simp [route, hres', Routes.resources, Routes.queryParameters]
  · rw [follows_end h hs m bs hbs q caps0]
    simp [atEnd, hres]

theorem Supported.sound {r : Routes} {body : List Stmt} (h : Supported r body) (hp : PlainTexts r) :
    Sound r := by
  refine ⟨(matcherBody_shape h.generated).1 ?_, ?_, hp⟩
  · have := h.compiles
    simp only [Wayfinder.compiles, Bool.and_eq_true] at this
    exact this.1
  · have hb := h.generated
    simp only [matcherBody] at hb
    cases ht : toTrie r with
    | none => simp [ht] at hb
    | some t => exact (toTrie_isSome_iff r).1 ⟨t, ht⟩

end Wayfinder
