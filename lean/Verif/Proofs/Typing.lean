import Verif.Proofs.Code
import Verif.Proofs.Classify
/-!
# When the emitted code type-checks
-/

namespace Wayfinder

/-! ## Live items -/

/-- The routes of a block for which code is emitted. -/
def ItemOf (r : Routes) (pth : List PathSegment) (q : List Param) (v : FlattenedRoute) : Prop :=
  ∃ segs above node, LiveRoute r segs above node ∧
    v = ⟨pth ++ segs, node.resources, q ++ above ++ node.queryParameters⟩

theorem itemOf_mk {rs : List Resource} {ns : List NestedRoutes} {qs : List Param}
    {pth : List PathSegment} {q : List Param} {v : FlattenedRoute} :
    ItemOf (.mk rs ns qs) pth q v ↔ v = ⟨pth, rs, q ++ qs⟩ ∨
      (∃ n ∈ ns, ∃ s, n.pathSegment = .static s ∧ ItemOf n.routes (pth ++ [.static s]) (q ++ qs) v) ∨
      (∃ n ∈ ns, ∃ p, n.pathSegment = .dynamic p ∧ captor ns = some p.name ∧
        ItemOf n.routes (pth ++ [.dynamic p]) (q ++ qs) v) := by
  constructor
  · rintro ⟨segs, above, node, hl, rfl⟩
    cases hl with
    | here => left; simp [Routes.resources, Routes.queryParameters]
    | static hn hl =>
      right; left
      exact ⟨_, hn, _, rfl, _, _, _, hl, by simp [Routes.queryParameters]⟩
    | dynamic hn hc hl =>
      right; right
      exact ⟨_, hn, _, rfl, hc, _, _, _, hl, by simp [Routes.queryParameters]⟩
  · rintro (rfl | ⟨⟨seg, r⟩, hn, s, hs, segs, above, node, hl, rfl⟩ |
      ⟨⟨seg, r⟩, hn, p, hs, hc, segs, above, node, hl, rfl⟩)
    · exact ⟨[], [], _, .here _, by simp [Routes.resources, Routes.queryParameters]⟩
    · simp only [NestedRoutes.pathSegment_mk] at hs
      subst hs
      exact ⟨_, _, _, .static (r := .mk rs ns qs) hn hl, by simp [Routes.queryParameters]⟩
    · simp only [NestedRoutes.pathSegment_mk] at hs
      subst hs
      exact ⟨_, _, _, .dynamic (r := .mk rs ns qs) hn hc hl, by simp [Routes.queryParameters]⟩

/-- The routes a piece of code is for; `I` says which routes lie in a block. -/
def KindItem (I : Routes → List PathSegment → List Param → FlattenedRoute → Prop) :
    CodeKind → FlattenedRoute → Prop
  | .block r pth q, v => I r pth q v
  | .enter r pth q, v => I r pth q v
  | .kids ns u pth q, v => ∃ n ∈ ns, ∃ rest, n.pathSegment = .static (u ++ rest) ∧
      I n.routes (pth ++ [.static (u ++ rest)]) q v
  | .arms ns u pth q chars, v => ∃ n ∈ ns, ∃ ch rest, ch ∈ chars ∧
      n.pathSegment = .static (u ++ ch :: rest) ∧
      I n.routes (pth ++ [.static (u ++ ch :: rest)]) q v

/-- The routes a piece of code is for. -/
abbrev LiveItem : CodeKind → FlattenedRoute → Prop := KindItem ItemOf

theorem liveItem_param {rs : List Resource} {ns : List NestedRoutes} {qs : List Param}
    {pth : List PathSegment} {q : List Param} {n : NestedRoutes} {p : Param}
    (hpw : ns.Pairwise fun a b => ¬ SameSlot a.pathSegment b.pathSegment)
    (hn : n ∈ ns) (hseg : n.pathSegment = .dynamic p) (hcap : captor ns = some p.name)
    {w : Str} (hw : ∀ s ∈ staticTexts ns, w <+: s) {v : FlattenedRoute} :
    LiveItem (.block (.mk rs ns qs) pth q) v ↔ v = ⟨pth, rs, q ++ qs⟩ ∨
      LiveItem (.kids ns w pth (q ++ qs)) v ∨
      LiveItem (.enter n.routes (pth ++ [.dynamic p]) (q ++ qs)) v := by
  simp only [LiveItem, KindItem]
  rw [itemOf_mk]
  have h1 : (∃ n ∈ ns, ∃ s, n.pathSegment = .static s ∧
      ItemOf n.routes (pth ++ [.static s]) (q ++ qs) v) ↔
      ∃ n ∈ ns, ∃ rest, n.pathSegment = .static (w ++ rest) ∧
        ItemOf n.routes (pth ++ [.static (w ++ rest)]) (q ++ qs) v := by
    constructor
    · rintro ⟨n, hn, s, hs, h⟩
      obtain ⟨rest, rfl⟩ := hw s (mem_staticTexts.2 ⟨n, hn, hs⟩)
      exact ⟨n, hn, rest, hs, h⟩
    · rintro ⟨n, hn, rest, hs, h⟩
      exact ⟨n, hn, _, hs, h⟩
  have h2 : (∃ n ∈ ns, ∃ p, n.pathSegment = .dynamic p ∧ captor ns = some p.name ∧
        ItemOf n.routes (pth ++ [.dynamic p]) (q ++ qs) v) ↔
      ItemOf n.routes (pth ++ [.dynamic p]) (q ++ qs) v := by
    constructor
    · rintro ⟨n', hn', p', hs, hc, h⟩
      have : n' = n := by
        refine unique_static hpw hn' hn ?_
        rw [hseg, hs]
        rw [hcap, Option.some.injEq] at hc
        simp [SameSlot, hc]
      subst this
      rw [hseg, PathSegment.dynamic.injEq] at hs
      subst hs
      exact h
    · intro h; exact ⟨n, hn, p, hseg, hcap, h⟩
  rw [h1, h2]

theorem liveItem_plain {rs : List Resource} {ns : List NestedRoutes} {qs : List Param}
    {pth : List PathSegment} {q : List Param} (hpar : paramNames ns = []) {v : FlattenedRoute} :
    LiveItem (.block (.mk rs ns qs) pth q) v ↔ v = ⟨pth, rs, q ++ qs⟩ ∨
      LiveItem (.kids ns [] pth (q ++ qs)) v := by
  simp only [LiveItem, KindItem, List.nil_append]
  rw [itemOf_mk]
  have h2 : ¬ ∃ n ∈ ns, ∃ p, n.pathSegment = .dynamic p ∧ captor ns = some p.name ∧
        ItemOf n.routes (pth ++ [.dynamic p]) (q ++ qs) v := by
    rintro ⟨n', hn', p', hs, hc, h⟩
    simp [captor, hpar] at hc
  simp only [h2, or_false]

theorem liveItem_none {I : Routes → List PathSegment → List Param → FlattenedRoute → Prop}
    {ns : List NestedRoutes} {u : Str} {pth : List PathSegment} {q : List Param}
    (h : ∀ n ∈ ns, ∀ rest, n.pathSegment ≠ .static (u ++ rest)) (v : FlattenedRoute) :
    ¬ KindItem I (.kids ns u pth q) v := by
  rintro ⟨n, hn, rest, hs, _⟩
  exact h n hn rest hs

theorem liveItem_sep {I : Routes → List PathSegment → List Param → FlattenedRoute → Prop}
    {ns : List NestedRoutes} {u : Str} {pth : List PathSegment} {q : List Param}
    {n : NestedRoutes} (hn : n ∈ ns) (hseg : n.pathSegment = .static u)
    (h : ∀ n' ∈ ns, ∀ rest, n'.pathSegment = .static (u ++ rest) → n' = n) {v : FlattenedRoute} :
    KindItem I (.kids ns u pth q) v ↔ KindItem I (.enter n.routes (pth ++ [.static u]) q) v := by
  constructor
  · rintro ⟨n', hn', rest, hs, hi⟩
    obtain rfl := h n' hn' rest hs
    rw [hseg] at hs
    simp only [PathSegment.static.injEq, List.self_eq_append_right] at hs
    subst hs
    simpa [KindItem] using hi
  · intro hi
    exact ⟨n, hn, [], by simpa using hseg, by simpa [KindItem] using hi⟩

theorem liveItem_chain {I : Routes → List PathSegment → List Param → FlattenedRoute → Prop}
    {ns : List NestedRoutes} {u w : Str} {pth : List PathSegment} {q : List Param}
    (h : ∀ n ∈ ns, ∀ rest, n.pathSegment = .static (u ++ rest) → ∃ rest', rest = w ++ rest')
    {v : FlattenedRoute} :
    KindItem I (.kids ns u pth q) v ↔ KindItem I (.kids ns (u ++ w) pth q) v := by
  constructor
  · rintro ⟨n, hn, rest, hs, hi⟩
    obtain ⟨rest', rfl⟩ := h n hn rest hs
    exact ⟨n, hn, rest', by simpa using hs, by simpa using hi⟩
  · rintro ⟨n, hn, rest, hs, hi⟩
    exact ⟨n, hn, w ++ rest, by simpa using hs, by simpa using hi⟩

theorem liveItem_branch {I : Routes → List PathSegment → List Param → FlattenedRoute → Prop}
    {ns : List NestedRoutes} {u : Str} {pth : List PathSegment} {q : List Param}
    {chars : Str}
    (h : ∀ n ∈ ns, ∀ rest, n.pathSegment = .static (u ++ rest) →
        ∃ ch rest', ch ∈ chars ∧ rest = ch :: rest') {v : FlattenedRoute} :
    KindItem I (.kids ns u pth q) v ↔ KindItem I (.arms ns u pth q chars) v := by
  constructor
  · rintro ⟨n, hn, rest, hs, hi⟩
    obtain ⟨ch, rest', hch, rfl⟩ := h n hn rest hs
    exact ⟨n, hn, ch, rest', hch, hs, hi⟩
  · rintro ⟨n, hn, ch, rest, hch, hs, hi⟩
    exact ⟨n, hn, _, hs, hi⟩

theorem liveItem_armsCons {I : Routes → List PathSegment → List Param → FlattenedRoute → Prop}
    {ns : List NestedRoutes} {u : Str} {pth : List PathSegment} {q : List Param}
    {ch : Char} {chars : Str} {v : FlattenedRoute} :
    KindItem I (.arms ns u pth q (ch :: chars)) v ↔
      KindItem I (.kids ns (u ++ [ch]) pth q) v ∨ KindItem I (.arms ns u pth q chars) v := by
  constructor
  · rintro ⟨n, hn, ch', rest, hch, hs, hi⟩
    rcases List.mem_cons.1 hch with rfl | hch
    · left; exact ⟨n, hn, rest, by simpa using hs, by simpa using hi⟩
    · right; exact ⟨n, hn, ch', rest, hch, hs, hi⟩
  · rintro (⟨n, hn, rest, hs, hi⟩ | ⟨n, hn, ch', rest, hch, hs, hi⟩)
    · exact ⟨n, hn, ch, rest, by simp, by simpa using hs, by simpa using hi⟩
    · exact ⟨n, hn, ch', rest, by simp [hch], hs, hi⟩

/-! ## Side conditions -/

/-- The sibling condition for a kind. -/
def CodeKind.Distinct : CodeKind → Prop
  | .block r _ _ => DistinctSiblings r
  | .enter r _ _ => DistinctSiblings r
  | .kids ns _ _ _ => ∀ n ∈ ns, DistinctSiblings n.routes
  | .arms ns _ _ _ _ => ∀ n ∈ ns, DistinctSiblings n.routes

/-- The usage condition for a kind. -/
def CodeKind.Used : CodeKind → Prop
  | .block r _ _ => ParamsUsed r
  | .enter r _ _ => ParamsUsed r
  | .kids ns u _ _ => ∀ n ∈ ns, ∀ rest, n.pathSegment = .static (u ++ rest) → ParamsUsed n.routes
  | .arms ns u _ _ chars => ∀ n ∈ ns, ∀ ch rest, ch ∈ chars → n.pathSegment = .static (u ++ ch :: rest) →
      ParamsUsed n.routes

/-- The segments passed so far. -/
def CodeKind.pth : CodeKind → List PathSegment
  | .block _ pth _ => pth
  | .enter _ pth _ => pth
  | .kids _ _ pth _ => pth
  | .arms _ _ pth _ _ => pth

theorem itemOf_path {r : Routes} {pth : List PathSegment} {q : List Param} {v : FlattenedRoute}
    (h : ItemOf r pth q v) : ∃ more, v.path = pth ++ more := by
  obtain ⟨segs, _, _, _, rfl⟩ := h
  exact ⟨segs, rfl⟩

theorem liveItem_path {k : CodeKind} {v : FlattenedRoute} (h : LiveItem k v) :
    ∃ more, v.path = k.pth ++ more := by
  cases k with
  | block => exact itemOf_path h
  | enter => exact itemOf_path h
  | kids =>
    obtain ⟨_, _, _, _, h⟩ := h
    obtain ⟨more, hm⟩ := itemOf_path h
    exact ⟨_, by rw [hm, List.append_assoc]; rfl⟩
  | arms =>
    obtain ⟨_, _, _, _, _, _, h⟩ := h
    obtain ⟨more, hm⟩ := itemOf_path h
    exact ⟨_, by rw [hm, List.append_assoc]; rfl⟩

/-- Something is emitted behind this point. -/
def SomeRes (r : Routes) : Prop := ∃ segs above node, LiveRoute r segs above node ∧ node.resources ≠ []

theorem paramsUsed_mk {rs : List Resource} {ns : List NestedRoutes} {qs : List Param} :
    ParamsUsed (.mk rs ns qs) ↔
      (∀ n ∈ ns, ∀ s, n.pathSegment = .static s → ParamsUsed n.routes) ∧
      (∀ n ∈ ns, ∀ p, n.pathSegment = .dynamic p → captor ns = some p.name →
        SomeRes n.routes ∧ ParamsUsed n.routes) := by
  constructor
  · intro h
    refine ⟨?_, ?_⟩
    · rintro ⟨seg, r⟩ hn s hs segs p above node hl
      simp only [NestedRoutes.pathSegment_mk] at hs
      subst hs
      exact h (.static s :: segs) p _ node (.static (r := .mk rs ns qs) hn hl)
    · rintro ⟨seg, r⟩ hn p hs hc
      simp only [NestedRoutes.pathSegment_mk] at hs
      subst hs
      refine ⟨h [] p _ r (.dynamic (r := .mk rs ns qs) hn hc (.here _)), ?_⟩
      intro segs p' above node hl
      exact h (.dynamic p :: segs) p' _ node (.dynamic (r := .mk rs ns qs) hn hc hl)
  · rintro ⟨h1, h2⟩ segs p above node hl
    cases segs with
    | nil =>
      cases hl with
      | dynamic hn hc hl =>
        cases hl
        exact (h2 _ hn _ rfl hc).1
    | cons seg segs =>
      cases hl with
      | static hn hl => exact h1 _ hn _ rfl segs p _ node hl
      | dynamic hn hc hl => exact (h2 _ hn _ rfl hc).2 segs p _ node hl

/-! ## Literals -/

theorem own_literals (v : FlattenedRoute) (a : MethodArm) :
    a ∈ blockLiterals (ownMethods (some v)) ↔ a ∈ methodArms v := by
  simp only [ownMethods]
  split
  · rw [writeMethods_literals]
  · rename_i h
    simp only [ne_eq, Decidable.not_not, List.length_eq_zero_iff] at h
    simp [methodArms, h, blockLiterals]

theorem sepHead_literals (v : FlattenedRoute) (a : MethodArm) :
    a ∈ blockLiterals (separatorHead (some v)) ↔ a ∈ methodArms v := by
  simp only [separatorHead]
  split
  · rw [writeMethods_literals]
  · rename_i h
    simp only [ne_eq, Decidable.not_not, List.length_eq_zero_iff] at h
    simp [methodArms, h, blockLiterals, Stmt.literals]

/-- The struct literals of emitted code are those of the routes it is for. -/
theorem code_literals {k : CodeKind} {b : List Stmt} (h : Code k b) (hd : k.Distinct) (a : MethodArm) :
    a ∈ blockLiterals b ↔ ∃ v, LiveItem k v ∧ a ∈ methodArms v := by
  have hstep : ∀ {rs ns qs} {pth : List PathSegment} {q : List Param}, ∀ {n : NestedRoutes},
      (CodeKind.block (.mk rs ns qs) pth q).Distinct → n ∈ ns → DistinctSiblings n.routes :=
    fun h hn => (distinctSiblings_mk.1 h).2 _ hn
  induction h with
  | plain hpar _ ih =>
    simp only [blockLiterals_append, List.mem_append, own_literals, ih (distinctSiblings_mk.1 hd).2,
      liveItem_plain hpar]
    constructor
    · rintro (h | ⟨v, hv, h⟩)
      · exact ⟨_, .inl rfl, h⟩
      · exact ⟨v, .inr hv, h⟩
    · rintro ⟨v, rfl | hv, h⟩
      · exact .inl h
      · exact .inr ⟨v, hv, h⟩
  | @param rs ns qs pth q n p b hn hseg hcap hst _ ih =>
    simp only [blockLiterals_append, blockLiterals, Stmt.literals, List.nil_append,
      dynamicHead_literals, List.mem_append, own_literals, ih (hstep hd hn)]
    have hitem := fun v => liveItem_param (rs := rs) (qs := qs) (pth := pth) (q := q) (v := v)
      (distinctSiblings_mk.1 hd).1 hn hseg hcap (w := []) (by simp)
    have hno : ∀ v, ¬ LiveItem (.kids ns [] pth (q ++ qs)) v := liveItem_none (by
      intro n hn rest hs
      have : rest ∈ staticTexts ns := mem_staticTexts.2 ⟨n, hn, hs⟩
      rw [hst] at this; cases this)
    simp only [hitem, hno, false_or]
    constructor
    · rintro (h | ⟨v, hv, h⟩)
      · exact ⟨_, .inl rfl, h⟩
      · exact ⟨v, .inr hv, h⟩
    · rintro ⟨v, rfl | hv, h⟩
      · exact .inl h
      · exact .inr ⟨v, hv, h⟩
  | @both rs ns qs pth q n p b sb w l c _ hn hseg hcap hw hext _ _ _ ih1 ih2 =>
    simp only [blockLiterals_append, blockLiterals, Stmt.literals, armsLiterals, Arm.literals,
      List.nil_append, List.append_nil,
      dynamicHead_literals, List.mem_append, own_literals, ih1 (distinctSiblings_mk.1 hd).2,
      ih2 (hstep hd hn)]
    simp only [liveItem_param (distinctSiblings_mk.1 hd).1 hn hseg hcap hext]
    constructor
    · rintro (h | ⟨v, hv, h⟩ | ⟨v, hv, h⟩)
      · exact ⟨_, .inl rfl, h⟩
      · exact ⟨v, .inr (.inl hv), h⟩
      · exact ⟨v, .inr (.inr hv), h⟩
    · rintro ⟨v, rfl | hv | hv, h⟩
      · exact .inl h
      · exact .inr (.inl ⟨v, hv, h⟩)
      · exact .inr (.inr ⟨v, hv, h⟩)
  | @enter r pth q b _ ih =>
    simp only [blockLiterals_append, blockLiterals, Stmt.literals, armsLiterals, Arm.literals,
      List.nil_append, List.mem_append, sepHead_literals, ih hd]
    constructor
    · rintro (h | h)
      · exact ⟨_, ⟨[], [], r, .here _, by simp; rfl⟩, by simpa using h⟩
      · exact h
    · exact .inr
  | none h =>
    simp [blockLiterals, Stmt.literals, liveItem_none h]
  | sep hn hseg huniq _ _ ih =>
    simp only [ih (hd _ hn), liveItem_sep hn hseg huniq]
  | chain _ _ _ hext _ _ ih =>
    simp only [blockLiterals, Stmt.literals, armsLiterals, Arm.literals, List.nil_append, ih hd,
      liveItem_chain hext]
  | branch hall _ _ _ _ ih =>
    have := ih hd
    simp only [blockLiterals, Stmt.literals, List.append_nil] at this
    simp only [blockLiterals, Stmt.literals, List.nil_append, List.append_nil, this,
      liveItem_branch hall]
  | armsNil => simp [blockLiterals, Stmt.literals, armsLiterals, Arm.literals, KindItem]
  | armsCons _ _ ih1 ih2 =>
    have h2 := ih2 hd
    simp only [blockLiterals, Stmt.literals, List.append_nil] at h2
    simp only [blockLiterals, Stmt.literals, armsLiterals, Arm.literals, List.nil_append,
      List.append_nil, List.mem_append, ih1 hd, h2, liveItem_armsCons]
    constructor
    · rintro (⟨v, hv, h⟩ | ⟨v, hv, h⟩)
      · exact ⟨v, .inl hv, h⟩
      · exact ⟨v, .inr hv, h⟩
    · rintro ⟨v, hv | hv, h⟩
      · exact .inl ⟨v, hv, h⟩
      · exact .inr ⟨v, hv, h⟩

/-! ## Uses of a variable -/

/-- The outcome of looking for a use, when it depends only on whether something is emitted. -/
def UseOk (P : Prop) (u : Option (Option Str)) : Prop :=
  (P → ∃ T, u = some (some T)) ∧ (¬ P → u = none)

theorem UseOk.or {P Q : Prop} {u v : Option (Option Str)} (h1 : UseOk P u) (h2 : UseOk Q v) :
    UseOk (P ∨ Q) (u.or v) := by
  by_cases hP : P
  · obtain ⟨T, hT⟩ := h1.1 hP
    exact ⟨fun _ => ⟨T, by simp [hT]⟩, fun h => absurd (.inl hP) h⟩
  · have := h1.2 hP
    refine ⟨fun h => ?_, fun h => ?_⟩
    · obtain ⟨T, hT⟩ := h2.1 (h.resolve_left hP)
      exact ⟨T, by simp [this, hT]⟩
    · simp [this, h2.2 (fun hQ => h (.inr hQ))]

theorem UseOk.leave {P : Prop} {u : Option (Option Str)} (h : UseOk P u) : UseOk P (leaveScope u) :=
  ⟨fun hP => by obtain ⟨T, hT⟩ := h.1 hP; exact ⟨T, by simp [hT, leaveScope]⟩,
   fun hP => by simp [h.2 hP, leaveScope]⟩

theorem UseOk.congr {P Q : Prop} {u : Option (Option Str)} (h : UseOk P u) (hPQ : P ↔ Q) : UseOk Q u := by
  rw [← propext hPQ]; exact h

theorem useOk_false : UseOk False none := ⟨False.elim, fun _ => rfl⟩

theorem methods_use {x : Str} {v : FlattenedRoute} (hx : x ∈ (dynamics v.path).map Param.name)
    (hr : v.resources ≠ []) : ∃ T, useBlock x (writeMethods v) = some (some T) := by
  obtain ⟨p, hp, hpx⟩ := List.mem_map.1 hx
  cases hrs : v.resources with
  | nil => exact absurd hrs hr
  | cons r rs =>
    have : ∃ p', (dynamics v.path).find? (fun p => p.name == x) = some p' := by
      rw [← Option.isSome_iff_exists, List.find?_isSome]
      exact ⟨p, hp, by simp [hpx]⟩
    obtain ⟨p', hp'⟩ := this
    refine ⟨p'.typ, ?_⟩
    simp [writeMethods, useBlock, Stmt.use, methodArms, hrs, usedBy, hp', leaveScope]

theorem own_use {x : Str} {v : FlattenedRoute} (hx : x ∈ (dynamics v.path).map Param.name) :
    UseOk (v.resources ≠ []) (useBlock x (ownMethods (some v))) := by
  by_cases hr : v.resources = []
  · exact ⟨fun h => absurd hr h, fun _ => by simp [ownMethods, hr, useBlock]⟩
  · refine ⟨fun _ => ?_, fun h => absurd hr h⟩
    simpa [ownMethods, hr] using methods_use hx hr

theorem sepHead_use {x : Str} {v : FlattenedRoute} (hx : x ∈ (dynamics v.path).map Param.name) :
    UseOk (v.resources ≠ []) (useBlock x (separatorHead (some v))) := by
  by_cases hr : v.resources = []
  · exact ⟨fun h => absurd hr h, fun _ => by
      simp [separatorHead, hr, useBlock, Stmt.use, leaveScope]⟩
  · refine ⟨fun _ => ?_, fun h => absurd hr h⟩
    simpa [separatorHead, hr] using methods_use hx hr

/-- Something is emitted. -/
def Lively (k : CodeKind) : Prop := ∃ v, LiveItem k v ∧ v.resources ≠ []

theorem lively_enter {r : Routes} {pth : List PathSegment} {q : List Param} :
    Lively (.enter r pth q) ↔ SomeRes r := by
  constructor
  · rintro ⟨v, ⟨segs, above, node, hl, rfl⟩, hr⟩
    exact ⟨segs, above, node, hl, hr⟩
  · rintro ⟨segs, above, node, hl, hr⟩
    exact ⟨_, ⟨segs, above, node, hl, rfl⟩, hr⟩

theorem used_param {rs : List Resource} {ns : List NestedRoutes} {qs : List Param}
    {pth : List PathSegment} {q : List Param} (hu : (CodeKind.block (.mk rs ns qs) pth q).Used)
    {n : NestedRoutes} {p : Param} (hn : n ∈ ns) (hseg : n.pathSegment = .dynamic p)
    (hcap : captor ns = some p.name) (q' : List Param) :
    Lively (.enter n.routes (pth ++ [.dynamic p]) q') ∧
      (CodeKind.enter n.routes (pth ++ [.dynamic p]) q').Used := by
  have := (paramsUsed_mk.1 hu).2 n hn p hseg hcap
  exact ⟨lively_enter.2 this.1, this.2⟩

theorem fresh_of_nodup {pth : List PathSegment} {p : Param} {v : FlattenedRoute}
    {more : List PathSegment} (hp : v.path = pth ++ [.dynamic p] ++ more) (hr : v.resources ≠ [])
    (hnd : ∀ a ∈ methodArms v, a.fieldNames.Nodup) :
    p.name ∉ (dynamics pth).map Param.name ∧ ((dynamics pth).map Param.name).Nodup := by
  obtain ⟨r, hrm⟩ := List.exists_mem_of_ne_nil _ hr
  have := hnd _ (List.mem_map.2 ⟨r, hrm, rfl⟩)
  simp only [MethodArm.fieldNames, hp, dynamics_append, List.map_append] at this
  have h1 := (List.nodup_append.1 (List.nodup_append.1 (List.nodup_append.1 this).1).1)
  refine ⟨fun h => ?_, h1.1⟩
  exact h1.2.2 p.name h p.name (by simp [dynamics]) rfl


theorem dynamics_eq_routeParams (segs : List PathSegment) : dynamics segs = routeParams segs := by
  unfold dynamics routeParams
  congr 1

end Wayfinder
