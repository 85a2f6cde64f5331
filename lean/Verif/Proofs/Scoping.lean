import Verif.Proofs.Typing
/-!
# The variables in scope on every route, and when the emitted code type-checks
-/

namespace Wayfinder

/-! ## Scopes along a route -/

/-- What is in scope in front of the static children of a block. -/
def besides (ns : List NestedRoutes) (sc : Scope) : Scope :=
  if paramNames ns = [] then sc else (c!"start", .usize) :: sc

/-- What is in scope behind a parameter. -/
def underParam (p : Param) (sc : Scope) : Scope :=
  (p.name, .user p.typ) :: (c!"text", .str) :: (c!"start", .usize) :: sc

/-- As `LiveRoute`, with the variables in scope at both ends. -/
inductive Walk : Routes → Scope → List PathSegment → List Param → Routes → Scope → Prop where
  | here (r : Routes) (sc : Scope) : Walk r sc [] [] r sc
  | static {r node : Routes} {s : Str} {sub : Routes} {segs : List PathSegment} {query : List Param}
      {sc sc' : Scope} :
      NestedRoutes.mk (.static s) sub ∈ r.routes →
      Walk sub (besides r.routes sc) segs query node sc' →
      Walk r sc (.static s :: segs) (r.queryParameters ++ query) node sc'
  | dynamic {r node : Routes} {p : Param} {sub : Routes} {segs : List PathSegment}
      {query : List Param} {sc sc' : Scope} :
      NestedRoutes.mk (.dynamic p) sub ∈ r.routes → captor r.routes = some p.name →
      Walk sub (underParam p sc) segs query node sc' →
      Walk r sc (.dynamic p :: segs) (r.queryParameters ++ query) node sc'

theorem Walk.live {r node : Routes} {sc sc' : Scope} {segs : List PathSegment} {q : List Param}
    (h : Walk r sc segs q node sc') : LiveRoute r segs q node := by
  induction h with
  | here => exact .here _
  | static hn _ ih => exact .static hn ih
  | dynamic hn hc _ ih => exact .dynamic hn hc ih

theorem LiveRoute.walk {r node : Routes} {segs : List PathSegment} {q : List Param}
    (h : LiveRoute r segs q node) (sc : Scope) : ∃ sc', Walk r sc segs q node sc' := by
  induction h generalizing sc with
  | here => exact ⟨sc, .here _ _⟩
  | static hn _ ih => obtain ⟨sc', h⟩ := ih (besides _ sc); exact ⟨sc', .static hn h⟩
  | dynamic hn hc _ ih => obtain ⟨sc', h⟩ := ih (underParam _ sc); exact ⟨sc', .dynamic hn hc h⟩

theorem besides_grows (ns : List NestedRoutes) (sc : Scope) : ∃ e, besides ns sc = e ++ sc := by
  unfold besides
  split
  · exact ⟨[], rfl⟩
  · exact ⟨[_], rfl⟩

theorem Walk.grows {r node : Routes} {sc sc' : Scope} {segs : List PathSegment} {q : List Param}
    (h : Walk r sc segs q node sc') : ∃ e, sc' = e ++ sc := by
  induction h with
  | here => exact ⟨[], rfl⟩
  | @static r node s sub segs q sc sc' _ _ ih =>
    obtain ⟨e, he⟩ := ih
    obtain ⟨e', he'⟩ := besides_grows r.routes sc
    exact ⟨e ++ e', by rw [he, he']; simp⟩
  | @dynamic r node p sub segs q sc sc' _ _ _ ih =>
    obtain ⟨e, he⟩ := ih
    exact ⟨e ++ [(p.name, .user p.typ), (c!"text", .str), (c!"start", .usize)], by
      rw [he]; simp [underParam]⟩

theorem lookupVar_append {α : Type} (x : Str) (a b : List (Str × α)) :
    lookupVar x (a ++ b) = (lookupVar x a).or (lookupVar x b) := by
  induction a with
  | nil => rfl
  | cons y a ih =>
    obtain ⟨y, v⟩ := y
    simp only [List.cons_append, lookupVar]
    split
    · rfl
    · exact ih

theorem Walk.bound {r node : Routes} {sc sc' : Scope} {segs : List PathSegment} {q : List Param}
    (h : Walk r sc segs q node sc') {x : Str} (hx : lookupVar x sc ≠ none) : lookupVar x sc' ≠ none := by
  obtain ⟨e, rfl⟩ := h.grows
  rw [lookupVar_append]
  cases lookupVar x e with
  | none => simpa using hx
  | some => simp

/-! ## Items with their scope -/

/-- As `ItemOf`, with scopes. -/
def SeenOf (sc sc' : Scope) (r : Routes) (pth : List PathSegment) (q : List Param)
    (v : FlattenedRoute) : Prop :=
  ∃ segs above node, Walk r sc segs above node sc' ∧
    v = ⟨pth ++ segs, node.resources, q ++ above ++ node.queryParameters⟩

/-- As `LiveItem`, with scopes. -/
abbrev SeenItem (sc sc' : Scope) : CodeKind → FlattenedRoute → Prop := KindItem (SeenOf sc sc')

theorem seenOf_mk {rs : List Resource} {ns : List NestedRoutes} {qs : List Param}
    {pth : List PathSegment} {q : List Param} {v : FlattenedRoute} {sc sc' : Scope} :
    SeenOf sc sc' (.mk rs ns qs) pth q v ↔ (v = ⟨pth, rs, q ++ qs⟩ ∧ sc' = sc) ∨
      (∃ n ∈ ns, ∃ s, n.pathSegment = .static s ∧
        SeenOf (besides ns sc) sc' n.routes (pth ++ [.static s]) (q ++ qs) v) ∨
      (∃ n ∈ ns, ∃ p, n.pathSegment = .dynamic p ∧ captor ns = some p.name ∧
        SeenOf (underParam p sc) sc' n.routes (pth ++ [.dynamic p]) (q ++ qs) v) := by
  constructor
  · rintro ⟨segs, above, node, hl, rfl⟩
    cases hl with
    | here => left; simp [Routes.resources, Routes.queryParameters]
    | static hn hl =>
      right; left
      exact ⟨_, hn, _, rfl, _, _, _, hl, by simp [Routes.queryParameters]⟩
    | dynamic hn hc hl =>
      right; right
      exact ⟨_, hn, _, rfl, hc, _, _, _, hl, by simp [Routes.queryParameters]⟩
  · rintro (⟨rfl, rfl⟩ | ⟨⟨seg, r⟩, hn, s, hs, segs, above, node, hl, rfl⟩ |
      ⟨⟨seg, r⟩, hn, p, hs, hc, segs, above, node, hl, rfl⟩)
    · exact ⟨[], [], _, .here _ _, by simp [Routes.resources, Routes.queryParameters]⟩
    · simp only [NestedRoutes.pathSegment_mk] at hs
      subst hs
      exact ⟨_, _, _, .static (r := .mk rs ns qs) hn hl, by simp [Routes.queryParameters]⟩
    · simp only [NestedRoutes.pathSegment_mk] at hs
      subst hs
      exact ⟨_, _, _, .dynamic (r := .mk rs ns qs) hn hc hl, by simp [Routes.queryParameters]⟩

theorem captor_params {ns : List NestedRoutes} {x : Str} (h : captor ns = some x) :
    paramNames ns ≠ [] := by
  intro hn; simp [captor, hn] at h

theorem seenItem_param {rs : List Resource} {ns : List NestedRoutes} {qs : List Param}
    {pth : List PathSegment} {q : List Param} {n : NestedRoutes} {p : Param} {sc sc' : Scope}
    (hpw : ns.Pairwise fun a b => ¬ SameSlot a.pathSegment b.pathSegment)
    (hn : n ∈ ns) (hseg : n.pathSegment = .dynamic p) (hcap : captor ns = some p.name)
    {w : Str} (hw : ∀ s ∈ staticTexts ns, w <+: s) {v : FlattenedRoute} :
    SeenItem sc sc' (.block (.mk rs ns qs) pth q) v ↔ (v = ⟨pth, rs, q ++ qs⟩ ∧ sc' = sc) ∨
      SeenItem ((c!"start", .usize) :: sc) sc' (.kids ns w pth (q ++ qs)) v ∨
      SeenItem (underParam p sc) sc' (.enter n.routes (pth ++ [.dynamic p]) (q ++ qs)) v := by
  simp only [SeenItem, KindItem]
  have hb : besides ns sc = (c!"start", .usize) :: sc := by
    simp [besides, captor_params hcap]
  rw [seenOf_mk, hb]
  have h1 : (∃ n ∈ ns, ∃ s, n.pathSegment = .static s ∧
      SeenOf ((c!"start", .usize) :: sc) sc' n.routes (pth ++ [.static s]) (q ++ qs) v) ↔
      ∃ n ∈ ns, ∃ rest, n.pathSegment = .static (w ++ rest) ∧
        SeenOf ((c!"start", .usize) :: sc) sc' n.routes (pth ++ [.static (w ++ rest)]) (q ++ qs) v := by
    constructor
    · rintro ⟨n, hn, s, hs, h⟩
      obtain ⟨rest, rfl⟩ := hw s (mem_staticTexts.2 ⟨n, hn, hs⟩)
      exact ⟨n, hn, rest, hs, h⟩
    · rintro ⟨n, hn, rest, hs, h⟩
      exact ⟨n, hn, _, hs, h⟩
  have h2 : (∃ n ∈ ns, ∃ p, n.pathSegment = .dynamic p ∧ captor ns = some p.name ∧
        SeenOf (underParam p sc) sc' n.routes (pth ++ [.dynamic p]) (q ++ qs) v) ↔
      SeenOf (underParam p sc) sc' n.routes (pth ++ [.dynamic p]) (q ++ qs) v := by
    constructor
    · rintro ⟨n', hn', p', hs, hc, h⟩
      have : n' = n := by
        refine unique_static hpw hn' hn ?_
        rw [hseg, hs]
        rw [hcap, Option.some.injEq] at hc
        simp [SameSlot, hc]
      subst this
      rw [hseg, PathSegment.dynamic.injEq] at hs
      subst hs
      exact h
    · intro h; exact ⟨n, hn, p, hseg, hcap, h⟩
  rw [h1, h2]

theorem seenItem_plain {rs : List Resource} {ns : List NestedRoutes} {qs : List Param}
    {pth : List PathSegment} {q : List Param} (hpar : paramNames ns = []) {v : FlattenedRoute}
    {sc sc' : Scope} :
    SeenItem sc sc' (.block (.mk rs ns qs) pth q) v ↔ (v = ⟨pth, rs, q ++ qs⟩ ∧ sc' = sc) ∨
      SeenItem sc sc' (.kids ns [] pth (q ++ qs)) v := by
  simp only [SeenItem, KindItem, List.nil_append]
  have hb : besides ns sc = sc := by simp [besides, hpar]
  rw [seenOf_mk, hb]
  have h2 : ¬ ∃ n ∈ ns, ∃ p, n.pathSegment = .dynamic p ∧ captor ns = some p.name ∧
        SeenOf (underParam p sc) sc' n.routes (pth ++ [.dynamic p]) (q ++ qs) v := by
    rintro ⟨n', hn', p', hs, hc, h⟩
    simp [captor, hpar] at hc
  simp only [h2, or_false]

theorem seenOf_live {sc sc' : Scope} {r : Routes} {pth : List PathSegment} {q : List Param}
    {v : FlattenedRoute} (h : SeenOf sc sc' r pth q v) : ItemOf r pth q v := by
  obtain ⟨segs, above, node, hw, rfl⟩ := h
  exact ⟨segs, above, node, hw.live, rfl⟩

theorem seenItem_live {sc sc' : Scope} {k : CodeKind} {v : FlattenedRoute} (h : SeenItem sc sc' k v) :
    LiveItem k v := by
  cases k with
  | block => exact seenOf_live h
  | enter => exact seenOf_live h
  | kids => obtain ⟨n, hn, rest, hs, h⟩ := h; exact ⟨n, hn, rest, hs, seenOf_live h⟩
  | arms => obtain ⟨n, hn, ch, rest, hc, hs, h⟩ := h; exact ⟨n, hn, ch, rest, hc, hs, seenOf_live h⟩

theorem liveOf_seen {r : Routes} {pth : List PathSegment} {q : List Param}
    {v : FlattenedRoute} (h : ItemOf r pth q v) (sc : Scope) : ∃ sc', SeenOf sc sc' r pth q v := by
  obtain ⟨segs, above, node, hw, rfl⟩ := h
  obtain ⟨sc', hw⟩ := hw.walk sc
  exact ⟨sc', segs, above, node, hw, rfl⟩

theorem liveItem_seen {k : CodeKind} {v : FlattenedRoute} (h : LiveItem k v) (sc : Scope) :
    ∃ sc', SeenItem sc sc' k v := by
  cases k with
  | block => exact liveOf_seen h sc
  | enter => exact liveOf_seen h sc
  | kids =>
    obtain ⟨n, hn, rest, hs, h⟩ := h
    obtain ⟨sc', h⟩ := liveOf_seen h sc
    exact ⟨sc', n, hn, rest, hs, h⟩
  | arms =>
    obtain ⟨n, hn, ch, rest, hc, hs, h⟩ := h
    obtain ⟨sc', h⟩ := liveOf_seen h sc
    exact ⟨sc', n, hn, ch, rest, hc, hs, h⟩

theorem seenItem_bound {sc sc' : Scope} {k : CodeKind} {v : FlattenedRoute}
    (h : SeenItem sc sc' k v) {x : Str} (hx : lookupVar x sc ≠ none) : lookupVar x sc' ≠ none := by
  cases k with
  | block => obtain ⟨_, _, _, hw, _⟩ := h; exact hw.bound hx
  | enter => obtain ⟨_, _, _, hw, _⟩ := h; exact hw.bound hx
  | kids => obtain ⟨_, _, _, _, _, _, _, hw, _⟩ := h; exact hw.bound hx
  | arms => obtain ⟨_, _, _, _, _, _, _, _, _, hw, _⟩ := h; exact hw.bound hx

/-! ## Uses of a variable -/

/-- The first thing that happens to a variable is a use. -/
def Uses (u : Option (Option Str)) : Prop := ∃ T, u = some (some T)

theorem uses_leave {u : Option (Option Str)} : Uses (leaveScope u) ↔ Uses u := by
  unfold Uses leaveScope
  rcases u with _ | _ | T <;> simp

theorem uses_or {u v : Option (Option Str)} (h : u ≠ some none) : Uses (u.or v) ↔ Uses u ∨ Uses v := by
  unfold Uses
  rcases u with _ | _ | T
  · simp
  · exact absurd rfl h
  · simp

theorem leave_ne (u : Option (Option Str)) : leaveScope u ≠ some none := by
  unfold leaveScope
  rcases u with _ | _ | T <;> simp

theorem useOk_uses {P : Prop} {u : Option (Option Str)} (h : UseOk P u) : (Uses u ↔ P) ∧ u ≠ some none := by
  by_cases hP : P
  · obtain ⟨T, hT⟩ := h.1 hP
    simp [Uses, hT, hP]
  · simp [Uses, h.2 hP, hP]

/-- A variable that is in scope is used in code of a kind. -/
def Pins (x : Str) (sc : Scope) (k : CodeKind) : Prop :=
  ∃ v sc', SeenItem sc sc' k v ∧ v.resources ≠ [] ∧ lookupVar x sc' = none

theorem dynamicHead_uses (x name : Str) (b c : List Stmt) :
    Uses (useBlock x (dynamicHead name b ++ c)) ↔ x ≠ c!"text" ∧ x ≠ name ∧ Uses (useBlock x c) := by
  simp only [dynamicHead, useBlock, Stmt.use, List.cons_append, List.nil_append]
  by_cases h1 : x = c!"text"
  · simp [h1, Uses]
  · by_cases h2 : x = name
    · subst h2; simp [h1, Uses]
    · simp [h1, h2]

theorem lookup_behind {x : Str} {p : Param} {sc : Scope} (h : lookupVar x sc = none) :
    lookupVar x (underParam p sc) = none ↔ x ≠ c!"start" ∧ x ≠ c!"text" ∧ x ≠ p.name := by
  simp only [underParam, lookupVar]
  by_cases h1 : p.name = x
  · simp [h1]
  · by_cases h2 : c!"text" = x
    · simp [h1, h2]
    · by_cases h3 : c!"start" = x
      · simp [h1, h2, h3]
      · simp only [h1, h2, h3, if_false, h, true_iff]
        exact ⟨fun e => h3 e.symm, fun e => h2 e.symm, fun e => h1 e.symm⟩

theorem lookup_start {x : Str} {sc : Scope} (h : lookupVar x sc = none) :
    lookupVar x ((c!"start", Ty.usize) :: sc) = none ↔ x ≠ c!"start" := by
  simp only [lookupVar]
  by_cases h1 : c!"start" = x
  · simp [h1]
  · simp only [h1, if_false, h, true_iff]; exact fun e => h1 e.symm

/-- When a variable is used before it is declared again. -/
theorem code_uses {x : Str} {k : CodeKind} {b : List Stmt} (h : Code k b) (hd : k.Distinct)
    (hx : x ∈ (dynamics k.pth).map Param.name) (sc : Scope) (hs : lookupVar x sc = none) :
    Uses (useBlock x b) ↔ Pins x sc k := by
  induction h generalizing sc with
  | @plain rs ns qs pth q cb hpar _ ih =>
    have hown := useOk_uses (own_use (v := ⟨pth, rs, q ++ qs⟩) hx)
    rw [useBlock_append, uses_or hown.2, hown.1, ih (distinctSiblings_mk.1 hd).2 hx sc hs]
    simp only [Pins, seenItem_plain hpar]
    constructor
    · rintro (h | ⟨v, sc', hv, h⟩)
      · exact ⟨_, sc, .inl ⟨rfl, rfl⟩, h, hs⟩
      · exact ⟨v, sc', .inr hv, h⟩
    · rintro ⟨v, sc', ⟨rfl, rfl⟩ | hv, h⟩
      · exact .inl h.1
      · exact .inr ⟨v, sc', hv, h⟩
  | @param rs ns qs pth q n p b hn hseg hcap hst _ ih =>
    have hitem := fun v sc' => seenItem_param (rs := rs) (qs := qs) (pth := pth) (q := q) (v := v)
      (sc := sc) (sc' := sc') (distinctSiblings_mk.1 hd).1 hn hseg hcap (w := []) (by simp)
    have hno : ∀ v sc', ¬ SeenItem ((c!"start", .usize) :: sc) sc' (.kids ns [] pth (q ++ qs)) v :=
      fun v sc' => liveItem_none (by
        intro n hn rest hs
        have : rest ∈ staticTexts ns := mem_staticTexts.2 ⟨n, hn, hs⟩
        rw [hst] at this; cases this) v
    have hown := useOk_uses (own_use (v := ⟨pth, rs, q ++ qs⟩) hx)
    rw [useBlock_append, uses_or hown.2, hown.1]
    have hiff : Uses (useBlock x (.letStart :: (dynamicHead p.name b ++ b))) ↔
        ∃ v sc', SeenItem (underParam p sc) sc' (.enter n.routes (pth ++ [.dynamic p]) (q ++ qs)) v ∧
          v.resources ≠ [] ∧ lookupVar x sc' = none := by
      rw [useBlock]
      by_cases hb : lookupVar x (underParam p sc) = none
      · obtain ⟨h1, h2, h3⟩ := (lookup_behind hs).1 hb
        simp only [Stmt.use, h1, if_false]
        rw [dynamicHead_uses]
        simp only [h2, h3, ne_eq, not_false_eq_true, true_and]
        exact ih ((distinctSiblings_mk.1 hd).2 n hn) (by
          simp only [CodeKind.pth, dynamics_append, List.map_append, List.mem_append] at hx ⊢
          exact .inl hx) _ hb
      · constructor
        · intro hu
          exfalso
          apply hb
          rw [lookup_behind hs]
          by_cases h1 : x = c!"start"
          · simp [Stmt.use, h1, Uses] at hu
          · simp only [Stmt.use, h1, if_false] at hu
            rw [dynamicHead_uses] at hu
            exact ⟨h1, hu.1, hu.2.1⟩
        · rintro ⟨v, sc', hv, _, hn⟩
          exact absurd hn (seenItem_bound hv hb)
    rw [hiff]
    simp only [Pins, hitem, hno, false_or]
    constructor
    · rintro (h | ⟨v, sc', hv, h⟩)
      · exact ⟨_, sc, .inl ⟨rfl, rfl⟩, h, hs⟩
      · exact ⟨v, sc', .inr hv, h⟩
    · rintro ⟨v, sc', ⟨rfl, rfl⟩ | hv, h⟩
      · exact .inl h.1
      · exact .inr ⟨v, sc', hv, h⟩
  | @both rs ns qs pth q n p b sb w l c _ hn hseg hcap hw hext _ _ _ ih1 ih2 =>
    have hitem := fun v sc' => seenItem_param (rs := rs) (qs := qs) (pth := pth) (q := q) (v := v)
      (sc := sc) (sc' := sc') (distinctSiblings_mk.1 hd).1 hn hseg hcap hext
    have hown := useOk_uses (own_use (v := ⟨pth, rs, q ++ qs⟩) hx)
    rw [useBlock_append, uses_or hown.2, hown.1]
    have hiff : Uses (useBlock x (.blank :: .letStart :: .blank ::
          .ifThen c [.matchPath l [.bytes w (.addI l :: sb), .wildNothing]] ::
          (dynamicHead p.name b ++ b))) ↔
        Pins x ((c!"start", .usize) :: sc) (.kids ns w pth (q ++ qs)) ∨
        Pins x (underParam p sc) (.enter n.routes (pth ++ [.dynamic p]) (q ++ qs)) := by
      by_cases h1 : x = c!"start"
      · have hl : lookupVar x ((c!"start", Ty.usize) :: sc) ≠ none := by simp [lookupVar, h1]
        have hl2 : lookupVar x (underParam p sc) ≠ none := by
          rw [ne_eq, lookup_behind hs]; simp [h1]
        constructor
        · intro hu
          simp [useBlock, Stmt.use, h1, Uses] at hu
        · rintro (⟨v, sc', hv, _, hn⟩ | ⟨v, sc', hv, _, hn⟩)
          · exact absurd hn (seenItem_bound hv hl)
          · exact absurd hn (seenItem_bound hv hl2)
      · have : useBlock x (.blank :: .letStart :: .blank ::
              .ifThen c [.matchPath l [.bytes w (.addI l :: sb), .wildNothing]] ::
              (dynamicHead p.name b ++ b)) =
            (leaveScope (leaveScope (useBlock x sb))).or (useBlock x (dynamicHead p.name b ++ b)) := by
          simp only [useBlock, Stmt.use, useArms, Arm.use, h1, if_false]
          cases leaveScope (useBlock x sb) with
          | none => simp [leaveScope]
          | some u => cases u <;> simp [leaveScope]
        rw [this, uses_or (leave_ne _), uses_leave, uses_leave, dynamicHead_uses,
          ih1 (distinctSiblings_mk.1 hd).2 hx _ ((lookup_start hs).2 h1)]
        refine or_congr_right ?_
        by_cases hb : lookupVar x (underParam p sc) = none
        · obtain ⟨_, h2, h3⟩ := (lookup_behind hs).1 hb
          simp only [h2, h3, ne_eq, not_false_eq_true, true_and]
          exact ih2 ((distinctSiblings_mk.1 hd).2 n hn) (by
            simp only [CodeKind.pth, dynamics_append, List.map_append, List.mem_append] at hx ⊢
            exact .inl hx) _ hb
        · constructor
          · rintro ⟨h2, h3, _⟩
            exact absurd ((lookup_behind hs).2 ⟨h1, h2, h3⟩) hb
          · rintro ⟨v, sc', hv, _, hn⟩
            exact absurd hn (seenItem_bound hv hb)
    rw [hiff]
    simp only [Pins, hitem]
    constructor
    · rintro (h | ⟨v, sc', hv, h⟩ | ⟨v, sc', hv, h⟩)
      · exact ⟨_, sc, .inl ⟨rfl, rfl⟩, h, hs⟩
      · exact ⟨v, sc', .inr (.inl hv), h⟩
      · exact ⟨v, sc', .inr (.inr hv), h⟩
    · rintro ⟨v, sc', ⟨rfl, rfl⟩ | hv | hv, h⟩
      · exact .inl h.1
      · exact .inr (.inl ⟨v, sc', hv, h⟩)
      · exact .inr (.inr ⟨v, sc', hv, h⟩)
  | @enter r pth q b _ ih =>
    have : useBlock x (.matchPath 1 [.bytes c!"/" [.addI 1], .wildNotFound] :: b) = useBlock x b := by
      simp [useBlock, Stmt.use, useArms, Arm.use, leaveScope]
    have hown := useOk_uses (sepHead_use (v := ⟨pth, r.resources, q ++ r.queryParameters⟩) hx)
    rw [useBlock_append, this, uses_or hown.2, hown.1, ih hd hx sc hs]
    constructor
    · rintro (h | h)
      · exact ⟨_, sc, ⟨[], [], r, .here _ _, rfl⟩, h, hs⟩
      · exact h
    · exact .inr
  | none h =>
    constructor
    · rintro ⟨T, hT⟩; simp [useBlock, Stmt.use] at hT
    · rintro ⟨v, sc', hv, _⟩
      exact absurd hv (liveItem_none h v)
  | sep hn hseg huniq _ _ ih =>
    rw [ih (hd _ hn) (by
      simp only [CodeKind.pth, dynamics_append, List.map_append, List.mem_append] at hx ⊢
      exact .inl hx) sc hs]
    simp only [Pins, SeenItem, liveItem_sep hn hseg huniq]
  | chain _ _ _ hext _ _ ih =>
    have hih := ih hd hx sc hs
    simp only [useBlock, Stmt.use, useArms, Arm.use, leaveScope]
    rw [hih]
    simp only [Pins, SeenItem, liveItem_chain hext]
  | branch hall _ _ _ _ ih =>
    have hih := ih hd hx sc hs
    simp only [useBlock, Stmt.use, leaveScope] at hih ⊢
    rw [hih]
    simp only [Pins, SeenItem, liveItem_branch hall]
  | armsNil =>
    constructor
    · rintro ⟨T, hT⟩; simp [useBlock, Stmt.use, useArms, Arm.use] at hT
    · rintro ⟨v, sc', ⟨_, _, _, _, h, _⟩, _⟩
      cases h
  | @armsCons ns u pth q ch chars b as _ _ ih1 ih2 =>
    have : useBlock x [.matchPath 1 (.bytes [ch] (.addI 1 :: b) :: as)] =
        (leaveScope (useBlock x b)).or (useBlock x [.matchPath 1 as]) := by
      simp only [useBlock, Stmt.use, useArms, Arm.use]
      cases leaveScope (useBlock x b) with
      | none => simp
      | some u => simp
    rw [this, uses_or (leave_ne _), uses_leave, ih1 hd hx sc hs, ih2 hd hx sc hs]
    simp only [Pins, SeenItem, liveItem_armsCons]
    constructor
    · rintro (⟨v, sc', hv, h⟩ | ⟨v, sc', hv, h⟩)
      · exact ⟨v, sc', .inl hv, h⟩
      · exact ⟨v, sc', .inr hv, h⟩
    · rintro ⟨v, sc', hv | hv, h⟩
      · exact .inl ⟨v, sc', hv, h⟩
      · exact .inr ⟨v, sc', hv, h⟩

/-! ## Type-checking -/

/-- The variables of the function itself can be used, but for `method`. -/
structure Basic (sc : Scope) : Prop where
  i : lookupVar c!"i" sc = none
  path : lookupVar c!"path" sc = none
  len : sc.index c!"len" = true

theorem Basic.nil : Basic [] := ⟨rfl, rfl, rfl⟩

theorem Basic.start {sc : Scope} (h : Basic sc) (t : Ty) : Basic ((c!"start", t) :: sc) :=
  ⟨by simpa [lookupVar] using h.i, by simpa [lookupVar] using h.path, by
    simpa [Scope.index, lookupVar] using h.len⟩

/-- A parameter of this name and type leaves the variables of the function usable. -/
def Harmless (p : Param) : Prop :=
  p.name ≠ c!"i" ∧ p.name ≠ c!"path" ∧ (p.name = c!"len" → p.typ = c!"usize")

theorem basic_behind {sc : Scope} (h : Basic sc) {p : Param} : Basic (underParam p sc) ↔ Harmless p := by
  constructor
  · rintro ⟨h1, h2, h3⟩
    refine ⟨fun he => ?_, fun he => ?_, fun he => ?_⟩
    · simp [underParam, lookupVar, he] at h1
    · simp [underParam, lookupVar, he] at h2
    · simpa [underParam, Scope.index, lookupVar, he, Ty.isUsize] using h3
  · rintro ⟨h1, h2, h3⟩
    refine ⟨?_, ?_, ?_⟩
    · simpa [underParam, lookupVar, h1] using h.i
    · simpa [underParam, lookupVar, h2] using h.path
    · by_cases he : p.name = c!"len"
      · simp [underParam, Scope.index, lookupVar, he, h3 he, Ty.isUsize]
      · simpa [underParam, Scope.index, lookupVar, he] using h.len

/-- The literals of a route type-check where they are written. -/
def ItemTyped (v : FlattenedRoute) (sc : Scope) : Prop :=
  v.resources ≠ [] → sc.free c!"method" = true ∧ ∀ a ∈ methodArms v, MethodArm.typed sc a = true

theorem writeMethods_check {sc : Scope} (h : Basic sc) {v : FlattenedRoute} (hr : v.resources ≠ []) :
    (ItemTyped v sc → checkBlock (writeMethods v) sc = some sc) ∧
    (¬ ItemTyped v sc → checkBlock (writeMethods v) sc = none) := by
  have hlen := h.len
  have h1 : checkBlock (writeMethods v) sc =
      if sc.free c!"method" && (methodArms v).all (MethodArm.typed sc) then some sc else none := by
    simp only [writeMethods, checkBlock, Stmt.check, hlen]
    have hi : sc.index c!"i" = true := by simp [Scope.index, h.i]
    simp only [hi]
    cases (sc.free c!"method" && (methodArms v).all (MethodArm.typed sc)) <;> simp
  rw [h1]
  have h2 : (sc.free c!"method" && (methodArms v).all (MethodArm.typed sc)) = true ↔ ItemTyped v sc := by
    simp [ItemTyped, hr, List.all_eq_true]
  constructor
  · intro ht; rw [if_pos (h2.2 ht)]
  · intro ht; rw [if_neg (fun hh => ht (h2.1 hh))]

theorem own_check {sc : Scope} (h : Basic sc) (v : FlattenedRoute) :
    (ItemTyped v sc → checkBlock (ownMethods (some v)) sc = some sc) ∧
    (¬ ItemTyped v sc → checkBlock (ownMethods (some v)) sc = none) := by
  by_cases hr : v.resources = []
  · exact ⟨fun _ => by simp [ownMethods, hr, checkBlock], fun h => absurd (fun h => absurd hr h) h⟩
  · simpa [ownMethods, hr] using writeMethods_check h hr

theorem sepHead_check {sc : Scope} (h : Basic sc) (v : FlattenedRoute) :
    (ItemTyped v sc → checkBlock (separatorHead (some v)) sc = some sc) ∧
    (¬ ItemTyped v sc → checkBlock (separatorHead (some v)) sc = none) := by
  by_cases hr : v.resources = []
  · refine ⟨fun _ => ?_, fun h => absurd (fun h => absurd hr h) h⟩
    have hlen := h.len
    have hi : sc.index c!"i" = true := by simp [Scope.index, h.i]
    simp [separatorHead, hr, checkBlock, Stmt.check, hlen, hi]
  · simpa [separatorHead, hr] using writeMethods_check h hr

theorem check_ifThen {c : Cond} {body rest : List Stmt} {sc : Scope}
    (h : (checkBlock (.ifThen c body :: rest) sc).isSome = true) :
    sc.index c!"len" = true ∧ (checkBlock rest sc).isSome = true := by
  simp only [checkBlock, Stmt.check] at h
  by_cases hc : (sc.index c!"i" && sc.index c!"len" && (checkBlock body sc).isSome) = true
  · rw [if_pos hc] at h
    simp only [Bool.and_eq_true] at hc
    exact ⟨hc.1.2, h⟩
  · rw [if_neg hc] at h
    simp at h

theorem check_matchSlash {rest : List Stmt} {sc : Scope}
    (h : (checkBlock (.matchPath 1 [.bytes c!"/" [.addI 1], .wildNotFound] :: rest) sc).isSome = true) :
    lookupVar c!"i" sc = none ∧ lookupVar c!"path" sc = none := by
  simp only [checkBlock, Stmt.check, checkArms, Arm.check] at h
  constructor
  · cases hi : lookupVar c!"i" sc with
    | none => rfl
    | some t => simp [Scope.free, hi] at h
  · cases hi : lookupVar c!"path" sc with
    | none => rfl
    | some t => simp [Scope.free, hi] at h

/-- The code behind a parameter needs the variables of the function. -/
theorem enter_basic {r : Routes} {pth : List PathSegment} {q : List Param} {b : List Stmt} {sc : Scope}
    (h : Code (.enter r pth q) b) (hc : (checkBlock b sc).isSome = true) : Basic sc := by
  cases h with
  | enter h =>
    simp only [separatorHead] at hc
    split at hc
    · simp only [writeMethods, List.cons_append, List.nil_append] at hc
      obtain ⟨h1, h2⟩ := check_ifThen hc
      obtain ⟨h3, h4⟩ := check_matchSlash h2
      exact ⟨h3, h4, h1⟩
    · simp only [List.cons_append, List.nil_append] at hc
      obtain ⟨h1, h2⟩ := check_ifThen hc
      obtain ⟨h3, h4⟩ := check_matchSlash h2
      exact ⟨h3, h4, h1⟩

/-- A parameter whose type can be inferred, and which leaves the function's variables usable. -/
def ParamOk (p : Param) (r : Routes) : Prop :=
  Harmless p ∧ ∃ segs above node sc', Walk r [] segs above node sc' ∧ node.resources ≠ [] ∧
    lookupVar p.name sc' = none

/-- So are all parameters. -/
def ParamsOk (r : Routes) : Prop :=
  ∀ segs p above node, LiveRoute r (segs ++ [.dynamic p]) above node → ParamOk p node

theorem paramsOk_mk {rs : List Resource} {ns : List NestedRoutes} {qs : List Param} :
    ParamsOk (.mk rs ns qs) ↔
      (∀ n ∈ ns, ∀ s, n.pathSegment = .static s → ParamsOk n.routes) ∧
      (∀ n ∈ ns, ∀ p, n.pathSegment = .dynamic p → captor ns = some p.name →
        ParamOk p n.routes ∧ ParamsOk n.routes) := by
  constructor
  · intro h
    refine ⟨?_, ?_⟩
    · rintro ⟨seg, r⟩ hn s hs segs p above node hl
      simp only [NestedRoutes.pathSegment_mk] at hs
      subst hs
      exact h (.static s :: segs) p _ node (.static (r := .mk rs ns qs) hn hl)
    · rintro ⟨seg, r⟩ hn p hs hc
      simp only [NestedRoutes.pathSegment_mk] at hs
      subst hs
      refine ⟨h [] p _ r (.dynamic (r := .mk rs ns qs) hn hc (.here _)), ?_⟩
      intro segs p' above node hl
      exact h (.dynamic p :: segs) p' _ node (.dynamic (r := .mk rs ns qs) hn hc hl)
  · rintro ⟨h1, h2⟩ segs p above node hl
    cases segs with
    | nil =>
      cases hl with
      | dynamic hn hc hl =>
        cases hl
        exact (h2 _ hn _ rfl hc).1
    | cons seg segs =>
      cases hl with
      | static hn hl => exact h1 _ hn _ rfl segs p _ node hl
      | dynamic hn hc hl => exact (h2 _ hn _ rfl hc).2 segs p _ node hl

/-- All parameters in code of a kind. -/
def CodeKind.Params : CodeKind → Prop
  | .block r _ _ => ParamsOk r
  | .enter r _ _ => ParamsOk r
  | .kids ns u _ _ => ∀ n ∈ ns, ∀ rest, n.pathSegment = .static (u ++ rest) → ParamsOk n.routes
  | .arms ns u _ _ chars => ∀ n ∈ ns, ∀ ch rest, ch ∈ chars → n.pathSegment = .static (u ++ ch :: rest) →
      ParamsOk n.routes

/-- The conditions for a piece of code to type-check in a scope. -/
def CodeKind.Typed (sc : Scope) (k : CodeKind) : Prop :=
  (∀ v sc', SeenItem sc sc' k v → ItemTyped v sc') ∧ k.Params

theorem dynamicHead_check {sc : Scope} (h : Basic sc) (name : Str) (b : List Stmt) :
    checkBlock (dynamicHead name b) ((c!"start", .usize) :: sc) =
      (inferType name b).map fun T => (name, .user T) :: (c!"text", .str) :: (c!"start", .usize) :: sc := by
  have hlen := (h.start .usize).len
  have hi := (h.start .usize).i
  have hp := (h.start .usize).path
  have hs : lookupVar c!"start" ((c!"start", Ty.usize) :: sc) = some .usize := by simp [lookupVar]
  have hii : Scope.index ((c!"start", Ty.usize) :: sc) c!"i" = true := by simp [Scope.index, hi]
  have hif : Scope.free ((c!"start", Ty.usize) :: sc) c!"i" = true := by simp [Scope.free, hi]
  have hpf : Scope.free ((c!"start", Ty.usize) :: sc) c!"path" = true := by simp [Scope.free, hp]
  have ht : lookupVar c!"text" ((c!"text", Ty.str) :: (c!"start", Ty.usize) :: sc) = some .str := by
    simp [lookupVar]
  cases hinf : inferType name b with
  | none =>
    simp [dynamicHead, checkBlock, Stmt.check, hif, hii, hpf, hs, hlen, hinf, Ty.isUsize]
  | some T =>
    simp [dynamicHead, checkBlock, Stmt.check, hif, hii, hpf, hs, hlen, hinf, Ty.isUsize, ht]

/-- The capturing of a parameter type-checks. -/
theorem param_check {sc : Scope} (h : Basic sc) {pth : List PathSegment} {r : Routes} {p : Param}
    {q : List Param} {b : List Stmt} (hcode : Code (.enter r (pth ++ [.dynamic p]) q) b)
    (hd : DistinctSiblings r)
    (ih : ∀ sc, Basic sc → ((checkBlock b sc).isSome = true ↔
      (CodeKind.enter r (pth ++ [.dynamic p]) q).Typed sc)) :
    (checkBlock (dynamicHead p.name b ++ b) ((c!"start", .usize) :: sc)).isSome = true ↔
      ParamOk p r ∧ (CodeKind.enter r (pth ++ [.dynamic p]) q).Typed (underParam p sc) := by
  rw [checkBlock_append, dynamicHead_check h]
  -- an inferred type comes from a literal of this parameter
  have hinf : ∀ T, inferType p.name b = some T → (∀ a ∈ blockLiterals b, a.fieldNames.Nodup) →
      T = p.typ := by
    intro T hT hnd
    have huse : useBlock p.name b = some (some T) := by
      unfold inferType at hT
      split at hT
      · rename_i t ht; rw [ht]; simpa using hT
      · cases hT
    obtain ⟨a, ha, p', hfind, hp'⟩ := useBlock_literal _ _ _ huse
    have hnda := hnd a ha
    obtain ⟨v, hv, hav⟩ := (code_literals hcode hd a).1 ha
    obtain ⟨more, hpath⟩ := liveItem_path hv
    simp only [methodArms, List.mem_map] at hav
    obtain ⟨res, hres, rfl⟩ := hav
    have hdyn : dynamics v.path = dynamics pth ++ p :: dynamics more := by
      rw [hpath]; simp [CodeKind.pth, dynamics_append, dynamics]
    simp only [MethodArm.fieldNames, hdyn, List.map_append, List.map_cons, List.append_assoc] at hnda
    have hfresh : ∀ p' ∈ dynamics pth, p'.name ≠ p.name := by
      intro p'' hp'' heq
      rw [List.nodup_append] at hnda
      exact hnda.2.2 p''.name (List.mem_map_of_mem hp'') p.name (by simp) heq
    simp only [hdyn] at hfind
    rw [find?_name_append hfresh, Option.some.injEq] at hfind
    rw [← hp', hfind]
  have huses := code_uses (x := p.name) hcode hd (by simp [CodeKind.pth, dynamics_append, dynamics]) [] rfl
  have hpin : Pins p.name [] (.enter r (pth ++ [.dynamic p]) q) ↔
      ∃ segs above node sc', Walk r [] segs above node sc' ∧ node.resources ≠ [] ∧
        lookupVar p.name sc' = none := by
    constructor
    · rintro ⟨v, sc', ⟨segs, above, node, hw, rfl⟩, h1, h2⟩
      exact ⟨segs, above, node, sc', hw, h1, h2⟩
    · rintro ⟨segs, above, node, sc', hw, h1, h2⟩
      exact ⟨_, sc', ⟨segs, above, node, hw, rfl⟩, h1, h2⟩
  constructor
  · intro hs
    cases hT : inferType p.name b with
    | none => simp [hT] at hs
    | some T =>
      simp only [hT, Option.map_some, Option.bind_some] at hs
      obtain ⟨sc', hsc'⟩ := Option.isSome_iff_exists.1 hs
      obtain rfl := hinf T hT (checkBlock_nodup _ _ _ hsc')
      have hb : Basic (underParam p sc) := enter_basic hcode hs
      refine ⟨⟨(basic_behind h).1 hb, hpin.1 (huses.1 ?_)⟩, (ih _ hb).1 hs⟩
      unfold inferType at hT
      split at hT
      · rename_i t ht; exact ⟨t, ht⟩
      · cases hT
  · rintro ⟨⟨hb, hl⟩, ht⟩
    have hlit : ∀ a ∈ blockLiterals b, a.fieldNames.Nodup := by
      intro a ha
      obtain ⟨v, hv, hav⟩ := (code_literals hcode hd a).1 ha
      obtain ⟨sc', hv'⟩ := liveItem_seen hv (underParam p sc)
      have hr : v.resources ≠ [] := by
        intro hn; simp [methodArms, hn] at hav
      have := (ht.1 v sc' hv' hr).2 a hav
      simp only [MethodArm.typed, Bool.and_eq_true, decide_eq_true_eq] at this
      exact this.1
    obtain ⟨T, hT⟩ := huses.2 (hpin.2 hl)
    have hT' : inferType p.name b = some T := by simp [inferType, hT]
    obtain rfl := hinf T hT' hlit
    simp only [hT', Option.map_some, Option.bind_some]
    exact (ih _ ((basic_behind h).2 hb)).2 ht

/-- When code type-checks. -/
theorem code_check {k : CodeKind} {b : List Stmt} (h : Code k b) :
    ∀ sc, k.Distinct → Basic sc → ((checkBlock b sc).isSome = true ↔ k.Typed sc) := by
  induction h with
  | @plain rs ns qs pth q cb hpar _ ih =>
    intro sc hd hsc
    have hiff : (CodeKind.block (.mk rs ns qs) pth q).Typed sc ↔
        ItemTyped ⟨pth, rs, q ++ qs⟩ sc ∧ (CodeKind.kids ns [] pth (q ++ qs)).Typed sc := by
      constructor
      · rintro ⟨h1, h2⟩
        exact ⟨h1 _ _ ((seenItem_plain hpar).2 (.inl ⟨rfl, rfl⟩)),
          fun v sc' hv => h1 v sc' ((seenItem_plain hpar).2 (.inr hv)),
          fun n hn rest hs => (paramsOk_mk.1 h2).1 n hn _ hs⟩
      · rintro ⟨h1, h2, h3⟩
        refine ⟨fun v sc' hv => ?_, paramsOk_mk.2 ⟨fun n hn s hs => h3 n hn s hs, ?_⟩⟩
        · rcases (seenItem_plain hpar).1 hv with ⟨rfl, rfl⟩ | hv
          · exact h1
          · exact h2 v sc' hv
        · intro n hn p hs hc
          simp [captor, hpar] at hc
    rw [checkBlock_append, hiff]
    by_cases ha : ItemTyped ⟨pth, rs, q ++ qs⟩ sc
    · rw [(own_check hsc _).1 ha, Option.bind_some,
        ih sc (distinctSiblings_mk.1 hd).2 hsc]
      simp [ha]
    · rw [(own_check hsc _).2 ha]
      simp [ha]
  | @param rs ns qs pth q n p b hn hseg hcap hst hcode ih =>
    intro sc hd hsc
    have hitem := fun v sc' => seenItem_param (rs := rs) (qs := qs) (pth := pth) (q := q) (v := v)
      (sc := sc) (sc' := sc') (distinctSiblings_mk.1 hd).1 hn hseg hcap (w := []) (by simp)
    have hnost : ∀ n ∈ ns, ∀ s, n.pathSegment ≠ .static s := by
      intro n hn rest hs
      have : rest ∈ staticTexts ns := mem_staticTexts.2 ⟨n, hn, hs⟩
      rw [hst] at this; cases this
    have hno : ∀ v sc', ¬ SeenItem ((c!"start", .usize) :: sc) sc' (.kids ns [] pth (q ++ qs)) v :=
      fun v sc' => liveItem_none (fun n hn rest => hnost n hn _) v
    have hiff : (CodeKind.block (.mk rs ns qs) pth q).Typed sc ↔ ItemTyped ⟨pth, rs, q ++ qs⟩ sc ∧
        ParamOk p n.routes ∧
        (CodeKind.enter n.routes (pth ++ [.dynamic p]) (q ++ qs)).Typed (underParam p sc) := by
      constructor
      · rintro ⟨h1, h2⟩
        obtain ⟨hl, hu⟩ := (paramsOk_mk.1 h2).2 n hn p hseg hcap
        exact ⟨h1 _ _ ((hitem _ _).2 (.inl ⟨rfl, rfl⟩)), hl,
          fun v sc' hv => h1 v sc' ((hitem v sc').2 (.inr (.inr hv))), hu⟩
      · rintro ⟨h1, hl, h2, h3⟩
        refine ⟨fun v sc' hv => ?_, paramsOk_mk.2 ⟨fun n hn s hs => absurd hs (hnost n hn s), ?_⟩⟩
        · rcases (hitem v sc').1 hv with ⟨rfl, rfl⟩ | hv | hv
          · exact h1
          · exact absurd hv (hno v sc')
          · exact h2 v sc' hv
        · intro n' hn' p' hs' hc
          have : n' = n := by
            refine unique_static (distinctSiblings_mk.1 hd).1 hn' hn ?_
            rw [hseg, hs']
            rw [hcap, Option.some.injEq] at hc
            simp [SameSlot, hc]
          subst this
          rw [hseg, PathSegment.dynamic.injEq] at hs'
          subst hs'
          exact ⟨hl, h3⟩
    rw [checkBlock_append, hiff]
    by_cases ha : ItemTyped ⟨pth, rs, q ++ qs⟩ sc
    · rw [(own_check hsc _).1 ha, Option.bind_some]
      have hls : checkBlock (.letStart :: (dynamicHead p.name b ++ b)) sc =
          checkBlock (dynamicHead p.name b ++ b) ((c!"start", .usize) :: sc) := by
        simp [checkBlock, Stmt.check, Scope.index, hsc.i]
      rw [hls, param_check hsc hcode ((distinctSiblings_mk.1 hd).2 n hn)
        (fun sc hsc => ih sc ((distinctSiblings_mk.1 hd).2 n hn) hsc)]
      simp [ha]
    · rw [(own_check hsc _).2 ha]
      simp [ha]
  | @both rs ns qs pth q n p b sb w l c _ hn hseg hcap hw hext _ _ hcode ih1 ih2 =>
    intro sc hd hsc
    have hitem := fun v sc' => seenItem_param (rs := rs) (qs := qs) (pth := pth) (q := q) (v := v)
      (sc := sc) (sc' := sc') (distinctSiblings_mk.1 hd).1 hn hseg hcap hext
    have hiff : (CodeKind.block (.mk rs ns qs) pth q).Typed sc ↔ ItemTyped ⟨pth, rs, q ++ qs⟩ sc ∧
        (CodeKind.kids ns w pth (q ++ qs)).Typed ((c!"start", .usize) :: sc) ∧
        ParamOk p n.routes ∧
        (CodeKind.enter n.routes (pth ++ [.dynamic p]) (q ++ qs)).Typed (underParam p sc) := by
      constructor
      · rintro ⟨h1, h2⟩
        obtain ⟨hl, hu⟩ := (paramsOk_mk.1 h2).2 n hn p hseg hcap
        exact ⟨h1 _ _ ((hitem _ _).2 (.inl ⟨rfl, rfl⟩)),
          ⟨fun v sc' hv => h1 v sc' ((hitem v sc').2 (.inr (.inl hv))),
            fun n hn rest hs => (paramsOk_mk.1 h2).1 n hn _ hs⟩,
          hl, fun v sc' hv => h1 v sc' ((hitem v sc').2 (.inr (.inr hv))), hu⟩
      · rintro ⟨h1, ⟨h4, h5⟩, hl, h2, h3⟩
        refine ⟨fun v sc' hv => ?_, paramsOk_mk.2 ⟨fun n hn s hs => ?_, ?_⟩⟩
        · rcases (hitem v sc').1 hv with ⟨rfl, rfl⟩ | hv | hv
          · exact h1
          · exact h4 v sc' hv
          · exact h2 v sc' hv
        · obtain ⟨rest, rfl⟩ := hext s (mem_staticTexts.2 ⟨n, hn, hs⟩)
          exact h5 n hn rest hs
        · intro n' hn' p' hs' hc
          have : n' = n := by
            refine unique_static (distinctSiblings_mk.1 hd).1 hn' hn ?_
            rw [hseg, hs']
            rw [hcap, Option.some.injEq] at hc
            simp [SameSlot, hc]
          subst this
          rw [hseg, PathSegment.dynamic.injEq] at hs'
          subst hs'
          exact ⟨hl, h3⟩
    rw [checkBlock_append, hiff]
    by_cases ha : ItemTyped ⟨pth, rs, q ++ qs⟩ sc
    · rw [(own_check hsc _).1 ha, Option.bind_some]
      have hsc1 : Basic ((c!"start", .usize) :: sc) := hsc.start _
      have hsb := ih1 ((c!"start", .usize) :: sc) (distinctSiblings_mk.1 hd).2 hsc1
      have hls : checkBlock (.blank :: .letStart :: .blank ::
            .ifThen c [.matchPath l [.bytes w (.addI l :: sb), .wildNothing]] ::
            (dynamicHead p.name b ++ b)) sc =
          if (checkBlock sb ((c!"start", .usize) :: sc)).isSome = true then
            checkBlock (dynamicHead p.name b ++ b) ((c!"start", .usize) :: sc) else none := by
        have h1 := hsc.i
        have h2 := hsc1.i
        have h3 := hsc1.len
        have h4 := hsc1.path
        have h5 : Scope.index sc c!"i" = true := by simp [Scope.index, h1]
        have h6 : Scope.index ((c!"start", .usize) :: sc) c!"i" = true := by simp [Scope.index, h2]
        cases hc : checkBlock sb ((c!"start", .usize) :: sc) <;>
        simp [checkBlock, Stmt.check, Scope.free, h2, h3, h4, h5, h6, checkArms, Arm.check, hc]
      rw [hls]
      have hpc := param_check hsc hcode ((distinctSiblings_mk.1 hd).2 n hn)
        (fun sc hsc => ih2 sc ((distinctSiblings_mk.1 hd).2 n hn) hsc)
      by_cases hk : (CodeKind.kids ns w pth (q ++ qs)).Typed ((c!"start", .usize) :: sc)
      · rw [if_pos (hsb.2 hk), hpc]
        simp [ha, hk]
      · rw [if_neg (fun h => hk (hsb.1 h))]
        simp [hk]
    · rw [(own_check hsc _).2 ha]
      simp [ha]
  | @enter r pth q b _ ih =>
    intro sc hd hsc
    rw [checkBlock_append]
    have hself : SeenItem sc sc (.block r pth q) ⟨pth, r.resources, q ++ r.queryParameters⟩ :=
      ⟨[], [], r, .here _ _, by simp⟩
    by_cases ha : ItemTyped ⟨pth, r.resources, q ++ r.queryParameters⟩ sc
    · rw [(sepHead_check hsc _).1 ha, Option.bind_some]
      have h1 := hsc.i
      have h2 := hsc.path
      have : checkBlock (.matchPath 1 [.bytes c!"/" [.addI 1], .wildNotFound] :: b) sc =
          checkBlock b sc := by
        simp [checkBlock, Stmt.check, checkArms, Arm.check, Scope.index, Scope.free, h1, h2]
      rw [this, ih sc hd hsc]
      exact Iff.rfl
    · rw [(sepHead_check hsc _).2 ha]
      simp only [Option.bind_none, Option.isSome_none, Bool.false_eq_true, false_iff]
      rintro ⟨h1, _⟩
      exact ha (h1 _ _ hself)
  | none h =>
    intro sc hd hsc
    simp only [checkBlock, Stmt.check, Option.isSome_some, true_iff]
    exact ⟨fun v sc' hv => absurd hv (liveItem_none h v), fun n hn rest hs => absurd hs (h n hn rest)⟩
  | @sep ns u pth q n b hn hseg huniq _ _ ih =>
    intro sc hd hsc
    rw [ih sc (hd n hn) hsc]
    constructor
    · rintro ⟨h1, h2⟩
      refine ⟨fun v sc' hv => h1 v sc' ((liveItem_sep hn hseg huniq).1 hv), fun n' hn' rest hs => ?_⟩
      rw [huniq n' hn' rest hs]; exact h2
    · rintro ⟨h1, h2⟩
      exact ⟨fun v sc' hv => h1 v sc' ((liveItem_sep hn hseg huniq).2 hv),
        h2 n hn [] (by simpa using hseg)⟩
  | @chain ns u w pth q b l c _ _ _ hext _ _ ih =>
    intro sc hd hsc
    have h1 := hsc.i
    have h2 := hsc.path
    have h3 := hsc.len
    have h5 : Scope.index sc c!"i" = true := by simp [Scope.index, h1]
    have : checkBlock (.ifThen c [.retNotFound] ::
        .matchPath l [.bytes w [.addI l], .wildNotFound] :: b) sc = checkBlock b sc := by
      simp [checkBlock, Stmt.check, checkArms, Arm.check, Scope.free, h1, h2, h3, h5]
    rw [this, ih sc hd hsc]
    constructor
    · rintro ⟨h1, h2⟩
      refine ⟨fun v sc' hv => h1 v sc' ((liveItem_chain hext).1 hv), fun n hn rest hs => ?_⟩
      obtain ⟨rest', rfl⟩ := hext n hn rest hs
      exact h2 n hn rest' (by simpa using hs)
    · rintro ⟨h1, h2⟩
      exact ⟨fun v sc' hv => h1 v sc' ((liveItem_chain hext).2 hv),
        fun n hn rest hs => h2 n hn (w ++ rest) (by simpa using hs)⟩
  | @branch ns u pth q chars as hall _ _ _ _ ih =>
    intro sc hd hsc
    have h3 := hsc.len
    have h5 : Scope.index sc c!"i" = true := by simp [Scope.index, hsc.i]
    have : checkBlock [.ifThen .iEqLen [.retNotFound], .matchPath 1 as] sc =
        checkBlock [.matchPath 1 as] sc := by
      simp [checkBlock, Stmt.check, h3, h5]
    rw [this, ih sc hd hsc]
    constructor
    · rintro ⟨h1, h2⟩
      refine ⟨fun v sc' hv => h1 v sc' ((liveItem_branch hall).1 hv), fun n hn rest hs => ?_⟩
      obtain ⟨ch, rest', hch, rfl⟩ := hall n hn rest hs
      exact h2 n hn ch rest' hch hs
    · rintro ⟨h1, h2⟩
      exact ⟨fun v sc' hv => h1 v sc' ((liveItem_branch hall).2 hv),
        fun n hn ch rest _ hs => h2 n hn _ hs⟩
  | armsNil =>
    intro sc hd hsc
    have h1 := hsc.i
    have h2 := hsc.path
    simp only [checkBlock, Stmt.check, checkArms, Arm.check, Scope.index, Scope.free, h1, h2]
    simp only [Option.isNone_none, Bool.and_self, if_true, Option.isSome_some, true_iff]
    refine ⟨?_, ?_⟩
    · rintro v sc' ⟨_, _, _, _, h, _⟩
      cases h
    · intro _ _ _ _ h
      cases h
  | @armsCons ns u pth q ch chars b as _ _ ih1 ih2 =>
    intro sc hd hsc
    have h1 := hsc.i
    have h2 := hsc.path
    have hb := ih1 sc hd hsc
    have has := ih2 sc hd hsc
    have hiff : (CodeKind.arms ns u pth q (ch :: chars)).Typed sc ↔
        (CodeKind.kids ns (u ++ [ch]) pth q).Typed sc ∧ (CodeKind.arms ns u pth q chars).Typed sc := by
      constructor
      · rintro ⟨h1, h2⟩
        refine ⟨⟨fun v sc' hv => h1 v sc' (liveItem_armsCons.2 (.inl hv)), fun n hn rest hs => ?_⟩,
          fun v sc' hv => h1 v sc' (liveItem_armsCons.2 (.inr hv)), fun n hn ch' rest hch hs => ?_⟩
        · exact h2 n hn ch rest (by simp) (by simpa using hs)
        · exact h2 n hn ch' rest (by simp [hch]) hs
      · rintro ⟨⟨h1, h2⟩, h3, h4⟩
        refine ⟨fun v sc' hv => ?_, fun n hn ch' rest hch hs => ?_⟩
        · rcases liveItem_armsCons.1 hv with hv | hv
          · exact h1 v sc' hv
          · exact h3 v sc' hv
        · rcases List.mem_cons.1 hch with rfl | hch
          · exact h2 n hn rest (by simpa using hs)
          · exact h4 n hn ch' rest hch hs
    rw [hiff, ← hb, ← has]
    simp only [checkBlock, Stmt.check, checkArms, Arm.check, Scope.index, Scope.free, h1, h2]
    cases hc : checkBlock b sc <;> cases hc2 : checkArms as sc <;> simp [hc]

end Wayfinder
