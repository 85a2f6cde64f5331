import Verif.Proofs.Compose
import Verif.Proofs.Utf8
import Verif.Spec.Reach
/-!
# Reachability
-/

namespace Wayfinder

variable {W : World} {m : Bytes}

theorem tame_child {r : Routes} (h : Tame r) {seg : PathSegment} {sub : Routes}
    (hn : NestedRoutes.mk seg sub ∈ r.routes) : Tame sub :=
  fun segs q node hr => h _ _ node (.child hn hr)

theorem unmixed_child {r : Routes} (h : Unmixed r) {seg : PathSegment} {sub : Routes}
    (hn : NestedRoutes.mk seg sub ∈ r.routes) : Unmixed sub :=
  fun segs q node hr => h _ _ node (.child hn hr)

theorem mem_paramNames' {ns : List NestedRoutes} {x : Str} :
    x ∈ paramNames ns ↔ ∃ n ∈ ns, ∃ p, n.pathSegment = .dynamic p ∧ p.name = x := by
  simp only [paramNames, List.mem_filterMap]
  constructor
  · rintro ⟨n, hn, h⟩
    cases hs : n.pathSegment with
    | static t => simp [hs] at h
    | dynamic p => exact ⟨n, hn, p, hs, by simpa [hs] using h⟩
  · rintro ⟨n, hn, p, h, hx⟩
    exact ⟨n, hn, by simp [h, hx]⟩

theorem captor_single {ns : List NestedRoutes} {x : Str} (h : paramNames ns = [x]) :
    captor ns = some x := by simp [captor, h]

/-- In a tame configuration, what is written is followed. -/
theorem Writes.follows {r node : Routes} {segs : List PathSegment} {above : List Param}
    {caps : Caps W} {parts : List Bytes} (h : Writes W r segs above caps parts node) (ht : Tame r) :
    Follows W r segs above caps parts node := by
  induction h with
  | here => exact .here _
  | @static r sub node s segs above caps parts hn _ ih =>
    refine .static hn ?_ (ih (tame_child ht hn))
    by_cases hp : paramNames r.routes = []
    · exact .inl hp
    · right
      have hl := (ht [] [] r (.here r) hp).2
      have hm : s ∈ staticTexts r.routes := mem_staticTexts'.2 ⟨_, hn, rfl⟩
      cases hst : staticTexts r.routes with
      | nil => rw [hst] at hm; simp at hm
      | cons a as =>
        rw [hst] at hl hm
        have : as = [] := List.length_eq_zero_iff.1 (by simp at hl; simpa using hl)
        subst this
        simp at hm; rw [hm]
  | @dynamic r sub node p segs above caps parts v part text hn h1 h2 h3 h4 h5 _ ih =>
    have hm : p.name ∈ paramNames r.routes := mem_paramNames'.2 ⟨_, hn, p, rfl, rfl⟩
    have hp : paramNames r.routes ≠ [] := fun h => by rw [h] at hm; simp at hm
    have hl := (ht [] [] r (.here r) hp).1
    obtain ⟨x, hx⟩ := List.length_eq_one_iff.1 hl
    have : x = p.name := by rw [hx] at hm; exact (List.mem_singleton.1 hm).symm
    refine .dynamic hn (captor_single (this ▸ hx)) h1 h2 (fun s hs => h3 s (by simp [hs])) h4 h5
      (ih (tame_child ht hn))

/-- Where no live block has two parameter children, every route is live. -/
theorem HasRoute.live {r node : Routes} {segs : List PathSegment} {above : List Param}
    (h : HasRoute r segs above node)
    (hone : ∀ s q n, LiveRoute r s q n → paramNames n.routes ≠ [] → ∃ x, paramNames n.routes = [x]) :
    LiveRoute r segs above node := by
  induction h with
  | here => exact .here _
  | @child r node seg sub segs above hn _ ih =>
    cases seg with
    | static s => exact .static hn (ih fun s q n h => hone _ _ n (.static hn h))
    | dynamic p =>
      have hm : p.name ∈ paramNames r.routes := mem_paramNames'.2 ⟨_, hn, p, rfl, rfl⟩
      obtain ⟨x, hx⟩ := hone _ _ _ (.here r) fun h => by rw [h] at hm; simp at hm
      have : x = p.name := by rw [hx] at hm; exact (List.mem_singleton.1 hm).symm
      have hc := captor_single (this ▸ hx)
      exact .dynamic hn hc (ih fun s q n h => hone _ _ n (.dynamic hn hc h))

theorem Unmixed.live {r node : Routes} (hu : Unmixed r) (hs : Shapely r) {segs : List PathSegment}
    {above : List Param} (h : HasRoute r segs above node) : LiveRoute r segs above node :=
  h.live fun _ _ n hl hp => (hs _ _ n hl).oneParam hp
    ((hu _ _ n hl.hasRoute).resolve_left hp)

theorem Tame.live {r node : Routes} (ht : Tame r) {segs : List PathSegment}
    {above : List Param} (h : HasRoute r segs above node) : LiveRoute r segs above node :=
  h.live fun _ _ n hl hp => List.length_eq_one_iff.1 (ht _ _ n hl.hasRoute hp).1

/-! ## Instances in unmixed configurations -/

theorem Spells.cases {p : Bytes} {ps : List Bytes} {bs : Bytes} (h : Spells (p :: ps) bs) :
    (ps = [] ∧ bs = p) ∨ ∃ bs', bs = p ++ slash :: bs' ∧ Spells ps bs' := by
  rcases h with h | h
  · exact .inr ⟨spell ps, by simpa using h, .inl rfl⟩
  · rcases List.eq_nil_or_concat ps with rfl | ⟨init, last, rfl⟩
    · left
      have : bs ++ [slash] = p ++ [slash] := by simpa using h
      exact ⟨rfl, List.append_cancel_right this⟩
    · right
      refine ⟨spell init ++ last, ?_, .inr (by simp [spell_append])⟩
      have : bs ++ [slash] = (p ++ slash :: (spell init ++ last)) ++ [slash] := by
        rw [h]; simp [spell_append]
      exact List.append_cancel_right this

theorem answer_answered (rs : List Resource) (q : List Param) (caps : Caps W) (m : Bytes) :
    (answer rs q caps m).answered = true := by
  simp only [answer]
  split
  · rfl
  · split <;> rfl

theorem atEnd_answered {r : Routes} (h : r.resources ≠ []) (q : List Param) (caps : Caps W) (m : Bytes) :
    (atEnd m r q caps).answered = true := by
  simp only [atEnd, h, if_false]; exact answer_answered ..

theorem route_nil_answered {r : Routes} (h : r.resources ≠ []) (q : List Param) (caps : Caps W)
    (m : Bytes) : (route W m r q caps []).answered = true := by
  obtain ⟨rs, ns, qs⟩ := r
  have h' : rs ≠ [] := h
  simp only [route, ne_eq, h', not_false_eq_true, and_self, if_true]
  exact answer_answered ..

/-- In an unmixed configuration every instance of a route with resources is answered. -/
theorem instance_answered {r node : Routes} {segs : List PathSegment} {above : List Param}
    (h : HasRoute r segs above node) : Sound r → (∀ s q n, HasRoute r s q n → LocalOk n.routes) →
    Unmixed r → node.resources ≠ [] →
    ∀ {caps : Caps W} {parts : List Bytes}, Fits W segs caps parts → ∀ {bs : Bytes}, Spells parts bs →
    ∀ (q : List Param) (caps0 : Caps W), (route W m r q caps0 bs).answered = true := by
  induction h with
  | here r =>
    intro hs _ hu hres caps parts hf bs hbs q caps0
    cases hf
    have : bs = [] := by
      rcases hbs with h | h
      · simpa using h
      · simp at h
    subst this
    exact route_nil_answered hres q caps0 m
  | @child r node seg sub segs above hn hr ih =>
    intro hs hloc hu hres caps parts hf bs hbs q caps0
    have hu' := unmixed_child hu hn
    have hmix := hu _ _ _ (.here r)
    have hok : LocalOk r.routes := hloc _ _ _ (.here r)
    have hloc' : ∀ s q n, HasRoute sub s q n → LocalOk n.routes :=
      fun s q n h => hloc _ _ n (.child hn h)
    obtain ⟨rs, ns, qs⟩ := r
    change paramNames ns = [] ∨ staticTexts ns = [] at hmix
    change LocalOk ns at hok
    change _ ∈ ns at hn
    have hds := (distinctSiblings_mk.1 hs.distinct).1
    have hsub : Sound sub :=
      ⟨fun s q n h => hloc' s q n h.hasRoute, (distinctSiblings_mk.1 hs.distinct).2 _ hn,
        plainTexts_child hs.plain hn⟩
    have goOn : ∀ (q : List Param) (caps0 : Caps W) {part : Bytes} {caps : Caps W} {parts : List Bytes}
        {bs rest : Bytes}, Fits W segs caps parts → Spells (part :: parts) bs → bs = part ++ rest →
        (enter W m sub q caps0 rest).answered = true := by
      intro q caps0 part caps parts bs rest hf hbs hrest
      rcases hbs.cases with ⟨hp, hb⟩ | ⟨bs', hb, hsp⟩
      · subst hp
        have : rest = [] := by rw [hb] at hrest; simpa using hrest
        subst this
        have : segs = [] := by cases hf; rfl
        subst this
        cases hr
        simp only [enter]
        exact atEnd_answered hres _ _ m
      · have : rest = slash :: bs' := by rw [hb] at hrest; exact (List.append_cancel_left hrest).symm
        subst this
        simp only [enter, if_true]
        exact ih hsub hloc' hu' hres hf hsp _ _
    cases hf with
    | static s hf' =>
      have hm : s ∈ staticTexts ns := mem_staticTexts'.2 ⟨_, hn, rfl⟩
      have hp : paramNames ns = [] := by
        rcases hmix with h | h
        · exact h
        · rw [h] at hm; simp at hm
      have hbs' : ∃ rest, bs = bytesOf s ++ rest := by
        rcases hbs.cases with ⟨_, hb⟩ | ⟨bs', hb, _⟩
        · exact ⟨[], by simp [hb]⟩
        · exact ⟨_, hb⟩
      obtain ⟨rest, hrest⟩ := hbs'
      have := goOn (q ++ qs) caps0 hf' hbs hrest
      rw [hrest, route_static hok hds hn rfl (plainTexts_static hs.plain hm).1 (.inl hp)]
      exact this
    | @dynamic _ caps' parts' p v part text hsl hut hp hf' =>
      have hpm : p.name ∈ paramNames ns := mem_paramNames'.2 ⟨_, hn, p, rfl, rfl⟩
      have hst : staticTexts ns = [] := by
        rcases hmix with h | h
        · rw [h] at hpm; simp at hpm
        · exact h
      have hbs' : ∃ rest, bs = part ++ rest ∧ (rest = [] ∨ ∃ more, rest = slash :: more) := by
        rcases hbs.cases with ⟨_, hb⟩ | ⟨bs', hb, _⟩
        · exact ⟨[], by simp [hb], .inl rfl⟩
        · exact ⟨_, hb, .inr ⟨_, rfl⟩⟩
      obtain ⟨rest, hrest, hrest'⟩ := hbs'
      obtain ⟨htake, hdrop⟩ := takeWhile_slash_append hsl rest hrest'
      have hgo := goOn (q ++ qs) (caps0 ++ [(p, v)]) hf' hbs hrest
      rcases route_step W rs ns qs bs with ⟨h1, h2, h⟩ | ⟨c, h1, h2, h3, h4, h⟩ |
        ⟨n', s', rest', _, hn', hseg', hbs', hpref, h⟩ | ⟨n', p', _, hn', hseg', hcap', _, h⟩ |
        ⟨_, hpn, _, h⟩
      · rw [h]; exact answer_answered ..
      · rw [hst] at h4; simp at h4
      · have := mem_staticTexts'.2 ⟨n', hn', hseg'⟩
        rw [hst] at this; simp at this
      · obtain ⟨x, hx⟩ := hok.oneParam (fun h => by rw [h] at hpm; simp at hpm) hst
        have : n' = NestedRoutes.mk (.dynamic p) sub := dynamic_unique hds hn' hn hseg' rfl (by
          have h1 := captor_mem hcap'
          rw [hx] at h1 hpm
          simp at h1 hpm
          rw [h1, hpm])
        subst this
        simp only [NestedRoutes.pathSegment_mk, PathSegment.dynamic.injEq] at hseg'
        subst hseg'
        rw [h]
        simp only [capture, hrest]
        rw [htake, hdrop]
        simp only [hut, hp]
        exact hgo
      · rw [hpn] at hpm; simp at hpm

/-! ## Trailing slash -/

theorem prefix_append_slash {a bs : Bytes} (ha : slash ∉ a) (h : a <+: bs ++ [slash]) : a <+: bs :=
  prefix_slash ha h

theorem takeWhile_append_slash (bs : Bytes) :
    (bs ++ [slash]).takeWhile (· ≠ slash) = bs.takeWhile (· ≠ slash) ∧
      (bs ++ [slash]).dropWhile (· ≠ slash) = bs.dropWhile (· ≠ slash) ++ [slash] := by
  have h0 := List.takeWhile_append_dropWhile (p := (· ≠ slash)) (l := bs)
  have hrest : bs.dropWhile (· ≠ slash) ++ [slash] = [] ∨
      ∃ more, bs.dropWhile (· ≠ slash) ++ [slash] = slash :: more := by
    right
    cases hd : bs.dropWhile (· ≠ slash) with
    | nil => exact ⟨[], rfl⟩
    | cons b rest => rw [dropWhile_slash hd]; exact ⟨rest ++ [slash], rfl⟩
  have := takeWhile_slash_append (not_mem_takeWhile_slash bs) _ hrest
  rw [← List.append_assoc, h0] at this
  exact this

/-- A trailing slash makes no difference where something is found. -/
theorem route_trailing (r : Routes) : Sound r → ∀ (bs : Bytes), bs ≠ [] →
    bs.getLast? ≠ some slash → ∀ (q : List Param) (caps : Caps W),
    route W m r q caps bs ≠ .notFound →
    route W m r q caps (bs ++ [slash]) = route W m r q caps bs := by
  induction r using Routes.ind with
  | h rs ns qs ih =>
    intro hs bs hne hlast q caps hnf
    have hok : LocalOk ns := hs.shapely _ _ _ (.here _)
    have hds := (distinctSiblings_mk.1 hs.distinct).1
    have hent : ∀ n ∈ ns, Sound n.routes → ∀ (q : List Param) (caps : Caps W) (rest : Bytes),
        rest.getLast? ≠ some slash → enter W m n.routes q caps rest ≠ .notFound →
        enter W m n.routes q caps (rest ++ [slash]) = enter W m n.routes q caps rest := by
      intro n hn hsn q caps rest hl hnf
      cases rest with
      | nil =>
        simp only [enter, List.nil_append, if_true] at hnf ⊢
        have hres : n.routes.resources ≠ [] := by
          intro h; exact hnf (by simp [atEnd, h])
        obtain ⟨seg', ⟨rs', ns', qs'⟩⟩ := n
        have hres' : rs' ≠ [] := hres
        simp [atEnd, route, hres']
      | cons b rest =>
        simp only [enter, List.cons_append] at hnf ⊢
        by_cases hb : b = slash
        · simp only [hb, if_true] at hnf ⊢
          have hr : rest ≠ [] := by
            rintro rfl
            exact hl (by simp [hb])
          refine ih n hn hsn rest hr ?_ q caps hnf
          rw [List.getLast?_cons_of_ne_nil hr] at hl
          exact hl
        · simp only [hb, if_false] at hnf; exact absurd rfl hnf
    rcases route_step W rs ns qs bs with ⟨h1, h2, h⟩ | ⟨c, h1, h2, h3, h4, h⟩ |
      ⟨n, s, rest, _, hn, hseg, hbs, hpref, h⟩ | ⟨n, p, _, hn, hseg, hcap, hno, h⟩ | ⟨_, hpn, hno, h⟩
    · exact absurd h1 hne
    · exact absurd h1 hne
    · have hm : s ∈ staticTexts ns := mem_staticTexts'.2 ⟨n, hn, hseg⟩
      have hpre : paramNames ns = [] ∨ staticTexts ns = [s] := by
        simp only [preferStatic, Bool.or_eq_true, List.isEmpty_iff, beq_iff_eq] at hpref
        rcases hpref with h | h
        · exact .inl h
        · right
          obtain ⟨a, ha⟩ := List.length_eq_one_iff.1 h
          rw [ha] at hm ⊢
          simp at hm; rw [hm]
      rw [h] at hnf ⊢
      rw [hbs, List.append_assoc, route_static hok hds hn hseg (plainTexts_static hs.plain hm).1 hpre]
      refine hent n hn ?_ _ _ rest ?_ hnf
      · exact hs.child (by have := live_static (rs := rs) (qs := qs) hn hseg (.here n.routes); exact this)
      · intro hl
        refine hlast ?_
        rw [hbs]
        cases rest with
        | nil => simp at hl
        | cons b rest => rw [List.getLast?_append, hl]; rfl
    · have hlive : Sound n.routes :=
        hs.child (by have := live_dynamic (rs := rs) (qs := qs) hn hseg hcap (.here n.routes); exact this)
      have hnp : paramNames ns ≠ [] := fun hp => by rw [captor_eq_none.2 hp] at hcap; cases hcap
      obtain ⟨ht, hd⟩ := takeWhile_append_slash bs
      have hlastd : (bs.dropWhile (· ≠ slash)).getLast? ≠ some slash := by
        intro hl
        refine hlast ?_
        rw [← List.takeWhile_append_dropWhile (p := (· ≠ slash)) (l := bs), List.getLast?_append, hl]; rfl
      have hroute : route W m (.mk rs ns qs) q caps (bs ++ [slash]) =
          capture W m p n.routes (q ++ qs) caps (bs ++ [slash]) := by
        rcases route_step W rs ns qs (bs ++ [slash]) with ⟨h1, h2, h'⟩ | ⟨c, h1, h2, h3, h4, h'⟩ |
          ⟨n', s, rest, _, hn', hseg', hbs, hpref, h'⟩ | ⟨n', p', _, hn', hseg', hcap', hno', h'⟩ |
          ⟨_, hpn, hno', h'⟩
        · simp at h1
        · simp at h1
        · have hm : s ∈ staticTexts ns := mem_staticTexts'.2 ⟨n', hn', hseg'⟩
          refine absurd ?_ (hno hpref s hm)
          exact prefix_append_slash
            (slash_not_mem_bytesOf (plainTexts_static hs.plain hm).2 (hok.ascii s hm)) ⟨rest, hbs.symm⟩
        · have : n' = n := dynamic_unique hds hn' hn hseg' hseg (by
            rw [hcap, Option.some.injEq] at hcap'; exact hcap'.symm)
          subst this
          rw [hseg, PathSegment.dynamic.injEq] at hseg'
          subst hseg'
          exact h' ..
        · exact absurd hpn hnp
      rw [hroute, h]
      rw [h] at hnf
      simp only [capture] at hnf ⊢
      rw [ht, hd]
      cases hu : fromUtf8 (bs.takeWhile (· ≠ slash)) with
      | none => rfl
      | some text =>
        rw [hu] at hnf
        simp only at hnf ⊢
        cases hp : W.parse p.typ text with
        | error e => rfl
        | ok v =>
          rw [hp] at hnf
          simp only at hnf ⊢
          exact hent n hn hlive _ _ _ hlastd hnf
    · exact absurd (h ..) hnf

end Wayfinder
