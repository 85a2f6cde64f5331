import Verif.Spec.Found
import Verif.Props.Config
/-!
# C04: exactly which configurations lose no declared route
-/

namespace Wayfinder

variable {W : World} {r : Routes} {body : List Stmt}

/-- The pieces of a path lead nowhere, and nothing fails on the way. -/
def Lost (W : World) (n : Routes) (pieces : List Bytes) : Prop :=
  ∀ segs above caps node rest, Arrives W n segs above caps pieces node rest →
    ¬ (Finished rest ∧ node.resources ≠ []) ∧ ¬ (rest = [[]] ∧ Cliff node) ∧
    ∀ part more p sub, rest = part :: more → Takes node p sub part more →
      ∃ text v, fromUtf8 part = some text ∧ W.parse p.typ text = .ok v

theorem Lost.static {n sub : Routes} {s : Str} {pieces : List Bytes} (h : Lost W n (bytesOf s :: pieces))
    (hn : NestedRoutes.mk (.static s) sub ∈ n.routes) (h1 : paramNames n.routes = [] ∨ staticTexts n.routes = [s]) :
    Lost W sub pieces :=
  fun _ _ _ _ _ ha => h _ _ _ _ _ (.static hn h1 ha)

theorem Lost.dynamic {n sub : Routes} {p : Param} {part : Bytes} {pieces : List Bytes} (h : Lost W n (part :: pieces))
    (ht : Takes n p sub part pieces) : Lost W sub pieces := by
  obtain ⟨text, v, h1, h2⟩ := (h _ _ _ _ _ (.here _ _)).2.2 _ _ _ _ rfl ht
  exact fun _ _ _ _ _ ha => h _ _ _ _ _ (.dynamic ht h1 h2 ha)

theorem bytesOf_prefix {a b : Str} (ha : ∀ c ∈ a, c.toNat < 128) (hb : ∀ c ∈ b, c.toNat < 128) :
    bytesOf a <+: bytesOf b ↔ a <+: b := by
  constructor
  · intro h
    have h1 : bytesOf a = bytesOf (b.take a.length) := by
      have := List.prefix_iff_eq_take.1 h
      simpa [bytesOf, List.map_take] using this
    rw [bytesOf_inj ha (fun c hc => hb c (List.mem_of_mem_take hc)) h1]
    exact List.take_prefix ..
  · rintro ⟨c, rfl⟩
    exact ⟨bytesOf c, by simp [bytesOf]⟩

theorem Bears.static {params : Bool} {t t' : Routes} {s : Str} (hn : NestedRoutes.mk (.static s) t' ∈ t.routes)
    (h : Bears params t') : Bears params t := by
  obtain ⟨segs, above, node, h1, h2, h3⟩ := h
  exact ⟨_, _, _, .child hn h1, h2, by simpa [routeParams] using h3⟩

theorem coversAll_iff {params : Bool} {n : Routes} {ns : List NestedRoutes} :
    CoversAll params n ns ↔ ∀ c ∈ ns, CoversChild params n c := by
  induction ns with
  | nil => simp [CoversAll]
  | cons c ns ih => simp [CoversAll, ih]

theorem covers_iff {params : Bool} {n t : Routes} : Covers params n t ↔
    (t.resources ≠ [] → n.resources ≠ []) ∧
    (∀ s t', NestedRoutes.mk (.static s) t' ∈ t.routes → Bears params t' → ∃ n', Enters n s n' ∧ Covers params n' t') ∧
    ∀ q t', NestedRoutes.mk (.dynamic q) t' ∈ t.routes → Bears params t' → params = true →
      ∃ p n', NestedRoutes.mk (.dynamic p) n' ∈ n.routes ∧ captor n.routes = some p.name ∧
        (staticTexts n.routes).length ≠ 1 ∧ Covers params n' t' := by
  obtain ⟨rs, ns, qs⟩ := t
  rw [Covers, coversAll_iff]
  refine and_congr_right fun _ => ⟨fun h => ⟨fun s t' hm => ?_, fun q t' hm => ?_⟩, fun ⟨h1, h2⟩ c hc => ?_⟩
  · simpa [CoversChild] using h _ hm
  · simpa [CoversChild] using h _ hm
  · obtain ⟨seg, t'⟩ := c
    cases seg with
    | static s => simpa [CoversChild] using h1 s t' hc
    | dynamic q => simpa [CoversChild] using h2 q t' hc

theorem enters_child {n n' : Routes} {s : Str} (h : Enters n s n') : ∃ seg, NestedRoutes.mk seg n' ∈ n.routes := by
  cases h with
  | static h _ => exact ⟨_, h⟩
  | dynamic h _ _ => exact ⟨_, h⟩

theorem Lost.enters {n n' : Routes} {s : Str} {pieces : List Bytes} (h : Lost W n (bytesOf s :: pieces))
    (he : Enters n s n') (hne : s ≠ []) (hs : ∀ c ∈ s, c.toNat < 128) (han : AsciiTexts n) : Lost W n' pieces := by
  cases he with
  | static hn h1 => exact h.static hn h1
  | dynamic hn h1 h2 =>
    refine h.dynamic ⟨hn, h1, fun s' hs' => ?_, fun he => absurd he (by simpa [bytesOf] using hne)⟩
    rw [bytesOf_prefix (han _ _ _ (.here _) s' (by rw [hs']; simp)) hs]
    exact h2 s' hs'

/-- A covered request is not lost. -/
theorem covers_found {params : Bool} {t : Routes} {segs : List PathSegment} {above : List Param} {node : Routes}
    (hr : HasRoute t segs above node) : ∀ {n : Routes}, Covers params n t → PlainTexts t → AsciiTexts t → AsciiTexts n →
    node.resources ≠ [] → (params = true ∨ routeParams segs = []) →
    ∀ {caps : Caps W} {parts : List Bytes}, Fits W segs caps parts → ∀ {tail : List Bytes}, (tail = [] ∨ tail = [[]]) →
    ¬ Lost W n (parts ++ tail) := by
  induction hr with
  | here =>
    intro n hc _ _ _ hres _ caps parts hf tail ht hl
    cases hf
    exact (hl _ _ _ _ _ (.here _ _)).1 ⟨ht, (covers_iff.1 hc).1 hres⟩
  | @child t node seg sub segs query hn hr ih =>
    intro n hc hp ha han hres hpar caps parts hf tail ht hl
    obtain ⟨-, h2, h3⟩ := covers_iff.1 hc
    cases hf with
    | static s hf =>
      have hpar' : params = true ∨ routeParams segs = [] := by simpa [routeParams] using hpar
      have hm : s ∈ staticTexts t.routes := mem_staticTexts'.2 ⟨_, hn, rfl⟩
      obtain ⟨n', he, hc'⟩ := h2 s sub hn ⟨_, _, _, hr, hres, hpar'⟩
      obtain ⟨seg, hn'⟩ := enters_child he
      exact ih hc' (hp.child' hn) (ha.child hn) (han.child hn') hres hpar' hf ht
        (hl.enters he (hp.static hm).1 (ha _ _ _ (.here _) s hm) han)
    | @dynamic _ _ parts p _ part _ hsl hu hv hf =>
      rcases hpar with hpar | hpar
      · obtain ⟨p', n', hn', h4, h5, hc'⟩ := h3 p sub hn ⟨_, _, _, hr, hres, .inl hpar⟩ hpar
        by_cases hend : part = [] ∧ parts ++ tail = [] ∧ n.resources ≠ []
        · obtain ⟨rfl, he, hnr⟩ := hend
          refine (hl _ _ _ _ _ (.here _ _)).1 ⟨.inr ?_, hnr⟩
          rw [List.cons_append, he]
        · refine ih hc' (hp.child' hn) (ha.child hn) (han.child hn') hres (.inl hpar) hf ht
            (Lost.dynamic (part := part) hl ⟨hn', h4, fun s hs => absurd (by rw [hs]; rfl) h5, fun h6 h7 => ⟨?_, fun c hs => h5 (by rw [hs]; rfl)⟩⟩)
          by_contra h8
          exact hend ⟨h6, h7, h8⟩
      · simp [routeParams] at hpar

/-- Pieces that enter a child where they are lost are lost. -/
theorem lost_of_enters {n : Routes} {s : Str} {pieces : List Bytes} (hd : DistinctSiblings n) (han : AsciiTexts n)
    (hne : s ≠ []) (hs : ∀ c ∈ s, c.toNat < 128) (he : ∀ n', Enters n s n' → Lost echo n' pieces) :
    Lost echo n (bytesOf s :: pieces) := by
  have hu : fromUtf8 (bytesOf s) = some s := by rw [← utf8_ascii hs, fromUtf8_utf8]
  have hb : bytesOf s ≠ [] := by simpa [bytesOf] using hne
  have hfree : ∀ {p : Param} {sub : Routes}, Takes n p sub (bytesOf s) pieces → Enters n s sub := by
    intro p sub ht
    refine .dynamic ht.child ht.first fun s' hs' hpre => ht.free s' hs' ?_
    rwa [bytesOf_prefix (han _ _ _ (.here _) s' (by rw [hs']; simp)) hs]
  intro segs above caps node rest ha
  generalize hpc : bytesOf s :: pieces = ps at ha
  cases ha with
  | here =>
    subst hpc
    refine ⟨fun ⟨h1, _⟩ => ?_, fun ⟨h1, _⟩ => hb (by injection h1), ?_⟩
    · rcases h1 with h1 | h1
      · cases h1
      · exact hb (by injection h1)
    · rintro part more p sub h1 -
      injection h1 with h1 h2
      subst h1
      exact ⟨s, s, hu, rfl⟩
  | @static _ sub _ s' _ _ _ _ _ hn h1 ha =>
    injection hpc with e1 e2
    subst e2
    obtain rfl := bytesOf_inj hs (han _ _ _ (.here _) s' (mem_staticTexts'.2 ⟨_, hn, rfl⟩)) e1
    exact he _ (.static hn h1) _ _ _ _ _ ha
  | @dynamic _ sub _ p _ _ _ part _ _ v text ht h1 h2 ha =>
    injection hpc with e1 e2
    subst e1 e2
    exact he _ (hfree ht) _ _ _ _ _ ha

/-- A piece that begins like no static child, or extends the only one. -/
theorem lost_of_takes {n : Routes} {t : Str} {pieces : List Bytes} (hne : t ≠ [])
    (hno : ∀ s ∈ staticTexts n.routes, bytesOf s ≠ utf8 t)
    (he : ∀ p sub, Takes n p sub (utf8 t) pieces → Lost echo sub pieces) : Lost echo n (utf8 t :: pieces) := by
  have hb : utf8 t ≠ [] := by
    obtain ⟨c, t, rfl⟩ := List.exists_cons_of_ne_nil hne
    intro h
    have := fromUtf8_utf8 (c :: t)
    rw [h] at this
    have h2 := fromUtf8_utf8 []
    rw [show utf8 [] = [] from rfl, this] at h2
    cases h2
  intro segs above caps node rest ha
  generalize hpc : utf8 t :: pieces = ps at ha
  cases ha with
  | here =>
    subst hpc
    refine ⟨fun ⟨h1, _⟩ => ?_, fun ⟨h1, _⟩ => hb (by injection h1), ?_⟩
    · rcases h1 with h1 | h1
      · cases h1
      · exact hb (by injection h1)
    · rintro part more p sub h1 -
      injection h1 with h1 h2
      subst h1
      exact ⟨t, t, fromUtf8_utf8 t, rfl⟩
  | @static _ sub _ s' _ _ _ _ _ hn h1 ha =>
    injection hpc with e1 e2
    exact absurd e1.symm (hno s' (mem_staticTexts'.2 ⟨_, hn, rfl⟩))
  | @dynamic _ sub _ p _ _ _ part _ _ v text ht h1 h2 ha =>
    injection hpc with e1 e2
    subst e1 e2
    exact he _ _ ht _ _ _ _ _ ha

theorem enters_unique {n a b : Routes} {s : Str} (hd : DistinctSiblings n) (ha : Enters n s a) (hb : Enters n s b) : a = b := by
  have nil_captor : ∀ {p : Param} {sub : Routes}, NestedRoutes.mk (.dynamic p) sub ∈ n.routes → paramNames n.routes ≠ [] := by
    intro p sub hm he
    have : p.name ∈ paramNames n.routes := List.mem_filterMap.2 ⟨_, hm, rfl⟩
    rw [he] at this
    cases this
  have clash : ∀ {p : Param} {x y : Routes}, NestedRoutes.mk (.static s) x ∈ n.routes →
      (paramNames n.routes = [] ∨ staticTexts n.routes = [s]) → NestedRoutes.mk (.dynamic p) y ∈ n.routes →
      (∀ s', staticTexts n.routes = [s'] → ¬ s' <+: s) → False := by
    intro p x y _ h1 h2 h3
    rcases h1 with h1 | h1
    · exact nil_captor h2 h1
    · exact h3 s h1 List.prefix_rfl
  cases ha with
  | static h1 h2 =>
    cases hb with
    | static h3 _ => exact (same_child hd h1 h3 rfl).2
    | dynamic h3 h4 h5 => exact (clash h1 h2 h3 h5).elim
  | dynamic h1 h2 h3 =>
    cases hb with
    | static h4 h5 => exact (clash h4 h5 h1 h3).elim
    | dynamic h4 h5 _ =>
      rw [h2] at h5
      exact (same_child hd h1 h4 (Option.some.inj h5)).2

/-- Every route with resources (with or without parameters) has some instance. -/
theorem bears_fits {t : Routes} {segs : List PathSegment} {above : List Param} {node : Routes} (hr : HasRoute t segs above node) :
    ∃ (caps : Caps echo) (parts : List Bytes), Fits echo segs caps parts := by
  induction hr with
  | here => exact ⟨_, _, .nil⟩
  | @child t node seg sub segs query hn hr ih =>
    obtain ⟨caps, parts, h⟩ := ih
    cases seg with
    | static s => exact ⟨_, _, .static s h⟩
    | dynamic p => exact ⟨_, _, .dynamic (part := utf8 fresh) (v := fresh) (by decide +kernel) (fromUtf8_utf8 _) rfl h⟩

/-- If no request is lost, all are covered. -/
theorem covers_of_found {params : Bool} {n t : Routes} (hd : DistinctSiblings n) (hpn : PlainTexts n) (hp : PlainTexts t)
    (han : AsciiTexts n) (ha : AsciiTexts t)
    (h : ∀ segs above node, HasRoute t segs above node → node.resources ≠ [] → (params = true ∨ routeParams segs = []) →
      ∀ (caps : Caps echo) parts, Fits echo segs caps parts → ¬ Lost echo n parts) : Covers params n t := by
  refine covers_iff.2 ⟨fun hres hn => ?_, fun s t' hm hb => ?_, fun q t' hm hb hpar => ?_⟩
  · refine h _ _ _ (.here _) hres (.inr rfl) _ _ .nil fun segs above caps node rest har => ?_
    generalize hpc : ([] : List Bytes) = ps at har
    cases har with
    | here =>
      subst hpc
      refine ⟨fun h1 => h1.2 hn, fun h1 => by simp at h1, ?_⟩
      rintro _ _ _ _ h1
      cases h1
    | static => cases hpc
    | dynamic => cases hpc
  · have hs : s ∈ staticTexts t.routes := mem_staticTexts'.2 ⟨_, hm, rfl⟩
    have hne := (hp.static hs).1
    have has := ha _ _ _ (.here _) s hs
    have key : ∀ segs above node, HasRoute t' segs above node → node.resources ≠ [] → (params = true ∨ routeParams segs = []) →
        ∀ (caps : Caps echo) parts, Fits echo segs caps parts → ∃ n', Enters n s n' ∧ ¬ Lost echo n' parts := by
      intro segs above node hr hres hpar caps parts hf
      by_contra hcon
      refine h _ _ _ (.child hm hr) hres (by simpa [routeParams] using hpar) _ _ (.static s hf)
        (lost_of_enters hd han hne has fun n' he => ?_)
      by_contra hl
      exact hcon ⟨n', he, hl⟩
    obtain ⟨segs, above, node, hr, hres, hpar⟩ := hb
    obtain ⟨caps, parts, hf⟩ := bears_fits hr
    obtain ⟨n', he, -⟩ := key _ _ _ hr hres hpar _ _ hf
    obtain ⟨seg, hn'⟩ := enters_child he
    refine ⟨n', he, covers_of_found (distinct_child hd hn') (hpn.child' hn') (hp.child' hm) (han.child hn') (ha.child hm)
      fun segs above node hr hres hpar caps parts hf => ?_⟩
    obtain ⟨n'', he', hl⟩ := key _ _ _ hr hres hpar _ _ hf
    exact enters_unique hd he' he ▸ hl
  · have key : ∀ segs above node, HasRoute t' segs above node → node.resources ≠ [] → (params = true ∨ routeParams segs = []) →
        ∀ (caps : Caps echo) parts, Fits echo segs caps parts →
        ∃ p n', NestedRoutes.mk (.dynamic p) n' ∈ n.routes ∧ captor n.routes = some p.name ∧ ¬ Lost echo n' parts := by
      intro segs above node hr hres _ caps parts hf
      by_contra hcon
      refine h _ _ _ (.child hm hr) hres (.inl hpar) _ _
        (.dynamic (part := utf8 fresh) (v := fresh) (by decide +kernel) (fromUtf8_utf8 _) rfl hf)
        (lost_of_takes (by simp [fresh]) (fun s hs he => ?_) fun p n' ht => ?_)
      · exact ascii_not_prefix (hpn.static hs).1 (han _ _ _ (.here _) s hs) (he ▸ List.prefix_rfl)
      · by_contra hl
        exact hcon ⟨p, n', ht.child, ht.first, hl⟩
    obtain ⟨segs, above, node, hr, hres, hpar'⟩ := hb
    obtain ⟨caps, parts, hf⟩ := bears_fits hr
    obtain ⟨p, n', hn', hcap, -⟩ := key _ _ _ hr hres hpar' _ _ hf
    refine ⟨p, n', hn', hcap, fun hlen => ?_, covers_of_found (distinct_child hd hn') (hpn.child' hn') (hp.child' hm)
      (han.child hn') (ha.child hm) fun segs above node hr hres hpar caps parts hf => ?_⟩
    · obtain ⟨s, hs⟩ := List.length_eq_one_iff.1 hlen
      have hsm : s ∈ staticTexts n.routes := by rw [hs]; simp
      have has := han _ _ _ (.here _) s hsm
      have hpre : bytesOf s <+: utf8 (s ++ fresh) := by
        rw [utf8_append, utf8_ascii has]
        exact List.prefix_append ..
      refine h _ _ _ (.child hm hr) hres (.inl hpar) _ _
        (.dynamic (part := utf8 (s ++ fresh)) (v := s ++ fresh) ?_ (fromUtf8_utf8 _) rfl hf)
        (lost_of_takes (by simp [fresh]) (fun s' hs' he => ?_) fun p n' ht => absurd hpre (ht.free s hs))
      · refine slash_utf8 ?_
        have := (hpn.static hsm).2
        simp [fresh, this]
      · rw [← utf8_ascii (han _ _ _ (.here _) s' hs')] at he
        have he := utf8_inj he
        have := han _ _ _ (.here _) s' hs' 'é' (by rw [he]; simp [fresh])
        exact absurd this (by decide)
    · obtain ⟨p'', n'', hn'', hcap', hl⟩ := key _ _ _ hr hres hpar _ _ hf
      rw [hcap] at hcap'
      obtain ⟨_, rfl⟩ := same_child hd hn' hn'' (Option.some.inj hcap')
      exact hl
termination_by sizeOf t
decreasing_by all_goals exact sizeOf_child (by assumption)

theorem not_found_lost (h : Supported r body) (hp : PlainTexts r) (path m : Bytes) :
    callMatchRoute W body path m = .notFound ↔ Lost W r (cut (stripSlash path)) := C47_not_found h hp path m

theorem fits_clear {t node : Routes} {segs : List PathSegment} {above : List Param} (hr : HasRoute t segs above node) :
    ∀ {caps : Caps W} {parts : List Bytes}, Fits W segs caps parts → PlainTexts t → AsciiTexts t → Clear parts := by
  induction hr with
  | here =>
    intro caps parts h _ _ p hp
    cases h
    cases hp
  | @child t node seg sub segs query hn hr ih =>
    intro caps parts h hp ha q hq
    cases h with
    | static s h =>
      have hs : s ∈ staticTexts t.routes := mem_staticTexts'.2 ⟨_, hn, rfl⟩
      rcases List.mem_cons.1 hq with rfl | hq
      · rw [← utf8_ascii (ha _ _ _ (.here _) s hs)]
        exact slash_utf8 (hp.static hs).2
      · exact ih h (hp.child' hn) (ha.child hn) q hq
    | dynamic h1 _ _ h =>
      rcases List.mem_cons.1 hq with rfl | hq
      · exact h1
      · exact ih h (hp.child' hn) (ha.child hn) q hq

theorem fits_no_params {segs : List PathSegment} {caps : Caps W} {parts : List Bytes} (h : Fits W segs caps parts)
    (hs : routeParams segs = []) : caps = [] := by
  induction h with
  | nil => rfl
  | static s _ ih => exact ih (by simpa [routeParams] using hs)
  | dynamic _ _ _ _ _ => simp [routeParams] at hs

/-- `NotFound` is never returned for an instance of a declared route; if `params` is false, only routes without parameters
are considered. -/
def NothingLost (params : Bool) (W : World) (body : List Stmt) (r : Routes) : Prop :=
  ∀ path m, callMatchRoute W body path m = .notFound →
    ¬ ∃ segs above node caps parts, HasRoute r segs above node ∧ node.resources ≠ [] ∧
      (params = true ∨ routeParams segs = []) ∧ Fits W segs caps parts ∧ Spells parts (stripSlash path)

theorem nothingLost_iff (h : Supported r body) (hp : PlainTexts r) (ha : AsciiTexts r) (params : Bool) :
    (∀ W, NothingLost params W body r) ↔ Covers params r r := by
  have hs := h.sound hp
  constructor
  · intro hc
    refine covers_of_found hs.distinct hp hp ha ha fun segs above node hr hres hpar caps parts hf hl => ?_
    by_cases hne : parts = []
    · subst hne
      cases hf
      cases hr
      exact (hl _ _ _ _ _ (.here _ _)).1 ⟨.inl rfl, hres⟩
    · have hcl := fits_clear hr hf hp ha
      obtain ⟨bs, hbs⟩ : ∃ bs, bs ++ [slash] = spell parts := by
        obtain ⟨init, last, rfl⟩ := List.eq_nil_or_concat parts |>.resolve_left hne
        exact ⟨spell init ++ last, by simp [spell]⟩
      have hcut : cut bs = parts := by
        have := cut_spell hcl
        rw [← hbs, cut_snoc] at this
        simpa using this
      have he : stripSlash (slash :: bs) = bs := by simp [stripSlash]
      exact hc echo (slash :: bs) [] ((not_found_lost h hp _ _).2 (by rw [he, hcut]; exact hl))
        ⟨segs, above, node, caps, parts, hr, hres, hpar, hf, .inr (by rw [he]; exact hbs)⟩
  · rintro hc W path m hn ⟨segs, above, node, caps, parts, hr, hres, hpar, hf, hsp⟩
    rw [not_found_lost h hp] at hn
    have hcl := fits_clear hr hf hp ha
    rcases hsp with he | he
    · rw [he, cut_spell hcl] at hn
      exact covers_found hr hc hp ha ha hres hpar hf (.inr rfl) hn
    · have := cut_spell hcl
      rw [← he, cut_snoc] at this
      rw [show cut (stripSlash path) = parts ++ [] by simpa using this] at hn
      exact covers_found hr hc hp ha ha hres hpar hf (.inl rfl) hn

/-- **C04, configurations, first clause.** `NotFound` is never returned for a declared route without parameters, whatever
`FromStr` does, exactly if the routes without parameters are covered. -/
theorem C04_config (h : Supported r body) (hp : PlainTexts r) (ha : AsciiTexts r) :
    (∀ W, StaticFound W r body) ↔ Covers false r r := by
  rw [← nothingLost_iff h hp ha]
  refine forall_congr' fun W => ⟨fun hc path m hn => ?_, fun hc path m hn => ?_⟩
  · rintro ⟨segs, above, node, caps, parts, h1, h2, h3, h4, h5⟩
    have h3 : routeParams segs = [] := by simpa using h3
    obtain rfl := fits_no_params h4 h3
    exact hc path m hn ⟨segs, above, node, parts, h1, h2, h3, h4, h5⟩
  · rintro ⟨segs, above, node, parts, h1, h2, h3, h4, h5⟩
    exact hc path m hn ⟨segs, above, node, [], parts, h1, h2, .inr h3, h4, h5⟩

/-- **C04, configurations, second clause.** `NotFound` means that the path is no instance of any declared route with
resources, whatever `FromStr` does, exactly if all routes are covered. -/
theorem C04_instances (h : Supported r body) (hp : PlainTexts r) (ha : AsciiTexts r) :
    (∀ W path m, callMatchRoute W body path m = .notFound → ¬ IsInstance W r (stripSlash path)) ↔ Covers true r r := by
  rw [← nothingLost_iff h hp ha]
  refine forall_congr' fun W => forall_congr' fun path => forall_congr' fun m => imp_congr_right fun _ => not_congr ?_
  constructor
  · rintro ⟨segs, above, node, caps, parts, h1, h2, h3, h4⟩
    exact ⟨segs, above, node, caps, parts, h1, h2, .inl rfl, h3, h4⟩
  · rintro ⟨segs, above, node, caps, parts, h1, h2, -, h3, h4⟩
    exact ⟨segs, above, node, caps, parts, h1, h2, h3, h4⟩

/-! ## The condition can be decided -/

mutual
def bearsB (params : Bool) : Routes → Bool
  | .mk rs ns _ => !rs.isEmpty || bearsAny params ns
def bearsAny (params : Bool) : List NestedRoutes → Bool
  | [] => false
  | c :: cs => bearsChild params c || bearsAny params cs
def bearsChild (params : Bool) : NestedRoutes → Bool
  | .mk (.static _) t => bearsB params t
  | .mk (.dynamic _) t => params && bearsB params t
end

theorem bearsAny_iff {params : Bool} {ns : List NestedRoutes} : bearsAny params ns = true ↔ ∃ c ∈ ns, bearsChild params c = true := by
  induction ns with
  | nil => simp [bearsAny]
  | cons c ns ih => simp [bearsAny, ih]

theorem bears_iff {params : Bool} {t : Routes} : bearsB params t = true ↔ Bears params t := by
  constructor
  · intro h
    obtain ⟨rs, ns, qs⟩ := t
    rw [bearsB, Bool.or_eq_true, bearsAny_iff] at h
    rcases h with h | ⟨⟨seg, t'⟩, hc, h⟩
    · exact ⟨_, _, _, .here _, by simpa [Routes.resources] using h, .inr rfl⟩
    · cases seg with
      | static s => exact Bears.static hc (bears_iff.1 h)
      | dynamic p =>
        rw [bearsChild, Bool.and_eq_true] at h
        obtain ⟨segs, above, node, h1, h2, -⟩ := bears_iff.1 h.2
        exact ⟨_, _, _, .child hc h1, h2, .inl h.1⟩
  · rintro ⟨segs, above, node, hr, hres, hpar⟩
    induction hr with
    | here r =>
      obtain ⟨rs, ns, qs⟩ := r
      simp only [Routes.resources] at hres
      simp [bearsB, hres]
    | @child r node seg sub segs query hn hr ih =>
      obtain ⟨rs, ns, qs⟩ := r
      rw [bearsB, Bool.or_eq_true, bearsAny_iff]
      refine .inr ⟨_, hn, ?_⟩
      cases seg with
      | static s => exact ih hres (by simpa [routeParams] using hpar)
      | dynamic p =>
        have hpar : params = true := by simpa [routeParams] using hpar
        rw [bearsChild, Bool.and_eq_true]
        exact ⟨hpar, ih hres (.inl hpar)⟩
termination_by sizeOf t
decreasing_by all_goals exact sizeOf_child (by assumption)

/-- The children that a segment enters. -/
def entered (n : Routes) (s : Str) : List Routes :=
  n.routes.filterMap fun c => match c with
    | .mk (.static s') sub => if s' = s ∧ (paramNames n.routes = [] ∨ staticTexts n.routes = [s]) then some sub else none
    | .mk (.dynamic p) sub =>
      if captor n.routes = some p.name ∧ ((staticTexts n.routes).length ≠ 1 ∨ ∀ s' ∈ staticTexts n.routes, ¬ s' <+: s) then some sub else none

theorem entered_iff {n sub : Routes} {s : Str} : sub ∈ entered n s ↔ Enters n s sub := by
  rw [entered, List.mem_filterMap]
  constructor
  · rintro ⟨⟨seg, t⟩, hm, h⟩
    cases seg with
    | static s' =>
      simp only [Option.ite_none_right_eq_some, Option.some.injEq] at h
      obtain ⟨⟨rfl, h1⟩, rfl⟩ := h
      exact .static hm h1
    | dynamic p =>
      simp only [Option.ite_none_right_eq_some, Option.some.injEq] at h
      obtain ⟨⟨h1, h2⟩, rfl⟩ := h
      refine .dynamic hm h1 fun s' hs' => ?_
      rw [hs'] at h2
      simpa using h2
  · rintro (⟨hm, h1⟩ | ⟨hm, h1, h2⟩)
    · exact ⟨_, hm, by simp [h1]⟩
    · refine ⟨_, hm, ?_⟩
      simp only [Option.ite_none_right_eq_some, Option.some.injEq, and_true]
      refine ⟨h1, ?_⟩
      by_cases hl : (staticTexts n.routes).length = 1
      · obtain ⟨s', hs'⟩ := List.length_eq_one_iff.1 hl
        exact .inr (by rw [hs']; simpa using h2 s' hs')
      · exact .inl hl

/-- The children for the parameter that captures, if it has not exactly one static sibling. -/
def captured (n : Routes) : List Routes :=
  n.routes.filterMap fun c => match c with
    | .mk (.static _) _ => none
    | .mk (.dynamic p) sub => if captor n.routes = some p.name ∧ (staticTexts n.routes).length ≠ 1 then some sub else none

mutual
def coversB (params : Bool) (n : Routes) : Routes → Bool
  | .mk rs ns _ => (rs.isEmpty || !n.resources.isEmpty) && coversAllB params n ns
def coversAllB (params : Bool) (n : Routes) : List NestedRoutes → Bool
  | [] => true
  | c :: cs => coversChildB params n c && coversAllB params n cs
def coversChildB (params : Bool) (n : Routes) : NestedRoutes → Bool
  | .mk (.static s) t => !bearsB params t || (entered n s).any fun n' => coversB params n' t
  | .mk (.dynamic _) t => !bearsB params t || !params || (captured n).any fun n' => coversB params n' t
end

theorem captured_iff {n sub : Routes} : sub ∈ captured n ↔ ∃ p, NestedRoutes.mk (.dynamic p) sub ∈ n.routes ∧
    captor n.routes = some p.name ∧ (staticTexts n.routes).length ≠ 1 := by
  rw [captured, List.mem_filterMap]
  constructor
  · rintro ⟨⟨seg, t⟩, hm, h⟩
    cases seg with
    | static s' => cases h
    | dynamic p =>
      simp only [Option.ite_none_right_eq_some, Option.some.injEq] at h
      obtain ⟨⟨h1, h2⟩, rfl⟩ := h
      exact ⟨p, hm, h1, h2⟩
  · rintro ⟨p, hm, h1, h2⟩
    exact ⟨_, hm, by simp [h1, h2]⟩

theorem coversAllB_iff {params : Bool} {n : Routes} {ns : List NestedRoutes} :
    coversAllB params n ns = true ↔ ∀ c ∈ ns, coversChildB params n c = true := by
  induction ns with
  | nil => simp [coversAllB]
  | cons c ns ih => simp [coversAllB, ih]

theorem coversB_iff {params : Bool} {n t : Routes} : coversB params n t = true ↔ Covers params n t := by
  rw [covers_iff]
  obtain ⟨rs, ns, qs⟩ := t
  rw [coversB, Bool.and_eq_true, coversAllB_iff]
  refine and_congr ?_ ⟨fun h => ⟨fun s t' hm hb => ?_, fun q t' hm hb hpar => ?_⟩, fun ⟨h1, h2⟩ c hc => ?_⟩
  · simp only [Routes.resources, Bool.or_eq_true, List.isEmpty_iff, Bool.not_eq_true', List.isEmpty_eq_false_iff]
    by_cases h : rs = [] <;> simp [h]
  · have := h _ hm
    rw [coversChildB, bears_iff.2 hb] at this
    simp only [Bool.not_true, Bool.false_or, List.any_eq_true] at this
    obtain ⟨n', h1, h2⟩ := this
    exact ⟨n', entered_iff.1 h1, coversB_iff.1 h2⟩
  · subst hpar
    have := h _ hm
    rw [coversChildB, bears_iff.2 hb] at this
    simp only [Bool.not_true, Bool.false_or, List.any_eq_true] at this
    obtain ⟨n', h1, h2⟩ := this
    obtain ⟨p, h3, h4, h5⟩ := captured_iff.1 h1
    exact ⟨p, n', h3, h4, h5, coversB_iff.1 h2⟩
  · obtain ⟨seg, t'⟩ := c
    cases seg with
    | static s =>
      rw [coversChildB, Bool.or_eq_true, List.any_eq_true]
      by_cases hb : bearsB params t' = true
      · obtain ⟨n', h3, h4⟩ := h1 s t' hc (bears_iff.1 hb)
        exact .inr ⟨n', entered_iff.2 h3, coversB_iff.2 h4⟩
      · exact .inl (by simpa using hb)
    | dynamic q =>
      rw [coversChildB, Bool.or_eq_true, Bool.or_eq_true, List.any_eq_true]
      by_cases hb : bearsB params t' = true
      · by_cases hpar : params = true
        · obtain ⟨p, n', h3, h4, h5, h6⟩ := h2 q t' hc (bears_iff.1 hb) hpar
          exact .inr ⟨n', captured_iff.2 ⟨p, h3, h4, h5⟩, coversB_iff.2 h6⟩
        · exact .inl (.inr (by simpa using hpar))
      · exact .inl (.inl (by simpa using hb))
termination_by sizeOf t
decreasing_by all_goals exact sizeOf_child (by assumption)

instance (params : Bool) (n t : Routes) : Decidable (Covers params n t) := decidable_of_iff _ coversB_iff

end Wayfinder

namespace Wayfinder.Demo

/-- Covered, although a parameter has several static siblings and none of their routes is reached: requests for them are
answered by the parameter. -/
example : Supported commons (bodyOf commons) ∧ PlainTexts commons ∧ ¬ Tame commons ∧ Covers true commons commons := by
  refine ⟨commons_supported, commons_plain, fun h => ?_, by decide +kernel⟩
  have := (h _ _ _ (.here _) (by decide)).2
  revert this
  decide

/-- A static route beside a parameter: with the parameter, texts that extend the static one are not found. -/
example : Supported people (bodyOf people) ∧ Covers false people people ∧ ¬ Covers true people people :=
  ⟨people_supported, by decide +kernel, by decide +kernel⟩

/-- The witness of `C04_static_false`. -/
example : ¬ Covers false buried buried := by decide +kernel

end Wayfinder.Demo
