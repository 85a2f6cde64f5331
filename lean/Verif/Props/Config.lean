import Verif.Spec.Open
import Verif.Props.RoundTrip
import Verif.Props.Mount
/-!
# Exactly which configurations have the properties that fail in general: C02, C09, C11, C12, C15, C19

The properties quantify over the behaviour of `FromStr`; so do the theorems.
-/

namespace Wayfinder

variable {W : World} {r : Routes} {body : List Stmt}

/-- A text that does not begin like any static segment. -/
def fresh : Str := ['é']

theorem utf8_fresh : utf8 fresh = [195, 169] := by decide +kernel

/-- Every type parses `fresh`. -/
def Lenient (W : World) : Prop := ∀ typ, ∃ v, W.parse typ fresh = .ok v

/-- `FromStr` accepts everything. -/
def echo : World := ⟨Str, Unit, fun _ t => .ok t, fun _ => none⟩

/-- `FromStr` accepts `fresh` only. -/
def picky : World := ⟨Str, Unit, fun _ t => if t = fresh then .ok t else .error (), fun _ => none⟩

theorem echo_lenient : Lenient echo := fun _ => ⟨fresh, rfl⟩

theorem picky_lenient : Lenient picky := fun _ => ⟨fresh, by simp [picky]⟩

theorem picky_fails (typ : Str) {t : Str} (h : t ≠ fresh) : picky.parse typ t = .error () := by
  simp only [picky]
  rw [if_neg h]

theorem ascii_not_prefix {s : Str} (hne : s ≠ []) (ha : ∀ c ∈ s, c.toNat < 128) : ¬ bytesOf s <+: utf8 fresh := by
  rw [utf8_fresh]
  rintro ⟨t, ht⟩
  cases s with
  | nil => exact hne rfl
  | cons c s =>
    have hc := ha c (by simp)
    simp only [bytesOf, List.map_cons, List.cons_append, List.cons.injEq] at ht
    have := congrArg UInt8.toNat ht.1
    simp only [asciiByte] at this
    revert this
    simp
    omega

theorem LocalOk.lt {ns : List NestedRoutes} (h : LocalOk ns) {s : Str} (hs : s ∈ staticTexts ns) :
    ∀ c ∈ s, c.toNat < 128 := by
  intro c hc
  have := h.ascii s hs c hc
  simp only [byteStrChar, Bool.and_eq_true, decide_eq_true_eq] at this
  exact this.1.1.1

theorem Open.live {node : Routes} {segs : List PathSegment} {above : List Param} (h : Open r segs above node) :
    LiveRoute r segs above node := by
  induction h with
  | here => exact .here _
  | static hn _ _ ih => exact .static hn ih
  | dynamic hn hc _ ih => exact .dynamic hn hc ih

theorem Wide.open {node : Routes} {segs : List PathSegment} {above : List Param} (h : Wide r segs above node) :
    Open r segs above node := by
  induction h with
  | here => exact .here _
  | static hn h1 _ ih => exact .static hn h1 ih
  | dynamic hn hc _ _ ih => exact .dynamic hn hc ih

theorem Follows.open {node : Routes} {segs : List PathSegment} {above : List Param} {caps : Caps W} {parts : List Bytes}
    (h : Follows W r segs above caps parts node) : Open r segs above node := by
  induction h with
  | here => exact .here _
  | static hn h1 _ ih => exact .static hn h1 ih
  | dynamic hn hc _ _ _ _ _ _ ih => exact .dynamic hn hc ih

theorem Arrives.open {node : Routes} {segs : List PathSegment} {above : List Param} {caps : Caps W}
    {pieces rest : List Bytes} (h : Arrives W r segs above caps pieces node rest) : Open r segs above node := by
  induction h with
  | here => exact .here _
  | static hn h1 _ ih => exact .static hn h1 ih
  | dynamic ht _ _ _ ih => exact .dynamic ht.child ht.first ih

/-- A followed route leaves the empty piece behind the last `/`, or whatever comes there. -/
theorem Follows.arrives {node : Routes} {segs : List PathSegment} {above : List Param} {caps : Caps W} {parts : List Bytes}
    (h : Follows W r segs above caps parts node) (rest : List Bytes) :
    Arrives W r segs above caps (parts ++ rest) node rest := by
  induction h with
  | here => exact .here _ _
  | static hn h1 _ ih => exact .static hn h1 ih
  | dynamic hn hc h1 h2 h3 h4 h5 _ ih => exact .dynamic ⟨hn, hc, h3, fun e => absurd e h1⟩ h4 h5 ih

/-- Open routes can be followed. -/
theorem Open.follows {node : Routes} {segs : List PathSegment} {above : List Param} (h : Open r segs above node)
    (hs : Sound r) (hW : Lenient W) : ∃ (caps : Caps W) (texts : List Str), Follows W r segs above caps (texts.map utf8) node ∧
      ∀ t ∈ texts, '/' ∉ t := by
  induction h with
  | here => exact ⟨[], [], .here _, by simp⟩
  | @static r sub node s segs above hn h1 _ ih =>
    obtain ⟨caps, texts, h2, h3⟩ := ih (hs.child (.static hn (.here _)))
    have hm : s ∈ staticTexts r.routes := mem_staticTexts'.2 ⟨_, hn, rfl⟩
    have ha := (hs.shapely _ _ _ (.here _)).lt hm
    refine ⟨caps, s :: texts, ?_, ?_⟩
    · rw [List.map_cons, utf8_ascii ha]
      exact .static hn h1 h2
    · intro t ht
      rcases List.mem_cons.1 ht with rfl | ht
      · exact (hs.plain _ _ _ (.child hn (.here _)) _ (List.mem_cons_self ..)).2
      · exact h3 t ht
  | @dynamic r sub node p segs above hn hc _ ih =>
    obtain ⟨caps, texts, h2, h3⟩ := ih (hs.child (.dynamic hn hc (.here _)))
    obtain ⟨v, hv⟩ := hW p.typ
    refine ⟨(p, v) :: caps, fresh :: texts, ?_, ?_⟩
    · rw [List.map_cons]
      refine .dynamic hn hc (by decide +kernel) (by decide +kernel) (fun s hss => ?_) (fromUtf8_utf8 _) hv h2
      have hm : s ∈ staticTexts r.routes := by rw [hss]; simp
      obtain ⟨n, hn', hseg⟩ := mem_staticTexts'.1 hm
      obtain ⟨seg, sub'⟩ := n
      subst hseg
      exact ascii_not_prefix (hs.plain _ _ _ (.child hn' (.here _)) _ (List.mem_cons_self ..)).1
        ((hs.shapely _ _ _ (.here _)).lt hm)
    · intro t ht
      rcases List.mem_cons.1 ht with rfl | ht
      · decide
      · exact h3 t ht

theorem clear_texts {texts : List Str} (h : ∀ t ∈ texts, '/' ∉ t) : Clear (texts.map utf8) := by
  intro p hp
  obtain ⟨t, ht, rfl⟩ := List.mem_map.1 hp
  exact slash_utf8 (h t ht)

/-! ## C09 -/

/-- The path with the given segments, each followed by `/`. -/
def pathOf (texts : List Str) : Str := c!"/" ++ texts.flatMap fun t => t ++ c!"/"

theorem utf8_pathOf (texts : List Str) : utf8 (pathOf texts) = slash :: spell (texts.map utf8) := by
  have hsl : utf8 c!"/" = [slash] := by decide +kernel
  unfold pathOf
  rw [utf8_append, hsl]
  simp only [List.cons_append, List.nil_append, List.cons.injEq, true_and]
  induction texts with
  | nil => rfl
  | cons t texts ih =>
    rw [List.flatMap_cons, utf8_append, utf8_append, hsl, ih]
    rfl

/-- **C09, configurations.** No request with a UTF-8 path panics, whatever `FromStr` does, exactly if no block that a
request can reach is without resources and has a parameter child next to a single static child of one character. -/
theorem C09_config (h : Supported r body) (hp : PlainTexts r) :
    (∀ W, NoPanic W body) ↔ ∀ segs above node, Open r segs above node → ¬ Cliff node := by
  constructor
  · intro hn segs above node ho hc
    obtain ⟨caps, texts, h1, h2⟩ := ho.follows (h.sound hp) echo_lenient
    refine hn echo (pathOf texts) [] ((C09_exact h hp _ _).2 ⟨segs, above, caps, node, ?_, hc⟩)
    rw [utf8_pathOf]
    simp only [stripSlash, if_true]
    rw [cut_spell (clear_texts h2)]
    exact h1.arrives _
  · intro hn W path m hpan
    obtain ⟨segs, above, caps, node, h1, h2⟩ := (C09_exact h hp path m).1 hpan
    exact hn _ _ _ h1.open h2

/-! ## C11 -/

theorem captor_child {ns : List NestedRoutes} (h : paramNames ns ≠ []) :
    ∃ p sub, NestedRoutes.mk (.dynamic p) sub ∈ ns ∧ captor ns = some p.name := by
  cases hc : captor ns with
  | none => exact absurd (captor_eq_none.1 hc) h
  | some x =>
    obtain ⟨n, hn, p, hseg, rfl⟩ := mem_paramNames'.1 (captor_mem hc)
    obtain ⟨seg, sub⟩ := n
    subst hseg
    exact ⟨p, sub, hn, rfl⟩

theorem sub_plain {seg : PathSegment} {sub node : Routes} {segs : List PathSegment}
    {above : List Param} (hp : PlainTexts r) (hr : HasRoute r segs above node) (hn : NestedRoutes.mk seg sub ∈ node.routes) :
    PlainTexts sub := by
  induction hr with
  | here r =>
    obtain ⟨rs, ns, qs⟩ := r
    exact plainTexts_child hp hn
  | @child r node seg' sub' segs query hn' _ ih =>
    obtain ⟨rs, ns, qs⟩ := r
    exact ih (plainTexts_child hp hn') hn

/-- The root of a configuration does not fail with an error if it has resources of its own. -/
theorem root_no_error (h : Supported r body) (hp : PlainTexts r) (hres : r.resources ≠ []) (m : Bytes) (x : Str) (e : W.E) :
    callMatchRoute W body [slash] m ≠ .err x e := by
  intro he
  obtain ⟨segs, above, caps, node, p, sub, part, more, text, h1, h2, -⟩ := (C47_error h hp _ _ _ _).1 he
  simp only [stripSlash, if_true, cut] at h1
  have hone : ∀ {s : Str}, PathSegment.static s ∈ segs → s ≠ [] := fun hs => (hp _ _ _ h1.hasRoute _ hs).1
  generalize hpc : [([] : Bytes)] = pieces at h1
  generalize hrest : part :: more = rest at h1
  cases h1 with
  | here =>
    rw [← hpc] at hrest
    injection hrest with e1 e2
    exact hres (h2.goes e1 e2).1
  | @static _ sub node s segs above caps pieces rest hn _ _ =>
    injection hpc with e1 _
    have := hone (s := s) (by simp)
    cases s with
    | nil => exact this rfl
    | cons c s => simp [bytesOf] at e1
  | dynamic ht _ _ _ =>
    injection hpc with e1 e2
    exact hres (ht.goes e1.symm e2.symm).1

theorem under_ne_err {caps : Caps W} {q : List Param} {o : Outcome W} (h : ∀ x e, o ≠ .err x e) (x : Str) (e : W.E) :
    o.under caps q ≠ .err x e := by
  cases o <;> simp_all [Outcome.under]

theorem not_delegated (hsub : PlainTexts sub) {parts : List Bytes} {part : Bytes} {caps : Caps W} {q : List Param}
    {m : Bytes} {x : Str} {e : W.E} (he : callMatchRoute W body (slash :: (spell parts ++ part)) m = .err x e) :
    ¬ Delegates W body parts part sub caps q := by
  rintro ⟨body', hb', -, h2⟩
  rw [h2 m] at he
  split at he
  · cases he
  · rename_i hres
    exact under_ne_err (fun x e => root_no_error hb' hsub hres m x e) x e he

/-- A parameter that takes the text of a static sibling. -/
theorem static_error (h : Supported r body) (hp : PlainTexts r) {node : Routes} {segs : List PathSegment} {above : List Param}
    {caps : Caps picky} {texts : List Str} (hf : Follows picky r segs above caps (texts.map utf8) node)
    (ht : ∀ t ∈ texts, '/' ∉ t) (hpn : paramNames node.routes ≠ []) {s : Str} (hs : s ∈ staticTexts node.routes)
    (htwo : 2 ≤ (staticTexts node.routes).length) (m : Bytes) :
    ∃ x, callMatchRoute picky body (slash :: (spell (texts.map utf8) ++ bytesOf s)) m = .err x () := by
  obtain ⟨p, sub, hn, hc⟩ := captor_child hpn
  have hsn := (h.sound hp).child hf.live
  have ha := (hsn.shapely _ _ _ (.here _)).lt hs
  obtain ⟨n, hn', hseg⟩ := mem_staticTexts'.1 hs
  obtain ⟨seg, sub'⟩ := n
  subst hseg
  have hpl := hsn.plain _ _ _ (.child hn' (.here _)) _ (List.mem_cons_self ..)
  have hne : bytesOf s ≠ [] := by
    cases s with
    | nil => exact absurd rfl hpl.1
    | cons c s => simp [bytesOf]
  refine ⟨p.name, (C47_error h hp _ _ _ _).2 ⟨segs, above, caps, node, p, sub, bytesOf s, [], s, ?_,
    ⟨hn, hc, fun s' hs' => ?_, fun e => absurd e hne⟩, ?_, picky_fails _ ?_, rfl⟩⟩
  · simp only [stripSlash, if_true]
    have hsl : slash ∉ bytesOf s := by rw [← utf8_ascii ha]; exact slash_utf8 hpl.2
    have he : cut (spell (texts.map utf8) ++ bytesOf s) = texts.map utf8 ++ [bytesOf s] := by
      have : ∀ parts : List Bytes, Clear parts → cut (spell parts ++ bytesOf s) = parts ++ [bytesOf s] := by
        intro parts hcl
        induction parts with
        | nil => exact cut_single hsl
        | cons p ps ih =>
          have := ih hcl.tail
          simp only [spell, List.flatMap_cons, List.append_assoc, List.cons_append, List.nil_append] at this ⊢
          rw [cut_append_slash hcl.head, this]
      exact this _ (clear_texts ht)
    rw [he]
    exact hf.arrives _
  · rw [hs'] at htwo; simp at htwo
  · rw [← utf8_ascii ha, fromUtf8_utf8]
  · rintro rfl
    exact absurd (ha 'é' (by simp [fresh])) (by decide)

/-- **C11, configurations.** Static children have precedence over a parameter sibling, whatever `FromStr` does, exactly if
on no route that a request can follow there is a parameter with two static siblings. -/
theorem C11_config (h : Supported r body) (hp : PlainTexts r) :
    (∀ W, StaticFirst W r body) ↔ ∀ segs above node, Open r segs above node → paramNames node.routes ≠ [] →
      (staticTexts node.routes).length ≤ 1 := by
  constructor
  · intro hst segs above node ho hpn
    refine Classical.byContradiction fun hlen => ?_
    obtain ⟨caps, texts, h1, h2⟩ := ho.follows (h.sound hp) picky_lenient
    cases hss : staticTexts node.routes with
    | nil => rw [hss] at hlen; simp at hlen
    | cons s ss =>
      have hs : s ∈ staticTexts node.routes := by rw [hss]; simp
      obtain ⟨n, hn, hseg⟩ := mem_staticTexts'.1 hs
      obtain ⟨seg, sub⟩ := n
      subst hseg
      obtain ⟨x, hx⟩ := static_error h hp h1 h2 hpn hs (by omega) []
      exact not_delegated (sub_plain hp h1.live.hasRoute hn) hx (hst picky _ _ _ _ _ h1 s sub hn hpn)
  · intro hc W segs above caps parts node hf s sub hn hpn
    refine C11_delegates h hp hf hn (.inr ?_)
    have hl := hc _ _ _ hf.open hpn
    have hm : s ∈ staticTexts node.routes := mem_staticTexts'.2 ⟨_, hn, rfl⟩
    cases hst : staticTexts node.routes with
    | nil => rw [hst] at hm; simp at hm
    | cons a as =>
      rw [hst] at hl hm
      have : as = [] := List.length_eq_zero_iff.1 (by simp at hl; simpa using hl)
      subst this
      simp at hm; rw [hm]

/-! ## C12 -/

theorem sizeOf_child {r sub : Routes} {seg : PathSegment} (h : NestedRoutes.mk seg sub ∈ r.routes) :
    sizeOf sub < sizeOf r := by
  obtain ⟨rs, ns, qs⟩ := r
  have h1 := List.sizeOf_lt_of_mem (show _ ∈ ns from h)
  have h2 : sizeOf sub < sizeOf (NestedRoutes.mk seg sub) := by simp; omega
  have h3 : sizeOf ns < sizeOf (Routes.mk rs ns qs) := by simp; omega
  omega

/-- If there is a resource behind every parameter, then some resource is on an open route, unless there is none at all. -/
theorem someRes_open (r : Routes) (hu : ParamsUsed r) (hr : SomeRes r) :
    ∃ segs above node, Open r segs above node ∧ node.resources ≠ [] := by
  by_cases hp : paramNames r.routes = []
  · obtain ⟨segs, above, node, hl, hres⟩ := hr
    cases hl with
    | here => exact ⟨_, _, _, .here _, hres⟩
    | @static _ _ s sub segs query hn hl =>
      have := sizeOf_child hn
      have hu' : ParamsUsed sub := by
        obtain ⟨rs, ns, qs⟩ := r
        exact (paramsUsed_mk.1 hu).1 _ hn _ rfl
      obtain ⟨segs', above', node', h1, h2⟩ := someRes_open sub hu' ⟨_, _, _, hl, hres⟩
      exact ⟨_, _, _, .static hn (.inl hp) h1, h2⟩
    | dynamic hn _ _ =>
      have := mem_paramNames'.2 ⟨_, hn, _, rfl, rfl⟩
      rw [hp] at this; cases this
  · obtain ⟨p, sub, hn, hc⟩ := captor_child hp
    have := sizeOf_child hn
    have hu' : SomeRes sub ∧ ParamsUsed sub := by
      obtain ⟨rs, ns, qs⟩ := r
      exact (paramsUsed_mk.1 hu).2 _ hn _ rfl hc
    obtain ⟨segs', above', node', h1, h2⟩ := someRes_open sub hu'.2 hu'.1
    exact ⟨_, _, _, .dynamic hn hc h1, h2⟩
termination_by sizeOf r

theorem under_notFound {caps : Caps W} {q : List Param} {o : Outcome W} (h : o.under caps q = .notFound) : o = .notFound := by
  cases o <;> simp_all [Outcome.under]

/-- **C12, configurations.** A parameter captures every segment that is not the text of a static sibling, whatever `FromStr`
does, exactly if on no route that a request can follow there is a parameter with exactly one static sibling. -/
theorem C12_config (h : Supported r body) (hp : PlainTexts r) :
    (∀ W, ParamElse W r body) ↔ ∀ segs above node, Open r segs above node → paramNames node.routes ≠ [] →
      (staticTexts node.routes).length ≠ 1 := by
  have hall := h.conditions
  constructor
  · intro hpe segs above node ho hpn hlen
    obtain ⟨s, hss⟩ := List.length_eq_one_iff.1 hlen
    obtain ⟨caps, texts, h1, h2⟩ := ho.follows (h.sound hp) echo_lenient
    obtain ⟨p, sub, hn, hc⟩ := captor_child hpn
    have hsn := (h.sound hp).child ho.live
    have hm : s ∈ staticTexts node.routes := by rw [hss]; simp
    have ha := (hsn.shapely _ _ _ (.here _)).lt hm
    obtain ⟨n, hn', hseg⟩ := mem_staticTexts'.1 hm
    obtain ⟨seg, sub'⟩ := n
    subst hseg
    have hpl := hsn.plain _ _ _ (.child hn' (.here _)) _ (List.mem_cons_self ..)
    have hpart : utf8 (s ++ fresh) = bytesOf s ++ [195, 169] := by rw [utf8_append, utf8_ascii ha, utf8_fresh]
    obtain ⟨body', hb', h3, -⟩ := hpe echo _ _ _ _ _ h1 p sub hn hc (utf8 (s ++ fresh)) (s ++ fresh) (s ++ fresh)
      (utf8_nonempty (by simp [fresh])) (slash_utf8 (by simp [fresh, hpl.2]))
      (by
        intro s' hs'
        rw [hss, List.mem_singleton] at hs'
        subst hs'
        rw [hpart]; simp)
      (fromUtf8_utf8 _) rfl
    -- nothing is found behind the parameter
    have hnot : ∀ rest m, callMatchRoute echo body' (slash :: rest) m = .notFound := by
      intro rest m
      have he := h3 rest m
      rw [hpart] at he
      have := C12_prefix h hp h1 hss (b := 195) (by decide) (169 :: slash :: rest) m
      exact under_notFound (he.symm.trans (by simpa using this))
    -- but there is a resource
    have hu : SomeRes sub := hall.2.2.1 segs p (above ++ node.queryParameters) sub (by
      have := ho.live.trans (.dynamic hn hc (.here _))
      simpa using this)
    have hall' := hb'.conditions
    obtain ⟨segs', above', node', ho', hres⟩ := someRes_open sub hall'.2.2.1 hu
    have hps : PlainTexts sub := sub_plain hp h1.live.hasRoute hn
    obtain ⟨caps', texts', h4, h5⟩ := ho'.follows (hb'.sound hps) echo_lenient
    have := hnot (spell (texts'.map utf8)) []
    refine absurd ⟨Or.inr rfl, hres⟩ (((C47_not_found hb' hps _ _).1 this) segs' above' caps' node' [[]] ?_).1
    simp only [stripSlash, if_true]
    rw [cut_spell (clear_texts h5)]
    exact h4.arrives _
  · intro hc W segs above caps parts node hf p sub hn hcap part text v hne hsl hno hu hv
    have hs := (h.sound hp).child hf.live
    have hlen := hc _ _ _ hf.open (fun e => by have := captor_mem hcap; rw [e] at this; cases this)
    cases hss : staticTexts node.routes with
    | nil => exact C12_capture_partial h hp hf hn hcap hne hsl (by simp [hss]) hu hv
    | cons a as =>
      refine C11_dead_statics h hp hf hn hcap ?_ hne hsl hu hv
      rw [hss] at hlen ⊢
      simp at hlen ⊢
      have : as.length ≠ 0 := by simpa using hlen
      omega

/-! ## C19 -/

/-- **C19, configurations.** Mounting embeds the mounted configuration and leaves the rest as it was, whatever `FromStr`
does, exactly if the root of the base has no parameter child or no static one. -/
theorem C19_config {base sub : RouteConfig} {seg : Str} {body body' : List Stmt}
    (hb : Supported base.routes body) (hm : Supported (base.mount seg sub).routes body')
    (hp : PlainTexts (base.mount seg sub).routes) :
    (∀ W, Embeds W base seg sub body body') ↔ paramNames base.routes.routes = [] ∨ staticTexts base.routes.routes = [] := by
  constructor
  · intro he
    refine Classical.byContradiction fun hno => ?_
    rw [not_or] at hno
    have hst : staticTexts (base.mount seg sub).routes.routes = staticTexts base.routes.routes ++ [seg] := by
      simp [RouteConfig.mount, staticTexts]
    have hpn : paramNames (base.mount seg sub).routes.routes = paramNames base.routes.routes := by
      simp [RouteConfig.mount, paramNames]
    obtain ⟨x, hx⟩ := static_error hm hp (texts := []) (.here _) (by simp) (by rw [hpn]; exact hno.1) (s := seg)
      (by rw [hst]; simp) (by
        rw [hst]
        have := List.length_pos_iff.2 hno.2
        simp; omega) []
    refine not_delegated ?_ hx (he picky).1
    exact sub_plain hp (.here _) (seg := .static seg) (by simp [RouteConfig.mount])
  · exact fun hone W => C19_mount_partial hb hm hp hone

/-! ## C02 -/

theorem AsciiTexts.child (h : AsciiTexts r) {seg : PathSegment} {sub : Routes}
    (hn : NestedRoutes.mk seg sub ∈ r.routes) : AsciiTexts sub :=
  fun segs above node hr => h _ _ _ (.child hn hr)

theorem PlainTexts.child' (h : PlainTexts r) {seg : PathSegment} {sub : Routes}
    (hn : NestedRoutes.mk seg sub ∈ r.routes) : PlainTexts sub := sub_plain h (.here _) hn

theorem PlainTexts.static (h : PlainTexts r) {s : Str} (hs : s ∈ staticTexts r.routes) : s ≠ [] ∧ '/' ∉ s := by
  obtain ⟨⟨seg, sub⟩, hn, hseg⟩ := mem_staticTexts'.1 hs
  subst hseg
  exact h _ _ _ (.child hn (.here _)) _ (List.mem_cons_self ..)

/-- Every declared route can be written out. -/
theorem HasRoute.writes {node : Routes} {segs : List PathSegment} {above : List Param} (h : HasRoute r segs above node)
    (hp : PlainTexts r) (ha : AsciiTexts r) (hW : Lenient W) :
    ∃ (caps : Caps W) (texts : List Str), Writes W r segs above caps (texts.map utf8) node ∧ ∀ t ∈ texts, '/' ∉ t := by
  induction h with
  | here => exact ⟨[], [], .here _, by simp⟩
  | @child r node seg sub segs query hn _ ih =>
    obtain ⟨caps, texts, h2, h3⟩ := ih (hp.child' hn) (ha.child hn)
    cases seg with
    | static s =>
      have hm : s ∈ staticTexts r.routes := mem_staticTexts'.2 ⟨_, hn, rfl⟩
      refine ⟨caps, s :: texts, ?_, ?_⟩
      · rw [List.map_cons, utf8_ascii (ha _ _ _ (.here _) s hm)]
        exact .static hn h2
      · intro t ht
        rcases List.mem_cons.1 ht with rfl | ht
        · exact (hp.static hm).2
        · exact h3 t ht
    | dynamic p =>
      obtain ⟨v, hv⟩ := hW p.typ
      refine ⟨(p, v) :: caps, fresh :: texts, ?_, ?_⟩
      · rw [List.map_cons]
        exact .dynamic hn (by decide +kernel) (by decide +kernel)
          (fun s hs => ascii_not_prefix (hp.static hs).1 (ha _ _ _ (.here _) s hs)) (fromUtf8_utf8 _) hv h2
      · intro t ht
        rcases List.mem_cons.1 ht with rfl | ht
        · decide
        · exact h3 t ht

theorem bytesOf_inj {a b : Str} (ha : ∀ c ∈ a, c.toNat < 128) (hb : ∀ c ∈ b, c.toNat < 128) (h : bytesOf a = bytesOf b) :
    a = b := by
  rw [← utf8_ascii ha, ← utf8_ascii hb] at h
  exact utf8_inj h

theorem picky_ok {typ t : Str} {v : picky.V} (h : picky.parse typ t = .ok v) : t = fresh := by
  by_cases ht : t = fresh
  · exact ht
  · rw [picky_fails typ ht] at h; cases h

/-- If a written route is the one that arrives, it is open. -/
theorem Writes.open {node : Routes} {segs : List PathSegment} {above : List Param} {caps : Caps picky} {parts : List Bytes}
    (h : Writes picky r segs above caps parts node) (hd : DistinctSiblings r) (hp : PlainTexts r) (has : AsciiTexts r)
    {node' : Routes} {segs' : List PathSegment} {above' : List Param} {caps' : Caps picky} {tail rest : List Bytes}
    (ha : Arrives picky r segs' above' caps' (parts ++ tail) node' rest) (hl : rest.length ≤ tail.length)
    (hc : caps.map (fun pv => pv.1.name) = caps'.map fun pv => pv.1.name) : Open r segs above node := by
  induction h generalizing segs' above' caps' node' with
  | here => exact .here _
  | @static r sub node s segs above caps parts hn hw ih =>
    have hs : s ∈ staticTexts r.routes := mem_staticTexts'.2 ⟨_, hn, rfl⟩
    have hlt := has _ _ _ (.here _) s hs
    generalize hpc : bytesOf s :: parts ++ tail = pieces at ha
    cases ha with
    | here =>
      rw [← hpc] at hl
      simp at hl
      omega
    | @static _ sub' _ s' _ _ _ _ _ hn' h1 ha =>
      rw [List.cons_append] at hpc
      injection hpc with e1 e2
      subst e2
      obtain rfl := bytesOf_inj hlt (has _ _ _ (.here _) s' (mem_staticTexts'.2 ⟨_, hn', rfl⟩)) e1
      obtain ⟨_, rfl⟩ := same_child hd hn hn' rfl
      exact .static hn h1 (ih (distinct_child hd hn) (hp.child' hn) (has.child hn) ha hc)
    | @dynamic _ _ _ p _ _ _ part _ _ v text ht hu hv ha =>
      rw [List.cons_append] at hpc
      injection hpc with e1 e2
      subst e1
      rw [← utf8_ascii hlt, fromUtf8_utf8] at hu
      cases hu
      have := picky_ok hv
      exact absurd (hlt 'é' (by rw [this]; simp [fresh])) (by decide)
  | @dynamic r sub node p segs above caps parts v part text hn h1 h2 h3 h4 h5 hw ih =>
    obtain rfl := picky_ok h5
    obtain rfl := utf8_of_fromUtf8 h4
    generalize hpc : utf8 fresh :: parts ++ tail = pieces at ha
    cases ha with
    | here =>
      rw [← hpc] at hl
      simp at hl
      omega
    | @static _ sub' _ s' _ _ _ _ _ hn' _ ha =>
      rw [List.cons_append] at hpc
      injection hpc with e1 e2
      have hs' : s' ∈ staticTexts r.routes := mem_staticTexts'.2 ⟨_, hn', rfl⟩
      exact absurd (e1 ▸ List.prefix_rfl) (h3 s' hs')
    | @dynamic _ sub' _ p' _ _ _ part' _ _ v' text' ht hu hv ha =>
      rw [List.cons_append] at hpc
      injection hpc with e1 e2
      subst e2
      simp only [List.map_cons, List.cons.injEq] at hc
      obtain ⟨e, rfl⟩ := same_child hd hn ht.child hc.1
      cases e
      exact .dynamic hn ht.first (ih (distinct_child hd hn) (hp.child' hn) (has.child hn) ha hc.2)

/-- What is written out along an open route follows it. -/
theorem Open.writes_follows {node node' : Routes} {segs : List PathSegment} {above above' : List Param} {caps : Caps W}
    {parts : List Bytes} (h : Open r segs above' node') (hd : DistinctSiblings r)
    (hw : Writes W r segs above caps parts node) : Follows W r segs above caps parts node := by
  induction hw generalizing above' node' with
  | here => exact .here _
  | static hn _ ih =>
    cases h with
    | static hn' h1 h =>
      obtain ⟨_, rfl⟩ := same_child hd hn hn' rfl
      exact .static hn h1 (ih h (distinct_child hd hn))
  | dynamic hn h1 h2 h3 h4 h5 _ ih =>
    cases h with
    | dynamic hn' hc h =>
      obtain ⟨_, rfl⟩ := same_child hd hn hn' rfl
      exact .dynamic hn hc h1 h2 (fun s hs => h3 s (by rw [hs]; simp)) h4 h5 (ih h (distinct_child hd hn))

/-- **C02, configurations.** Every declared route, written out with any texts that do not begin like a static sibling, is
answered with its resource, whatever `FromStr` does, exactly if every route with resources is open. -/
theorem C02_config (h : Supported r body) (hp : PlainTexts r) (ha : AsciiTexts r) :
    (∀ W, Complete W r body) ↔
      ∀ segs above node, HasRoute r segs above node → node.resources ≠ [] → Open r segs above node := by
  have hs := h.sound hp
  constructor
  · intro hc segs above node hr hres
    obtain ⟨caps, texts, hw, ht⟩ := hr.writes hp ha picky_lenient
    obtain ⟨res, after, hres'⟩ : ∃ res after, node.resources = [] ++ res :: after := by
      cases hn : node.resources with
      | nil => exact absurd hn hres
      | cons a l => exact ⟨a, l, rfl⟩
    have hcl := clear_texts ht
    have := hc picky _ _ _ _ _ hw [] res after hres' (by simp) (slash :: spell (texts.map utf8)) (by
      simp only [stripSlash, if_true]; exact .inl rfl)
    obtain ⟨segs', above', caps', node', rest, before, res', after', h1, h2, -, -, -, -, h7⟩ := (C47_match h hp _ _ _ _).1 this
    simp only [stripSlash, if_true] at h1
    rw [cut_spell hcl] at h1
    refine hw.open hs.distinct hp ha h1 (by rcases h2 with rfl | rfl <;> simp) ?_
    have := congrArg (fun v : RouteVal picky => v.params.map Prod.fst) h7
    simpa [matchOf, Function.comp_def] using this
  · intro hc W segs above caps parts node hw before res after hres hfirst path hpath
    have ho := hc _ _ _ hw.hasRoute (by rw [hres]; simp)
    exact C02_follows h hp (ho.writes_follows hs.distinct hw) hres hfirst hpath

/-! ## C15 -/

/-- `Display` of the world `echo`. -/
def shown (t : echo.V) : Str := t

/-- Texts for the parameters of a route that follow it only if nothing is withheld from its parameters. -/
theorem HasRoute.adversary {node : Routes} {segs : List PathSegment} {above : List Param} (h : HasRoute r segs above node)
    (hp : PlainTexts r) : ∃ (caps : Caps echo) (texts : List Str), Texts shown segs caps texts ∧
      (∀ pv ∈ caps, shown pv.2 ≠ [] ∧ '/' ∉ shown pv.2) ∧
      ∀ above' node', Sound r → Follows echo r segs above' caps (texts.map utf8) node' → Wide r segs above' node' := by
  induction h with
  | here =>
    refine ⟨[], [], .nil, by simp, fun above' node' _ hf => ?_⟩
    cases hf
    exact .here _
  | @child r node seg sub segs query hn _ ih =>
    obtain ⟨caps, texts, h1, h2, h3⟩ := ih (hp.child' hn)
    cases seg with
    | static s =>
      refine ⟨caps, s :: texts, .static s h1, h2, fun above' node' hs hf => ?_⟩
      generalize hpc : (s :: texts).map utf8 = parts at hf
      cases hf with
      | static hn' hone hf =>
        rw [List.map_cons] at hpc
        injection hpc with _ e2
        subst e2
        obtain ⟨_, rfl⟩ := same_child hs.distinct hn hn' rfl
        exact .static hn hone (h3 _ _ (hs.child (.static hn (.here _))) hf)
    | dynamic p =>
      obtain ⟨t, ht1, ht2, ht3⟩ : ∃ t : Str, t ≠ [] ∧ '/' ∉ t ∧ ∀ s, staticTexts r.routes = [s] → s <+: t := by
        by_cases hl : ∃ s, staticTexts r.routes = [s]
        · obtain ⟨s, hs⟩ := hl
          refine ⟨s ++ fresh, by simp [fresh], ?_, fun s' hs' => ?_⟩
          · have := (hp.static (s := s) (by rw [hs]; simp)).2
            simp [fresh, this]
          · rw [hs] at hs'
            cases hs'
            exact List.prefix_append _ _
        · exact ⟨fresh, by decide, by decide, fun s hs => absurd ⟨s, hs⟩ hl⟩
      refine ⟨(p, t) :: caps, t :: texts, .dynamic (W := echo) (display := shown) p t h1, ?_, fun above' node' hs hf => ?_⟩
      · intro pv hpv
        rcases List.mem_cons.1 hpv with rfl | hpv
        · exact ⟨ht1, ht2⟩
        · exact h2 pv hpv
      · generalize hpc : (t :: texts).map utf8 = parts at hf
        generalize hcc : ((p, (t : echo.V)) :: caps : Caps echo) = caps0 at hf
        cases hf with
        | dynamic hn' hc g1 g2 g3 g4 g5 hf =>
          rw [List.map_cons] at hpc
          injection hpc with e1 e2
          injection hcc with _ e3
          subst e2 e3
          obtain ⟨_, rfl⟩ := same_child hs.distinct hn hn' rfl
          refine .dynamic hn hc ?_ (h3 _ _ (hs.child (.dynamic hn hc (.here _))) hf)
          intro hlen
          obtain ⟨s, hss⟩ := List.length_eq_one_iff.1 hlen
          refine g3 s hss ?_
          have hlt := (hs.shapely _ _ _ (.here _)).lt (s := s) (by rw [hss]; simp)
          obtain ⟨u, rfl⟩ := ht3 s hss
          rw [← e1, utf8_append, utf8_ascii hlt]
          exact List.prefix_append _ _

/-- Along a wide route all texts that parse back follow. -/
theorem Wide.follows {node : Routes} {segs : List PathSegment} {above : List Param} (h : Wide r segs above node)
    (hs : Sound r) {display : W.V → Str} {caps : Caps W} {texts : List Str} (ht : Texts display segs caps texts)
    (hv : ∀ pv ∈ caps, W.parse pv.1.typ (display pv.2) = .ok pv.2 ∧ display pv.2 ≠ [] ∧ '/' ∉ display pv.2) :
    Follows W r segs above caps (texts.map utf8) node := by
  induction h generalizing caps texts with
  | here => cases ht; exact .here _
  | @static r sub node s segs above hn h1 _ ih =>
    cases ht with
    | static _ ht =>
      have hlt := (hs.shapely _ _ _ (.here _)).lt (mem_staticTexts'.2 ⟨_, hn, rfl⟩)
      rw [List.map_cons, utf8_ascii hlt]
      exact .static hn h1 (ih (hs.child (.static hn (.here _))) ht hv)
  | @dynamic r sub node p segs above hn hc hlen _ ih =>
    cases ht with
    | dynamic _ v ht =>
      have hpv := hv _ (List.mem_cons_self ..)
      rw [List.map_cons]
      exact .dynamic hn hc (utf8_nonempty hpv.2.1) (slash_utf8 hpv.2.2) (fun s hs => by rw [hs] at hlen; simp at hlen)
        (fromUtf8_utf8 _) hpv.1 (ih (hs.child (.dynamic hn hc (.here _))) ht fun pv h => hv pv (by simp [h]))

/-- **C15, configurations.** `to_path` and `match_route` are inverse for all actions and values, whatever `FromStr` and
`Display` do on them, exactly if every action is declared on a route that is open and withholds no text from its
parameters, and is the first of its block for its verb. -/
theorem C15_config (h : Supported r body) (hp : PlainTexts r) (hn : NoBraces r) {root : FlattenedModule}
    (hroot : modulesRoot r = some root)
    (hnd : ∀ segs query res, Declares r segs query res → res.isRedirect = false →
      ((routeParams segs).map Param.name).Nodup) :
    (∀ (W : World) (display : W.V → Str), RoundTrip W display body root) ↔
      ∀ segs query res, Declares r segs query res → res.isRedirect = false →
        ∃ above node before after, Wide r segs above node ∧ node.resources = before ++ res :: after ∧
          ∀ o ∈ before, o.method ≠ res.method := by
  have hs := h.sound hp
  have hda := distinctActions_of hroot
  constructor
  · intro hrt segs query res hd hred
    have hd' := hd
    obtain ⟨node, above, hr, -, -⟩ := hd'
    obtain ⟨caps, texts, h1, h2, h3⟩ := hr.adversary hp
    have hact := (C24_actions hroot _ _).2 ⟨segs, query, res, hd, hred, rfl, rfl⟩
    obtain ⟨path, e1, e2⟩ := hrt echo shown _ _ hact caps texts h1 fun pv hpv => ⟨rfl, h2 pv hpv⟩
    rw [C15_to_path hn hroot hact h1 (hnd _ _ _ hd hred)] at e1
    cases e1
    obtain ⟨above', node', before, after, h4, h5, h6⟩ :=
      (C15_exact_path h hp hda hd hred h1 (fun pv hpv => h2 pv hpv)).1 e2
    exact ⟨above', node', before, after, h3 _ _ hs h4, h5, h6⟩
  · intro hw W display mods a ha caps texts ht hv
    obtain ⟨segs, query, res, hd, hred, rfl, rfl⟩ := (C24_actions hroot _ _).1 ha
    refine ⟨_, C15_to_path hn hroot ha ht (hnd _ _ _ hd hred), ?_⟩
    obtain ⟨above, node, before, after, h1, h2, h3⟩ := hw _ _ _ hd hred
    exact (C15_exact_path h hp hda hd hred ht fun pv hpv => (hv pv hpv).2).2
      ⟨above, node, before, after, h1.follows hs ht hv, h2, h3⟩

/-! ## Configurations on both sides of each condition -/

theorem Tame.open {node : Routes} {segs : List PathSegment} {above : List Param} (h : HasRoute r segs above node)
    (ht : Tame r) : Open r segs above node := by
  induction h with
  | here => exact .here _
  | @child r node seg sub segs query hn _ ih =>
    have hsub := ih fun segs q node hr => ht _ _ _ (.child hn hr)
    cases seg with
    | static s =>
      refine .static hn ?_ hsub
      have hs : s ∈ staticTexts r.routes := mem_staticTexts'.2 ⟨_, hn, rfl⟩
      by_cases hp : paramNames r.routes = []
      · exact .inl hp
      · have := (ht _ _ _ (.here _) hp).2
        match hss : staticTexts r.routes with
        | [] => rw [hss] at hs; simp at hs
        | [t] => rw [hss] at hs; simp at hs; exact .inr (by rw [hs])
        | _ :: _ :: _ => rw [hss] at this; simp at this
    | dynamic p =>
      have hm : p.name ∈ paramNames r.routes := mem_paramNames'.2 ⟨_, hn, p, rfl, rfl⟩
      refine .dynamic hn ?_ hsub
      obtain ⟨x, hx⟩ := List.length_eq_one_iff.1 (ht _ _ _ (.here _) (by intro h; rw [h] at hm; cases hm)).1
      rw [hx] at hm
      simp at hm
      exact captor_single (by rw [hx, hm])

theorem Unmixed.wide {node : Routes} {segs : List PathSegment} {above : List Param} (h : Open r segs above node)
    (hu : Unmixed r) : Wide r segs above node := by
  induction h with
  | here => exact .here _
  | static hn h1 _ ih => exact .static hn h1 (ih fun segs q node hr => hu _ _ _ (.child hn hr))
  | dynamic hn hc _ ih =>
    refine .dynamic hn hc ?_ (ih fun segs q node hr => hu _ _ _ (.child hn hr))
    have hm := captor_mem hc
    rcases hu _ _ _ (.here _) with h | h
    · rw [h] at hm; cases hm
    · rw [h]; simp

theorem asciiTexts_of (h : segsAll (fun seg => match seg with
    | .static s => s.all fun c => c.toNat < 128
    | .dynamic _ => true) r = true) : AsciiTexts r := by
  intro segs above node hr s hs
  obtain ⟨⟨seg, sub⟩, hn, hseg⟩ := mem_staticTexts'.1 hs
  have := segsAll_route (hr.append (.child hn (.here _))) h seg (by simp)
  subst hseg
  simpa using this

/-- In the people application nothing is unreachable and nothing panics; static segments precede parameters; but not every
text reaches its parameter. -/
example : (∀ W, Complete W Demo.people (bodyOf Demo.people)) ∧ (∀ W, NoPanic W (bodyOf Demo.people)) ∧
    (∀ W, StaticFirst W Demo.people (bodyOf Demo.people)) ∧ ¬ ∀ W, ParamElse W Demo.people (bodyOf Demo.people) := by
  refine ⟨(C02_config Demo.people_supported Demo.people_plain (asciiTexts_of (by decide))).2 fun _ _ _ h _ =>
      Tame.open h Demo.people_tame,
    (C09_config Demo.people_supported Demo.people_plain).2 fun _ _ _ h => noCliff_of (by decide) h.live.hasRoute,
    (C11_config Demo.people_supported Demo.people_plain).2 fun _ _ _ h hp => (Demo.people_tame _ _ _ h.live.hasRoute hp).2,
    fun h => ?_⟩
  exact (C12_config Demo.people_supported Demo.people_plain).1 h _ _ _
    (.static (r := Demo.people) (List.mem_cons_self ..) (.inl (by decide)) (.here _)) (by decide) (by decide)

/-- In `commons` the static routes are unreachable, and everything reaches the parameter. -/
example : (¬ ∀ W, Complete W Demo.commons (bodyOf Demo.commons)) ∧ (∀ W, NoPanic W (bodyOf Demo.commons)) ∧
    (¬ ∀ W, StaticFirst W Demo.commons (bodyOf Demo.commons)) ∧ ∀ W, ParamElse W Demo.commons (bodyOf Demo.commons) := by
  refine ⟨fun h => ?_,
    (C09_config Demo.commons_supported Demo.commons_plain).2 fun _ _ _ h => noCliff_of (by decide) h.live.hasRoute,
    fun h => ?_, (C12_config Demo.commons_supported Demo.commons_plain).2 fun _ _ node h hp => ?_⟩
  · have := (C02_config Demo.commons_supported Demo.commons_plain (asciiTexts_of (by decide))).1 h
      [.static c!"foobar"] _ _ (.child (r := Demo.commons) (List.mem_cons_self ..) (.here _)) (by decide)
    cases this with
    | static _ h1 _ => exact absurd h1 (by decide)
  · exact absurd ((C11_config Demo.commons_supported Demo.commons_plain).1 h _ _ _ (.here _) (by decide)) (by decide)
  · have := nodesAll_route (f := fun node => (paramNames node.routes).isEmpty || (staticTexts node.routes).length != 1)
      h.live.hasRoute (by decide)
    simpa [hp] using this

/-- A block that panics, for some `FromStr`. -/
example : ¬ ∀ W, NoPanic W (bodyOf Demo.cliff) := fun h =>
  (C09_config Demo.cliff_supported (plainTexts_of (by decide))).1 h _ _ _ (.here _) ⟨by decide, by decide, 'z', by decide⟩

theorem firsts_of (h : nodesAll (fun node => (node.resources.map Resource.method).Nodup) r = true) {node : Routes}
    {segs : List PathSegment} {q : List Param} (hr : HasRoute r segs q node) {res : Resource} (hres : res ∈ node.resources) :
    ∃ before after, node.resources = before ++ res :: after ∧ ∀ o ∈ before, o.method ≠ res.method := by
  obtain ⟨before, after, e⟩ := List.append_of_mem hres
  refine ⟨before, after, e, fun o ho hm => ?_⟩
  have := nodesAll_route hr h
  rw [e] at this
  simp only [List.map_append, List.map_cons, decide_eq_true_eq] at this
  exact (List.nodup_append.1 this).2.2 _ (List.mem_map_of_mem ho) _ (List.mem_cons_self ..) hm

/-- Where parameters have no siblings, `to_path` and `match_route` are inverse. -/
example : ∃ root, modulesRoot Demo.unmixed = some root ∧
    ∀ (W : World) (display : W.V → Str), RoundTrip W display (bodyOf Demo.unmixed) root := by
  obtain ⟨root, hroot⟩ := Option.isSome_iff_exists.1 (show (modulesRoot Demo.unmixed).isSome by decide +kernel)
  refine ⟨root, hroot, (C15_config Demo.unmixed_supported Demo.unmixed_plain (noBraces_of (by decide)) hroot ?_).2 ?_⟩
  · rintro segs query res ⟨node, above, hr, hres, -⟩ -
    have hall := Demo.unmixed_supported.conditions
    have := hall.2.1 _ _ _ (Tame.open hr (tame_of (by decide))).live _ hres
    rw [List.append_assoc, List.append_assoc, List.map_append] at this
    exact (List.nodup_append.1 this).1
  · rintro segs query res ⟨node, above, hr, hres, -⟩ -
    obtain ⟨before, after, h1, h2⟩ := firsts_of (by decide) hr hres
    exact ⟨_, node, before, after, Unmixed.wide (Tame.open hr (tame_of (by decide))) Demo.unmixed_unmixed, h1, h2⟩

/-- Where a parameter has exactly one static sibling, they are not. -/
example : ∃ root, modulesRoot Demo.people = some root ∧
    ¬ ∀ (W : World) (display : W.V → Str), RoundTrip W display (bodyOf Demo.people) root := by
  obtain ⟨root, hroot⟩ := Option.isSome_iff_exists.1 (show (modulesRoot Demo.people).isSome by decide +kernel)
  refine ⟨root, hroot, fun h => ?_⟩
  obtain ⟨above, node, before, after, h1, -⟩ :=
    (C15_config Demo.people_supported Demo.people_plain (noBraces_of (by decide)) hroot (by
      rintro segs query res ⟨node, above, hr, hres, -⟩ -
      have hall := Demo.people_supported.conditions
      have := hall.2.1 _ _ _ (Tame.open hr Demo.people_tame).live _ hres
      rw [List.append_assoc, List.append_assoc, List.map_append] at this
      exact (List.nodup_append.1 this).1)).1 h
      [.static c!"people", .dynamic ⟨c!"id", c!"u32"⟩] [⟨c!"lang", c!"String"⟩, ⟨c!"verbose", c!"bool"⟩]
      (Demo.res .get c!"people" c!"Show")
      ⟨_, _, .child (r := Demo.people) (List.mem_cons_self ..) (.child (List.mem_cons_self ..) (.here _)),
        List.mem_cons_self .., rfl⟩ rfl
  cases h1 with
  | static hn _ h1 =>
    cases h1 with
    | dynamic hn' _ hl _ =>
      rcases List.mem_cons.1 hn with h | h
      · cases h
        exact hl (by decide)
      · simp at h

/-- Mounting below the people application is safe; below the children of `commons` it is not. -/
example (sub : RouteConfig) (body' : List Stmt) (h : Supported (RouteConfig.mount ⟨[], Demo.people⟩ c!"admin" sub).routes body')
    (hp : PlainTexts (RouteConfig.mount ⟨[], Demo.people⟩ c!"admin" sub).routes) (W : World) :
    Embeds W ⟨[], Demo.people⟩ c!"admin" sub (bodyOf Demo.people) body' :=
  (C19_config (base := ⟨[], Demo.people⟩) Demo.people_supported h hp).2 (.inl (by decide)) W

example : ∃ body', Supported (RouteConfig.mount ⟨[], Demo.commons⟩ c!"foul" ⟨[], Demo.unmixed⟩).routes body' ∧
    ¬ ∀ W, Embeds W ⟨[], Demo.commons⟩ c!"foul" ⟨[], Demo.unmixed⟩ (bodyOf Demo.commons) body' := by
  have hs : Supported (RouteConfig.mount ⟨[], Demo.commons⟩ c!"foul" ⟨[], Demo.unmixed⟩).routes _ :=
    supported_of (by decide +kernel)
  refine ⟨_, hs, fun h => ?_⟩
  exact absurd ((C19_config (base := ⟨[], Demo.commons⟩) Demo.commons_supported hs (plainTexts_of (by decide))).1 h) (by decide)

end Wayfinder
