import Verif.Proofs.Reach
import Verif.Props.Routing
/-!
# Reachability: which requests are answered

C02, C04, C06, C08 (converse), C09.
-/

namespace Wayfinder

/-- The value of a match: modules, name, captured values and query parameters. -/
def matchOf {W : World} (res : Resource) (caps : Caps W) (query : List Param) : RouteVal W :=
  { modules := res.modules, name := res.name,
    params := caps.map fun pv => (pv.1.name, .user pv.2),
    nones := (query ++ res.queryParameters).map Param.name }

theorem verbBytes_inj {a b : Method} (h : verbBytes a = verbBytes b) : a = b := by
  cases a <;> cases b <;> simp [verbBytes] at h <;> rfl

theorem answer_first {W : World} {rs before after : List Resource} {res : Resource}
    (hres : rs = before ++ res :: after) (hfirst : ∀ o ∈ before, o.method ≠ res.method)
    (q : List Param) (caps : Caps W) :
    (answer rs q caps (verbBytes res.method)).isMatch res.isRedirect (matchOf res caps q) := by
  have hf : rs.find? (fun r => r.method.bytes = verbBytes res.method) = some res := by
    rw [List.find?_eq_some_iff_append]
    refine ⟨by simp [verbBytes_eq], before, after, hres, ?_⟩
    intro o ho
    have : o.method.bytes ≠ verbBytes res.method := fun h => hfirst o ho (verbBytes_inj (by
      rw [verbBytes_eq o.method, h]))
    simp [this]
  simp only [answer, hf, Outcome.isMatch, matchOf, List.map_append]

/-! ## C02 -/

/-- The full claim of C02 for one configuration: every declared resource is reached by its route
written out (the first one declared for its verb on that route). -/
def Complete (W : World) (r : Routes) (body : List Stmt) : Prop :=
  ∀ segs above caps parts node, Writes W r segs above caps parts node →
    ∀ before res after, node.resources = before ++ res :: after →
    (∀ o ∈ before, o.method ≠ res.method) →
    ∀ path, Spells parts (stripSlash path) →
      (callMatchRoute W body path (verbBytes res.method)).isMatch res.isRedirect
        (matchOf res caps (above ++ node.queryParameters))

/-- **C02, partial.** The claim holds if no parameter has a parameter sibling or several static
siblings.  Missing: it is false without that condition, see `C02_completeness_false`. -/
theorem C02_completeness_partial {W : World} {r : Routes} {body : List Stmt} (h : Supported r body)
    (hp : PlainTexts r) (ht : Tame r) : Complete W r body := by
  intro segs above caps parts node hw before res after hres hfirst path hpath
  rw [call_eq h, follows_answer (hw.follows ht) (h.sound hp) (by rw [hres]; simp) hpath]
  simpa using answer_first hres hfirst _ caps

/-- The same for a single route of an arbitrary supported configuration: it is reached if no step is
taken over by a sibling. -/
theorem C02_follows {W : World} {r : Routes} {body : List Stmt} (h : Supported r body)
    (hp : PlainTexts r) {segs : List PathSegment} {above : List Param} {caps : Caps W}
    {parts : List Bytes} {node : Routes} (hf : Follows W r segs above caps parts node)
    {before after : List Resource} {res : Resource} (hres : node.resources = before ++ res :: after)
    (hfirst : ∀ o ∈ before, o.method ≠ res.method) {path : Bytes}
    (hpath : Spells parts (stripSlash path)) :
    (callMatchRoute W body path (verbBytes res.method)).isMatch res.isRedirect
      (matchOf res caps (above ++ node.queryParameters)) := by
  rw [call_eq h, follows_answer hf (h.sound hp) (by rw [hres]; simp) hpath]
  simpa using answer_first hres hfirst _ caps

/-- C02 is false in general: in the project's own `commons` example the route `/foobar` is not
reachable. -/
theorem C02_completeness_false : ∃ (r : Routes) (body : List Stmt), Supported r body ∧ PlainTexts r ∧
    ¬ Complete Demo.world r body := by
  refine ⟨Demo.commons, _, Demo.commons_supported, Demo.commons_plain, fun hc => ?_⟩
  have := hc _ _ [] [bytesOf c!"foobar"] _
    (.static (r := Demo.commons) (s := c!"foobar") (List.mem_cons_self ..) (.here _))
    [] (Demo.res .get c!"Foo" c!"Bar") [] rfl (by simp) (bytesOf c!"/foobar")
    (.inr (by decide))
  have hb : Demo.ask Demo.commons c!"/foobar" c!"GET" =
      .route [c!"Bar"] c!"Dyn" [(c!"a", c!"foobar")] [] := by decide +kernel
  simp only [Outcome.isMatch, Demo.res, matchOf] at this
  have h2 := congrArg Demo.shown this
  rw [show Demo.shown (callMatchRoute Demo.world (bodyOf Demo.commons) (bytesOf c!"/foobar")
    (verbBytes .get)) = _ from hb] at h2
  simp [Demo.shown] at h2

/-- A written route of a tame configuration. -/
example : Supported Demo.people (bodyOf Demo.people) ∧ PlainTexts Demo.people ∧ Tame Demo.people ∧
    ∃ node, Writes Demo.world Demo.people [.static c!"people", .dynamic ⟨c!"id", c!"u32"⟩,
      .static c!"edit"] [⟨c!"lang", c!"String"⟩, ⟨c!"verbose", c!"bool"⟩]
      [(⟨c!"id", c!"u32"⟩, c!"17")] [bytesOf c!"people", bytesOf c!"17", bytesOf c!"edit"] node := by
  refine ⟨Demo.people_supported, Demo.people_plain, Demo.people_tame,
    .mk [⟨.get, [c!"people"], c!"Edit", false, [⟨c!"tab", c!"String"⟩]⟩] [] [], ?_⟩
  refine .static (r := Demo.people) (above := [⟨c!"verbose", c!"bool"⟩]) (List.mem_cons_self ..) ?_
  refine .dynamic (r := .mk _ _ _) (above := [⟨c!"verbose", c!"bool"⟩]) (text := c!"17") (List.mem_cons_self ..)
    (by decide) (by decide) (by decide) (by decide +kernel) rfl ?_
  exact .static (r := .mk _ _ _) (above := []) (List.mem_cons_self ..) (.here _)

/-! ## C04 -/

/-- The full first clause of C04 for one configuration: `NotFound` is not returned for a declared
route without parameters. -/
def StaticFound (W : World) (r : Routes) (body : List Stmt) : Prop :=
  ∀ path m, callMatchRoute W body path m = .notFound →
    ¬ ∃ segs above node parts, HasRoute r segs above node ∧ node.resources ≠ [] ∧
      routeParams segs = [] ∧ Fits W segs [] parts ∧ Spells parts (stripSlash path)

theorem writes_static {W : World} {r node : Routes} {segs : List PathSegment} {above : List Param}
    (h : HasRoute r segs above node) : ∀ {caps : Caps W} {parts : List Bytes}, Fits W segs caps parts →
    routeParams segs = [] → Writes W r segs above [] parts node := by
  induction h with
  | here => intro caps parts hf _; cases hf; exact .here _
  | @child r node seg sub segs q hn _ ih =>
    intro caps parts hf hr
    cases hf with
    | static s hf' => exact .static hn (ih hf' (by simpa [routeParams] using hr))
    | dynamic _ _ _ _ => simp [routeParams] at hr

/-- **C04, partial (first clause).** If no parameter has a parameter sibling or several static
siblings, `NotFound` is never returned for a route with resources written out; in particular not for
one without parameters.  Missing: false without the condition, see `C04_static_false`. -/
theorem C04_static_partial {W : World} {r : Routes} {body : List Stmt} (h : Supported r body)
    (hp : PlainTexts r) (ht : Tame r) :
    (∀ path m, callMatchRoute W body path m = .notFound →
      ¬ ∃ segs above caps parts node, Writes W r segs above caps parts node ∧ node.resources ≠ [] ∧
        Spells parts (stripSlash path)) ∧
    StaticFound W r body := by
  have h1 : ∀ path m, callMatchRoute W body path m = .notFound →
      ¬ ∃ segs above caps parts node, Writes W r segs above caps parts node ∧ node.resources ≠ [] ∧
        Spells parts (stripSlash path) := by
    rintro path m hn ⟨segs, above, caps, parts, node, hw, hres, hsp⟩
    rw [call_eq h, follows_answer (hw.follows ht) (h.sound hp) hres hsp] at hn
    have := answer_answered node.resources ([] ++ above ++ node.queryParameters) ([] ++ caps) m
    rw [hn] at this; cases this
  refine ⟨h1, ?_⟩
  rintro path m hn ⟨segs, above, node, parts, hr, hres, hs, hf, hsp⟩
  exact h1 path m hn ⟨segs, above, [], parts, node, writes_static hr hf hs, hres, hsp⟩

/-- The first clause of C04 is false in general. -/
theorem C04_static_false : ∃ (r : Routes) (body : List Stmt), Supported r body ∧ PlainTexts r ∧
    ¬ StaticFound Demo.world r body := by
  refine ⟨Demo.buried, _, Demo.buried_supported, Demo.buried_plain, fun hc => ?_⟩
  refine hc (bytesOf c!"/foo") (bytesOf c!"GET") ?_ ⟨[.static c!"foo"], _, _, [bytesOf c!"foo"],
    .child (r := Demo.buried) (List.mem_cons_self ..) (.here _), by simp, rfl, .static _ .nil, .inr (by decide)⟩
  have : Demo.ask Demo.buried c!"/foo" c!"GET" = .notFound := by decide +kernel
  unfold Demo.ask at this
  revert this
  cases callMatchRoute Demo.world (bodyOf Demo.buried) (bytesOf c!"/foo") (bytesOf c!"GET") <;>
    simp [Demo.shown]

/-- **C04 (second clause), exact.** On configurations without a parameter next to a static sibling, a
match or `NotAllowed` is returned exactly for the instances of declared routes with resources. -/
theorem C04_unmixed {W : World} {r : Routes} {body : List Stmt} (h : Supported r body)
    (hp : PlainTexts r) (hu : Unmixed r) (path m : Bytes) :
    (callMatchRoute W body path m).answered = true ↔ IsInstance W r (stripSlash path) := by
  rw [call_eq h]
  have hs := h.sound hp
  constructor
  · intro ha
    rcases route_classified W r [] [] (stripSlash path) with hc | hc | hc | hc
    · obtain ⟨segs, above, node, caps, parts, h1, h2, h3, h4, h5⟩ := hc
      exact ⟨segs, above, node, caps, parts, h1.hasRoute, h2, h3, h4⟩
    · rw [show route W m r [] [] (stripSlash path) = _ from hc m] at ha; cases ha
    · obtain ⟨_, _, _, _, _, _, _, _, _, _, _, _, _, _, h6⟩ := hc
      rw [show route W m r [] [] (stripSlash path) = _ from h6 m] at ha; cases ha
    · rw [show route W m r [] [] (stripSlash path) = _ from hc.1 m] at ha; cases ha
  · rintro ⟨segs, above, node, caps, parts, hr, hres, hf, hsp⟩
    exact instance_answered hr hs (fun s q n hn => hs.shapely _ _ n (hu.live hs.shapely hn)) hu hres hf
      hsp _ _

/-- **C04 (second clause).** There, `NotFound` means that the path is no instance. -/
theorem C04_unmixed_not_found {W : World} {r : Routes} {body : List Stmt} (h : Supported r body)
    (hp : PlainTexts r) (hu : Unmixed r) (path m : Bytes)
    (hn : callMatchRoute W body path m = .notFound) : ¬ IsInstance W r (stripSlash path) := by
  rw [← C04_unmixed h hp hu path m, hn]; simp [Outcome.answered]

/-- Conversely, a path that is no instance of any declared route with resources is never answered with
a match or `NotAllowed`, in any supported configuration. -/
theorem C04_no_instance {W : World} {r : Routes} {body : List Stmt} (h : Supported r body)
    (path m : Bytes) (hn : ¬ IsInstance W r (stripSlash path)) :
    (callMatchRoute W body path m).answered = false := by
  rw [call_eq h]
  rcases route_classified W r [] [] (stripSlash path) with hc | hc | hc | hc
  · obtain ⟨segs, above, node, caps, parts, h1, h2, h3, h4, h5⟩ := hc
    exact absurd ⟨segs, above, node, caps, parts, h1.hasRoute, h2, h3, h4⟩ hn
  · rw [show route W m r [] [] (stripSlash path) = _ from hc m]; rfl
  · obtain ⟨_, _, _, _, _, _, _, _, _, _, _, _, _, _, h6⟩ := hc
    rw [show route W m r [] [] (stripSlash path) = _ from h6 m]; rfl
  · rw [show route W m r [] [] (stripSlash path) = _ from hc.1 m]; rfl

example : Supported Demo.unmixed (bodyOf Demo.unmixed) ∧ PlainTexts Demo.unmixed ∧
    Unmixed Demo.unmixed ∧ Demo.ask Demo.unmixed c!"/users/5/posts" c!"GET" = .notFound ∧
    Demo.ask Demo.unmixed c!"/users/5/posts/7" c!"GET" =
      .route [c!"a"] c!"Post" [(c!"id", c!"5"), (c!"post", c!"7")] [] :=
  ⟨Demo.unmixed_supported, Demo.unmixed_plain, Demo.unmixed_unmixed, by decide +kernel, by decide +kernel⟩

/-! ## C06 -/

/-- **C06.** A trailing slash makes no difference unless nothing is found without it: the result for
`p/` is the result for `p`, whatever that is (match, `NotAllowed`, error or panic). -/
theorem C06_trailing_slash {W : World} {r : Routes} {body : List Stmt} (h : Supported r body)
    (hp : PlainTexts r) (path m : Bytes) (hne : path ≠ []) (hlast : path.getLast? ≠ some slash)
    (hf : callMatchRoute W body path m ≠ .notFound) :
    callMatchRoute W body (path ++ [slash]) m = callMatchRoute W body path m := by
  rw [call_eq h] at hf ⊢
  rw [call_eq h]
  obtain ⟨b, bs, rfl⟩ := List.exists_cons_of_ne_nil hne
  have hst : stripSlash (b :: bs) ≠ [] ∧ (stripSlash (b :: bs)).getLast? ≠ some slash ∧
      stripSlash (b :: bs ++ [slash]) = stripSlash (b :: bs) ++ [slash] := by
    by_cases hb : b = slash
    · have hbs : bs ≠ [] := by rintro rfl; exact hlast (by simp [hb])
      simp only [stripSlash, hb, if_true, List.cons_append]
      exact ⟨hbs, by rw [List.getLast?_cons_of_ne_nil hbs] at hlast; exact hlast, trivial⟩
    · simp only [stripSlash, hb, if_false, List.cons_append]
      exact ⟨by simp, hlast, trivial⟩
  rw [hst.2.2]
  exact route_trailing r (h.sound hp) _ hst.1 hst.2.1 _ _ hf

/-- The condition that something is found cannot be dropped: below, `/users` has no resource, so it is
not found, while `/users/` gives the parameter an empty text. -/
example : Demo.ask Demo.unmixed c!"/users" c!"GET" = .notFound ∧
    Demo.ask Demo.unmixed c!"/users/" c!"GET" = .err c!"id" c!"invalid digit" := by decide +kernel

example : Demo.ask Demo.people c!"/people/17" c!"GET" = Demo.ask Demo.people c!"/people/17/" c!"GET" ∧
    Demo.ask Demo.people c!"/people/17" c!"GET" ≠ .notFound := by decide +kernel

/-- Static texts with slashes, which only the API can make. -/
def Demo.slashed : Routes :=
  .mk [] [.mk (.static c!"a/") (.mk [Demo.res .get c!"x" c!"List"] [] []),
    .mk (.dynamic ⟨c!"id", c!"String"⟩) (.mk [Demo.res .get c!"x" c!"Show"] [] [])] []

/-- C06 needs texts without slashes: `/a` is a parameter, and `/a/` the static text `a/`. -/
theorem C06_slash_false : ∃ (r : Routes) (body : List Stmt) (path m : Bytes), Supported r body ∧ path ≠ [] ∧
    path.getLast? ≠ some slash ∧ callMatchRoute Demo.world body path m ≠ .notFound ∧
    callMatchRoute Demo.world body (path ++ [slash]) m ≠ callMatchRoute Demo.world body path m := by
  refine ⟨Demo.slashed, bodyOf Demo.slashed, bytesOf c!"/a", bytesOf c!"GET", supported_of (by decide +kernel), by decide, by decide,
    fun h => ?_, fun h => ?_⟩
  · have h1 : Demo.ask Demo.slashed c!"/a" c!"GET" = .route [c!"x"] c!"Show" [(c!"id", c!"a")] [] := by decide +kernel
    rw [Demo.ask, h] at h1
    cases h1
  · have h1 : Demo.ask Demo.slashed c!"/a" c!"GET" = .route [c!"x"] c!"Show" [(c!"id", c!"a")] [] := by decide +kernel
    have h2 : Demo.ask Demo.slashed c!"/a/" c!"GET" = .route [c!"x"] c!"List" [] [] := by decide +kernel
    have h3 : Demo.ask Demo.slashed c!"/a/" c!"GET" = Demo.ask Demo.slashed c!"/a" c!"GET" := congrArg Demo.shown h
    rw [h1, h2] at h3
    cases h3

/-! ## C08, the other direction -/

/-- **C08.** Where a route is followed up to a parameter whose text does not parse, the error is
reported, whatever comes behind. -/
theorem C08_reported {W : World} {r : Routes} {body : List Stmt} (h : Supported r body)
    (hp : PlainTexts r) {segs : List PathSegment} {above : List Param} {caps : Caps W}
    {parts : List Bytes} {node sub : Routes} (hf : Follows W r segs above caps parts node) {p : Param}
    (hn : NestedRoutes.mk (.dynamic p) sub ∈ node.routes) (hcap : captor node.routes = some p.name)
    {part rest : Bytes} {text : Str} {e : W.E} (hne : part ≠ []) (hsl : slash ∉ part)
    (hno : ∀ s, staticTexts node.routes = [s] → ¬ bytesOf s <+: part)
    (hrest : rest = [] ∨ ∃ more, rest = slash :: more)
    (hu : fromUtf8 part = some text) (he : W.parse p.typ text = .error e) (m : Bytes) :
    callMatchRoute W body (slash :: (spell parts ++ part ++ rest)) m = .err p.name e := by
  rw [call_eq h]
  simp only [stripSlash, if_true]
  rw [List.append_assoc, follows_route hf (h.sound hp)]
  have hs := (h.sound hp).child hf.live
  obtain ⟨rs, ns, qs⟩ := node
  change _ ∈ ns at hn
  change captor ns = some p.name at hcap
  have hok : LocalOk ns := hs.shapely _ _ _ (.here _)
  rw [route_param hok (distinctSiblings_mk.1 hs.distinct).1
    (fun s hm => (plainTexts_static hs.plain hm).2) hn rfl hcap hne hsl hrest hno]
  simp only [hu, he]

example : Demo.ask Demo.people c!"/people/x7/no/such/route" c!"GET" = .err c!"id" c!"invalid digit" := by
  decide +kernel

/-! ## C09 -/

theorem goesOn_utf8 {parts : List Bytes} {part bs : Bytes} {s : Str} (h : GoesOn parts part bs)
    (hb : bs = utf8 s) : ∃ t, part = utf8 t := by
  obtain ⟨_, rest, rfl, hrest⟩ := h
  have h1 : ∃ t, part ++ rest = utf8 t := by
    rcases List.eq_nil_or_concat parts with rfl | ⟨init, last, rfl⟩
    · exact ⟨s, by simpa using hb⟩
    · have : utf8 s = (spell init ++ last) ++ asciiByte '/' :: (part ++ rest) := by
        rw [← hb]; simp [spell_append]
      obtain ⟨_, s2, _, _, h2⟩ := utf8_split (by decide) this
      exact ⟨s2, h2⟩
  obtain ⟨t, ht⟩ := h1
  rcases hrest with rfl | ⟨more, rfl⟩
  · exact ⟨t, by simpa using ht⟩
  · obtain ⟨s1, _, _, h2, _⟩ := utf8_split (by decide) ht.symm
    exact ⟨s1, h2⟩

theorem stripSlash_utf8 (s : Str) : ∃ t, stripSlash (utf8 s) = utf8 t := by
  cases hs : utf8 s with
  | nil => exact ⟨[], rfl⟩
  | cons b bs =>
    simp only [stripSlash]
    split
    · rename_i hb
      obtain ⟨_, s2, _, _, h2⟩ := utf8_split (s := s) (a := []) (b := bs) (d := '/') (by decide)
        (by rw [hs, hb]; rfl)
      exact ⟨s2, h2⟩
    · exact ⟨s, hs.symm⟩

/-- The full claim of C09 for one configuration: no panic on valid UTF-8. -/
def NoPanic (W : World) (body : List Stmt) : Prop :=
  ∀ (path : Str) (m : Bytes), callMatchRoute W body (utf8 path) m ≠ .panic

/-- **C09, partial.** No request with a valid UTF-8 path panics, if no block of the configuration is
without resources and has a parameter child next to a single static child of one character.
Missing: false without that condition, see `C09_no_panic_false`. -/
theorem C09_no_panic_partial {W : World} {r : Routes} {body : List Stmt} (h : Supported r body)
    (hc : ∀ segs above node, HasRoute r segs above node → ¬ Cliff node) : NoPanic W body := by
  intro path m hp
  rw [call_eq h] at hp
  obtain ⟨t, ht⟩ := stripSlash_utf8 path
  rcases route_classified W r [] [] (stripSlash (utf8 path)) with hk | hk | hk | hk
  · obtain ⟨segs, above, node, caps, parts, h1, h2, h3, h4, h5⟩ := hk
    rw [h5] at hp
    have := answer_answered node.resources ([] ++ above ++ node.queryParameters) ([] ++ caps) m
    rw [hp] at this; cases this
  · rw [show route W m r [] [] (stripSlash (utf8 path)) = _ from hk m] at hp; cases hp
  · obtain ⟨_, _, _, _, _, _, _, _, _, _, _, _, _, _, h6⟩ := hk
    rw [show route W m r [] [] (stripSlash (utf8 path)) = _ from h6 m] at hp; cases hp
  · rcases hk.2 with hb | hb
    · obtain ⟨segs, p, above, node, caps', parts, part, h1, h2, h3, h4⟩ := hb
      obtain ⟨u, hu⟩ := goesOn_utf8 h3 ht
      rw [hu, fromUtf8_utf8] at h4; cases h4
    · obtain ⟨segs, above, node, caps', parts, c, h1, h2, h3, h4, h5, h6⟩ := hb
      exact hc segs above node h1.hasRoute ⟨h4, h5, c, h6⟩

/-- A panic has one of two causes: a captured text that is not UTF-8, or a path ending at a block of
the kind excluded above. -/
theorem C09_causes {W : World} {r : Routes} {body : List Stmt} (h : Supported r body) (path m : Bytes)
    (hp : callMatchRoute W body path m = .panic) :
    (∃ segs p above node caps parts part, HasRoute r (segs ++ [.dynamic p]) above node ∧
      Fits W segs caps parts ∧ GoesOn parts part (stripSlash path) ∧ ∀ t, part ≠ utf8 t) ∨
    ∃ segs above node caps parts, HasRoute r segs above node ∧ Cliff node ∧ Fits W segs caps parts ∧
      stripSlash path = spell parts := by
  rw [call_eq h] at hp
  rcases route_classified W r [] [] (stripSlash path) with hk | hk | hk | hk
  · obtain ⟨segs, above, node, caps, parts, h1, h2, h3, h4, h5⟩ := hk
    rw [h5] at hp
    have := answer_answered node.resources ([] ++ above ++ node.queryParameters) ([] ++ caps) m
    rw [hp] at this; cases this
  · rw [show route W m r [] [] (stripSlash path) = _ from hk m] at hp; cases hp
  · obtain ⟨_, _, _, _, _, _, _, _, _, _, _, _, _, _, h6⟩ := hk
    rw [show route W m r [] [] (stripSlash path) = _ from h6 m] at hp; cases hp
  · rcases hk.2 with hb | hb
    · obtain ⟨segs, p, above, node, caps', parts, part, h1, h2, h3, h4⟩ := hb
      left
      refine ⟨segs, p, above, node, caps', parts, part, h1.hasRoute, h2, h3, fun t ht => ?_⟩
      rw [ht, fromUtf8_utf8] at h4; cases h4
    · obtain ⟨segs, above, node, caps', parts, c, h1, h2, h3, h4, h5, h6⟩ := hb
      exact .inr ⟨segs, above, node, caps', parts, h1.hasRoute, ⟨h4, h5, c, h6⟩, h2, h3⟩

/-- C09 is false in general: the request `GET /` panics. -/
theorem C09_no_panic_false : ∃ (r : Routes) (body : List Stmt), Supported r body ∧ PlainTexts r ∧
    ¬ NoPanic Demo.world body := by
  refine ⟨Demo.cliff, _, Demo.cliff_supported, plainTexts_of (by decide), fun hc => ?_⟩
  refine hc c!"/" (bytesOf c!"GET") ?_
  have : Demo.ask Demo.cliff c!"/" c!"GET" = .panic := by decide +kernel
  unfold Demo.ask at this
  rw [utf8_ascii (by decide)]
  revert this
  cases callMatchRoute Demo.world (bodyOf Demo.cliff) (bytesOf c!"/") (bytesOf c!"GET") <;>
    simp [Demo.shown]

example : Supported Demo.people (bodyOf Demo.people) ∧
    ∀ segs above node, HasRoute Demo.people segs above node → ¬ Cliff node :=
  ⟨Demo.people_supported, fun _ _ _ h => noCliff_of (r := Demo.people) (by decide) h⟩

end Wayfinder
