import Verif.Props.Reach
/-!
# Siblings: static segments next to parameters

C11, C12, C13.
-/

namespace Wayfinder

variable {W : World}

theorem enter_call {sub : Routes} {body' : List Stmt} (h : Supported sub body') (q : List Param)
    (caps : Caps W) (m : Bytes) :
    (∀ rest, enter W m sub q caps (slash :: rest) =
      (callMatchRoute W body' (slash :: rest) m).under caps q) ∧
    enter W m sub q caps [] = if sub.resources = [] then .notFound
      else (callMatchRoute W body' [slash] m).under caps q := by
  constructor
  · intro rest
    simp only [enter, if_true]
    rw [route_under, call_eq h]
    simp only [stripSlash, if_true]
  · simp only [enter, atEnd]
    split
    · rfl
    · rename_i hres
      rw [call_eq h]
      simp only [stripSlash, if_true]
      obtain ⟨rs, ns, qs⟩ := sub
      have hres' : rs ≠ [] := hres
      simp only [route, ne_eq, hres', not_false_eq_true, and_self, if_true]
      simpa using answer_under rs q qs caps m

/-! ## C11 -/

/-- Requests behind the segment `seg`, for which the segments `parts` are followed, are answered as the
configuration `sub` behind that segment answers them (`caps` and `query` come on top). -/
def Delegates (W : World) (body : List Stmt) (parts : List Bytes) (part : Bytes) (sub : Routes)
    (caps : Caps W) (query : List Param) : Prop :=
  ∃ body', Supported sub body' ∧
    (∀ rest m, callMatchRoute W body (slash :: (spell parts ++ part ++ slash :: rest)) m =
      (callMatchRoute W body' (slash :: rest) m).under caps query) ∧
    ∀ m, callMatchRoute W body (slash :: (spell parts ++ part)) m =
      if sub.resources = [] then .notFound
      else (callMatchRoute W body' [slash] m).under caps query

/-- The full claim of C11 for one configuration: next to a parameter, a static child handles all
requests whose next segment is its text. -/
def StaticFirst (W : World) (r : Routes) (body : List Stmt) : Prop :=
  ∀ segs above caps parts node, Follows W r segs above caps parts node →
    ∀ s sub, NestedRoutes.mk (.static s) sub ∈ node.routes → paramNames node.routes ≠ [] →
      Delegates W body parts (bytesOf s) sub caps (above ++ node.queryParameters)

/-- A static child next to a parameter handles the requests with its text, if it is the only static
child, and also without parameter siblings. -/
theorem C11_delegates {r : Routes} {body : List Stmt} (h : Supported r body) (hp : PlainTexts r)
    {segs : List PathSegment} {above : List Param} {caps : Caps W} {parts : List Bytes} {node : Routes}
    (hf : Follows W r segs above caps parts node) {s : Str} {sub : Routes}
    (hn : NestedRoutes.mk (.static s) sub ∈ node.routes)
    (hone : paramNames node.routes = [] ∨ staticTexts node.routes = [s]) :
    Delegates W body parts (bytesOf s) sub caps (above ++ node.queryParameters) := by
  obtain ⟨body', hb'⟩ := h.child (hf.live.trans (.static hn (.here _)))
  have hs := (h.sound hp).child hf.live
  obtain ⟨rs, ns, qs⟩ := node
  change _ ∈ ns at hn
  change paramNames ns = [] ∨ staticTexts ns = [s] at hone
  have hok : LocalOk ns := hs.shapely _ _ _ (.here _)
  have hm : s ∈ staticTexts ns := mem_staticTexts'.2 ⟨_, hn, rfl⟩
  have hstep := route_static (W := W) (rs := rs) (qs := qs) hok (distinctSiblings_mk.1 hs.distinct).1
    hn rfl (plainTexts_static hs.plain hm).1 hone
  refine ⟨body', hb', fun rest m => ?_, fun m => ?_⟩
  · rw [call_eq h]
    simp only [stripSlash, if_true]
    rw [List.append_assoc, follows_route hf (h.sound hp), hstep]
    exact (enter_call hb' _ _ m).1 rest
  · rw [call_eq h]
    simp only [stripSlash, if_true]
    have := hstep [] m
    rw [List.append_nil] at this
    rw [follows_route hf (h.sound hp), this]
    exact (enter_call hb' _ _ m).2

/-- **C11, partial.** The claim holds for configurations in which no parameter has two static siblings.
Missing: false otherwise, see `C11_precedence_false`. -/
theorem C11_precedence_partial {r : Routes} {body : List Stmt} (h : Supported r body)
    (hp : PlainTexts r) (ht : ∀ segs above node, HasRoute r segs above node →
      paramNames node.routes ≠ [] → (staticTexts node.routes).length ≤ 1) : StaticFirst W r body := by
  intro segs above caps parts node hf s sub hn hpn
  refine C11_delegates h hp hf hn (.inr ?_)
  have hl := ht _ _ _ hf.live.hasRoute hpn
  have hm : s ∈ staticTexts node.routes := mem_staticTexts'.2 ⟨_, hn, rfl⟩
  cases hst : staticTexts node.routes with
  | nil => rw [hst] at hm; simp at hm
  | cons a as =>
    rw [hst] at hl hm
    have : as = [] := List.length_eq_zero_iff.1 (by simp at hl; simpa using hl)
    subst this
    simp at hm; rw [hm]

/-- Exactly how C11 fails: next to a parameter, with two or more static siblings, every segment, also
one that is the text of a static sibling, goes to the parameter. -/
theorem C11_dead_statics {r : Routes} {body : List Stmt} (h : Supported r body) (hp : PlainTexts r)
    {segs : List PathSegment} {above : List Param} {caps : Caps W} {parts : List Bytes} {node : Routes}
    (hf : Follows W r segs above caps parts node) {p : Param} {sub : Routes}
    (hn : NestedRoutes.mk (.dynamic p) sub ∈ node.routes) (hcap : captor node.routes = some p.name)
    (htwo : 2 ≤ (staticTexts node.routes).length) {part : Bytes} {text : Str} {v : W.V}
    (hne : part ≠ []) (hsl : slash ∉ part) (hu : fromUtf8 part = some text)
    (hv : W.parse p.typ text = .ok v) :
    Delegates W body parts part sub (caps ++ [(p, v)]) (above ++ node.queryParameters) := by
  obtain ⟨body', hb'⟩ := h.child (hf.live.trans (.dynamic hn hcap (.here _)))
  have hs := (h.sound hp).child hf.live
  obtain ⟨rs, ns, qs⟩ := node
  change _ ∈ ns at hn
  change captor ns = some p.name at hcap
  change 2 ≤ (staticTexts ns).length at htwo
  have hok : LocalOk ns := hs.shapely _ _ _ (.here _)
  have hstep := fun rest h => route_param (W := W) (rs := rs) (qs := qs) (rest := rest)
    hok (distinctSiblings_mk.1 hs.distinct).1
    (fun s hm => (plainTexts_static hs.plain hm).2) hn rfl hcap hne hsl h
    (fun s hs => by rw [hs] at htwo; simp at htwo)
  refine ⟨body', hb', fun rest m => ?_, fun m => ?_⟩
  · rw [call_eq h]
    simp only [stripSlash, if_true]
    rw [List.append_assoc, follows_route hf (h.sound hp), hstep _ (.inr ⟨_, rfl⟩)]
    simp only [hu, hv]
    exact (enter_call hb' _ _ m).1 rest
  · rw [call_eq h]
    simp only [stripSlash, if_true]
    have := hstep [] (.inl rfl) m
    rw [List.append_nil] at this
    rw [follows_route hf (h.sound hp), this]
    simp only [hu, hv]
    exact (enter_call hb' _ _ m).2

/-- C11 is false in general: in the project's own `commons` example `/foobar` goes to `{a}`. -/
theorem C11_precedence_false : ∃ (r : Routes) (body : List Stmt), Supported r body ∧ PlainTexts r ∧
    ¬ StaticFirst Demo.world r body := by
  refine ⟨Demo.commons, _, Demo.commons_supported, Demo.commons_plain, fun hc => ?_⟩
  obtain ⟨body', hb', _, h2⟩ := hc [] [] [] [] Demo.commons (.here _) c!"foobar"
    (.mk [Demo.res .get c!"Foo" c!"Bar"] [] []) (List.mem_cons_self ..) (by decide)
  have h3 := h2 (bytesOf c!"GET")
  have hb : Demo.ask Demo.commons c!"/foobar" c!"GET" =
      .route [c!"Bar"] c!"Dyn" [(c!"a", c!"foobar")] [] := by decide +kernel
  have hleaf : Demo.shown (callMatchRoute Demo.world body' [slash] (bytesOf c!"GET")) =
      .route [c!"Foo"] c!"Bar" [] [] := by
    rw [call_eq hb']; decide +kernel
  have h4 := congrArg Demo.shown h3
  rw [show slash :: (spell [] ++ bytesOf c!"foobar") = bytesOf c!"/foobar" by decide] at h4
  rw [show Demo.shown (callMatchRoute Demo.world (bodyOf Demo.commons) (bytesOf c!"/foobar")
    (bytesOf c!"GET")) = _ from hb] at h4
  revert hleaf h4
  cases callMatchRoute Demo.world body' [slash] (bytesOf c!"GET") <;>
    simp +contextual [Demo.shown, Outcome.under]

/-- `new` next to `{id}`. -/
example : ∃ node sub, Follows Demo.world Demo.people [.static c!"people"] [⟨c!"lang", c!"String"⟩] []
    [bytesOf c!"people"] node ∧ NestedRoutes.mk (.static c!"new") sub ∈ node.routes ∧
    paramNames node.routes ≠ [] :=
  ⟨_, _, .static (r := Demo.people) (above := []) (List.mem_cons_self ..) (.inl (by decide)) (.here _),
    List.mem_cons_of_mem _ (List.mem_cons_self ..), by decide⟩

example : Demo.ask Demo.people c!"/people/new" c!"GET" =
    .route [c!"people"] c!"New" [] [c!"lang"] := by decide +kernel

/-! ## C12 -/

/-- The full claim of C12 for one configuration: next to a static child, a parameter captures every
non-empty segment other than its text (that parses). -/
def ParamElse (W : World) (r : Routes) (body : List Stmt) : Prop :=
  ∀ segs above caps parts node, Follows W r segs above caps parts node →
    ∀ p sub, NestedRoutes.mk (.dynamic p) sub ∈ node.routes → captor node.routes = some p.name →
    ∀ part text v, part ≠ [] → slash ∉ part → (∀ s ∈ staticTexts node.routes, part ≠ bytesOf s) →
      fromUtf8 part = some text → W.parse p.typ text = .ok v →
      Delegates W body parts part sub (caps ++ [(p, v)]) (above ++ node.queryParameters)

/-- **C12, partial.** The parameter captures every non-empty segment that does not *begin* with the
text of a static sibling.  Missing: segments that begin with it and go on, see `C12_prefix` and
`C12_capture_false`. -/
theorem C12_capture_partial {r : Routes} {body : List Stmt} (h : Supported r body) (hp : PlainTexts r)
    {segs : List PathSegment} {above : List Param} {caps : Caps W} {parts : List Bytes} {node : Routes}
    (hf : Follows W r segs above caps parts node) {p : Param} {sub : Routes}
    (hn : NestedRoutes.mk (.dynamic p) sub ∈ node.routes) (hcap : captor node.routes = some p.name)
    {part : Bytes} {text : Str} {v : W.V} (hne : part ≠ []) (hsl : slash ∉ part)
    (hno : ∀ s ∈ staticTexts node.routes, ¬ bytesOf s <+: part)
    (hu : fromUtf8 part = some text) (hv : W.parse p.typ text = .ok v) :
    Delegates W body parts part sub (caps ++ [(p, v)]) (above ++ node.queryParameters) := by
  obtain ⟨body', hb'⟩ := h.child (hf.live.trans (.dynamic hn hcap (.here _)))
  have hs := (h.sound hp).child hf.live
  obtain ⟨rs, ns, qs⟩ := node
  change _ ∈ ns at hn
  change captor ns = some p.name at hcap
  change ∀ s ∈ staticTexts ns, _ at hno
  have hok : LocalOk ns := hs.shapely _ _ _ (.here _)
  have hstep := fun rest h => route_param (W := W) (rs := rs) (qs := qs) (rest := rest)
    hok (distinctSiblings_mk.1 hs.distinct).1
    (fun s hm => (plainTexts_static hs.plain hm).2) hn rfl hcap hne hsl h
    (fun s hs => hno s (by simp [hs]))
  refine ⟨body', hb', fun rest m => ?_, fun m => ?_⟩
  · rw [call_eq h]
    simp only [stripSlash, if_true]
    rw [List.append_assoc, follows_route hf (h.sound hp), hstep _ (.inr ⟨_, rfl⟩)]
    simp only [hu, hv]
    exact (enter_call hb' _ _ m).1 rest
  · rw [call_eq h]
    simp only [stripSlash, if_true]
    have := hstep [] (.inl rfl) m
    rw [List.append_nil] at this
    rw [follows_route hf (h.sound hp), this]
    simp only [hu, hv]
    exact (enter_call hb' _ _ m).2

/-- Exactly how C12 fails: a segment that begins with the only static sibling and goes on is not found,
whatever the parameter would say to it. -/
theorem C12_prefix {r : Routes} {body : List Stmt} (h : Supported r body) (hp : PlainTexts r)
    {segs : List PathSegment} {above : List Param} {caps : Caps W} {parts : List Bytes} {node : Routes}
    (hf : Follows W r segs above caps parts node) {s : Str} (hone : staticTexts node.routes = [s])
    {b : UInt8} (hb : b ≠ slash) (rest m : Bytes) :
    callMatchRoute W body (slash :: (spell parts ++ bytesOf s ++ b :: rest)) m = .notFound := by
  have hs := (h.sound hp).child hf.live
  obtain ⟨rs, ns, qs⟩ := node
  change staticTexts ns = [s] at hone
  have hok : LocalOk ns := hs.shapely _ _ _ (.here _)
  have hm : s ∈ staticTexts ns := by simp [hone]
  obtain ⟨n, hn, hseg⟩ := mem_staticTexts'.1 hm
  rw [call_eq h]
  simp only [stripSlash, if_true]
  rw [List.append_assoc, follows_route hf (h.sound hp),
    route_static hok (distinctSiblings_mk.1 hs.distinct).1 hn hseg (plainTexts_static hs.plain hm).1
      (.inr hone)]
  simp only [enter, hb, if_false]

/-- C12 is false in general: with `new` next to `{id: String}`, `/newton` is not found. -/
theorem C12_capture_false : ∃ (r : Routes) (body : List Stmt), Supported r body ∧ PlainTexts r ∧
    ¬ ParamElse Demo.world r body := by
  refine ⟨Demo.cliff, _, Demo.cliff_supported, plainTexts_of (by decide), fun hc => ?_⟩
  obtain ⟨body', hb', _, h2⟩ := hc [] [] [] [] Demo.cliff (.here _) ⟨c!"x", c!"String"⟩
    (.mk [Demo.res .get c!"a" c!"X"] [] []) (List.mem_cons_self ..) (by decide) (bytesOf c!"zebra")
    c!"zebra" c!"zebra" (by decide) (by decide) (by decide) (by decide +kernel) rfl
  have h3 := h2 (bytesOf c!"GET")
  have hb : Demo.ask Demo.cliff c!"/zebra" c!"GET" = .notFound := by decide +kernel
  have hleaf : Demo.shown (callMatchRoute Demo.world body' [slash] (bytesOf c!"GET")) =
      .route [c!"a"] c!"X" [] [] := by
    rw [call_eq hb']; decide +kernel
  have h4 := congrArg Demo.shown h3
  rw [show slash :: (spell [] ++ bytesOf c!"zebra") = bytesOf c!"/zebra" by decide] at h4
  rw [show Demo.shown (callMatchRoute Demo.world (bodyOf Demo.cliff) (bytesOf c!"/zebra")
    (bytesOf c!"GET")) = _ from hb] at h4
  revert hleaf h4
  cases callMatchRoute Demo.world body' [slash] (bytesOf c!"GET") <;>
    simp +contextual [Demo.shown, Outcome.under]

example : Demo.ask Demo.people c!"/people/17" c!"GET" =
      .route [c!"people"] c!"Show" [(c!"id", c!"17")] [c!"lang", c!"verbose"] ∧
    Demo.ask Demo.people c!"/people/newton" c!"GET" = .notFound := by decide +kernel

/-! ## C13 -/

/-- The full claim of C13: distinct siblings are enough for compilable code. -/
def DistinctCompiles : Prop :=
  ∀ r, DistinctSiblings r → Hygienic r → FieldsDistinct r → ParamsUsed r → NamesOk r →
    (∀ segs above node, HasRoute r segs above node → ∀ s, PathSegment.static s ∈ segs →
      s ≠ [] ∧ ∀ c ∈ s, c.isAlphanum = true) →
    ∃ body, matcherBody r = .ok body ∧ compiles body = true

/-- **C13, partial.** Code is generated for all configurations with distinct siblings, and exactly when
it is well-formed: `Shapely` (no static text begins a sibling's; next to a parameter all static
siblings begin with the same character; without static siblings at most one parameter; ASCII texts).
It compiles exactly if moreover the fields of all structs are distinct, all parameters are used, and
parameters named like variables of the function do no harm (`NamesOk`).
Missing: distinctness alone is not enough, see `C13_compilable_false`. -/
theorem C13_compilable_partial {r : Routes} (hd : DistinctSiblings r) :
    ∃ body, matcherBody r = .ok body ∧ (blockShapeOk body = true ↔ Shapely r) ∧
      (compiles body = true ↔ Shapely r ∧ FieldsDistinct r ∧ ParamsUsed r ∧ NamesOk r) := by
  obtain ⟨body, hb⟩ := matcherBody_total hd
  exact ⟨body, hb, matcherBody_shape hb, matcherBody_compiles hb⟩

/-- Exactly how C13 fails: a static text that begins a sibling's text. -/
theorem C13_prefix_rejected {r : Routes} {body : List Stmt} (hb : matcherBody r = .ok body)
    {segs : List PathSegment} {above : List Param} {node : Routes} (hl : LiveRoute r segs above node)
    {a b : Str} (hab : List.Sublist [a, b] (staticTexts node.routes) ∨
      List.Sublist [b, a] (staticTexts node.routes))
    (hpre : a <+: b) : compiles body = false := by
  have : ¬ Shapely r := by
    intro hs
    have := (hs _ _ _ hl).prefixFree
    rcases hab with h | h
    · exact (List.pairwise_pair.1 (this.sublist h)).1 hpre
    · exact (List.pairwise_pair.1 (this.sublist h)).2 hpre
  rw [← matcherBody_shape hb] at this
  simp only [compiles, Bool.and_eq_false_iff]
  left
  simpa using this

/-- C13 is false in general: `new` and `newest` cannot be siblings. -/
theorem C13_compilable_false : ¬ DistinctCompiles := by
  intro hall
  let r : Routes := .mk [] [
    .mk (.static c!"new") (.mk [Demo.res .get c!"a" c!"New"] [] []),
    .mk (.static c!"newest") (.mk [Demo.res .get c!"a" c!"Newest"] [] [])] []
  have hd : DistinctSiblings r := (toTrie_isSome_iff r).1 (Option.isSome_iff_exists.1 (by decide +kernel))
  have hlive : ∀ {segs above node}, LiveRoute r segs above node → routeParams segs = [] := by
    intro segs above node h
    have hs := segsAll_route (f := fun s => match s with | .static _ => true | .dynamic _ => false)
      h.hasRoute (by decide)
    simp only [routeParams, List.filterMap_eq_nil_iff]
    intro s hm
    have := hs s hm
    cases s <;> simp_all
  have hf : nodesAll (fun n => n.queryParameters.isEmpty &&
      n.resources.all fun x => x.queryParameters.isEmpty) r = true := by decide
  have h1 : FieldsDistinct r := by
    intro segs above node hl res hres
    have hq : above = [] := by
      have : ∀ {r node : Routes} {segs : List PathSegment} {above : List Param},
          HasRoute r segs above node → nodesAll (fun n => n.queryParameters.isEmpty &&
            n.resources.all fun x => x.queryParameters.isEmpty) r = true → above = [] := by
        intro r node segs above h
        induction h with
        | here => intro _; rfl
        | @child r node seg sub segs q hm _ ih =>
          intro hall
          have h1 := nodesAll_route (.here r) hall
          have h2 := nodesAll_route (.child hm (.here sub)) hall
          obtain ⟨rs, ns, qs⟩ := r
          simp only [nodesAll, Bool.and_eq_true] at hall
          have h3 := ih (nodesAllL_mem hall.2 seg sub hm)
          simp only [Bool.and_eq_true, List.isEmpty_iff] at h1
          rw [h1.1, h3]; rfl
      exact this hl.hasRoute hf
    have hnode := nodesAll_route hl.hasRoute hf
    simp only [Bool.and_eq_true, List.isEmpty_iff, List.all_eq_true] at hnode
    rw [hlive hl, hq, hnode.1, hnode.2 res hres]
    simp
  have h2 : ParamsUsed r := by
    intro segs p above node hl
    have := hlive hl
    simp [routeParams] at this
  have h3 : ∀ segs above node, HasRoute r segs above node → ∀ s, PathSegment.static s ∈ segs →
      s ≠ [] ∧ ∀ c ∈ s, c.isAlphanum = true := by
    intro segs above node h s hs
    have := segsAll_route (f := fun s => match s with
      | .static s => !s.isEmpty && s.all Char.isAlphanum | .dynamic _ => false) h (by decide) _ hs
    simpa using this
  have h4 : NamesOk r := (names_of_fresh fun segs p above node hl => by
    have := hlive hl
    simp [routeParams] at this).1
  obtain ⟨body, hb, hc⟩ := hall r hd (hygienic_of (by decide)) h1 h2 h4 h3
  have := C13_prefix_rejected hb (.here r) (a := c!"new") (b := c!"newest")
    (.inl (List.Sublist.refl _)) (by decide)
  rw [this] at hc; cases hc

example : DistinctSiblings Demo.people ∧ Shapely Demo.people ∧ FieldsDistinct Demo.people ∧
    ParamsUsed Demo.people ∧ NamesOk Demo.people :=
  ⟨Demo.people_supported.distinct, Demo.people_supported.conditions⟩

end Wayfinder
