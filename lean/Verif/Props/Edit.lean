import Verif.Spec.Edit
import Verif.Props.Exact
import Verif.Props.Config
/-!
# C58: edits of a configuration have local effects
-/

namespace Wayfinder

variable {W : World}

theorem Edited.symm {r r' old new : Routes} {segs : List PathSegment} (h : Edited r segs old new r') : Edited r' segs new old r := by
  induction h with
  | here => exact .here _ _
  | child _ ih => exact .child ih

/-- Equal but for the blocks of the children. -/
structure Alike (r r' : Routes) : Prop where
  resources : r'.resources = r.resources
  queries : r'.queryParameters = r.queryParameters
  segments : r'.routes.map NestedRoutes.pathSegment = r.routes.map NestedRoutes.pathSegment

theorem staticTexts_segments (ns : List NestedRoutes) : staticTexts ns =
    (ns.map NestedRoutes.pathSegment).filterMap fun s => match s with | .static s => some s | .dynamic _ => none := by
  rw [staticTexts, List.filterMap_map]
  exact List.filterMap_congr fun n _ => by cases h : n.pathSegment <;> simp [h]

theorem paramNames_segments (ns : List NestedRoutes) : paramNames ns =
    (ns.map NestedRoutes.pathSegment).filterMap fun s => match s with | .static _ => none | .dynamic p => some p.name := by
  rw [paramNames, List.filterMap_map]
  exact List.filterMap_congr fun n _ => by cases h : n.pathSegment <;> simp [h]

theorem Alike.statics {r r' : Routes} (h : Alike r r') : staticTexts r'.routes = staticTexts r.routes := by
  rw [staticTexts_segments, staticTexts_segments, h.segments]

theorem Alike.params {r r' : Routes} (h : Alike r r') : paramNames r'.routes = paramNames r.routes := by
  rw [paramNames_segments, paramNames_segments, h.segments]

theorem Alike.refl (r : Routes) : Alike r r := ⟨rfl, rfl, rfl⟩

theorem Alike.takes {r r' sub : Routes} (h : Alike r r') {p : Param} {part : Bytes} {more : List Bytes}
    (ht : Takes r p sub part more) : ∃ sub', Takes r' p sub' part more := by
  have hm : PathSegment.dynamic p ∈ r'.routes.map NestedRoutes.pathSegment := by
    rw [h.segments]; exact List.mem_map.2 ⟨_, ht.child, rfl⟩
  obtain ⟨⟨seg, sub'⟩, hn, hs⟩ := List.mem_map.1 hm
  change seg = _ at hs
  subst hs
  refine ⟨sub', hn, ?_, ?_, ?_⟩
  · rw [captor, h.params]; exact ht.first
  · rw [h.statics]; exact ht.free
  · rw [h.statics, h.resources]; exact ht.goes

theorem Alike.cliff {r r' : Routes} (h : Alike r r') (hc : Cliff r) : Cliff r' := by
  unfold Cliff
  rw [h.resources, h.params, h.statics]
  exact hc

theorem alike_child (sub sub' : Routes) (rs : List Resource) (before after : List NestedRoutes) (qs : List Param) (seg : PathSegment) :
    Alike (.mk rs (before ++ .mk seg sub :: after) qs) (.mk rs (before ++ .mk seg sub' :: after) qs) :=
  ⟨rfl, rfl, by simp [NestedRoutes.pathSegment]⟩

/-- What arrives at the old block arrives at the new one. -/
theorem Edited.arrives {r r' old new : Routes} {segs : List PathSegment} (h : Edited r segs old new r') (hs : Sound r)
    {above : List Param} {caps : Caps W} {pieces rest : List Bytes} {node : Routes}
    (ha : Arrives W r segs above caps pieces node rest) : node = old ∧ Arrives W r' segs above caps pieces new rest := by
  induction h generalizing above caps pieces with
  | here old new => cases ha; exact ⟨rfl, .here _ _⟩
  | @child rs before after qs seg sub sub' old new segs he ih =>
    have hal : Alike (.mk rs (before ++ .mk seg sub :: after) qs) (.mk rs (before ++ .mk seg sub' :: after) qs) :=
      alike_child ..
    have hmem : NestedRoutes.mk seg sub ∈ before ++ .mk seg sub :: after := by simp
    have hmem' : NestedRoutes.mk seg sub' ∈ before ++ .mk seg sub' :: after := by simp
    cases ha with
    | static hn hpre ha =>
      have := static_unique (hs.shapely _ _ _ (.here _)) (hs.distinct _ _ _ (.here _)) hn hmem rfl rfl
        (List.prefix_refl _) (List.prefix_refl _)
      cases this
      obtain ⟨rfl, ha⟩ := ih (hs.child (.static hn (.here _))) ha
      refine ⟨rfl, ?_⟩
      exact .static (r := .mk rs (before ++ .mk _ sub' :: after) qs) hmem' (by rw [hal.params, hal.statics]; exact hpre) ha
    | dynamic ht hu hv ha =>
      have := dynamic_unique (hs.distinct _ _ _ (.here _)) ht.child hmem rfl rfl rfl
      cases this
      obtain ⟨rfl, ha⟩ := ih (hs.child (.dynamic ht.child ht.first (.here _))) ha
      refine ⟨rfl, ?_⟩
      obtain ⟨sub1, ht'⟩ := hal.takes ht
      refine .dynamic (r := .mk rs (before ++ .mk _ sub' :: after) qs) (sub := sub') ⟨hmem', ht'.first, ht'.free, ht'.goes⟩ hu hv ha

/-- What does not come by the old block goes where it went. -/
theorem Edited.transport {r r' old new : Routes} {segs : List PathSegment} (h : Edited r segs old new r')
    {pieces : List Bytes} (hno : ∀ above caps node rest, ¬ Arrives W r segs above caps pieces node rest)
    {t : List PathSegment} {above : List Param} {caps : Caps W} {rest : List Bytes} {node : Routes}
    (ha : Arrives W r t above caps pieces node rest) : ∃ node', Alike node node' ∧ Arrives W r' t above caps pieces node' rest := by
  induction h generalizing t above caps pieces with
  | here old new => exact absurd (.here _ _) (hno _ _ _ _)
  | @child rs before after qs seg sub sub' old new segs he ih =>
    have hal : Alike (.mk rs (before ++ .mk seg sub :: after) qs) (.mk rs (before ++ .mk seg sub' :: after) qs) :=
      alike_child ..
    have hmem' : NestedRoutes.mk seg sub' ∈ before ++ .mk seg sub' :: after := by simp
    have hother : ∀ n, n ∈ before ++ .mk seg sub :: after → n = .mk seg sub ∨ n ∈ before ++ .mk seg sub' :: after := by
      intro n hn
      simp only [List.mem_append, List.mem_cons] at hn ⊢
      tauto
    cases ha with
    | here => exact ⟨_, hal, .here _ _⟩
    | static hn hpre ha =>
      have hpre' := hpre
      rw [← hal.params, ← hal.statics] at hpre'
      rcases hother _ hn with hx | hx
      · cases hx
        obtain ⟨node', h1, h2⟩ := ih (fun above caps node rest h => hno _ _ _ _ (.static hn hpre h)) ha
        exact ⟨node', h1, .static (r := .mk rs (before ++ .mk _ sub' :: after) qs) hmem' hpre' h2⟩
      · exact ⟨_, Alike.refl _, .static (r := .mk rs (before ++ .mk _ sub' :: after) qs) hx hpre' ha⟩
    | dynamic ht hu hv ha =>
      obtain ⟨sub1, ht'⟩ := hal.takes ht
      rcases hother _ ht.child with hx | hx
      · cases hx
        obtain ⟨node', h1, h2⟩ := ih (fun above caps node rest h => hno _ _ _ _ (.dynamic ht hu hv h)) ha
        exact ⟨node', h1, .dynamic (r := .mk rs (before ++ .mk _ sub' :: after) qs) (sub := sub')
          ⟨hmem', ht'.first, ht'.free, ht'.goes⟩ hu hv h2⟩
      · exact ⟨_, Alike.refl _, .dynamic (r := .mk rs (before ++ .mk _ sub' :: after) qs)
          ⟨hx, ht'.first, ht'.free, ht'.goes⟩ hu hv ha⟩

theorem Edited.go_same {r r' old new : Routes} {segs : List PathSegment} (h : Edited r segs old new r') (hs : Sound r)
    (hs' : Sound r') {pieces : List Bytes} (hc : Clear pieces)
    (hno : ∀ above caps node rest, ¬ Arrives W r segs above caps pieces node rest) (m : Bytes) :
    go W m r' [] [] pieces = go W m r [] [] pieces := by
  have hno' : ∀ above (caps : Caps W) node rest, ¬ Arrives W r' segs above caps pieces node rest :=
    fun above caps node rest ha => hno _ _ _ _ (h.symm.arrives hs' ha).2
  -- from one side to the other, except for NotFound
  have key : ∀ {r r' old new : Routes}, Edited r segs old new r' → Sound r → Sound r' →
      (∀ above (caps : Caps W) node rest, ¬ Arrives W r segs above caps pieces node rest) →
      go W m r' [] [] pieces = go W m r [] [] pieces ∨ go W m r [] [] pieces = .notFound := by
    intro r r' old new h hs hs' hno
    cases exactly_all W r hs pieces hc with
    | answered h1 h2 h3 =>
      obtain ⟨node', ha, h1'⟩ := h.transport hno h1
      refine .inl ?_
      rw [go_answered h1 hs hc h2 h3, go_answered h1' hs' hc h2 (by rw [ha.resources]; exact h3), ha.resources, ha.queries]
    | fails h1 h2 h3 h4 =>
      obtain ⟨node', ha, h1'⟩ := h.transport hno h1
      obtain ⟨sub', h2'⟩ := ha.takes h2
      exact .inl (by rw [go_fails h1 hs hc h2 h3 h4, go_fails h1' hs' hc h2' h3 h4])
    | badText h1 h2 h3 =>
      obtain ⟨node', ha, h1'⟩ := h.transport hno h1
      obtain ⟨sub', h2'⟩ := ha.takes h2
      exact .inl (by rw [go_badText h1 hs hc h2 h3, go_badText h1' hs' hc h2' h3])
    | cliff h1 h2 =>
      obtain ⟨node', ha, h1'⟩ := h.transport hno h1
      exact .inl (by rw [go_atCliff h1 hs hc h2, go_atCliff h1' hs' hc (ha.cliff h2)])
    | notFound h1 => exact .inr (h1 _ _ _)
  rcases key h hs hs' hno with h1 | h1
  · exact h1
  · rcases key h.symm hs' hs hno' with h2 | h2
    · exact h2.symm
    · rw [h1, h2]

/-- **C58, elsewhere.** If the block of one route is replaced, requests that do not come by it are answered as before. -/
theorem C58_elsewhere {r r' old new : Routes} {body body' : List Stmt} {segs : List PathSegment} (he : Edited r segs old new r')
    (h : Supported r body) (hp : PlainTexts r) (h' : Supported r' body') (hp' : PlainTexts r') (path m : Bytes)
    (hno : ∀ above caps node rest, ¬ ComesBy W r segs above caps path node rest) :
    callMatchRoute W body' path m = callMatchRoute W body path m := by
  rw [call_go h, call_go h']
  exact he.go_same (h.sound hp) (h'.sound hp') (cut_slash _) hno m

/-- **C58, inside.** The requests that come by the block are the same as before, with the same values and the same rest of the path;
and they are answered as the new block by itself answers the rest of the path. -/
theorem C58_inside {r r' old new : Routes} {body body' : List Stmt} {segs : List PathSegment} (he : Edited r segs old new r')
    (h : Supported r body) (hp : PlainTexts r) (h' : Supported r' body') (hp' : PlainTexts r') {above : List Param}
    {caps : Caps W} {path : Bytes} {node : Routes} {rest : List Bytes} (hc : ComesBy W r segs above caps path node rest) :
    node = old ∧ ComesBy W r' segs above caps path new rest ∧ ∃ alone, Supported new alone ∧ ∀ m,
      (rest = [] → callMatchRoute W body' path m =
        if new.resources = [] then .notFound else (callMatchRoute W alone [] m).under caps above) ∧
      ∀ bs, rest = cut bs → callMatchRoute W body' path m = (callMatchRoute W alone (slash :: bs) m).under caps above := by
  obtain ⟨rfl, ha⟩ := he.arrives (h.sound hp) hc
  refine ⟨rfl, ha, ?_⟩
  obtain ⟨alone, hal⟩ := h'.child ha.live
  refine ⟨alone, hal, fun m => ⟨fun hr => ?_, fun bs hbs => ?_⟩⟩
  · subst hr
    rw [call_go h', arrives_go ha (h'.sound hp') (cut_slash _)]
    split
    · rename_i hnil
      simp [go, atEnd, hnil]
    · rename_i hnil
      rw [call_eq hal]
      have : route W m new [] [] (stripSlash []) = answer new.resources ([] ++ new.queryParameters) [] m := by
        obtain ⟨rs, ns, qs⟩ := new
        have : rs ≠ [] := hnil
        simp [route, stripSlash, this, Routes.resources, Routes.queryParameters]
      rw [this, ← answer_under, go, atEnd, if_neg hnil]
      simp
  · rw [call_go h', arrives_go ha (h'.sound hp') (cut_slash _), hbs, ← route_cut, call_eq hal, ← route_under]
    simp [stripSlash]

/-! ### Adding a resource -/

theorem find_insert {f : Resource → Bool} {before after : List Resource} {x : Resource} (hx : f x = false) :
    (before ++ x :: after).find? f = (before ++ after).find? f := by
  simp [List.find?_append, hx]

theorem answer_add {before after : List Resource} {x : Resource} {m : Bytes} (hx : verbBytes x.method ≠ m) (q : List Param)
    (caps : Caps W) : answer (before ++ x :: after) q caps m = answer (before ++ after) q caps m := by
  rw [verbBytes_eq] at hx
  simp only [answer]
  rw [find_insert (by simpa using hx)]

theorem go_resources {rs rs' : List Resource} {ns : List NestedRoutes} {qs : List Param} {rest : List Bytes} (hf : ¬ Finished rest)
    (m : Bytes) (q : List Param) (caps : Caps W) : go W m (.mk rs ns qs) q caps rest = go W m (.mk rs' ns qs) q caps rest := by
  cases rest with
  | nil => exact absurd (.inl rfl) hf
  | cons p ps =>
    have : glue (p :: ps) ≠ [] := fun h => hf (.inr (by obtain ⟨rfl, rfl⟩ := glue_nil_iff.1 h; rfl))
    simp only [go, route, this, false_and, if_false]

/-- **C58, a further verb.** If a resource is added, for a verb that its block has no resource for, to a block with resources, then exactly
the requests with this verb that end at the block change their answer, from NotAllowed to a match of the resource. -/
theorem C58_verb {r r' old new : Routes} {body body' : List Stmt} {segs : List PathSegment} {x : Resource}
    (he : Edited r segs old new r') (hx : AddsResource x old new) (hv : ∀ o ∈ old.resources, o.method ≠ x.method)
    (hold : old.resources ≠ []) (h : Supported r body) (hp : PlainTexts r) (h' : Supported r' body') (hp' : PlainTexts r')
    (path m : Bytes) :
    (∀ above caps node rest, ComesBy W r segs above caps path node rest → Finished rest → m = verbBytes x.method →
      callMatchRoute W body path m = .notAllowed ∧
      (callMatchRoute W body' path m).isMatch x.isRedirect (matchOf x caps (above ++ old.queryParameters))) ∧
    ((∀ above caps node rest, ComesBy W r segs above caps path node rest → Finished rest → m ≠ verbBytes x.method) →
      callMatchRoute W body' path m = callMatchRoute W body path m) := by
  obtain ⟨before, after, ns, qs⟩ := hx
  change ∀ o ∈ before ++ after, _ at hv
  change before ++ after ≠ [] at hold
  constructor
  · rintro above caps node rest hc hf rfl
    obtain ⟨rfl, ha⟩ := he.arrives (h.sound hp) hc
    constructor
    · rw [C47_not_allowed h hp]
      exact ⟨_, _, _, _, _, hc, hf, hold, fun o ho hm => hv o ho (verbBytes_inj hm)⟩
    · rw [C47_match h' hp']
      exact ⟨_, _, _, _, _, before, x, after, ha, hf, rfl, rfl, fun o ho => hv o (by simp [ho]), rfl, rfl⟩
  · intro hno
    by_cases hc : ∃ above caps node rest, ComesBy W r segs above caps path node rest
    · obtain ⟨above, caps, node, rest, hc⟩ := hc
      obtain ⟨rfl, ha⟩ := he.arrives (h.sound hp) hc
      rw [call_go h, call_go h', arrives_go ha (h'.sound hp') (cut_slash _), arrives_go hc (h.sound hp) (cut_slash _)]
      by_cases hf : Finished rest
      · rw [go_finished (r := .mk (before ++ after) ns qs) hf hold, go_finished (r := .mk (before ++ x :: after) ns qs) hf (by simp [Routes.resources])]
        exact answer_add (Ne.symm (hno _ _ _ _ hc hf)) _ _
      · exact go_resources hf _ _ _
    · exact C58_elsewhere he h hp h' hp' path m fun above caps node rest hc' => hc ⟨_, _, _, _, hc'⟩

/-- **C58, the first resource.** If a block without resources gets one, then exactly the requests that end at the block change their
answer: to a match of the resource, or to NotAllowed. -/
theorem C58_first {r r' old new : Routes} {body body' : List Stmt} {segs : List PathSegment} {x : Resource}
    (he : Edited r segs old new r') (hx : AddsResource x old new) (hold : old.resources = []) (h : Supported r body)
    (hp : PlainTexts r) (h' : Supported r' body') (hp' : PlainTexts r') (path m : Bytes) :
    (∀ above caps node rest, ComesBy W r segs above caps path node rest → Finished rest →
      (m = verbBytes x.method →
        (callMatchRoute W body' path m).isMatch x.isRedirect (matchOf x caps (above ++ old.queryParameters))) ∧
      (m ≠ verbBytes x.method → callMatchRoute W body' path m = .notAllowed) ∧
      (rest = [] → callMatchRoute W body path m = .notFound)) ∧
    ((∀ above caps node rest, ComesBy W r segs above caps path node rest → ¬ Finished rest) →
      callMatchRoute W body' path m = callMatchRoute W body path m) := by
  obtain ⟨before, after, ns, qs⟩ := hx
  change before ++ after = [] at hold
  obtain ⟨rfl, rfl⟩ := List.append_eq_nil_iff.1 hold
  constructor
  · rintro above caps node rest hc hf
    obtain ⟨rfl, ha⟩ := he.arrives (h.sound hp) hc
    refine ⟨fun hm => ?_, fun hm => ?_, fun hr => ?_⟩
    · rw [C47_match h' hp']
      exact ⟨_, _, _, _, _, [], x, [], ha, hf, rfl, hm, by simp, rfl, rfl⟩
    · rw [C47_not_allowed h' hp']
      refine ⟨_, _, _, _, _, ha, hf, by simp [Routes.resources], fun o ho => ?_⟩
      rw [List.mem_singleton.1 ho]
      exact Ne.symm hm
    · subst hr
      rw [call_go h, arrives_go hc (h.sound hp) (cut_slash _)]
      simp [go, atEnd, Routes.resources]
  · intro hno
    by_cases hc : ∃ above caps node rest, ComesBy W r segs above caps path node rest
    · obtain ⟨above, caps, node, rest, hc⟩ := hc
      obtain ⟨rfl, ha⟩ := he.arrives (h.sound hp) hc
      rw [call_go h, call_go h', arrives_go ha (h'.sound hp') (cut_slash _), arrives_go hc (h.sound hp) (cut_slash _)]
      exact go_resources (hno _ _ _ _ hc) _ _ _
    · exact C58_elsewhere he h hp h' hp' path m fun above caps node rest hc' => hc ⟨_, _, _, _, hc'⟩

/-! ### Adding a child -/

theorem mem_inserted {n x : NestedRoutes} {before after : List NestedRoutes} : x ∈ before ++ n :: after ↔ x = n ∨ x ∈ before ++ after := by
  simp only [List.mem_append, List.mem_cons]; tauto

theorem statics_insert (n : NestedRoutes) (before after : List NestedRoutes) :
    staticTexts (before ++ n :: after) = staticTexts before ++ (staticTexts [n] ++ staticTexts after) := by
  rw [staticTexts_append, ← List.singleton_append, staticTexts_append]

theorem params_insert (n : NestedRoutes) (before after : List NestedRoutes) :
    paramNames (before ++ n :: after) = paramNames before ++ (paramNames [n] ++ paramNames after) := by
  rw [paramNames_append, ← List.singleton_append, paramNames_append]

/-- In a block without parameters, a request that gets an answer other than NotFound keeps it if a child is added in such a way that
the static children are still looked at. -/
theorem go_added {rs : List Resource} {before after : List NestedRoutes} {qs : List Param} {n : NestedRoutes}
    (hs : Sound (.mk rs (before ++ after) qs)) (hs' : Sound (.mk rs (before ++ n :: after) qs))
    (hnone : paramNames (before ++ after) = [])
    (hkeep : ∀ s ∈ staticTexts (before ++ after), paramNames (before ++ n :: after) = [] ∨ staticTexts (before ++ n :: after) = [s])
    {pieces : List Bytes} (hc : Clear pieces) (m : Bytes) :
    go W m (.mk rs (before ++ n :: after) qs) [] [] pieces = go W m (.mk rs (before ++ after) qs) [] [] pieces ∨
      go W m (.mk rs (before ++ after) qs) [] [] pieces = .notFound := by
  have move : ∀ {t above} {caps : Caps W} {node rest}, Arrives W (.mk rs (before ++ after) qs) t above caps pieces node rest →
      (t = [] ∧ above = [] ∧ caps = [] ∧ rest = pieces ∧ node = .mk rs (before ++ after) qs) ∨
      Arrives W (.mk rs (before ++ n :: after) qs) t above caps pieces node rest := by
    intro t above caps node rest ha
    cases ha with
    | here => exact .inl ⟨rfl, rfl, rfl, rfl, rfl⟩
    | static hn hpre ha =>
      exact .inr (.static (r := .mk rs (before ++ n :: after) qs) (mem_inserted.2 (.inr hn))
        (hkeep _ (mem_staticTexts'.2 ⟨_, hn, rfl⟩)) ha)
    | dynamic ht _ _ _ =>
      have := captor_mem ht.first
      change _ ∈ paramNames (before ++ after) at this
      rw [hnone] at this; cases this
  have noTake : ∀ {p sub part more}, ¬ Takes (.mk rs (before ++ after) qs) p sub part more := by
    intro p sub part more ht
    have := captor_mem ht.first
    change _ ∈ paramNames (before ++ after) at this
    rw [hnone] at this; cases this
  cases exactly_all W _ hs pieces hc with
  | answered h1 h2 h3 =>
    rcases move h1 with ⟨rfl, rfl, rfl, rfl, rfl⟩ | h1'
    · refine .inl ?_
      rw [go_finished h2 h3, go_finished h2 (by exact h3)]
      rfl
    · exact .inl (by rw [go_answered h1 hs hc h2 h3, go_answered h1' hs' hc h2 h3])
  | fails h1 h2 h3 h4 =>
    rcases move h1 with ⟨rfl, rfl, rfl, he, rfl⟩ | h1'
    · exact absurd h2 noTake
    · exact .inl (by rw [go_fails h1 hs hc h2 h3 h4, go_fails h1' hs' hc h2 h3 h4])
  | badText h1 h2 h3 =>
    rcases move h1 with ⟨rfl, rfl, rfl, he, rfl⟩ | h1'
    · exact absurd h2 noTake
    · exact .inl (by rw [go_badText h1 hs hc h2 h3, go_badText h1' hs' hc h2 h3])
  | cliff h1 h2 =>
    rcases move h1 with ⟨rfl, rfl, rfl, he, rfl⟩ | h1'
    · exact absurd hnone h2.2.1
    · exact .inl (by rw [go_atCliff h1 hs hc h2, go_atCliff h1' hs' hc h2])
  | notFound h1 => exact .inr (h1 _ _ _)

theorem go_nil_under (m : Bytes) (r : Routes) (q : List Param) (caps : Caps W) (rest : List Bytes) :
    go W m r q caps rest = (go W m r [] [] rest).under caps q := by
  cases rest with
  | nil =>
    simp only [go, atEnd]
    split
    · rfl
    · rw [answer_under]; simp
  | cons p ps => exact route_under W m r q caps _

/-- **C58, a further child.** If a static child is added to a block without parameters, or a parameter to a block without parameters
and with at most one static child, then every request whose answer changes was answered with NotFound, and comes by the block with something
left of its path. -/
theorem C58_child {r r' old new : Routes} {body body' : List Stmt} {segs : List PathSegment} {n : NestedRoutes}
    (he : Edited r segs old new r') (hx : AddsChild n old new) (hnone : paramNames old.routes = [])
    (hone : (∃ s, n.pathSegment = .static s) ∨ (staticTexts old.routes).length ≤ 1)
    (h : Supported r body) (hp : PlainTexts r) (h' : Supported r' body') (hp' : PlainTexts r')
    {path m : Bytes} (hd : callMatchRoute W body' path m ≠ callMatchRoute W body path m) :
    callMatchRoute W body path m = .notFound ∧ ∃ above caps part more, ComesBy W r segs above caps path old (part :: more) := by
  obtain ⟨rs, before, after, qs⟩ := hx
  change paramNames (before ++ after) = [] at hnone
  by_cases hc : ∃ above caps node rest, ComesBy W r segs above caps path node rest
  · obtain ⟨above, caps, node, rest, hc⟩ := hc
    obtain ⟨rfl, ha⟩ := he.arrives (h.sound hp) hc
    rw [call_go h, call_go h', arrives_go ha (h'.sound hp') (cut_slash _), arrives_go hc (h.sound hp) (cut_slash _), go_nil_under,
      go_nil_under m (.mk rs (before ++ after) qs)] at hd
    have hkeep : ∀ s ∈ staticTexts (before ++ after),
        paramNames (before ++ n :: after) = [] ∨ staticTexts (before ++ n :: after) = [s] := by
      intro s hs
      rw [paramNames_append, List.append_eq_nil_iff] at hnone
      obtain ⟨seg, sub⟩ := n
      cases seg with
      | static t => left; rw [params_insert, hnone.1, hnone.2]; rfl
      | dynamic p =>
        right
        rcases hone with ⟨t, ht⟩ | hone
        · cases ht
        change (staticTexts (before ++ after)).length ≤ 1 at hone
        have : staticTexts (before ++ .mk (.dynamic p) sub :: after) = staticTexts (before ++ after) := by
          rw [statics_insert, staticTexts_append]; rfl
        rw [this]
        cases hl : staticTexts (before ++ after) with
        | nil => rw [hl] at hs; cases hs
        | cons a l =>
          rw [hl] at hs hone
          have : l = [] := by cases l <;> simp_all
          subst this
          rw [List.mem_singleton.1 hs]
    rcases go_added (W := W) ((h.sound hp).child hc.live) ((h'.sound hp').child ha.live) hnone hkeep (hc.clear (cut_slash _)) m with h1 | h1
    · rw [h1] at hd; exact absurd rfl hd
    · constructor
      · rw [call_go h, arrives_go hc (h.sound hp) (cut_slash _), go_nil_under, h1]; rfl
      · cases rest with
        | cons part more => exact ⟨_, _, _, _, hc⟩
        | nil => exact absurd rfl hd
  · exact absurd (C58_elsewhere he h hp h' hp' path m fun above caps node rest hc' => hc ⟨_, _, _, _, hc'⟩) hd

/-- **C58, a static child.** Moreover, a static child only changes answers to requests with its text at this place. -/
theorem C58_static {r r' old new sub : Routes} {body body' : List Stmt} {segs : List PathSegment} {s : Str}
    (he : Edited r segs old new r') (hx : AddsChild (.mk (.static s) sub) old new) (hnone : paramNames old.routes = [])
    (h : Supported r body) (hp : PlainTexts r) (h' : Supported r' body') (hp' : PlainTexts r')
    {path m : Bytes} (hd : callMatchRoute W body' path m ≠ callMatchRoute W body path m) :
    ∃ above caps more, ComesBy W r segs above caps path old (bytesOf s :: more) := by
  obtain ⟨h1, above, caps, part, more, hc⟩ := C58_child he hx hnone (.inl ⟨s, rfl⟩) h hp h' hp' hd
  by_cases hs : part = bytesOf s
  · exact ⟨above, caps, more, hs ▸ hc⟩
  refine absurd ?_ hd
  obtain ⟨rs, before, after, qs⟩ := hx
  change paramNames (before ++ after) = [] at hnone
  obtain ⟨-, ha⟩ := he.arrives (h.sound hp) hc
  have hso := (h.sound hp).child hc.live
  have hsn := (h'.sound hp').child ha.live
  have hcl := ha.clear (cut_slash _)
  rw [h1, call_go h', arrives_go ha (h'.sound hp') (cut_slash _)]
  have h1' : go W m (.mk rs (before ++ after) qs) above caps (part :: more) = .notFound := by
    rw [call_go h, arrives_go hc (h.sound hp) (cut_slash _)] at h1
    simpa using h1
  have hpn : paramNames (before ++ .mk (.static s) sub :: after) = [] := by
    rw [paramNames_append, List.append_eq_nil_iff] at hnone
    rw [params_insert, hnone.1, hnone.2]; rfl
  have noTake : ∀ {p sub' part more}, ¬ Takes (.mk rs (before ++ .mk (.static s) sub :: after) qs) p sub' part more := by
    intro p sub' part more ht
    have := captor_mem ht.first
    change _ ∈ paramNames (before ++ _ :: after) at this
    rw [hpn] at this; cases this
  have back : ∀ {t a} {c : Caps W} {node rest}, Arrives W (.mk rs (before ++ .mk (.static s) sub :: after) qs) t a c (part :: more) node rest →
      (t = [] ∧ a = [] ∧ c = [] ∧ rest = part :: more ∧ node = .mk rs (before ++ .mk (.static s) sub :: after) qs) ∨
      Arrives W (.mk rs (before ++ after) qs) t a c (part :: more) node rest := by
    intro t a c node rest ha
    cases ha with
    | here => exact .inl ⟨rfl, rfl, rfl, rfl, rfl⟩
    | static hn hpre ha =>
      rcases mem_inserted.1 hn with hx | hx
      · cases hx; exact absurd rfl hs
      · exact .inr (.static (r := .mk rs (before ++ after) qs) hx (.inl hnone) ha)
    | dynamic ht _ _ _ => exact absurd ht noTake
  rw [List.nil_append, List.nil_append, go_nil_under]
  have h1'' : go W m (.mk rs (before ++ after) qs) [] [] (part :: more) = .notFound := by
    rw [go_nil_under] at h1'
    exact under_notFound h1'
  have same : go W m (.mk rs (before ++ .mk (.static s) sub :: after) qs) [] [] (part :: more) = .notFound := by
    cases exactly_all W _ hsn (part :: more) hcl with
    | answered g1 g2 g3 =>
      rcases back g1 with ⟨rfl, rfl, rfl, rfl, rfl⟩ | g1'
      · rw [go_finished g2 g3]
        rw [go_finished (r := .mk rs (before ++ after) qs) g2 (by exact g3)] at h1''
        exact h1''
      · rw [go_answered g1 hsn hcl g2 g3, ← go_answered g1' hso hcl g2 g3, h1'']
    | fails g1 g2 g3 g4 =>
      rcases back g1 with ⟨rfl, rfl, rfl, he, rfl⟩ | g1'
      · exact absurd g2 noTake
      · rw [go_fails g1 hsn hcl g2 g3 g4, ← go_fails g1' hso hcl g2 g3 g4 m, h1'']
    | badText g1 g2 g3 =>
      rcases back g1 with ⟨rfl, rfl, rfl, he, rfl⟩ | g1'
      · exact absurd g2 noTake
      · rw [go_badText g1 hsn hcl g2 g3, ← go_badText g1' hso hcl g2 g3 m, h1'']
    | cliff g1 g2 =>
      rcases back g1 with ⟨rfl, rfl, rfl, he, rfl⟩ | g1'
      · exact absurd hpn g2.2.1
      · rw [go_atCliff g1 hsn hcl g2, ← go_atCliff g1' hso hcl g2 m, h1'']
    | notFound g1 => exact g1 _ _ _
  rw [same]; rfl

/-- **C58, refuted without the conditions on siblings.** Next to a parameter and a static child `new`, a static child `nest` is
added: the request for `/new`, which went to the static child, is now captured by the parameter. -/
theorem C58_child_false : ∃ (old new sub : Routes) (s : Str) (path m : Bytes),
    AddsChild (.mk (.static s) sub) old new ∧ Supported old (bodyOf old) ∧ PlainTexts old ∧ Supported new (bodyOf new) ∧ PlainTexts new ∧
    ¬ bytesOf s <+: stripSlash path ∧ ∃ v w, v ≠ w ∧
    Demo.shown (callMatchRoute Demo.world (bodyOf old) path m) = .route [c!"a"] v [] [] ∧
    Demo.shown (callMatchRoute Demo.world (bodyOf new) path m) = .route [c!"a"] w [(c!"x", c!"new")] [] := by
  let x : NestedRoutes := .mk (.dynamic ⟨c!"x", c!"String"⟩) (.mk [Demo.res .get c!"a" c!"X"] [] [])
  let y : NestedRoutes := .mk (.static c!"new") (.mk [Demo.res .get c!"a" c!"New"] [] [])
  let sub : Routes := .mk [Demo.res .get c!"b" c!"Root"] [] []
  exact ⟨.mk [] [x, y] [], .mk [] [x, y, .mk (.static c!"nest") sub] [], sub, c!"nest", bytesOf c!"/new", bytesOf c!"GET",
    .mk [] [x, y] [] [], supported_of (by decide +kernel), plainTexts_of (by decide), supported_of (by decide +kernel),
    plainTexts_of (by decide), by decide, c!"New", c!"X", by decide, by decide +kernel, by decide +kernel⟩

/-! ### Examples -/

/-- A configuration with a hole: the block of `/users/{id}`. -/
def village (block : Routes) : Routes :=
  .mk [] [.mk (.static c!"news") (.mk [Demo.res .get c!"a" c!"News"] [] []),
    .mk (.static c!"users") (.mk [Demo.res .get c!"a" c!"List"] [.mk (.dynamic ⟨c!"id", c!"u32"⟩) block] [])] []

theorem village_edited (old new : Routes) :
    Edited (village old) [.static c!"users", .dynamic ⟨c!"id", c!"u32"⟩] old new (village new) :=
  .child (before := [.mk (.static c!"news") (.mk [Demo.res .get c!"a" c!"News"] [] [])]) (after := [])
    (.child (before := []) (after := []) (.here old new))

/-- The block, with more and more in it. -/
def hut : Routes := .mk [Demo.res .get c!"a" c!"Show"] [] []
def house : Routes := .mk [Demo.res .get c!"a" c!"Show", Demo.res .put c!"a" c!"Update"] [] []
def manor : Routes := .mk [Demo.res .get c!"a" c!"Show", Demo.res .put c!"a" c!"Update"]
  [.mk (.static c!"edit") (.mk [Demo.res .get c!"a" c!"Edit"] [] [])] []

example : AddsResource (Demo.res .put c!"a" c!"Update") hut house ∧ (∀ o ∈ hut.resources, o.method ≠ .put) ∧ hut.resources ≠ [] ∧
    Supported (village hut) (bodyOf (village hut)) ∧ PlainTexts (village hut) ∧ Supported (village house) (bodyOf (village house)) ∧
    PlainTexts (village house) :=
  ⟨.mk [_] [] _ _, by decide, by decide, supported_of (by decide +kernel), plainTexts_of (by decide), supported_of (by decide +kernel),
    plainTexts_of (by decide)⟩

/-- The answer that changes, and one that does not. -/
example : Demo.ask (village hut) c!"/users/7" c!"PUT" = .notAllowed ∧
    Demo.ask (village house) c!"/users/7" c!"PUT" = .route [c!"a"] c!"Update" [(c!"id", c!"7")] [] ∧
    Demo.ask (village house) c!"/users" c!"PUT" = Demo.ask (village hut) c!"/users" c!"PUT" := by decide +kernel

example : AddsChild (.mk (.static c!"edit") (.mk [Demo.res .get c!"a" c!"Edit"] [] [])) house manor ∧ paramNames house.routes = [] ∧
    Supported (village manor) (bodyOf (village manor)) ∧ PlainTexts (village manor) ∧
    Demo.ask (village house) c!"/users/7/edit" c!"GET" = .notFound ∧
    Demo.ask (village manor) c!"/users/7/edit" c!"GET" = .route [c!"a"] c!"Edit" [(c!"id", c!"7")] [] :=
  ⟨.mk _ [] [] _, by decide, supported_of (by decide +kernel), plainTexts_of (by decide), by decide +kernel, by decide +kernel⟩

end Wayfinder
