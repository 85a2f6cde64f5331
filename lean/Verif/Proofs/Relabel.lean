import Verif.Spec.Relabel
import Verif.Proofs.Retype
import Verif.Proofs.Total
/-!
# Other labels: proofs
-/

namespace Wayfinder

variable {W : World} {m : Bytes} {L : Labels}

theorem relabelL_eq (L : Labels) : ∀ ns, relabelL L ns = ns.map (NestedRoutes.relabel L)
  | [] => rfl
  | n :: ns => by simp [relabelL, relabelL_eq L ns]

@[simp] theorem NestedRoutes.pathSegment_relabel (n : NestedRoutes) : (n.relabel L).pathSegment = n.pathSegment := by cases n; rfl

@[simp] theorem Routes.routes_relabel (r : Routes) : (r.relabel L).routes = r.routes.map (NestedRoutes.relabel L) := by
  cases r; simp [Routes.relabel, relabelL_eq]

@[simp] theorem Routes.resources_relabel (r : Routes) : (r.relabel L).resources = r.resources.map L.res := by cases r; rfl

@[simp] theorem Routes.queryParameters_relabel (r : Routes) :
    (r.relabel L).queryParameters = r.queryParameters.flatMap L.query := by cases r; rfl

theorem staticTexts_relabel (ns : List NestedRoutes) : staticTexts (ns.map (NestedRoutes.relabel L)) = staticTexts ns := by
  simp only [staticTexts, List.filterMap_map]
  congr 1
  funext n
  cases n with
  | mk seg r => cases seg <;> rfl

theorem paramNames_relabel (ns : List NestedRoutes) : paramNames (ns.map (NestedRoutes.relabel L)) = paramNames ns := by
  simp only [paramNames, List.filterMap_map]
  congr 1
  funext n
  cases n with
  | mk seg r => cases seg <;> rfl

theorem captor_relabel (ns : List NestedRoutes) : captor (ns.map (NestedRoutes.relabel L)) = captor ns := by
  simp only [captor, paramNames_relabel]

/-! ## Routing -/

/-- Where a found resource comes from. -/
def Verdict.From (m : Bytes) (r : Routes) (q : List Param) (caps : Caps W) (d : Verdict W) : Prop :=
  ∀ res q' caps', d = .found res q' caps' → ∃ segs above node more, HasRoute r segs above node ∧
    node.resources.find? (fun x => x.method.bytes = m) = some res ∧ q' = q ++ above ++ node.queryParameters ∧
    caps' = caps ++ more ∧ more.map Prod.fst = routeParams segs

theorem Verdict.From.child {r sub : Routes} {seg : PathSegment} {q : List Param} {caps extra : Caps W} {d : Verdict W}
    (hn : NestedRoutes.mk seg sub ∈ r.routes) (hx : extra.map Prod.fst = routeParams [seg])
    (h : d.From m sub (q ++ r.queryParameters) (caps ++ extra)) : d.From m r q caps := by
  intro res q' caps' hd
  obtain ⟨segs, above, node, more, h1, h2, rfl, rfl, h3⟩ := h res q' caps' hd
  refine ⟨seg :: segs, _, node, extra ++ more, .child hn h1, h2, by simp, by simp, ?_⟩
  rw [List.map_append, hx, h3]
  cases seg <;> rfl

theorem find_relabel : ∀ rs : List Resource, (rs.map L.res).find? (fun x => x.method.bytes = m) =
    (rs.find? fun x => x.method.bytes = m).map L.res
  | [] => rfl
  | x :: rs => by
    simp only [List.map_cons, List.find?_cons, L.verb]
    split
    · rfl
    · exact find_relabel rs

/-- Two answers that differ in the labels only. -/
def Twins (L : Labels) (m : Bytes) (r : Routes) (q : List Param) (caps : Caps W) (o o' : Outcome W) : Prop :=
  ∃ d : Verdict W, o = d.outcome ∧ o' = (d.relabel L).outcome ∧ d.From m r q caps

theorem twins_answer (r : Routes) (q : List Param) (caps : Caps W) :
    Twins L m r q caps (answer r.resources (q ++ r.queryParameters) caps m)
      (answer (r.resources.map L.res) (q.flatMap L.query ++ r.queryParameters.flatMap L.query) caps m) := by
  simp only [answer, find_relabel]
  cases hf : r.resources.find? fun x => x.method.bytes = m with
  | none => exact ⟨.notAllowed, rfl, rfl, by rintro _ _ _ ⟨⟩⟩
  | some res =>
    refine ⟨.found res (q ++ r.queryParameters) caps, rfl, ?_, ?_⟩
    · simp [Verdict.relabel, Verdict.outcome]
    · rintro _ _ _ ⟨⟩
      exact ⟨[], [], r, [], .here r, hf, by simp, by simp, rfl⟩

theorem twins_atEnd (r : Routes) (q : List Param) (caps : Caps W) :
    Twins L m r q caps (atEnd m r q caps) (atEnd m (r.relabel L) (q.flatMap L.query) caps) := by
  simp only [atEnd, Routes.resources_relabel, Routes.queryParameters_relabel, List.map_eq_nil_iff]
  split
  · exact ⟨.notFound, rfl, rfl, by rintro _ _ _ ⟨⟩⟩
  · exact twins_answer r q caps

theorem Twins.child {r sub : Routes} {seg : PathSegment} {q : List Param} {caps extra : Caps W} {o o' : Outcome W}
    (hn : NestedRoutes.mk seg sub ∈ r.routes) (hx : extra.map Prod.fst = routeParams [seg])
    (h : Twins L m sub (q ++ r.queryParameters) (caps ++ extra) o o') : Twins L m r q caps o o' := by
  obtain ⟨d, h1, h2, h3⟩ := h
  exact ⟨d, h1, h2, h3.child hn hx⟩

theorem twins_notFound {r : Routes} {q : List Param} {caps : Caps W} : Twins L m r q caps .notFound .notFound :=
  ⟨.notFound, rfl, rfl, by rintro _ _ _ ⟨⟩⟩

theorem twins_panic {r : Routes} {q : List Param} {caps : Caps W} : Twins L m r q caps .panic .panic :=
  ⟨.panic, rfl, rfl, by rintro _ _ _ ⟨⟩⟩

/-- Both nothing, or both twins. -/
def TwinsOpt (L : Labels) (m : Bytes) (r : Routes) (q : List Param) (caps : Caps W) (o o' : Option (Outcome W)) : Prop :=
  (o = none ∧ o' = none) ∨ ∃ x x', o = some x ∧ o' = some x' ∧ Twins L m r q caps x x'

theorem route_relabel (r : Routes) : ∀ q (caps : Caps W) bs,
    Twins L m r q caps (route W m r q caps bs) (route W m (r.relabel L) (q.flatMap L.query) caps bs) := by
  induction r using Routes.ind with
  | h rs ns qs ih =>
    intro q caps bs
    have hq : q.flatMap L.query ++ qs.flatMap L.query = (q ++ qs).flatMap L.query := by simp
    have hstat : ∀ ns', (∀ n ∈ ns', n ∈ ns) → TwinsOpt L m (.mk rs ns qs) q caps (routeStatic W m ns' (q ++ qs) caps bs)
        (routeStatic W m (ns'.map (NestedRoutes.relabel L)) ((q ++ qs).flatMap L.query) caps bs) := by
      intro ns'
      induction ns' with
      | nil => intro _; exact .inl ⟨rfl, rfl⟩
      | cons n ns' ihn =>
        intro hsub
        have h2 := ihn fun x hx => hsub x (by simp [hx])
        simp only [List.map_cons, routeStatic]
        have h1 : TwinsOpt L m (.mk rs ns qs) q caps (routeStatic1 W m n (q ++ qs) caps bs)
            (routeStatic1 W m (n.relabel L) ((q ++ qs).flatMap L.query) caps bs) := by
          have hmem := hsub n (by simp)
          have ihs := ih n hmem
          obtain ⟨seg, sub⟩ := n
          cases seg with
          | dynamic p => exact .inl ⟨rfl, rfl⟩
          | static s =>
            simp only [NestedRoutes.relabel, routeStatic1]
            split
            · cases bs.drop s.length with
              | nil =>
                exact .inr ⟨_, _, rfl, rfl, (by simpa using twins_atEnd sub (q ++ qs) caps : Twins L m sub (q ++ qs) (caps ++ [])
                  _ _).child (r := .mk rs ns qs) hmem rfl⟩
              | cons b rest =>
                simp only
                split
                · refine .inr ⟨_, _, rfl, rfl, ?_⟩
                  have := ihs (q ++ qs) caps rest
                  exact (by simpa using this : Twins L m sub (q ++ qs) (caps ++ []) _ _).child (r := .mk rs ns qs) hmem rfl
                · exact .inr ⟨_, _, rfl, rfl, twins_notFound⟩
            · exact .inl ⟨rfl, rfl⟩
        rcases h1 with ⟨h1, h1'⟩ | ⟨x, x', h1, h1', ht⟩
        · rw [h1, h1']; exact h2
        · rw [h1, h1']; exact .inr ⟨x, x', rfl, rfl, ht⟩
    have hparam : ∀ x ns', (∀ n ∈ ns', n ∈ ns) → Twins L m (.mk rs ns qs) q caps (routeParam W m x ns' (q ++ qs) caps bs)
        (routeParam W m x (ns'.map (NestedRoutes.relabel L)) ((q ++ qs).flatMap L.query) caps bs) := by
      intro x ns'
      induction ns' with
      | nil => intro _; exact twins_notFound
      | cons n ns' ihn =>
        intro hsub
        have h2 := ihn fun x hx => hsub x (by simp [hx])
        simp only [List.map_cons, routeParam]
        have h1 : TwinsOpt L m (.mk rs ns qs) q caps (routeParam1 W m x n (q ++ qs) caps bs)
            (routeParam1 W m x (n.relabel L) ((q ++ qs).flatMap L.query) caps bs) := by
          have hmem := hsub n (by simp)
          have ihs := ih n hmem
          obtain ⟨seg, sub⟩ := n
          cases seg with
          | static s => exact .inl ⟨rfl, rfl⟩
          | dynamic p =>
            simp only [NestedRoutes.relabel, routeParam1]
            split
            · cases fromUtf8 (bs.takeWhile (· ≠ slash)) with
              | none => exact .inr ⟨_, _, rfl, rfl, twins_panic⟩
              | some text =>
                simp only
                cases W.parse p.typ text with
                | error e => exact .inr ⟨_, _, rfl, rfl, .err p.name e, rfl, rfl, by rintro _ _ _ ⟨⟩⟩
                | ok v =>
                  simp only
                  cases bs.dropWhile (· ≠ slash) with
                  | nil =>
                    exact .inr ⟨_, _, rfl, rfl, (twins_atEnd sub (q ++ qs) (caps ++ [(p, v)])).child (r := .mk rs ns qs) hmem rfl⟩
                  | cons b rest =>
                    refine .inr ⟨_, _, rfl, rfl, ?_⟩
                    exact (ihs (q ++ qs) (caps ++ [(p, v)]) rest).child (r := .mk rs ns qs) hmem rfl
            · exact .inl ⟨rfl, rfl⟩
        rcases h1 with ⟨h1, h1'⟩ | ⟨x, x', h1, h1', ht⟩
        · rw [h1, h1']; exact h2
        · rw [h1, h1']; exact ht
    simp only [Routes.relabel, route, relabelL_eq, List.map_eq_nil_iff, ne_eq, hq]
    have hstuck : stuck (ns.map (NestedRoutes.relabel L)) bs = stuck ns bs := by
      simp only [stuck, paramNames_relabel, staticTexts_relabel]
    have hpref : preferStatic (ns.map (NestedRoutes.relabel L)) = preferStatic ns := by
      simp only [preferStatic, paramNames_relabel, staticTexts_relabel]
    rw [hstuck, hpref, captor_relabel]
    split
    · have := twins_answer (L := L) (m := m) (.mk rs ns qs) q caps
      rw [← hq]
      exact this
    · split
      · exact twins_panic
      · have hs : TwinsOpt L m (.mk rs ns qs) q caps (if preferStatic ns then routeStatic W m ns (q ++ qs) caps bs else none)
            (if preferStatic ns then routeStatic W m (ns.map (NestedRoutes.relabel L)) ((q ++ qs).flatMap L.query) caps bs else none) := by
          split
          · exact hstat ns fun _ h => h
          · exact .inl ⟨rfl, rfl⟩
        rcases hs with ⟨h1, h1'⟩ | ⟨x, x', h1, h1', ht⟩
        · rw [h1, h1']
          simp only
          cases captor ns with
          | none => exact twins_notFound
          | some x => exact hparam x ns fun _ h => h
        · rw [h1, h1']
          exact ht

/-! ## What is supported -/

theorem LiveRoute.relabel {r node : Routes} {segs : List PathSegment} {q : List Param} (h : LiveRoute r segs q node) :
    LiveRoute (r.relabel L) segs (q.flatMap L.query) (node.relabel L) := by
  induction h with
  | here r => exact .here _
  | @static r node s sub segs query hn _ ih =>
    have := LiveRoute.static (r := r.relabel L) (s := s) (by
      rw [Routes.routes_relabel]; exact List.mem_map.2 ⟨_, hn, rfl⟩) ih
    simpa using this
  | @dynamic r node p sub segs query hn hc _ ih =>
    have := LiveRoute.dynamic (r := r.relabel L) (p := p) (by
      rw [Routes.routes_relabel]; exact List.mem_map.2 ⟨_, hn, rfl⟩) (by rw [Routes.routes_relabel, captor_relabel]; exact hc) ih
    simpa using this

theorem liveRoute_relabel {r' node' : Routes} {segs : List PathSegment} {q' : List Param} (h : LiveRoute r' segs q' node') :
    ∀ r, r' = r.relabel L → ∃ q node, LiveRoute r segs q node ∧ q' = q.flatMap L.query ∧ node' = node.relabel L := by
  induction h with
  | here r' => rintro r rfl; exact ⟨[], r, .here _, rfl, rfl⟩
  | @static r' node s sub segs query hn _ ih =>
    rintro r rfl
    rw [Routes.routes_relabel] at hn
    obtain ⟨⟨seg, sub'⟩, hn', he⟩ := List.mem_map.1 hn
    simp only [NestedRoutes.relabel, NestedRoutes.mk.injEq] at he
    obtain ⟨rfl, rfl⟩ := he
    obtain ⟨q1, node1, g1, rfl, rfl⟩ := ih sub' rfl
    exact ⟨_, node1, .static hn' g1, by simp, rfl⟩
  | @dynamic r' node p sub segs query hn hc _ ih =>
    rintro r rfl
    rw [Routes.routes_relabel] at hn hc
    obtain ⟨⟨seg, sub'⟩, hn', he⟩ := List.mem_map.1 hn
    simp only [NestedRoutes.relabel, NestedRoutes.mk.injEq] at he
    obtain ⟨rfl, rfl⟩ := he
    rw [captor_relabel] at hc
    obtain ⟨q1, node1, g1, rfl, rfl⟩ := ih sub' rfl
    exact ⟨_, node1, .dynamic hn' hc g1, by simp, rfl⟩

theorem hasRoute_relabel {r' node' : Routes} {segs : List PathSegment} {q' : List Param} (h : HasRoute r' segs q' node') :
    ∀ r, r' = r.relabel L → ∃ q node, HasRoute r segs q node ∧ q' = q.flatMap L.query ∧ node' = node.relabel L := by
  induction h with
  | here r' => rintro r rfl; exact ⟨[], r, .here _, rfl, rfl⟩
  | @child r' node seg sub segs query hn _ ih =>
    rintro r rfl
    rw [Routes.routes_relabel] at hn
    obtain ⟨⟨seg, sub'⟩, hn', he⟩ := List.mem_map.1 hn
    simp only [NestedRoutes.relabel, NestedRoutes.mk.injEq] at he
    obtain ⟨rfl, rfl⟩ := he
    obtain ⟨q1, node1, g1, rfl, rfl⟩ := ih sub' rfl
    exact ⟨_, node1, .child hn' g1, by simp, rfl⟩

theorem PlainRoute.relabel {r node : Routes} {segs : List PathSegment} (h : PlainRoute r segs node) :
    PlainRoute (r.relabel L) segs (node.relabel L) := by
  induction h with
  | here r => exact .here _
  | @static r node s sub segs hp hn _ ih =>
    exact .static (r := r.relabel L) (by rw [Routes.routes_relabel, paramNames_relabel]; exact hp)
      (by rw [Routes.routes_relabel]; exact List.mem_map.2 ⟨_, hn, rfl⟩) ih

theorem localOk_relabel {ns : List NestedRoutes} (h : LocalOk ns) : LocalOk (ns.map (NestedRoutes.relabel L)) := by
  obtain ⟨h1, h2, h3, h4⟩ := h
  refine ⟨?_, ?_, ?_, ?_⟩ <;> simpa only [staticTexts_relabel, paramNames_relabel]

theorem distinct_relabel {r : Routes} (h : DistinctSiblings r) : DistinctSiblings (r.relabel L) := by
  intro segs q node hr
  obtain ⟨q1, node1, g1, rfl, rfl⟩ := hasRoute_relabel hr r rfl
  rw [Routes.routes_relabel, List.pairwise_map]
  simpa using h _ _ _ g1

/-- Other labels can only fail to compile because fields of a struct have the same name. -/
theorem Supported.relabel {r : Routes} {body : List Stmt} (h : Supported r body) (hf : FieldsDistinct (r.relabel L)) :
    ∃ body', Supported (r.relabel L) body' := by
  obtain ⟨body', hbody⟩ := matcherBody_total (distinct_relabel (L := L) h.distinct)
  obtain ⟨hs, _, hu, hn⟩ := h.conditions
  refine ⟨body', hbody, (matcherBody_compiles hbody).2 ⟨?_, hf, ?_, ?_⟩, ?_⟩
  · intro segs q node hl
    obtain ⟨q1, node1, g1, rfl, rfl⟩ := liveRoute_relabel hl r rfl
    rw [Routes.routes_relabel]
    exact localOk_relabel (hs _ _ _ g1)
  · intro segs p q node hl
    obtain ⟨q1, node1, g1, rfl, rfl⟩ := liveRoute_relabel hl r rfl
    obtain ⟨segs2, q2, node2, g2, g3⟩ := hu _ _ _ _ g1
    exact ⟨_, _, _, g2.relabel, by simpa using g3⟩
  · refine ⟨fun segs p q node hl => ?_, fun segs p q node hl e => ?_, fun segs p segs' q node hl hne e => ?_,
      fun segs p q node hl e => ?_, fun segs p q node hl e segs' q' node' hl' hne hnp => ?_⟩
    · obtain ⟨q1, node1, g1, rfl, rfl⟩ := liveRoute_relabel hl r rfl
      exact hn.own _ _ _ _ g1
    · obtain ⟨q1, node1, g1, rfl, rfl⟩ := liveRoute_relabel hl r rfl
      exact hn.len _ _ _ _ g1 e
    · obtain ⟨q1, node1, g1, rfl, rfl⟩ := liveRoute_relabel hl r rfl
      exact hn.text _ _ _ _ _ g1 (by simpa using hne) e
    · obtain ⟨q1, node1, g1, rfl, rfl⟩ := liveRoute_relabel hl r rfl
      obtain ⟨segs2, node2, g2, g3⟩ := hn.startUsed _ _ _ _ g1 e
      exact ⟨_, _, g2.relabel, by simpa using g3⟩
    · obtain ⟨q1, node1, g1, rfl, rfl⟩ := liveRoute_relabel hl r rfl
      obtain ⟨q2, node2, g2, rfl, rfl⟩ := liveRoute_relabel hl' node1 rfl
      exact hn.startType _ _ _ _ g1 e _ _ _ g2 (by simpa using hne) fun hp => hnp hp.relabel
  · intro segs p q node hl
    obtain ⟨q1, node1, g1, rfl, rfl⟩ := liveRoute_relabel hl r rfl
    obtain ⟨g2, g3⟩ := h.hygienic _ _ _ _ g1
    refine ⟨g2, fun e segs' q' node' hl' => ?_⟩
    obtain ⟨q2, node2, g4, rfl, rfl⟩ := liveRoute_relabel hl' node1 rfl
    rw [Routes.routes_relabel, paramNames_relabel]
    exact g3 e _ _ _ g4

end Wayfinder
