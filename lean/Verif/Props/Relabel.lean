import Verif.Proofs.Relabel
import Verif.Tests.Demo
/-!
# C76: actions, modules, query parameters and arrows are labels

Which resource answers a request, and with which values, is decided by paths, path parameters and verbs. The rest of a configuration is
copied into the answer.
-/

namespace Wayfinder

variable {W : World} {r : Routes} {body body' : List Stmt}

/-- **C76, labels.** With other labels, every request finds the resource that stands at the same place, with the same values. If none is
found, the answer is the same. -/
theorem C76_labels (L : Labels) (h : Supported r body) (h' : Supported (r.relabel L) body') (path m : Bytes) : ∃ d : Verdict W,
    callMatchRoute W body path m = d.outcome ∧ callMatchRoute W body' path m = (d.relabel L).outcome ∧
    ∀ res query caps, d = .found res query caps → ∃ segs above node, HasRoute r segs above node ∧
      node.resources.find? (fun x => x.method.bytes = m) = some res ∧ query = above ++ node.queryParameters ∧
      caps.map Prod.fst = routeParams segs := by
  obtain ⟨d, h1, h2, h3⟩ := route_relabel (W := W) (m := m) (L := L) r [] []
    (if path.take 1 = [slash] then path.drop 1 else path)
  refine ⟨d, by rw [h.call, ← h1]; rfl, by rw [h'.call, ← h2]; rfl, ?_⟩
  intro res query caps hd
  obtain ⟨segs, above, node, more, g1, g2, g3, rfl, g4⟩ := h3 res query caps hd
  exact ⟨segs, above, node, g1, g2, by simpa using g3, g4⟩

/-- **C76, acceptance.** Other labels are accepted, unless fields of a struct get the same name. -/
theorem C76_supported (L : Labels) (h : Supported r body) :
    (∃ body', Supported (r.relabel L) body') ↔ FieldsDistinct (r.relabel L) :=
  ⟨fun ⟨_, h'⟩ => h'.conditions.2.1, h.relabel⟩

/-! ## Actions, modules and redirects -/

/-- Only the target of a resource is replaced: modules, action and whether it is a redirect. -/
def Labels.actions (f : List Str → Str → Bool → List Str × Str × Bool) : Labels where
  res x := { x with
    modules := (f x.modules x.name x.isRedirect).1
    name := (f x.modules x.name x.isRedirect).2.1
    isRedirect := (f x.modules x.name x.isRedirect).2.2 }
  query p := [p]
  verb _ := rfl

/-- An answer with its target replaced. -/
def Outcome.retarget (f : List Str → Str → Bool → List Str × Str × Bool) : Outcome W → Outcome W
  | .route v =>
    let w : RouteVal W := { v with modules := (f v.modules v.name false).1, name := (f v.modules v.name false).2.1 }
    if (f v.modules v.name false).2.2 then .redirect w else .route w
  | .redirect v =>
    let w : RouteVal W := { v with modules := (f v.modules v.name true).1, name := (f v.modules v.name true).2.1 }
    if (f v.modules v.name true).2.2 then .redirect w else .route w
  | o => o

/-- **C76, actions.** Renamed actions and modules, and routes made redirects or the other way round, are always accepted by the
match, and the answers are those from before with the targets replaced. -/
theorem C76_actions (f : List Str → Str → Bool → List Str × Str × Bool) (h : Supported r body) :
    ∃ body', Supported (r.relabel (.actions f)) body' ∧ ∀ (W : World) path m,
      callMatchRoute W body' path m = (callMatchRoute W body path m).retarget f := by
  have hid : ∀ q : List Param, q.flatMap (Labels.actions f).query = q := fun q => by
    simp [Labels.actions]
  obtain ⟨body', h'⟩ := h.relabel (L := .actions f) (by
    intro segs q node hl res hres
    obtain ⟨q1, node1, g1, rfl, rfl⟩ := liveRoute_relabel hl r rfl
    rw [Routes.resources_relabel] at hres
    obtain ⟨x, hx, rfl⟩ := List.mem_map.1 hres
    have := h.conditions.2.1 _ _ _ g1 x hx
    rw [Routes.queryParameters_relabel, hid, hid]
    exact this)
  refine ⟨body', h', fun W path m => ?_⟩
  obtain ⟨d, h1, h2, -⟩ := C76_labels (W := W) (.actions f) h h' path m
  rw [h1, h2]
  cases d with
  | found res query caps =>
    simp only [Verdict.relabel, Verdict.outcome, hid]
    cases hr : res.isRedirect <;> simp [Outcome.retarget, Labels.actions, hr]
  | _ => rfl

/-! ## Query parameters -/

/-- No query parameters. -/
def Labels.bare : Labels where
  res x := { x with queryParameters := [] }
  query _ := []
  verb _ := rfl

/-- An answer without its query parameters. -/
def Outcome.bare : Outcome W → Outcome W
  | .route v => .route { v with nones := [] }
  | .redirect v => .redirect { v with nones := [] }
  | o => o

/-- **C76, query parameters.** Without the query parameters a configuration is still accepted and gives the same answers, without the
query parameters: they have no influence on the routing. -/
theorem C76_bare (h : Supported r body) : ∃ body', Supported (r.relabel .bare) body' ∧ ∀ (W : World) path m,
    callMatchRoute W body' path m = (callMatchRoute W body path m).bare := by
  have hno : ∀ q : List Param, q.flatMap Labels.bare.query = [] := fun q => by simp [Labels.bare]
  obtain ⟨body', h'⟩ := h.relabel (L := .bare) (by
    intro segs q node hl res hres
    obtain ⟨q1, node1, g1, rfl, rfl⟩ := liveRoute_relabel hl r rfl
    rw [Routes.resources_relabel] at hres
    obtain ⟨x, hx, rfl⟩ := List.mem_map.1 hres
    have := h.conditions.2.1 _ _ _ g1 x hx
    rw [Routes.queryParameters_relabel, hno, hno]
    simp only [List.map_append, Labels.bare, List.append_nil, List.map_nil] at this ⊢
    exact ((List.nodup_append.1 (List.nodup_append.1 (List.nodup_append.1 this).1).1).1))
  refine ⟨body', h', fun W path m => ?_⟩
  obtain ⟨d, h1, h2, -⟩ := C76_labels (W := W) .bare h h' path m
  rw [h1, h2]
  cases d with
  | found res query caps =>
    simp only [Verdict.relabel, Verdict.outcome, hno]
    cases hr : res.isRedirect <;> simp [Outcome.bare, Labels.bare, hr]
  | _ => rfl

/-! ## Demonstrations -/

open Demo

/-- Every target becomes a redirect to `moved::Here`. -/
def moving : List Str → Str → Bool → List Str × Str × Bool := fun _ _ _ => ([c!"moved"], c!"Here", true)

example : Supported people (bodyOf people) ∧
    Supported (people.relabel (.actions moving)) (bodyOf (people.relabel (.actions moving))) ∧
    ask people c!"/people/7/edit" c!"GET" = .route [c!"people"] c!"Edit" [(c!"id", c!"7")] [c!"lang", c!"verbose", c!"tab"] ∧
    ask (people.relabel (.actions moving)) c!"/people/7/edit" c!"GET" =
      .redirect [c!"moved"] c!"Here" [(c!"id", c!"7")] [c!"lang", c!"verbose", c!"tab"] :=
  ⟨people_supported, supported_of (by decide +kernel), by decide +kernel, by decide +kernel⟩

example : Supported (people.relabel .bare) (bodyOf (people.relabel .bare)) ∧
    ask (people.relabel .bare) c!"/people/7/edit" c!"GET" = .route [c!"people"] c!"Edit" [(c!"id", c!"7")] [] :=
  ⟨supported_of (by decide +kernel), by decide +kernel⟩

/-- Every query parameter of a block is called `id`. -/
def Labels.clash : Labels where
  res x := x
  query p := [{ p with name := c!"id" }]
  verb _ := rfl

/-- **C76, the clash.** The condition on the fields is needed: a query parameter renamed to a path parameter below it is not accepted. -/
theorem C76_supported_false : Supported people (bodyOf people) ∧ ¬ ∃ body', Supported (people.relabel .clash) body' := by
  refine ⟨people_supported, fun hs => ?_⟩
  have h := (C76_supported .clash people_supported).1 hs
  have hl : LiveRoute (people.relabel .clash) [.static c!"people", .dynamic ⟨c!"id", c!"u32"⟩] _ _ :=
    .static (by simp [people, Routes.relabel, relabelL, NestedRoutes.relabel, Routes.routes]; rfl)
      (.dynamic (by simp [Routes.relabel, relabelL, NestedRoutes.relabel, Routes.routes]; rfl) (by decide) (.here _))
  have := h _ _ _ hl (res .get c!"people" c!"Show") (by simp [Routes.relabel, Routes.resources, Labels.clash])
  revert this
  decide

end Wayfinder
