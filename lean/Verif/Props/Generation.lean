import Verif.Proofs.Modules
import Verif.Proofs.Total
import Verif.Proofs.Naming
import Verif.Props.Order
/-!
# Code generation: when it succeeds, and what the module tree contains

C20–C25, and the module part of C18.
-/

namespace Wayfinder

/-! ## C20 and C21 -/

theorem commentLines_append (a b : Str) : commentLines (a ++ b) = commentLines a ++ commentLines b := by
  simp [commentLines]

theorem commentLines_newline (s : Str) : 9 ≤ (commentLines (s ++ c!"\n")).length := by
  rw [commentLines_append, List.length_append]
  have : (commentLines c!"\n").length = 9 := by decide
  omega

theorem Resource.stringify_newline (x : Resource) (level : Nat) : ∃ s, x.stringify level = s ++ c!"\n" :=
  ⟨_, rfl⟩

theorem stringify_ends : ∀ (r : Routes) (level : Nat), r.stringify level = [] ∨
    ∃ s, r.stringify level = s ++ c!"\n" := by
  intro r
  induction r using Routes.ind with
  | h rs ns qs ih =>
    intro level
    have hlast : ∀ (l : List Str), (∀ x ∈ l, x = [] ∨ ∃ s, x = s ++ c!"\n") →
        l.flatten = [] ∨ ∃ s, l.flatten = s ++ c!"\n" := by
      intro l
      induction l with
      | nil => intro _; exact .inl rfl
      | cons a l ihl =>
        intro h
        rcases ihl (fun x hx => h x (by simp [hx])) with h1 | ⟨s, h1⟩
        · rcases h a (by simp) with h2 | ⟨s, h2⟩
          · left; simp [h1, h2]
          · right; exact ⟨s, by simp [h1, h2]⟩
        · right; exact ⟨a ++ s, by simp [h1]⟩
    have hn : ∀ (ns : List NestedRoutes), (∀ n ∈ ns, ∀ level, n.routes.stringify level = [] ∨
        ∃ s, n.routes.stringify level = s ++ c!"\n") →
        stringifyNested ns level = [] ∨ ∃ s, stringifyNested ns level = s ++ c!"\n" := by
      intro ns
      induction ns with
      | nil => intro _; left; rfl
      | cons n ns ihn =>
        intro h
        obtain ⟨seg, sub⟩ := n
        simp only [stringifyNested, NestedRoutes.stringify]
        rcases ihn (fun x hx => h x (by simp [hx])) with h1 | ⟨s, h1⟩
        · rcases h (.mk seg sub) (by simp) (level + 1) with h2 | ⟨s, h2⟩
          · simp only [NestedRoutes.routes_mk] at h2
            right; exact ⟨indent level ++ seg.stringify, by simp [h1, h2]⟩
          · simp only [NestedRoutes.routes_mk] at h2
            right; exact ⟨indent level ++ seg.stringify ++ c!"\n" ++ s, by simp [h1, h2]⟩
        · right; exact ⟨_, by rw [h1, ← List.append_assoc]⟩
    simp only [Routes.stringify]
    rcases hn ns ih with h1 | ⟨s, h1⟩
    · rcases hlast (rs.map fun r => r.stringify level) (by
        intro x hx
        obtain ⟨y, _, rfl⟩ := List.mem_map.1 hx
        exact .inr (y.stringify_newline level)) with h2 | ⟨s, h2⟩
      · rcases hlast (qs.map fun param => indent level ++ c!"[" ++ param.display ++ c!"]\n") (by
          intro x hx
          obtain ⟨y, _, rfl⟩ := List.mem_map.1 hx
          exact .inr ⟨indent level ++ c!"[" ++ y.display ++ c!"]", by simp⟩) with h3 | ⟨s, h3⟩
        · left; simp only [stringifyResources, stringifyParams, h1, h2, h3, List.append_nil]
        · right; exact ⟨s, by simp only [stringifyResources, stringifyParams, h1, h2, h3, List.append_nil]⟩
      · right; exact ⟨stringifyParams qs level ++ s, by simp [stringifyResources, h1, h2]⟩
    · right; exact ⟨_, by rw [h1, ← List.append_assoc]⟩

theorem stringify_eq_nil {r : Routes} {level : Nat} : r.stringify level = [] ↔ r = .mk [] [] [] := by
  obtain ⟨rs, ns, qs⟩ := r
  constructor
  · intro h
    simp only [Routes.stringify, List.append_eq_nil_iff] at h
    obtain ⟨⟨h1, h2⟩, h3⟩ := h
    have e1 : qs = [] := by
      cases qs with
      | nil => rfl
      | cons p qs => simp [stringifyParams] at h1
    have e2 : rs = [] := by
      cases rs with
      | nil => rfl
      | cons x rs =>
        obtain ⟨s, hs⟩ := x.stringify_newline level
        simp [stringifyResources, hs] at h2
    have e3 : ns = [] := by
      cases ns with
      | nil => rfl
      | cons n ns =>
        obtain ⟨seg, sub⟩ := n
        simp [stringifyNested, NestedRoutes.stringify] at h3
    rw [e1, e2, e3]
  · intro h; cases h; rfl

/-- The doc comment can be written exactly if the configuration is not empty. -/
theorem configComment_fail (r : Routes) :
    (configComment r).fail = if (r.stringify 1).isEmpty then some .emptyConfig else none := by
  simp only [configComment]
  rcases stringify_ends r 1 with h | ⟨s, h⟩
  · rw [h]; rfl
  · have h9 := commentLines_newline s
    rw [h, if_neg (by omega), if_neg (by simp)]
    rfl

theorem Out.andThen_fail (a b : Out) : (a.andThen b).fail = match a.fail with
    | some e => some e
    | none => b.fail := by
  unfold Out.andThen
  split
  · rename_i h; simp [h]
  · rename_i h; simp [h]

/-- The way in which `codegen` fails, if it does. -/
theorem codegen_fail (c : RouteConfig) (s : Bool) (hs : s = true ↔ DistinctSiblings c.routes)
    (a : Bool) (ha : a = true ↔ DistinctActions c.routes) (e : Bool)
    (he : e = true ↔ c.routes = .mk [] [] []) :
    (codegen c).fail = if a = false then some .duplicateAction
      else if e = true then some .emptyConfig
      else if s = false then some .duplicatePath else none := by
  cases a with
  | false =>
    have : modulesRoot c.routes = none := by
      cases hm : flattenModules c.routes with
      | none => simp [modulesRoot, hm]
      | some m => exact absurd ((flattenModules_isSome _).1 ⟨m, hm⟩) (by rw [← ha]; simp)
    simp [codegen, this]
  | true =>
    obtain ⟨m, hm⟩ := (flattenModules_isSome c.routes).2 (ha.1 rfl)
    have hem : (c.routes.stringify 1).isEmpty = e := by
      rw [Bool.eq_iff_iff, List.isEmpty_iff, stringify_eq_nil, he]
    simp only [codegen, modulesRoot, hm, Option.map_some, codegenFrom, Out.andThen_fail, Out.write,
      configComment_fail, hem]
    cases e with
    | true => simp
    | false =>
      simp only [matcherText]
      cases s with
      | true =>
        obtain ⟨body, hb⟩ := matcherBody_total (hs.1 rfl)
        simp [hb, Out.write]
      | false =>
        have : ¬ DistinctSiblings c.routes := fun h => by have := hs.2 h; cases this
        simp [matcherBody_error this]

/-- **C20.** `codegen` completes exactly if no two siblings have the same segment (same static text or
same parameter name), no two non-redirect resources have the same module path and name, and the
configuration is not completely empty. -/
theorem C20_exact (c : RouteConfig) : (codegen c).fail = none ↔
    DistinctSiblings c.routes ∧ DistinctActions c.routes ∧ c.routes ≠ .mk [] [] [] := by
  classical
  rw [codegen_fail c (decide (DistinctSiblings c.routes)) (by simp) (decide (DistinctActions c.routes))
    (by simp) (decide (c.routes = .mk [] [] [])) (by simp)]
  rw [ne_eq]
  generalize (c.routes = Routes.mk [] [] []) = E
  by_cases h1 : DistinctActions c.routes <;> by_cases h2 : E <;>
    by_cases h3 : DistinctSiblings c.routes <;> simp [h1, h2, h3]

/-- **C20, causes.** Which of the three defects is reported: duplicate actions before an empty
configuration before duplicate siblings. -/
theorem C20_causes (c : RouteConfig) :
    ((codegen c).fail = some .duplicateAction ↔ ¬ DistinctActions c.routes) ∧
    ((codegen c).fail = some .emptyConfig ↔ c.routes = .mk [] [] []) ∧
    ((codegen c).fail = some .duplicatePath ↔ DistinctActions c.routes ∧ ¬ DistinctSiblings c.routes) := by
  classical
  have hempty : c.routes = .mk [] [] [] → DistinctActions c.routes ∧ DistinctSiblings c.routes := by
    intro h
    rw [h]
    refine ⟨by simp [DistinctActions, Routes.allResources, allResourcesL], ?_⟩
    intro segs q node hr
    cases hr with
    | here => simp
    | child hn _ => cases hn
  rw [codegen_fail c (decide (DistinctSiblings c.routes)) (by simp) (decide (DistinctActions c.routes))
    (by simp) (decide (c.routes = .mk [] [] [])) (by simp)]
  generalize (c.routes = Routes.mk [] [] []) = E at hempty
  by_cases h1 : DistinctActions c.routes <;> by_cases h2 : E <;>
    by_cases h3 : DistinctSiblings c.routes <;> simp [h1, h2, h3]
  all_goals first | exact h1 (hempty h2).1 | exact h3 (hempty h2).2

/-- **C21.** The generator's internal errors are unreachable: "must be followed by a separator", "there
must be a dynamic or we did something wrong" (and the recursion bound of the model). -/
theorem C21_internal (c : RouteConfig) : (codegen c).fail ≠ some .invalidInput ∧
    (codegen c).fail ≠ some .noDynamic ∧ (codegen c).fail ≠ some .fuel := by
  classical
  rw [codegen_fail c (decide (DistinctSiblings c.routes)) (by simp) (decide (DistinctActions c.routes))
    (by simp) (decide (c.routes = .mk [] [] [])) (by simp)]
  refine ⟨?_, ?_, ?_⟩ <;> (repeat' split) <;> simp

/-- The people application is generated; adding a second `people::Show` or a second `{id}` is not. -/
example : (codegen ⟨[], Demo.people⟩).fail = none ∧
    (codegen ⟨[], .mk [Demo.res .get c!"people" c!"Show"] Demo.people.routes []⟩).fail =
      some .duplicateAction ∧
    (codegen ⟨[], .mk [] [.mk (.dynamic ⟨c!"id", c!"u32"⟩) (.mk [Demo.res .get c!"a" c!"A"] [] []),
      .mk (.dynamic ⟨c!"id", c!"Uuid"⟩) (.mk [Demo.res .get c!"a" c!"B"] [] [])] []⟩).fail =
      some .duplicatePath ∧
    (codegen ⟨[⟨c!"use x;"⟩], .mk [] [] []⟩).fail = some .emptyConfig := by decide +kernel

/-! ## C22 -/

/-- **C22.** Whatever the order in which the hash maps are drained, and whatever correct algorithm sorts
the results, `codegen` writes the same text: there is only one possible module tree. -/
theorem C22_deterministic (c : RouteConfig) {m : Module} (hm : flattenModules c.routes = some m)
    {root : FlattenedModule} (hf : Finalizes m c!"routes" root) : codegenFrom root c = codegen c := by
  obtain ⟨hw, _⟩ := (flattenModules_spec c.routes).2 m hm
  have hf' := finalize_finalizes m c!"routes"
  obtain ⟨h1, h2⟩ := finalizes_spec hw hf
  obtain ⟨h3, h4⟩ := finalizes_spec hw hf'
  have : root = m.finalize c!"routes" := h1.ext h3
    ((finalizes_name hf).trans (finalizes_name hf').symm) fun mods a => by rw [h2, h4]
  simp [codegen, modulesRoot, hm, this]

/-- Two hash-map orders of one table, with the same result after sorting. -/
example : ∃ m root, flattenModules Demo.people = some m ∧ Finalizes m c!"routes" root ∧
    m.modules.map Prod.fst = [c!"home", c!"people"] ∧
    (m.modules.flatMap fun x => x.2.actions.map Prod.fst) =
      [c!"Index", c!"List", c!"Create", c!"Late", c!"New", c!"Show", c!"Edit"] ∧
    (root.modules.flatMap fun x => x.actions.map FlattenedAction.name) =
      [c!"Index", c!"Create", c!"Edit", c!"Late", c!"List", c!"New", c!"Show"] :=
  ⟨_, _, rfl, finalize_finalizes _ _, by decide +kernel, by decide +kernel, by decide +kernel⟩

/-! ## C24 and C25 -/

theorem Proper.strict {m : FlattenedModule} (h : Proper m) :
    StrictBy FlattenedAction.name m.actions ∧ StrictBy FlattenedModule.name m.modules := by
  cases h with | mk h1 h2 _ _ => exact ⟨h1, h2⟩

theorem Proper.sub {m : FlattenedModule} (h : Proper m) {s : FlattenedModule} (hs : s ∈ m.modules) :
    Proper s := by
  cases h with | mk _ _ h3 _ => exact h3 s hs

/-- The module reached from `m` along `mods`. -/
inductive HasModule : FlattenedModule → List Str → FlattenedModule → Prop where
  | here (m : FlattenedModule) : HasModule m [] m
  | inside {m sub node : FlattenedModule} {mods : List Str} :
      sub ∈ m.modules → HasModule sub mods node → HasModule m (sub.name :: mods) node

/-- **C24.** The actions of the emitted module tree are exactly the non-redirect resources of the
configuration, each in the module of its path, with its verb, route, path parameters and query
parameters. -/
theorem C24_actions {r : Routes} {root : FlattenedModule} (h : modulesRoot r = some root)
    (mods : List Str) (a : FlattenedAction) : HasAction root mods a ↔
      ∃ segs query res, Declares r segs query res ∧ res.isRedirect = false ∧ mods = res.modules ∧
        a = { name := res.name, method := res.method, path := segs,
              routeParameters := routeParams segs,
              queryParameters := query ++ res.queryParameters } := by
  rw [(modulesRoot_spec h).2.2, mem_entries]
  simp only [dynamics_eq_routeParams]

/-- **C24, once.** In every module of the tree the names of actions are distinct, and so are the names
of submodules; so every action is declared exactly once. -/
theorem C24_once {r : Routes} {root : FlattenedModule} (h : modulesRoot r = some root)
    {mods : List Str} {node : FlattenedModule} (hn : HasModule root mods node) :
    (node.actions.map FlattenedAction.name).Nodup ∧ (node.modules.map FlattenedModule.name).Nodup := by
  have hp : Proper node := by
    have := (modulesRoot_spec h).1
    clear h
    induction hn with
    | here => exact this
    | inside hs _ ih => exact ih (this.sub hs)
  have hnd : ∀ {α : Type} {key : α → Str} {l : List α}, StrictBy key l → (l.map key).Nodup := by
    intro α key l hl
    rw [List.Nodup, List.pairwise_map]
    exact hl.imp fun hab => Str.orderCmp.ne_of_lt hab
  exact ⟨hnd hp.strict.1, hnd hp.strict.2⟩

/-- No module is empty. -/
theorem C24_no_empty {r : Routes} {root : FlattenedModule} (h : modulesRoot r = some root)
    {mods : List Str} {node : FlattenedModule} (hn : HasModule root mods node) (hne : mods ≠ []) :
    ∃ mods' a, HasAction root (mods ++ mods') a := by
  have hp := (modulesRoot_spec h).1
  clear h
  induction hn with
  | here => exact absurd rfl hne
  | @inside m sub node mods hs hn ih =>
    cases hp with
    | mk h1 h2 h3 h4 =>
      by_cases hm : mods = []
      · obtain ⟨mods', a, ha⟩ := h4 sub hs
        exact ⟨mods', a, by rw [hm]; exact .inside hs ha⟩
      · obtain ⟨mods', a, ha⟩ := ih hm (h3 sub hs)
        exact ⟨mods', a, .inside hs ha⟩

theorem chain_query {r node : Routes} {segs : List PathSegment} {above : List Param}
    (h : HasRoute r segs above node) : ∃ blocks, Chain r segs blocks ∧
      blocks.getLast? = some node ∧ blocks.flatMap Routes.queryParameters = above ++ node.queryParameters := by
  induction h with
  | here r => exact ⟨[r], .here r, rfl, by simp⟩
  | child hn _ ih =>
    obtain ⟨blocks, h1, h2, h3⟩ := ih
    refine ⟨_ :: blocks, .child hn h1, ?_, ?_⟩
    · cases h1 <;> simpa [List.getLast?_cons] using h2
    · rw [List.flatMap_cons, h3, List.append_assoc]

/-- **C25.** The query parameters of an action are those of the enclosing blocks from the root down,
followed by those of the resource itself, in declaration order. -/
theorem C25_inherited {r : Routes} {root : FlattenedModule} (h : modulesRoot r = some root)
    {mods : List Str} {a : FlattenedAction} (ha : HasAction root mods a) :
    ∃ blocks node res, Chain r a.path blocks ∧ blocks.getLast? = some node ∧ res ∈ node.resources ∧
      res.name = a.name ∧ res.modules = mods ∧
      a.queryParameters = blocks.flatMap Routes.queryParameters ++ res.queryParameters := by
  obtain ⟨segs, query, res, ⟨node, above, hr, hres, rfl⟩, hred, rfl, rfl⟩ := (C24_actions h _ _).1 ha
  obtain ⟨blocks, h1, h2, h3⟩ := chain_query hr
  exact ⟨blocks, node, res, h1, h2, hres, rfl, rfl, by rw [h3]⟩

/-- The action `people::Edit` three levels down. -/
example : ∃ root, modulesRoot Demo.people = some root ∧
    HasAction root [c!"people"] ⟨c!"Edit", .get,
      [.static c!"people", .dynamic ⟨c!"id", c!"u32"⟩, .static c!"edit"], [⟨c!"id", c!"u32"⟩],
      [⟨c!"lang", c!"String"⟩, ⟨c!"verbose", c!"bool"⟩, ⟨c!"tab", c!"String"⟩]⟩ := by
  obtain ⟨m, hm⟩ := (flattenModules_isSome Demo.people).2 (by unfold DistinctActions; decide +kernel)
  have hroot : modulesRoot Demo.people = some (m.finalize c!"routes") := by simp [modulesRoot, hm]
  refine ⟨_, hroot, (modulesRoot_spec hroot).2.2 _ _ |>.2 ?_⟩
  decide +kernel

/-! ## C18, the module tree -/

/-- **C18, modules.** Reordering siblings does not change the emitted modules either. -/
theorem C18_modules {r r' : Routes} (h : Reordered r r') : modulesRoot r = modulesRoot r' := by
  have hp : r.entries.Perm r'.entries := (reordered_flatten h [] []).flatMap_right _
  have hsome : (∃ m, flattenModules r = some m) ↔ ∃ m, flattenModules r' = some m := by
    rw [(flattenModules_spec r).1, (flattenModules_spec r').1, (hp.map entryKey).nodup_iff]
  cases hm : flattenModules r with
  | none =>
    cases hm' : flattenModules r' with
    | none => simp [modulesRoot, hm, hm']
    | some m' => obtain ⟨m, h⟩ := hsome.2 ⟨m', hm'⟩; rw [hm] at h; cases h
  | some m =>
    obtain ⟨m', hm'⟩ := hsome.1 ⟨m, hm⟩
    have h1 : modulesRoot r = some (m.finalize c!"routes") := by simp [modulesRoot, hm]
    have h2 : modulesRoot r' = some (m'.finalize c!"routes") := by simp [modulesRoot, hm']
    rw [h1, h2]
    obtain ⟨p1, n1, a1⟩ := modulesRoot_spec h1
    obtain ⟨p2, n2, a2⟩ := modulesRoot_spec h2
    rw [p1.ext p2 (n1.trans n2.symm) fun mods a => by rw [a1, a2, hp.mem_iff]]

/-! ## C23 -/

theorem body_literal {r : Routes} {body : List Stmt} (h : matcherBody r = .ok body) {arm : MethodArm}
    (ha : arm ∈ blockLiterals body) : ∃ segs query res, Declares r segs query res ∧
      arm = { method := res.method, isRedirect := res.isRedirect, modules := res.modules,
              name := res.name, captures := routeParams segs,
              nones := (query ++ res.queryParameters).map Param.name } := by
  simp only [matcherBody] at h
  cases ht : toTrie r with
  | none => simp [ht] at h
  | some t =>
    simp only [ht] at h
    have hrep := toTrie_rep ht
    obtain ⟨ks, v, hv, hav⟩ := codegenTrie_literals _ t body hrep.1 h arm ha
    obtain ⟨hw, hg⟩ := (addAll_spec (flattenRoutes r [] []) Trie.new Trie.wf_new).2 t ht
    have hv' := (hg ks v).1 hv
    have hmem : v ∈ flattenRoutes r [] [] := by
      rcases hv' with h | h
      · simp [Trie.get_new] at h
      · exact h.1
    obtain ⟨segs, above, node, hr, rfl⟩ := (mem_flattenRoutes r [] [] v).1 hmem
    simp only [methodArms, List.mem_map] at hav
    obtain ⟨res, hres, rfl⟩ := hav
    exact ⟨segs, _, res, ⟨node, above, hr, hres, rfl⟩, by simp [dynamics_eq_routeParams]⟩

/-- **C23.** For every struct literal of a non-redirect resource in `match_route`, the module tree
declares an action with that module path and name, and its fields are exactly those of the literal in
the same order: the path parameters (captured, with the same types), then the query parameters
(`None`). -/
theorem C23_literals {r : Routes} {root : FlattenedModule} {body : List Stmt}
    (hr : modulesRoot r = some root) (hb : matcherBody r = .ok body) {arm : MethodArm}
    (ha : arm ∈ blockLiterals body) (hred : arm.isRedirect = false) :
    ∃ a, HasAction root arm.modules a ∧ a.name = arm.name ∧ a.method = arm.method ∧
      a.routeParameters = arm.captures ∧ a.queryParameters.map Param.name = arm.nones := by
  obtain ⟨segs, query, res, hd, rfl⟩ := body_literal hb ha
  exact ⟨_, (C24_actions hr _ _).2 ⟨segs, query, res, hd, hred, rfl, rfl⟩, rfl, rfl, rfl, rfl⟩

example : ∃ arm ∈ blockLiterals (bodyOf Demo.people), arm.isRedirect = false ∧
    arm.modules = [c!"people"] ∧ arm.name = c!"Edit" ∧ arm.captures = [⟨c!"id", c!"u32"⟩] ∧
    arm.nones = [c!"lang", c!"verbose", c!"tab"] := by decide +kernel

end Wayfinder
