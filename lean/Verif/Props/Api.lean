import Verif.Spec.Api
import Verif.Props.Accept
/-!
# C78: what becomes of the declarations when a configuration grows

The structs and enums of the emitted file are the interface that an application is written against.
-/

namespace Wayfinder

/-- An action that is added is the only thing that changes: what was declared is declared. -/
theorem Grows.hasRoute {r node : Routes} {segs : List PathSegment} {above : List Param} (h : HasRoute r segs above node) :
    ∀ {r' : Routes}, Grows r r' → ∃ node', HasRoute r' segs above node' ∧ Grows node node' := by
  induction h with
  | here r => intro r' hg; exact ⟨r', .here _, hg⟩
  | @child r node seg sub segs query hn _ ih =>
    intro r' hg
    cases hg with
    | @mk rs rs' ns ns' qs _ hl =>
      have key : ∀ {ns ns'}, GrowsL ns ns' → NestedRoutes.mk seg sub ∈ ns → ∃ sub', Grows sub sub' ∧ NestedRoutes.mk seg sub' ∈ ns' := by
        clear hn hl
        intro ns ns' hl
        induction ns' generalizing ns with
        | nil => cases hl; intro hn; cases hn
        | cons n' ns' ihn =>
          cases hl with
          | added _ hl =>
            intro hn
            obtain ⟨sub', g1, g2⟩ := ihn hl hn
            exact ⟨sub', g1, by simp [g2]⟩
          | kept seg' hg hl =>
            intro hn
            rcases List.mem_cons.1 hn with h | h
            · cases h
              exact ⟨_, hg, by simp⟩
            · obtain ⟨sub', g1, g2⟩ := ihn hl h
              exact ⟨sub', g1, by simp [g2]⟩
      obtain ⟨sub', g1, g2⟩ := key hl hn
      obtain ⟨node', g3, g4⟩ := ih g1
      exact ⟨node', .child (r := .mk rs' ns' qs) g2 g3, g4⟩

theorem Grows.declares {r r' : Routes} (hg : Grows r r') {segs : List PathSegment} {query : List Param} {res : Resource}
    (h : Declares r segs query res) : Declares r' segs query res := by
  obtain ⟨node, above, h1, h2, rfl⟩ := h
  obtain ⟨node', g1, g2⟩ := Grows.hasRoute h1 hg
  cases g2 with
  | mk qs hs _ => exact ⟨_, above, g1, hs.subset h2, rfl⟩

namespace Rust

/-- The two configurations declare the same actions, in the sense of `Action`, at the same routes. -/
def SameActions (r r' : Routes) : Prop :=
  ∀ segs query res, res.isRedirect = false → (Declares r segs query res ↔ Declares r' segs query res)

theorem modulesRoot_same {r r' : Routes} {root root' : FlattenedModule} (h : modulesRoot r = some root)
    (h' : modulesRoot r' = some root') (hs : SameActions r r') : root = root' := by
  obtain ⟨h1, h2, -⟩ := modulesRoot_spec h
  obtain ⟨h1', h2', -⟩ := modulesRoot_spec h'
  refine h1.ext h1' (h2.trans h2'.symm) fun mods a => ?_
  rw [C24_actions h, C24_actions h']
  constructor
  · rintro ⟨segs, q, res, g1, g2, g3⟩
    exact ⟨segs, q, res, (hs _ _ _ g2).1 g1, g2, g3⟩
  · rintro ⟨segs, q, res, g1, g2, g3⟩
    exact ⟨segs, q, res, (hs _ _ _ g2).2 g1, g2, g3⟩

variable {c c' : RouteConfig} {m m' : Mod} {b b' : List Stmt}

/-- **C78, kept.** When a configuration grows, every struct of the emitted file is found in the new file at the same place, with the same
fields and the same `to_path`; and every enum has its variants again. -/
theorem C78_kept (h : Ready c) (h' : Ready c') (hg : Grows c.routes c'.routes)
    (e : readText (headerToks c.headers) (codegen c).text = some (m, b))
    (e' : readText (headerToks c'.headers) (codegen c').text = some (m', b')) {p : List Str} {sub : Mod} (hp : m.at p = some sub) :
    ∃ sub', m'.at p = some sub' ∧ (∀ s ∈ sub.structs, sub'.struct s.name = some s) ∧ ∀ v ∈ sub.variants, v ∈ sub'.variants := by
  obtain ⟨root, body, hr, hb, -⟩ := codegen_text h.generated
  obtain ⟨root', body', hr', hb', -⟩ := codegen_text h'.generated
  obtain ⟨-, rfl, hok, -⟩ := readText_some h.legible hr hb e
  obtain ⟨-, rfl, hok', -⟩ := readText_some h'.legible hr' hb' e'
  have hgood := modGood_of hok'
  have hnames := (ok_iff_clear hr' h'.braces).1 hok'
  obtain ⟨mods, node, hn, rfl, rfl⟩ := at_some hp
  have hact : ∀ {mods a}, HasAction root mods a → HasAction root' mods a := fun {mods a} ha => by
    obtain ⟨segs, q, res, g1, g2⟩ := (C24_actions hr mods a).1 ha
    exact (C24_actions hr' mods a).2 ⟨segs, q, res, hg.declares g1, g2⟩
  have hmod : ∃ node', HasModule root' mods node' := by
    by_cases hm : mods = []
    · exact ⟨root', hm ▸ .here _⟩
    · obtain ⟨mods', a, ha⟩ := C24_no_empty hr hn hm
      obtain ⟨node', g1, -⟩ := hasModule_of (hact ha)
      exact ⟨node', g1⟩
  obtain ⟨node', hn'⟩ := hmod
  have hat := at_modules (fun mods' node' hn' => by
    have := (C24_once hr' hn').2
    rw [nodup_map_key toSnakeCase this]
    exact (local_of_clear hr' hnames hn').snakes) hn'
  refine ⟨modOf node', hat, fun s hs => ?_, fun v hv => ?_⟩
  · have : ∃ a ∈ node.actions, s = structOf a := by
      obtain ⟨name, actions, modules⟩ := node
      simp only [modOf, Mod.structs, List.mem_map] at hs
      obtain ⟨a, ha, rfl⟩ := hs
      exact ⟨a, ha, rfl⟩
    obtain ⟨a, ha, rfl⟩ := this
    have ha' := hact (by simpa using hn.action (hasAction_nil.2 ha))
    obtain ⟨sub, -, -, g3, g4, -⟩ := struct_found hgood ha'
    rw [show snakes mods = mods.map toSnakeCase from rfl, hat] at g3
    rw [Option.some.inj g3]
    exact g4
  · have hv1 : (∃ a ∈ node.actions, (toCapsCase a.name, [toCapsCase a.name]) = v) ∨
        ∃ a ∈ node.modules, (toCapsCase a.name, [toSnakeCase a.name, c!"Route"]) = v := by
      obtain ⟨name, actions, modules⟩ := node
      simpa only [modOf, Mod.variants, variantsOf, List.mem_append, List.mem_map, FlattenedModule.actions, FlattenedModule.modules] using hv
    have hv2 : (∃ a ∈ node'.actions, (toCapsCase a.name, [toCapsCase a.name]) = v) ∨
        (∃ a ∈ node'.modules, (toCapsCase a.name, [toSnakeCase a.name, c!"Route"]) = v) → v ∈ (modOf node').variants := by
      obtain ⟨name, actions, modules⟩ := node'
      simp only [modOf, Mod.variants, variantsOf, List.mem_append, List.mem_map, FlattenedModule.actions, FlattenedModule.modules]
      exact id
    apply hv2
    rcases hv1 with ⟨a, ha, rfl⟩ | ⟨s, hs, rfl⟩
    · have ha' := hact (by simpa using hn.action (hasAction_nil.2 ha))
      obtain ⟨node2, g1, g2⟩ := hasModule_of (rest := []) (by simpa using ha')
      obtain rfl := hasModule_unique hn' (modulesRoot_spec hr').1 g1
      exact .inl ⟨a, hasAction_nil.1 g2, rfl⟩
    · have hsub := (submodule_iff hr hn).2 ⟨s, hs, rfl⟩
      obtain ⟨rest, y, params, query, segs, above, res, g1, g2, g3⟩ := hsub
      obtain ⟨s', hs', hx⟩ := (submodule_iff hr' hn').1 ⟨rest, y, params, query, segs, above, res, hg.declares g1, g2, g3⟩
      exact .inr ⟨s', hs', by rw [hx]⟩

/-- **C78, added.** What the new file declares beyond the old one belongs to actions that were added. -/
theorem C78_added (h : Ready c) (h' : Ready c')
    (e : readText (headerToks c.headers) (codegen c).text = some (m, b))
    (e' : readText (headerToks c'.headers) (codegen c').text = some (m', b')) {p : List Str} {sub' : Mod} (hp : m'.at p = some sub')
    {s : Struct} (hs : s ∈ sub'.structs) : (∃ sub, m.at p = some sub ∧ sub.struct s.name = some s) ∨
      ∃ segs query res, Declares c'.routes segs query res ∧ ¬ Declares c.routes segs query res ∧ res.isRedirect = false ∧
        p = res.modules.map toSnakeCase ∧ s.name = toCapsCase res.name ∧
        s.fields = fieldsOf (routeParams segs) (query ++ res.queryParameters) := by
  obtain ⟨root, body, hr, hb, -⟩ := codegen_text h.generated
  obtain ⟨root', body', hr', hb', -⟩ := codegen_text h'.generated
  obtain ⟨-, rfl, hok, -⟩ := readText_some h.legible hr hb e
  obtain ⟨-, rfl, hok', -⟩ := readText_some h'.legible hr' hb' e'
  obtain ⟨mods, node, hn, rfl, rfl⟩ := at_some hp
  have : ∃ a ∈ node.actions, s = structOf a := by
    obtain ⟨name, actions, modules⟩ := node
    simp only [modOf, Mod.structs, List.mem_map] at hs
    obtain ⟨a, ha, rfl⟩ := hs
    exact ⟨a, ha, rfl⟩
  obtain ⟨a, ha, rfl⟩ := this
  have hdecl := (C24_actions hr' mods a).1 (by simpa using hn.action (hasAction_nil.2 ha))
  obtain ⟨segs, q, res, g1, g2, rfl, rfl⟩ := hdecl
  by_cases hd : Declares c.routes segs q res
  · obtain ⟨sub, -, -, g3, g4, -⟩ := struct_found (modGood_of hok) ((C24_actions hr res.modules _).2 ⟨segs, q, res, hd, g2, rfl, rfl⟩)
    exact .inl ⟨_, g3, g4⟩
  · exact .inr ⟨segs, q, res, g1, hd, g2, rfl, rfl, rfl⟩

/-- **C78, the same actions.** If two configurations have the same headers and the same actions at the same places, the text of the
declarations is the same: what is emitted differs in the documentation of the configuration and in `match_route` only. So redirects and
blocks without resources have no influence on the declarations, nor has the order. -/
theorem C78_same (hg : (codegen c).fail = none) (hg' : (codegen c').fail = none) (hh : c.headers = c'.headers)
    (hs : SameActions c.routes c'.routes) : ∃ decls doc doc' code code' body body', matcherBody c.routes = .ok body ∧
      matcherBody c'.routes = .ok body' ∧ code = renderBlock 2 body ∧ code' = renderBlock 2 body' ∧
      doc = (configComment c.routes).text ∧ doc' = (configComment c'.routes).text ∧
      (codegen c).text = prelude1 ++ doc ++ prelude2 ++ decls ++ c!"\n" ++ fixedPart ++ code ++ postlude ∧
      (codegen c').text = prelude1 ++ doc' ++ prelude2 ++ decls ++ c!"\n" ++ fixedPart ++ code' ++ postlude := by
  obtain ⟨root, body, hr, hb, e⟩ := codegen_text hg
  obtain ⟨root', body', hr', hb', e'⟩ := codegen_text hg'
  obtain rfl := modulesRoot_same hr hr' hs
  exact ⟨renderModule c.headers 1 root, _, _, _, _, body, body', hb, hb', rfl, rfl, rfl, rfl, by rw [e]; simp only [List.append_assoc],
    by rw [e', hh]; simp only [List.append_assoc]⟩

end Rust
end Wayfinder

namespace Wayfinder.Demo
open Rust

/-- The application with an archive, and a further resource in its block of lists. -/
def grown : Routes :=
  match people with
  | .mk rs (.mk seg (.mk rs1 ns1 qs1) :: ns) qs =>
    .mk rs (.mk (.static c!"archive") (.mk [res .get c!"archive" c!"Index"] [] []) ::
      .mk seg (.mk (rs1 ++ [res .delete c!"people" c!"Clear"]) ns1 qs1) :: ns) qs
  | r => r

theorem grown_grows : Grows people grown :=
  have refl : ∀ r, Grows r r := fun r => by
    induction r using Routes.ind with
    | h rs ns qs ih =>
      refine .mk qs (List.Sublist.refl _) ?_
      induction ns with
      | nil => exact .nil
      | cons n ns ihn =>
        obtain ⟨seg, r⟩ := n
        exact .kept seg (ih (.mk seg r) (by simp)) (ihn fun n hn => ih n (by simp [hn]))
  have reflL : ∀ ns, GrowsL ns ns := fun ns => by
    induction ns with
    | nil => exact .nil
    | cons n ns ihn =>
      obtain ⟨seg, r⟩ := n
      exact .kept seg (refl r) ihn
  .mk _ (List.Sublist.refl _) (.added _ (.kept _ (.mk _ (List.sublist_append_left _ _) (reflL _)) (reflL _)))

/-- The hypotheses are met, and `people::Show` is found in both files. -/
example : Ready (conf people) ∧ Ready (conf grown) ∧ Grows (conf people).routes (conf grown).routes ∧
    (∃ m b, readText (headerToks (conf people).headers) (codegen (conf people)).text = some (m, b)) ∧
    ∃ m b, readText (headerToks (conf grown).headers) (codegen (conf grown)).text = some (m, b) :=
  ⟨ready_of (by decide +kernel), ready_of (by decide +kernel), grown_grows,
    (let ⟨_, _, e⟩ := people_clean.read people_supported; ⟨_, _, e⟩),
    (let ⟨_, _, e⟩ := (clean_of (c := conf grown) (by decide +kernel)).read (supported_of (by decide +kernel)); ⟨_, _, e⟩)⟩

/-- The application with the blocks of the old address removed and an empty block in its place. -/
def trimmed : Routes :=
  match people with
  | .mk rs ns qs => .mk rs (.mk (.static c!"soon") (.mk [] [] []) :: ns.take 1) qs

/-- One action. -/
def single : Routes := .mk [res .get c!"x" c!"A"] [] []

/-- The same with a query parameter for the block. -/
def singleQuery : Routes := .mk [res .get c!"x" c!"A"] [] [⟨c!"tab", c!"String"⟩]

theorem single_clean : Clean (conf single) := clean_of (by decide +kernel)

end Wayfinder.Demo

namespace Wayfinder.Rust

/-- Check that the same actions are declared. -/
theorem sameActions_of {r r' : Routes}
    (h : ((declared r).filter (fun d => !d.2.2.isRedirect)).all (fun d => decide (d ∈ declared r')) = true ∧
      ((declared r').filter (fun d => !d.2.2.isRedirect)).all (fun d => decide (d ∈ declared r)) = true) : SameActions r r' := by
  simp only [List.all_eq_true, List.mem_filter, Bool.not_eq_true', decide_eq_true_eq, and_imp] at h
  intro segs query res hr
  simp only [← mem_declared]
  exact ⟨fun hd => h.1 _ hd hr, fun hd => h.2 _ hd hr⟩

/-- Without its redirect, and with an empty block, the example declares the same actions (and generates code). -/
example : SameActions Demo.people Demo.trimmed ∧ (codegen (Demo.conf Demo.people)).fail = none ∧
    (codegen (Demo.conf Demo.trimmed)).fail = none ∧ (Demo.conf Demo.people).headers = (Demo.conf Demo.trimmed).headers := by
  refine ⟨sameActions_of (by decide +kernel), Demo.people_clean.generated, by decide +kernel, rfl⟩

/-- **C78, not for query parameters.** A query parameter that is added to a block is a further field of the structs below: the struct
that was there is not found any more. -/
theorem C78_query_false : ∃ m b m' b' sub sub' s s',
    readText (headerToks (Demo.conf Demo.single).headers) (codegen (Demo.conf Demo.single)).text = some (m, b) ∧
    readText (headerToks (Demo.conf Demo.singleQuery).headers) (codegen (Demo.conf Demo.singleQuery)).text = some (m', b') ∧
    m.at [c!"x"] = some sub ∧ m'.at [c!"x"] = some sub' ∧ sub.struct c!"A" = some s ∧ sub'.struct c!"A" = some s' ∧
    s.fields = [] ∧ s'.fields ≠ [] := by
  obtain ⟨m, b, e, h, -⟩ := C44_structs Demo.single_clean (body := bodyOf Demo.single) (supported_of (by decide +kernel))
  obtain ⟨m', b', e', h', -⟩ := C44_structs (c := Demo.conf Demo.singleQuery) (clean_of (by decide +kernel))
    (body := bodyOf Demo.singleQuery) (supported_of (by decide +kernel))
  obtain ⟨sub, s, g1, g2, g3⟩ := h [c!"x"] c!"A" [] [] ⟨[], [], Demo.res .get c!"x" c!"A",
    ⟨_, _, .here _, by simp [Demo.conf, Demo.single, Routes.resources], rfl⟩, rfl, rfl, rfl, rfl, rfl⟩
  obtain ⟨sub', s', g1', g2', g3'⟩ := h' [c!"x"] c!"A" [] [⟨c!"tab", c!"String"⟩] ⟨[], [⟨c!"tab", c!"String"⟩], Demo.res .get c!"x" c!"A",
    ⟨_, _, .here _, by simp [Demo.conf, Demo.singleQuery, Routes.resources], rfl⟩, rfl, rfl, rfl, rfl, rfl⟩
  exact ⟨m, b, m', b', sub, sub', s, s', e, e', g1, g1', g2, g2', by rw [g3]; decide, by rw [g3']; decide⟩

/-- **C78, the name is taken.** A configuration can grow into one whose file is rejected, and into one for which no code is generated: the
hypotheses about the new configuration are needed. -/
theorem C78_taken_false : ∃ r r' r'' : Routes, Grows r r' ∧ Grows r r'' ∧ Ready (Demo.conf r) ∧
    (∃ m b, readText (headerToks (Demo.conf r).headers) (codegen (Demo.conf r)).text = some (m, b)) ∧ Ready (Demo.conf r') ∧
    readText (headerToks (Demo.conf r').headers) (codegen (Demo.conf r')).text = none ∧
    (codegen (Demo.conf r'')).fail = some .duplicateAction := by
  have hr : Clean (Demo.conf (Demo.flat [([c!"people"], c!"show")])) := clean_of (by decide +kernel)
  refine ⟨Demo.flat [([c!"people"], c!"show")], Demo.flat [([c!"people"], c!"show"), ([c!"people"], c!"Show")],
    Demo.flat [([c!"people"], c!"show"), ([c!"people"], c!"show")],
    .mk _ (List.Sublist.refl _) (.kept _ (.mk _ (List.Sublist.refl _) .nil) (.added _ .nil)),
    .mk _ (List.Sublist.refl _) (.kept _ (.mk _ (List.Sublist.refl _) .nil) (.added _ .nil)),
    Demo.ready_of (by decide +kernel),
    (let ⟨_, _, e⟩ := hr.read (body := bodyOf _) (supported_of (by decide +kernel)); ⟨_, _, e⟩),
    Demo.ready_of (by decide +kernel), ?_, by decide +kernel⟩
  obtain ⟨_, _, _, _, _, _, _, _, _, h⟩ :=
    C43_clashes (Demo.flat [([c!"people"], c!"show"), ([c!"people"], c!"Show")]) (by simp [Demo.clashes])
  exact h

end Wayfinder.Rust
