import Verif.Proofs.Scope
import Verif.Props.MountFile
import Verif.Props.Manual
/-!
# The imports of headers and the types of parameters: C85
-/

namespace Wayfinder.Rust

theorem scopedAll_annotate (us : List Use) : ∀ ms : List FlattenedModule, scopedAll (annotateAll us (modsOf ms)) = true ↔
    ∀ s ∈ ms, (annotate us (modOf s)).ok false = true
  | [] => by simp [modsOf, annotateAll, scopedAll]
  | m :: ms => by simp [modsOf, annotateAll, scopedAll, scopedAll_annotate us ms]

theorem scoped_iff {us : List Use} {root : Bool} {m : FlattenedModule} : (annotate us (modOf m)).ok root = true ↔
    scopeOk root us (modOf m) = true ∧ ∀ s ∈ m.modules, (annotate us (modOf s)).ok false = true := by
  obtain ⟨name, actions, modules⟩ := m
  simp only [modOf, annotate, Scoped.ok, Bool.and_eq_true, itemsAll_annotate, scopedAll_annotate, FlattenedModule.modules]

theorem scoped_iff_local {us : List Use} {m : FlattenedModule} (hp : Proper m) : ∀ root, (annotate us (modOf m)).ok root = true ↔
    ∀ mods node, HasModule m mods node → scopeOk (root && mods.isEmpty) us (modOf node) = true := by
  induction hp with
  | mk h1 h2 h3 h4 ih =>
    intro root
    rw [scoped_iff]
    constructor
    · rintro ⟨hl, hs⟩ mods node hn
      cases hn with
      | here => simpa using hl
      | inside hm hn =>
        have := (ih _ hm false).1 (hs _ hm) _ _ hn
        simpa using this
    · intro h
      refine ⟨by simpa using h [] _ (.here _), fun s hs => (ih s hs false).2 fun mods node hn => ?_⟩
      simpa using h _ _ (.inside hs hn)

theorem modOf_structs (m : FlattenedModule) : (modOf m).structs = m.actions.map structOf := by
  obtain ⟨name, actions, modules⟩ := m
  simp [modOf, Mod.structs, FlattenedModule.actions]

theorem modOf_subs (m : FlattenedModule) : (modOf m).subs = m.modules.map fun s => (toSnakeCase s.name, modOf s) := by
  obtain ⟨name, actions, modules⟩ := m
  simp only [modOf, Mod.subs, FlattenedModule.modules, modsOf_eq]

/-- The check of one module, in terms of the generator's module. -/
theorem scopeOk_iff {root : Bool} {us : List Use} {m : FlattenedModule} : scopeOk root us (modOf m) = true ↔
    (us.map Use.name).Nodup ∧
    (∀ u ∈ us, (∀ a ∈ m.actions, u.name ≠ toCapsCase a.name) ∧ (∀ s ∈ m.modules, u.name ≠ toSnakeCase s.name) ∧
      u.name ≠ c!"Route" ∧ u.name ≠ c!"String" ∧ (root = true → u.name ∉ codeNames) ∧
      ((∃ a ∈ m.actions, a.queryParameters ≠ []) → u.name ≠ c!"Option")) ∧
    (∀ u ∈ us, ∀ s ∈ m.modules, u.path.head? ≠ some (toSnakeCase s.name)) ∧
    ∀ a ∈ m.actions, ∀ p ∈ a.routeParameters ++ a.queryParameters, p.typ ∈ builtin ∨ ∃ u ∈ us, u.name = p.typ := by
  have hopt : ((modOf m).structs.any fun s => s.fields.any Field.optional) = true ↔ ∃ a ∈ m.actions, a.queryParameters ≠ [] := by
    rw [modOf_structs]
    simp only [List.any_map, List.any_eq_true, Function.comp, structOf, List.mem_append, List.mem_map]
    constructor
    · rintro ⟨a, ha, f, ⟨p, hp, rfl⟩ | ⟨p, hp, rfl⟩, hf⟩
      · cases hf
      · exact ⟨a, ha, List.ne_nil_of_mem hp⟩
    · rintro ⟨a, ha, hq⟩
      obtain ⟨p, hp⟩ := List.exists_mem_of_ne_nil _ hq
      exact ⟨a, ha, _, .inr ⟨p, hp, rfl⟩, rfl⟩
  simp only [scopeOk, Bool.and_eq_true, decide_eq_true_eq, List.all_eq_true, Bool.not_eq_true', List.contains_eq_mem,
    decide_eq_false_iff_not, and_assoc]
  refine and_congr_right fun _ => and_congr (forall₂_congr fun u _ => ?_) (and_congr ?_ ?_)
  · simp only [List.mem_append, not_or, Mod.typeNames, Mod.foreignTypes, modOf_structs, modOf_subs, List.map_map]
    rw [← modOf_structs, ← hopt]
    have e1 : (u.name ∉ m.actions.map (Struct.name ∘ structOf)) ↔ ∀ a ∈ m.actions, u.name ≠ toCapsCase a.name := by
      simp only [List.mem_map, not_exists, not_and, Function.comp, structOf]
      exact ⟨fun h a ha e => h a ha e.symm, fun h a ha e => h a ha e.symm⟩
    have e2 : (u.name ∉ m.modules.map (Prod.fst ∘ fun s => (toSnakeCase s.name, modOf s))) ↔
        ∀ s ∈ m.modules, u.name ≠ toSnakeCase s.name := by
      simp only [List.mem_map, not_exists, not_and, Function.comp]
      exact ⟨fun h a ha e => h a ha e.symm, fun h a ha e => h a ha e.symm⟩
    rw [e1, e2]
    cases root <;> cases (modOf m).structs.any fun s => s.fields.any Field.optional <;>
      simp [foreignValues, codeNames] <;> tauto
  · simp only [modOf_subs, List.mem_map, forall_exists_index, and_imp, forall_apply_eq_imp_iff₂, beq_eq_false_iff_ne]
  · simp only [modOf_structs, List.mem_map, forall_exists_index, and_imp, forall_apply_eq_imp_iff₂, structOf, List.mem_append,
      decide_eq_true_eq]
    refine forall₂_congr fun a _ => ?_
    constructor
    · rintro h p (hp | hp)
      · exact h _ (.inl ⟨p, hp, rfl⟩)
      · exact h _ (.inr ⟨p, hp, rfl⟩)
    · rintro h f (⟨p, hp, rfl⟩ | ⟨p, hp, rfl⟩)
      · exact h p (.inl hp)
      · exact h p (.inr hp)

/-- All modules are in order exactly if the configuration is. -/
theorem scoped_iff_inScope {r : Routes} {root : FlattenedModule} (hroot : modulesRoot r = some root) {us : List Use} :
    (annotate us (modOf root)).ok true = true ↔ InScope us r := by
  rw [scoped_iff_local (modulesRoot_spec hroot).1]
  constructor
  · intro h
    have h0 := scopeOk_iff.1 (h [] root (.here _))
    have ha : ∀ {mods x params query}, Action r mods x params query → ∃ node, HasModule root mods node ∧
        (∃ a ∈ node.actions, a.name = x ∧ a.routeParameters = params ∧ a.queryParameters = query) := by
      intro mods x params query ha
      obtain ⟨node, hn⟩ := action_module hroot ha
      exact ⟨node, hn, (action_iff hroot hn).1 ha⟩
    refine ⟨h0.1, fun u hu => (h0.2.1 u hu).2.2.2.2.1 rfl, ?_, ?_, ?_, ?_⟩
    · intro mods x params query h1 hq u hu
      obtain ⟨node, hn, a, haa, rfl, rfl, rfl⟩ := ha h1
      exact ((scopeOk_iff.1 (h _ _ hn)).2.1 u hu).2.2.2.2.2 ⟨a, haa, hq⟩
    · intro mods x params query h1 u hu
      obtain ⟨node, hn, a, haa, rfl, rfl, rfl⟩ := ha h1
      exact ((scopeOk_iff.1 (h _ _ hn)).2.1 u hu).1 a haa
    · intro mods x h1 u hu
      obtain ⟨node, hn⟩ := submodule_module hroot h1
      obtain ⟨s, hs, rfl⟩ := (submodule_iff hroot hn).1 h1
      have := scopeOk_iff.1 (h _ _ hn)
      exact ⟨(this.2.1 u hu).2.1 s hs, this.2.2.1 u hu s hs⟩
    · intro mods x params query h1 p hp
      obtain ⟨node, hn, a, haa, rfl, rfl, rfl⟩ := ha h1
      exact (scopeOk_iff.1 (h _ _ hn)).2.2.2 a haa p hp
  · intro h mods node hn
    refine scopeOk_iff.2 ⟨h.once, fun u hu => ⟨fun a ha => ?_, fun s hs => ?_, fun e => h.own u hu (by rw [e]; decide),
      fun e => h.own u hu (by rw [e]; decide), fun _ => h.own u hu, ?_⟩, fun u hu s hs => ?_, fun a ha p hp => ?_⟩
    · exact h.actions ((action_iff hroot hn).2 ⟨a, ha, rfl, rfl, rfl⟩) u hu
    · exact (h.submodules ((submodule_iff hroot hn).2 ⟨s, hs, rfl⟩) u hu).1
    · rintro ⟨a, ha, hq⟩
      exact h.option ((action_iff hroot hn).2 ⟨a, ha, rfl, rfl, rfl⟩) hq u hu
    · exact (h.submodules ((submodule_iff hroot hn).2 ⟨s, hs, rfl⟩) u hu).2
    · exact h.types ((action_iff hroot hn).2 ⟨a, ha, rfl, rfl, rfl⟩) p hp

end Wayfinder.Rust

namespace Wayfinder
open Rust

/-- **C85.** If the headers are imports, the emitted file is accepted with its imports exactly if it is accepted without
regard to them and they suit the configuration: no name is imported twice or also used or declared by the emitted code, no
crate is named like a module, and the type of every parameter of every action is imported or always in scope — in whatever
module the action is, because every module has all imports. -/
theorem C85_scope {c : RouteConfig} (h : Ready c) {us : List Use} (hu : Imports c.headers us) :
    (∃ m b, readScoped (codegen c).text = some (m, b)) ↔
      (∃ m b, readText (headerToks c.headers) (codegen c).text = some (m, b)) ∧ InScope us c.routes := by
  rw [readScoped_eq h hu]
  obtain ⟨root, body, hr, hb, -⟩ := codegen_text h.generated
  constructor
  · rintro ⟨m, b, e⟩
    obtain ⟨⟨m', b'⟩, e1, e2⟩ := Option.bind_eq_some_iff.1 e
    refine ⟨⟨m', b', e1⟩, ?_⟩
    have := (readText_some h.legible hr hb e1).2.1
    subst this
    rw [← scoped_iff_inScope hr]
    by_contra hc
    simp [hc] at e2
  · rintro ⟨⟨m', b', e1⟩, hi⟩
    have := (readText_some h.legible hr hb e1).2.1
    subst this
    rw [← scoped_iff_inScope hr] at hi
    exact ⟨annotate us (modOf root), b', by rw [e1]; simp [hi]⟩

/-- **C85, the same program.** What is read with the imports is what is read without, and every module of the file begins
with the imports of the headers. -/
theorem C85_same {c : RouteConfig} (h : Ready c) {us : List Use} (hu : Imports c.headers us) {m : Scoped} {b : List Stmt}
    (e : readScoped (codegen c).text = some (m, b)) :
    readText (headerToks c.headers) (codegen c).text = some (m.items, b) ∧ m = annotate us m.items := by
  rw [readScoped_eq h hu] at e
  obtain ⟨⟨m', b'⟩, e1, e2⟩ := Option.bind_eq_some_iff.1 e
  simp only at e2
  split at e2
  · cases e2
    rw [items_annotate]
    exact ⟨e1, rfl⟩
  · cases e2

/-! ### Merged headers -/

namespace Rust

theorem readUses_all : ∀ {k : Nat} {ts : List Tok} {us : List Use}, readUses k ts = some (us, []) →
    ∀ {k' : Nat} {ts' : List Tok} {us' : List Use}, readUses k' ts' = some (us', []) → ∀ {j}, k + k' ≤ j →
    readUses j (ts ++ ts') = some (us ++ us', [])
  | 0, _, _, h, _, _, _, _, _, _ => by simp [readUses] at h
  | k + 1, ts, us, h, k', ts', us', h', j, hj => by
    obtain ⟨j, rfl⟩ : ∃ i, j = i + 1 := ⟨j - 1, by omega⟩
    by_cases hu : ts.head? = some useTok
    · obtain ⟨ts, rfl⟩ : ∃ ts', ts = useTok :: ts' := by
        cases ts with
        | nil => cases hu
        | cons t ts => simp only [List.head?_cons, Option.some.injEq] at hu; exact ⟨ts, by rw [hu]⟩
      simp only [useTok, readUses, Option.bind_eq_some_iff, Option.map_eq_some_iff, Prod.mk.injEq] at h
      obtain ⟨⟨u, s⟩, h1, ⟨us1, s'⟩, h2, rfl, rfl⟩ := h
      simp only [useTok, List.cons_append, readUses, readUse_append ts' h1, Option.bind_some,
        readUses_all h2 h' (show k + k' ≤ j by omega), Option.map_some]
    · rw [readUses_other hu] at h
      simp only [Option.some.injEq, Prod.mk.injEq] at h
      obtain ⟨rfl, rfl⟩ := h
      have := readUses_append (rest := []) (by simp) h' (show k' ≤ j + 1 by omega)
      simpa using this

/-- More fuel does no harm. -/
theorem readUses_more {k k' : Nat} {ts : List Tok} {us : List Use} (h : readUses k ts = some (us, [])) (hk : k ≤ k') :
    readUses k' ts = some (us, []) := by
  have := readUses_append (rest := []) (by simp) h hk
  simpa using this

/-- Only the first tokens of imports are looked at, so fuel for as many is enough. -/
theorem readUses_less : ∀ {k : Nat} {ts : List Tok} {us : List Use}, readUses k ts = some (us, []) →
    readUses (us.length + 1) ts = some (us, [])
  | 0, _, _, h => by simp [readUses] at h
  | k + 1, ts, us, h => by
    by_cases hu : ts.head? = some useTok
    · obtain ⟨ts, rfl⟩ : ∃ ts', ts = useTok :: ts' := by
        cases ts with
        | nil => cases hu
        | cons t ts => simp only [List.head?_cons, Option.some.injEq] at hu; exact ⟨ts, by rw [hu]⟩
      simp only [useTok, readUses, Option.bind_eq_some_iff, Option.map_eq_some_iff, Prod.mk.injEq] at h
      obtain ⟨⟨u, s⟩, h1, ⟨us1, s'⟩, h2, rfl, rfl⟩ := h
      simp only [useTok, List.length_cons, readUses, h1, Option.bind_some, readUses_less h2, Option.map_some]
    · rw [readUses_other hu] at h
      simp only [Option.some.injEq, Prod.mk.injEq] at h
      obtain ⟨rfl, rfl⟩ := h
      rfl

theorem readPath_length : ∀ (ts : List Tok) {p : List Str} {r : List Tok}, readPath ts = some (p, r) → r.length < ts.length := by
  intro ts
  induction ts using readPath.induct with
  | case1 => intro p r h; simp [readPath] at h
  | case2 x hn => intro p r h; simp only [readPath, hn, if_true, Option.some.injEq, Prod.mk.injEq] at h; rw [← h.2]; simp
  | case3 x hn => intro p r h; simp [readPath, hn] at h
  | case4 x ts hn ih =>
    intro p r h
    simp only [readPath, hn, if_true, Option.map_eq_some_iff, Prod.mk.injEq] at h
    obtain ⟨⟨p', r'⟩, h1, _, rfl⟩ := h
    have := ih h1
    simp; omega
  | case5 x t ts hn ht =>
    intro p r h
    simp only [readPath, hn, if_true, ht, if_false, Option.some.injEq, Prod.mk.injEq] at h
    obtain ⟨_, rfl⟩ := h
    simp
  | case6 x t ts hn => intro p r h; simp [readPath, hn] at h
  | case7 t ts h1 h2 => intro p r h; simp [readPath] at h

theorem readUse_length {ts : List Tok} {u : Use} {r : List Tok} (h : readUse ts = some (u, r)) : r.length < ts.length := by
  obtain ⟨⟨p, s⟩, h1, h2⟩ := Option.bind_eq_some_iff.1 h
  have e1 : s.length < ts.length := by
    unfold readUsePath at h1
    split at h1
    · simp only [Option.map_eq_some_iff, Prod.mk.injEq] at h1
      obtain ⟨⟨p', s'⟩, h1, _, rfl⟩ := h1
      have := readPath_length _ h1
      simp; omega
    · exact readPath_length _ h1
  have e2 : r.length < s.length := by
    simp only at h2
    unfold readUseEnd at h2
    split at h2
    · simp only [Option.map_eq_some_iff, Prod.mk.injEq] at h2
      obtain ⟨_, _, _, rfl⟩ := h2
      simp
    · split at h2
      · cases h2; simp; omega
      · cases h2
    · cases h2
  omega

theorem readUses_length : ∀ {k : Nat} {ts : List Tok} {us : List Use} {r : List Tok}, readUses k ts = some (us, r) →
    us.length + r.length ≤ ts.length
  | 0, _, _, _, h => by simp [readUses] at h
  | k + 1, ts, us, r, h => by
    by_cases hu : ts.head? = some useTok
    · obtain ⟨ts, rfl⟩ : ∃ ts', ts = useTok :: ts' := by
        cases ts with
        | nil => cases hu
        | cons t ts => simp only [List.head?_cons, Option.some.injEq] at hu; exact ⟨ts, by rw [hu]⟩
      simp only [useTok, readUses, Option.bind_eq_some_iff, Option.map_eq_some_iff, Prod.mk.injEq] at h
      obtain ⟨⟨u, s⟩, h1, ⟨us1, s'⟩, h2, rfl, rfl⟩ := h
      have := readUse_length h1
      have := readUses_length h2
      simp only [List.length_cons] at *
      omega
    · rw [readUses_other hu] at h
      simp only [Option.some.injEq, Prod.mk.injEq] at h
      obtain ⟨rfl, rfl⟩ := h
      simp

theorem imports_append {hs hs' : List Header} {us us' : List Use} (h : Imports hs us) (h' : Imports hs' us') :
    Imports (hs ++ hs') (us ++ us') := by
  have e : headerToks (hs ++ hs') = headerToks hs ++ headerToks hs' := by simp [headerToks]
  unfold Imports at h h' ⊢
  have h1 := readUses_all (readUses_less h) (readUses_less h') (Nat.le_refl _)
  rw [e]
  have h2 := readUses_length h1
  refine readUses_more (readUses_less h1) ?_
  simp only [List.length_nil] at h2
  omega

theorem imports_flatMap {f : Header → List Use} : ∀ {hs : List Header}, (∀ h ∈ hs, Imports [h] (f h)) → Imports hs (hs.flatMap f)
  | [], _ => rfl
  | h :: hs, hf => by
    have := imports_append (hf h (by simp)) (imports_flatMap (hs := hs) fun x hx => hf x (by simp [hx]))
    simpa using this

end Rust

/-- **C85, merged headers.** Each header of a mounted configuration being imports, those of all together are imports again, and no
name is imported twice exactly if no header does so and different headers import different names. -/
theorem C85_merged {base : RouteConfig} {ms : List (Str × RouteConfig)} (hne : ms ≠ []) {f : Header → List Use}
    (hf : ∀ h ∈ base.headers ++ ms.flatMap fun m => m.2.headers, Imports [h] (f h)) :
    Imports (base.mountAll ms).headers ((base.mountAll ms).headers.flatMap f) ∧
    ((((base.mountAll ms).headers.flatMap f).map Use.name).Nodup ↔
      (∀ h ∈ base.headers ++ ms.flatMap fun m => m.2.headers, ((f h).map Use.name).Nodup) ∧
      ∀ h ∈ base.headers ++ ms.flatMap fun m => m.2.headers, ∀ h' ∈ base.headers ++ ms.flatMap fun m => m.2.headers,
        h ≠ h' → ∀ u ∈ f h, ∀ u' ∈ f h', u.name ≠ u'.name) := by
  have hs := (C36_mount_headers base ms hne).1
  have hn : (base.mountAll ms).headers.Nodup := by
    refine List.Pairwise.imp ?_ hs.2
    rintro a b h rfl
    omega
  refine ⟨imports_flatMap fun h hh => hf h ((hs.1 h).1 hh), ?_⟩
  rw [List.map_flatMap, List.nodup_flatMap]
  refine and_congr ⟨fun h x hx => h x ((hs.1 x).2 hx), fun h x hx => h x ((hs.1 x).1 hx)⟩ ?_
  have hd : ∀ h h' : Header, List.Disjoint ((f h).map Use.name) ((f h').map Use.name) ↔ ∀ u ∈ f h, ∀ u' ∈ f h', u.name ≠ u'.name := by
    intro h h'
    simp only [List.Disjoint, List.mem_map]
    constructor
    · rintro H u hu u' hu' e
      exact H ⟨u, hu, rfl⟩ ⟨u', hu', e.symm⟩
    · rintro H _ ⟨u, hu, rfl⟩ ⟨u', hu', e⟩
      exact H u hu u' hu' e.symm
  constructor
  · intro h x hx y hy hxy
    rw [← hd]
    have : Std.Symm fun a b : Header => List.Disjoint ((f a).map Use.name) ((f b).map Use.name) := ⟨fun a b h x hx hy => h hy hx⟩
    exact List.Pairwise.forall h ((hs.1 x).2 hx) ((hs.1 y).2 hy) hxy
  · intro h
    refine List.Pairwise.imp_of_mem ?_ hn
    intro a b ha hb hab
    exact (hd a b).2 (h a ((hs.1 a).1 ha) b ((hs.1 b).1 hb) hab)

/-- **C85, mounting.** Imports suit a configuration with another mounted in it exactly if they suit both and, if there are actions
in the other, they suit the query parameters they inherit. -/
theorem C85_mount {base sub : RouteConfig} {seg : Str} {us : List Use} :
    InScope us (base.mount seg sub).routes ↔ InScope us base.routes ∧ InScope us sub.routes ∧
      ∀ {mods x params query}, Action sub.routes mods x params query → ∀ p ∈ base.routes.queryParameters,
        (p.typ ∈ builtin ∨ ∃ u ∈ us, u.name = p.typ) ∧ ∀ u ∈ us, u.name ≠ c!"Option" := by
  obtain ⟨bh, ⟨rs, ns, qs⟩⟩ := base
  have ha := @action_added rs ns qs seg sub.routes
  have hs := @submodule_added rs ns qs seg sub.routes
  constructor
  · intro h
    refine ⟨⟨h.once, h.own, fun h1 => h.option (ha.2 (.inl h1)), fun h1 => h.actions (ha.2 (.inl h1)),
      fun h1 => h.submodules (hs.2 (.inl h1)), fun h1 => h.types (ha.2 (.inl h1))⟩,
      ⟨h.once, h.own, fun h1 hq => h.option (ha.2 (.inr ⟨_, rfl, h1⟩)) (by simp [hq]), fun h1 => h.actions (ha.2 (.inr ⟨_, rfl, h1⟩)),
      fun h1 => h.submodules (hs.2 (.inr h1)), fun h1 p hp => h.types (ha.2 (.inr ⟨_, rfl, h1⟩)) p ?_⟩, fun h1 p hp => ⟨?_, ?_⟩⟩
    · simp only [List.mem_append] at hp ⊢; tauto
    · exact h.types (ha.2 (.inr ⟨_, rfl, h1⟩)) p (by simp only [List.mem_append]; exact .inr (.inl hp))
    · exact h.option (ha.2 (.inr ⟨_, rfl, h1⟩)) (by have := List.ne_nil_of_mem hp; simp only [Routes.queryParameters] at this; simp [this])
  · rintro ⟨h, h', hx⟩
    refine ⟨h.once, h.own, fun h1 hq => ?_, fun h1 => ?_, fun h1 => ?_, fun h1 p hp => ?_⟩
    · replace h1 := ha.1 h1
      rcases h1 with h1 | ⟨q, rfl, h1⟩
      · exact h.option h1 hq
      · by_cases e : qs = []
        · exact h'.option h1 (by simpa [e] using hq)
        · obtain ⟨p, hp⟩ := List.exists_mem_of_ne_nil _ e
          exact (hx h1 p hp).2
    · replace h1 := ha.1 h1
      rcases h1 with h1 | ⟨q, rfl, h1⟩
      · exact h.actions h1
      · exact h'.actions h1
    · replace h1 := hs.1 h1
      rcases h1 with h1 | h1
      · exact h.submodules h1
      · exact h'.submodules h1
    · replace h1 := ha.1 h1
      rcases h1 with h1 | ⟨q, rfl, h1⟩
      · exact h.types h1 p hp
      · simp only [List.mem_append] at hp
        rcases hp with hp | hp | hp
        · exact h'.types h1 p (by simp [hp])
        · exact (hx h1 p hp).1
        · exact h'.types h1 p (by simp [hp])

/-! ### Examples -/

namespace Demo

theorem inScope_of {r : Routes} {us : List Use} (h1 : (us.map Use.name).Nodup)
    (h2 : ∀ u ∈ us, u.name ∉ c!"Option" :: codeNames ++ typesOf r)
    (h3 : ∀ u ∈ us, ∀ d ∈ declared r, ∀ x ∈ d.2.2.modules, u.path.head? ≠ some (toSnakeCase x))
    (h4 : ∀ d ∈ declared r, ∀ p ∈ routeParams d.1 ++ (d.2.1 ++ d.2.2.queryParameters),
      p.typ ∈ builtin ++ us.map Use.name) : InScope us r where
  once := h1
  own u hu h := h2 u hu (by simp [h])
  option _ _ u hu h := h2 u hu (by simp [h])
  actions h u hu e := h2 u hu (List.mem_append_right _ (e ▸ typeName_mem (.action h)))
  submodules := by
    rintro mods x h u hu
    refine ⟨fun e => h2 u hu (List.mem_append_right _ (e ▸ typeName_mem (.submodule h))), ?_⟩
    obtain ⟨rest, y, params, query, segs, above, res, hd, _, hm, _⟩ := h
    exact h3 u hu _ (mem_declared.2 hd) x (by simp [hm])
  types := by
    rintro mods x params query ⟨segs, above, res, hd, _, _, _, rfl, rfl⟩ p hp
    have := h4 _ (mem_declared.2 hd) p hp
    simp only [List.mem_append, List.mem_map] at this
    exact this

/-- The import of the examples. -/
def uuidUse : Use := ⟨[c!"uuid", c!"Uuid"], c!"Uuid"⟩

theorem clean_ready {c : RouteConfig} (h : Clean c) : Ready c := ⟨h.generated, h.headers, h.words, h.braces⟩

/-- A supported configuration is accepted with its imports if they suit it. -/
theorem scoped_of {c : RouteConfig} {body : List Stmt} (h : Clean c) (hs : Supported c.routes body) {us : List Use}
    (hu : Imports c.headers us) (hi : InScope us c.routes) : ∃ m b, readScoped (codegen c).text = some (m, b) :=
  (C85_scope (clean_ready h) hu).2 ⟨let ⟨_, _, e⟩ := h.read hs; ⟨_, _, e⟩, hi⟩

theorem unscoped_of {c : RouteConfig} {body : List Stmt} (h : Clean c) (hs : Supported c.routes body) {us : List Use}
    (hu : Imports c.headers us) (hi : ¬ InScope us c.routes) :
    (∃ m b, readText (headerToks c.headers) (codegen c).text = some (m, b)) ∧ readScoped (codegen c).text = none := by
  refine ⟨let ⟨_, _, e⟩ := h.read hs; ⟨_, _, e⟩, ?_⟩
  by_contra hn
  obtain ⟨⟨m, b⟩, e⟩ := Option.ne_none_iff_exists'.1 hn
  exact hi ((C85_scope (clean_ready h) hu).1 ⟨_, _, e⟩).2

/-- Other forms of imports: a path in the crate itself, and another name. -/
example : Imports [⟨c!"use crate::ids::{Id};"⟩] [] = False ∧
    Imports [⟨c!"use crate::ids::Id;"⟩, ⟨c!"use uuid::Uuid as Key;"⟩]
      [⟨[c!"crate", c!"ids", c!"Id"], c!"Id"⟩, ⟨[c!"uuid", c!"Uuid"], c!"Key"⟩] :=
  ⟨by simp only [eq_iff_iff, iff_false]; unfold Imports; decide +kernel, by unfold Imports; decide +kernel⟩

theorem uuid_imports (r : Routes) : Imports (conf r).headers [uuidUse] := by
  change Imports [⟨c!"use uuid::Uuid;"⟩] _
  unfold Imports; decide +kernel

/-- A module with the name of a crate, and a type that is not imported. -/
def crateNamed : Routes := .mk [res .get c!"uuid" c!"Index"] [] []
def missingType : Routes := .mk [] [.mk (.dynamic ⟨c!"id", c!"Key"⟩) (.mk [res .get c!"keys" c!"Show"] [] [])] []
/-- An action with the name of the imported type. -/
def typeNamed : Routes := .mk [res .get c!"keys" c!"Uuid"] [] []

/-- **C85, each condition is needed.** Two spellings of one import, merged by mounting; a module named like a crate; a type that is not
imported; an action named like an imported type.  All these files are accepted without regard to imports. -/
theorem C85_needed :
    (∃ m b, readText (headerToks [⟨c!"use uuid::Uuid;"⟩, ⟨c!"use uuid ::Uuid;"⟩])
      (codegen (RouteConfig.mount ⟨[⟨c!"use uuid::Uuid;"⟩], people⟩ c!"admin" ⟨[⟨c!"use uuid ::Uuid;"⟩], admin⟩)).text = some (m, b)) ∧
    readScoped (codegen (RouteConfig.mount ⟨[⟨c!"use uuid::Uuid;"⟩], people⟩ c!"admin" ⟨[⟨c!"use uuid ::Uuid;"⟩], admin⟩)).text = none ∧
    (∃ m b, readText (headerToks (conf crateNamed).headers) (codegen (conf crateNamed)).text = some (m, b)) ∧
    readScoped (codegen (conf crateNamed)).text = none ∧
    (∃ m b, readText (headerToks (conf missingType).headers) (codegen (conf missingType)).text = some (m, b)) ∧
    readScoped (codegen (conf missingType)).text = none ∧
    (∃ m b, readText (headerToks (conf typeNamed).headers) (codegen (conf typeNamed)).text = some (m, b)) ∧
    readScoped (codegen (conf typeNamed)).text = none := by
  have h1 := unscoped_of (c := RouteConfig.mount ⟨[⟨c!"use uuid::Uuid;"⟩], people⟩ c!"admin" ⟨[⟨c!"use uuid ::Uuid;"⟩], admin⟩)
    (clean_of (by decide +kernel)) (supported_of (by decide +kernel)) (us := [uuidUse, uuidUse])
    (by unfold Imports; decide +kernel) fun h => by have := h.once; simp at this
  have h2 := unscoped_of (c := conf crateNamed) (clean_of (by decide +kernel)) (supported_of (by decide +kernel))
    (uuid_imports _) fun h => (h.submodules (mods := []) (x := c!"uuid")
      ⟨[], c!"Index", [], [], [], [], res .get c!"uuid" c!"Index", mem_declared.1 (by decide), rfl, rfl, rfl, rfl, rfl⟩
      uuidUse (by simp)).2 (by decide)
  have h3 := unscoped_of (c := conf missingType) (clean_of (by decide +kernel)) (supported_of (by decide +kernel))
    (uuid_imports _) fun h => by
      have := h.types (mods := [c!"keys"]) (x := c!"Show") (params := [⟨c!"id", c!"Key"⟩]) (query := [])
        ⟨[.dynamic ⟨c!"id", c!"Key"⟩], [], res .get c!"keys" c!"Show", mem_declared.1 (by decide), rfl, rfl, rfl, rfl, rfl⟩
        ⟨c!"id", c!"Key"⟩ (by simp)
      revert this
      simp only [List.mem_singleton, exists_eq_left]
      decide
  have h4 := unscoped_of (c := conf typeNamed) (clean_of (by decide +kernel)) (supported_of (by decide +kernel))
    (uuid_imports _) fun h => h.actions (mods := [c!"keys"]) (x := c!"Uuid") (params := []) (query := [])
        ⟨[], [], res .get c!"keys" c!"Uuid", mem_declared.1 (by decide), rfl, rfl, rfl, rfl, rfl⟩ uuidUse (by simp) (by decide)
  exact ⟨h1.1, h1.2, h2.1, h2.2, h3.1, h3.2, h4.1, h4.2⟩

end Demo

namespace Shipped
open Demo

/-- **C85, the configurations shipped.** Those of the examples, of the benchmark and of the tests are accepted with their imports; of the two in
the documentation of the crate, the code is, but the route file is not: the type of its ids is `uuid`, but it imports `Uuid`. -/
theorem C85_shipped : (∃ m b, readScoped (codegen cli).text = some (m, b)) ∧ (∃ m b, readScoped (codegen structured).text = some (m, b)) ∧
    (∃ m b, readScoped (codegen commons).text = some (m, b)) ∧ (∃ m b, readScoped (codegen nesting).text = some (m, b)) ∧
    (∃ m b, readScoped (codegen manualCode).text = some (m, b)) ∧ readScoped (codegen manualFile).text = none := by
  have hu : ∀ r : Routes, Imports (conf r).headers [uuidUse] := uuid_imports
  refine ⟨scoped_of (clean_of (by decide +kernel)) cli_supported (hu cli.routes) (inScope_of (by decide) (by decide +kernel) (by decide +kernel) (by decide +kernel)),
    scoped_of (clean_of (by decide +kernel)) structured_supported (hu structured.routes) (inScope_of (by decide) (by decide +kernel) (by decide +kernel) (by decide +kernel)),
    scoped_of (us := []) (clean_of (by decide +kernel)) Demo.commons_supported rfl (inScope_of (by decide) (by decide +kernel) (by decide +kernel) (by decide +kernel)),
    scoped_of (clean_of (by decide +kernel)) nesting_supported (hu nesting.routes) (inScope_of (by decide) (by decide +kernel) (by decide +kernel) (by decide +kernel)),
    scoped_of (clean_of (by decide +kernel)) code_supported (hu manualCode.routes) (inScope_of (by decide) (by decide +kernel) (by decide +kernel) (by decide +kernel)),
    (unscoped_of (clean_of (by decide +kernel)) file_supported (hu manualFile.routes) fun h => ?_).2⟩
  have := h.types (mods := [c!"Users"]) (x := c!"Show") (params := [⟨c!"id", c!"uuid"⟩]) (query := [])
    ⟨[.static c!"users", .dynamic ⟨c!"id", c!"uuid"⟩], [], plain .get c!"Users" c!"Show", mem_declared.1 (by decide +kernel), rfl, rfl, rfl, rfl, rfl⟩
    ⟨c!"id", c!"uuid"⟩ (by simp)
  revert this
  simp only [List.mem_singleton, exists_eq_left]
  decide

end Shipped

end Wayfinder
