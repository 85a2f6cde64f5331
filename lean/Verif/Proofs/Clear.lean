import Verif.Proofs.Elab
import Verif.Props.Path
/-!
# When the declarations of the emitted file are accepted
-/

namespace Wayfinder.Rust

/-! ## Lists -/

theorem nodup_map_key {α : Type} {key : α → Str} (g : Str → Str) : ∀ {l : List α}, (l.map key).Nodup →
    ((l.map fun a => g (key a)).Nodup ↔ ∀ a ∈ l, ∀ b ∈ l, g (key a) = g (key b) → key a = key b)
  | [], _ => by simp
  | a :: l, h => by
    simp only [List.map_cons, List.nodup_cons] at h ⊢
    rw [nodup_map_key g h.2]
    constructor
    · rintro ⟨h1, h2⟩ x hx y hy he
      rcases List.mem_cons.1 hx with hx' | hx <;> rcases List.mem_cons.1 hy with hy' | hy
      · rw [hx', hy']
      · rw [hx'] at he; exact absurd (List.mem_map.2 ⟨y, hy, he.symm⟩) h1
      · rw [hy'] at he; exact absurd (List.mem_map.2 ⟨x, hx, he⟩) h1
      · exact h2 x hx y hy he
    · intro hg
      refine ⟨fun hm => ?_, fun x hx y hy => hg x (by simp [hx]) y (by simp [hy])⟩
      obtain ⟨b, hb, he⟩ := List.mem_map.1 hm
      have := hg b (by simp [hb]) a (by simp) he
      exact h.1 (List.mem_map.2 ⟨b, hb, this⟩)

/-! ## Templates -/

/-- Any names can be put into the template of a route. -/
theorem template_names (segs : List PathSegment) : ∃ texts,
    Texts (W := ⟨Str, Str, fun _ s => .ok s, fun _ => none⟩) id segs ((routeParams segs).map fun p => (p, p.name)) texts := by
  induction segs with
  | nil => exact ⟨[], .nil⟩
  | cons s segs ih =>
    obtain ⟨texts, ht⟩ := ih
    cases s with
    | static s => exact ⟨s :: texts, .static s ht⟩
    | dynamic p =>
      rw [show routeParams (.dynamic p :: segs) = p :: routeParams segs from rfl]
      exact ⟨p.name :: texts, Texts.dynamic (W := ⟨Str, Str, fun _ s => .ok s, fun _ => none⟩) p p.name ht⟩

theorem template_ok {r : Routes} (hn : NoBraces r) {root : FlattenedModule} (hroot : modulesRoot r = some root)
    {mods : List Str} {a : FlattenedAction} (ha : HasAction root mods a) :
    (literal a.template).isSome = true ∧ (formatText a.template a.formatArgs).isSome = true := by
  obtain ⟨segs, query, res, ⟨node, above, hr, hres, rfl⟩, hred, rfl, rfl⟩ := (C24_actions hroot _ _).1 ha
  have hnb := hn _ _ _ hr
  have hlit := template_literal hnb
  obtain ⟨texts, ht⟩ := template_names segs
  have hf := formatText_template ht fun s hs => ⟨(hnb s hs).1, (hnb s hs).2.1⟩
  simp only [FlattenedAction.template, FlattenedAction.formatArgs, renderPath_eq, hlit]
  refine ⟨rfl, ?_⟩
  rw [formatText_plain (by decide) (by decide)]
  have e : ((routeParams segs).map fun p => (p, p.name)).map (fun pv => id pv.2) = (routeParams segs).map Param.name := by
    simp [Function.comp_def]
  rw [e] at hf
  rw [hf]
  rfl

/-! ## One module -/

/-- The types named in a module. -/
def Types (root : Bool) (m : FlattenedModule) (t : Str) : Prop :=
  (∃ a ∈ m.actions, t = toCapsCase a.name) ∨ (∃ s ∈ m.modules, t = toSnakeCase s.name) ∨ t = c!"Route" ∨
    (root = true ∧ t ∈ [c!"Match", c!"Error", c!"fmt"])

/-- Structs without fields. -/
def UnitStruct (m : FlattenedModule) (x : Str) : Prop :=
  ∃ a ∈ m.actions, x = toCapsCase a.name ∧ a.routeParameters = [] ∧ a.queryParameters = []

theorem mem_typeNames {root : Bool} {m : FlattenedModule} {t : Str} : t ∈ (modOf m).typeNames root ↔ Types root m t := by
  obtain ⟨name, actions, modules⟩ := m
  simp only [Mod.typeNames, modOf, Mod.structs, Mod.subs, modsOf_eq, List.mem_append, List.mem_map, Types,
    FlattenedModule.actions, FlattenedModule.modules]
  have h1 : (∃ a, (∃ a_1, a_1 ∈ actions ∧ structOf a_1 = a) ∧ a.name = t) ↔ ∃ a ∈ actions, t = toCapsCase a.name := by
    constructor
    · rintro ⟨_, ⟨a, ha, rfl⟩, rfl⟩; exact ⟨a, ha, rfl⟩
    · rintro ⟨a, ha, rfl⟩; exact ⟨_, ⟨a, ha, rfl⟩, rfl⟩
  have h2 : (∃ a, (∃ a_1, a_1 ∈ modules ∧ (toSnakeCase a_1.name, modOf a_1) = a) ∧ a.fst = t) ↔
      ∃ s ∈ modules, t = toSnakeCase s.name := by
    constructor
    · rintro ⟨_, ⟨a, ha, rfl⟩, rfl⟩; exact ⟨a, ha, rfl⟩
    · rintro ⟨a, ha, rfl⟩; exact ⟨_, ⟨a, ha, rfl⟩, rfl⟩
  rw [h1, h2, or_assoc]
  cases root <;> simp

theorem mem_unitNames {m : FlattenedModule} {x : Str} : x ∈ (modOf m).unitNames ↔ UnitStruct m x := by
  obtain ⟨name, actions, modules⟩ := m
  simp only [Mod.unitNames, modOf, Mod.structs, List.mem_map, List.mem_filter, UnitStruct, FlattenedModule.actions]
  constructor
  · rintro ⟨_, ⟨⟨a, ha, rfl⟩, he⟩, rfl⟩
    refine ⟨a, ha, rfl, ?_⟩
    simpa [structOf] using he
  · rintro ⟨a, ha, rfl, he⟩
    exact ⟨_, ⟨⟨a, ha, rfl⟩, by simp [structOf, he]⟩, rfl⟩

theorem canBind_iff {m : FlattenedModule} {x : Str} : (modOf m).canBind x = true ↔ x ∉ preludeValues ∧ ¬ UnitStruct m x := by
  rw [← mem_unitNames]
  simp [Mod.canBind]

/-- The conditions on one module. -/
structure LocalClear (root : Bool) (m : FlattenedModule) : Prop where
  nonempty : m.actions ≠ [] ∨ m.modules ≠ []
  actions : ∀ a ∈ m.actions, ∀ b ∈ m.actions, toCapsCase a.name = toCapsCase b.name → a.name = b.name
  snakes : ∀ a ∈ m.modules, ∀ b ∈ m.modules, toSnakeCase a.name = toSnakeCase b.name → a.name = b.name
  caps : ∀ a ∈ m.modules, ∀ b ∈ m.modules, toCapsCase a.name = toCapsCase b.name → a.name = b.name
  apart : ∀ a ∈ m.actions, ∀ b ∈ m.modules, toCapsCase a.name ≠ toSnakeCase b.name ∧ toCapsCase a.name ≠ toCapsCase b.name
  actionFree : ∀ a ∈ m.actions, toCapsCase a.name ∉ reserved (if root then [] else [c!""])
  submoduleFree : ∀ a ∈ m.modules, toSnakeCase a.name ∉ reserved (if root then [] else [c!""])
  option : ∀ a ∈ m.actions, a.queryParameters ≠ [] → ¬ Types root m c!"Option"
  values : root = true → ∀ x, UnitStruct m x → x ∉ [c!"Ok", c!"None"]
  fields : ∀ a ∈ m.actions, ((a.routeParameters ++ a.queryParameters).map Param.name).Nodup
  types : ∀ a ∈ m.actions, ∀ p ∈ a.routeParameters ++ a.queryParameters, ¬ Types root m p.typ
  bindable : ∀ a ∈ m.actions, ∀ p ∈ a.routeParameters ++ a.queryParameters, p.name ∉ preludeValues ∧ ¬ UnitStruct m p.name

theorem structOk_iff {root : Bool} {m : FlattenedModule} {a : FlattenedAction}
    (ht : (literal a.template).isSome = true ∧ (formatText a.template a.formatArgs).isSome = true) :
    (structOf a).ok root (modOf m) = true ↔ ((a.routeParameters ++ a.queryParameters).map Param.name).Nodup ∧
      (∀ p ∈ a.routeParameters ++ a.queryParameters, ¬ Types root m p.typ) ∧
      ∀ p ∈ a.routeParameters ++ a.queryParameters, p.name ∉ preludeValues ∧ ¬ UnitStruct m p.name := by
  have hb : a.bound = (structOf a).fields.map Field.name := by
    simp [structOf, FlattenedAction.bound, Function.comp_def]
  have hn : (structOf a).fields.map Field.name = (a.routeParameters ++ a.queryParameters).map Param.name := by
    simp [structOf, Function.comp_def]
  have hargs : (structOf a).args.all (fun x => (structOf a).bound.contains x) = true := by
    simp only [List.all_eq_true, List.contains_iff_mem, structOf, FlattenedAction.bound, FlattenedAction.formatArgs]
    intro x hx
    exact List.mem_append_left _ hx
  have hperm : (structOf a).bound.isPerm ((structOf a).fields.map Field.name) = true := by
    rw [List.isPerm_iff, ← hb]
    exact .refl _
  rw [hn] at hperm
  have hty : ((structOf a).fields.all fun f => !((modOf m).typeNames root).contains f.typ) = true ↔
      ∀ p ∈ a.routeParameters ++ a.queryParameters, ¬ Types root m p.typ := by
    simp only [← mem_typeNames (m := m) (root := root), structOf, List.all_append, List.all_map, Bool.and_eq_true,
      List.all_eq_true, Function.comp_def, List.mem_append]
    simp only [Bool.not_eq_true', List.contains_eq_mem, decide_eq_false_iff_not]
    exact ⟨fun h p hp => hp.elim (h.1 p) (h.2 p), fun h => ⟨fun p hp => h p (.inl hp), fun p hp => h p (.inr hp)⟩⟩
  have hbind : (structOf a).bound.all (modOf m).canBind = true ↔
      ∀ p ∈ a.routeParameters ++ a.queryParameters, p.name ∉ preludeValues ∧ ¬ UnitStruct m p.name := by
    simp only [show (structOf a).bound = (a.routeParameters ++ a.queryParameters).map Param.name from hb.trans hn,
      List.all_map, List.all_eq_true, Function.comp_def, canBind_iff]
  have h1 : (literal (structOf a).template).isSome = true := ht.1
  have h2 : (formatText (structOf a).template (structOf a).args).isSome = true := ht.2
  simp only [Struct.ok, Bool.and_eq_true, hargs, hperm, h1, h2, hbind, hty, and_true, decide_eq_true_eq, hn]
  constructor
  · rintro ⟨⟨h1, h2⟩, h3⟩; exact ⟨h1, h3, h2⟩
  · rintro ⟨h1, h2, h3⟩; exact ⟨⟨h1, h3⟩, h2⟩

theorem nodup_append_iff {α : Type} {a b : List α} : (a ++ b).Nodup ↔ a.Nodup ∧ b.Nodup ∧ ∀ x ∈ a, x ∉ b := by
  rw [List.nodup_append]
  constructor
  · rintro ⟨h1, h2, h3⟩; exact ⟨h1, h2, fun x hx hx' => h3 x hx x hx' rfl⟩
  · rintro ⟨h1, h2, h3⟩; exact ⟨h1, h2, fun x hx y hy e => h3 x hx (e ▸ hy)⟩

/-- The names every module has. -/
def fixedTypes (root : Bool) : List Str := if root then [c!"Route", c!"Match", c!"Error", c!"fmt"] else [c!"Route"]

/-- The names from elsewhere every module uses. -/
def usedTypes (root : Bool) : List Str :=
  c!"String" :: if root then [c!"std", c!"str", c!"u8", c!"Result", c!"Box", c!"AsRef"] else []

theorem reserved_iff {root : Bool} {x : Str} : x ∈ reserved (if root then [] else [c!""]) ↔
    x ∈ fixedTypes root ∨ x ∈ usedTypes root := by
  cases root
  · simp [reserved, fixedTypes, usedTypes]
  · simp only [reserved, fixedTypes, usedTypes, if_true, List.mem_cons, List.not_mem_nil, or_false]
    constructor
    · rintro (h | h | h | h | h | h | h | h | h | h | h) <;> simp [h]
    · rintro ((h | h | h | h) | (h | h | h | h | h | h | h)) <;> simp [h]

theorem localOk_iff {root : Bool} {m : FlattenedModule} (hacts : (m.actions.map FlattenedAction.name).Nodup)
    (hmods : (m.modules.map FlattenedModule.name).Nodup)
    (ht : ∀ a ∈ m.actions, (literal a.template).isSome = true ∧ (formatText a.template a.formatArgs).isSome = true) :
    (modOf m).localOk root = true ↔ LocalClear root m := by
  have hnames : ((modOf m).typeNames root).Nodup ↔
      (∀ a ∈ m.actions, ∀ b ∈ m.actions, toCapsCase a.name = toCapsCase b.name → a.name = b.name) ∧
      (∀ a ∈ m.modules, ∀ b ∈ m.modules, toSnakeCase a.name = toSnakeCase b.name → a.name = b.name) ∧
      (∀ a ∈ m.actions, ∀ b ∈ m.modules, toCapsCase a.name ≠ toSnakeCase b.name) ∧
      (∀ a ∈ m.actions, toCapsCase a.name ∉ fixedTypes root) ∧ ∀ a ∈ m.modules, toSnakeCase a.name ∉ fixedTypes root := by
    have e : (modOf m).typeNames root = (m.actions.map fun a => toCapsCase a.name) ++
        (m.modules.map fun a => toSnakeCase a.name) ++ fixedTypes root := by
      obtain ⟨name, actions, modules⟩ := m
      simp only [Mod.typeNames, modOf, Mod.structs, Mod.subs, modsOf_eq, List.map_map, Function.comp_def, structOf,
        FlattenedModule.actions, FlattenedModule.modules, fixedTypes]
    rw [e, nodup_append_iff, nodup_append_iff, nodup_map_key toCapsCase hacts, nodup_map_key toSnakeCase hmods]
    have hf : (fixedTypes root).Nodup := by cases root <;> decide
    constructor
    · rintro ⟨⟨h1, h2, h3⟩, _, h4⟩
      refine ⟨h1, h2, fun a ha b hb e => h3 _ (List.mem_map.2 ⟨a, ha, rfl⟩) (List.mem_map.2 ⟨b, hb, e.symm⟩), fun a ha => ?_, fun a ha => ?_⟩
      · exact h4 _ (List.mem_append_left _ (List.mem_map.2 ⟨a, ha, rfl⟩))
      · exact h4 _ (List.mem_append_right _ (List.mem_map.2 ⟨a, ha, rfl⟩))
    · rintro ⟨h1, h2, h3, h4, h5⟩
      refine ⟨⟨h1, h2, ?_⟩, hf, ?_⟩
      · intro x hx hx'
        obtain ⟨a, ha, rfl⟩ := List.mem_map.1 hx
        obtain ⟨b, hb, e⟩ := List.mem_map.1 hx'
        exact h3 a ha b hb e.symm
      · intro x hx
        rcases List.mem_append.1 hx with hx | hx <;> obtain ⟨a, ha, rfl⟩ := List.mem_map.1 hx
        · exact h4 a ha
        · exact h5 a ha
  have hvariants : ((modOf m).variants.map Prod.fst).Nodup ↔
      (∀ a ∈ m.actions, ∀ b ∈ m.actions, toCapsCase a.name = toCapsCase b.name → a.name = b.name) ∧
      (∀ a ∈ m.modules, ∀ b ∈ m.modules, toCapsCase a.name = toCapsCase b.name → a.name = b.name) ∧
      ∀ a ∈ m.actions, ∀ b ∈ m.modules, toCapsCase a.name ≠ toCapsCase b.name := by
    have e : (modOf m).variants.map Prod.fst = (m.actions.map fun a => toCapsCase a.name) ++
        (m.modules.map fun a => toCapsCase a.name) := by
      obtain ⟨name, actions, modules⟩ := m
      simp only [modOf, Mod.variants, variantsOf, List.map_append, List.map_map, Function.comp_def,
        FlattenedModule.actions, FlattenedModule.modules]
    rw [e, nodup_append_iff, nodup_map_key toCapsCase hacts, nodup_map_key toCapsCase hmods]
    constructor
    · rintro ⟨h1, h2, h3⟩
      exact ⟨h1, h2, fun a ha b hb e => h3 _ (List.mem_map.2 ⟨a, ha, rfl⟩) (List.mem_map.2 ⟨b, hb, e.symm⟩)⟩
    · rintro ⟨h1, h2, h3⟩
      refine ⟨h1, h2, ?_⟩
      intro x hx hx'
      obtain ⟨a, ha, rfl⟩ := List.mem_map.1 hx
      obtain ⟨b, hb, e⟩ := List.mem_map.1 hx'
      exact h3 a ha b hb e.symm
  have hempty : ((modOf m).variants.isEmpty = false) ↔ (m.actions ≠ [] ∨ m.modules ≠ []) := by
    obtain ⟨name, actions, modules⟩ := m
    simp only [modOf, Mod.variants, variantsOf, FlattenedModule.actions, FlattenedModule.modules]
    cases actions <;> cases modules <;> simp
  have hpayload : ((modOf m).variants.all fun v => (modOf m).payloadOk v.2) = true := by
    obtain ⟨name, actions, modules⟩ := m
    simp only [modOf, Mod.variants, variantsOf, List.all_append, List.all_map, Bool.and_eq_true, List.all_eq_true,
      Function.comp_def, Mod.payloadOk, Mod.structs, Mod.subs, modsOf_eq, List.any_eq_true]
    refine ⟨fun a ha => ?_, fun a ha => ⟨?_, beq_self_eq_true _⟩⟩
    · exact ⟨structOf a, List.mem_map.2 ⟨a, ha, rfl⟩, beq_self_eq_true _⟩
    · exact ⟨_, List.mem_map.2 ⟨a, ha, rfl⟩, beq_self_eq_true _⟩
  have hhandled : (modOf m).handled.isPerm ((modOf m).variants.map Prod.fst) = true := by
    obtain ⟨name, actions, modules⟩ := m
    rw [List.isPerm_iff]
    simp only [modOf, Mod.handled, Mod.variants, variantsOf, handledOf, List.map_append, List.map_map, Function.comp_def]
    exact .refl _
  have hstructs : (modOf m).structs.all (Struct.ok root (modOf m)) = true ↔ ∀ a ∈ m.actions,
      ((a.routeParameters ++ a.queryParameters).map Param.name).Nodup ∧
      (∀ p ∈ a.routeParameters ++ a.queryParameters, ¬ Types root m p.typ) ∧
      ∀ p ∈ a.routeParameters ++ a.queryParameters, p.name ∉ preludeValues ∧ ¬ UnitStruct m p.name := by
    have e : (modOf m).structs = m.actions.map structOf := by obtain ⟨name, actions, modules⟩ := m; rfl
    rw [e, List.all_map, List.all_eq_true]
    exact forall_congr' fun a => forall_congr' fun ha => structOk_iff (ht a ha)
  have hvalues : ((modOf m).unitNames.all fun x => !(foreignValues root).contains x) = true ↔
      (root = true → ∀ x, UnitStruct m x → x ∉ [c!"Ok", c!"None"]) := by
    simp only [List.all_eq_true, mem_unitNames, Bool.not_eq_true', List.contains_eq_mem, decide_eq_false_iff_not]
    cases root <;> simp [foreignValues]
  have hforeign : (((modOf m).typeNames root).all fun x => !((modOf m).foreignTypes root).contains x) = true ↔
      (∀ a ∈ m.actions, toCapsCase a.name ∉ usedTypes root) ∧ (∀ a ∈ m.modules, toSnakeCase a.name ∉ usedTypes root) ∧
      ∀ a ∈ m.actions, a.queryParameters ≠ [] → ¬ Types root m c!"Option" := by
    have e : ∀ x, x ∈ (modOf m).foreignTypes root ↔ x ∈ usedTypes root ∨
        (x = c!"Option" ∧ ∃ a ∈ m.actions, a.queryParameters ≠ []) := by
      have hs : (modOf m).structs = m.actions.map structOf := by obtain ⟨name, actions, modules⟩ := m; rfl
      have e : ((modOf m).structs.any fun s => s.fields.any Field.optional) = true ↔
          ∃ a ∈ m.actions, a.queryParameters ≠ [] := by
        rw [hs]
        simp only [List.any_map, List.any_eq_true, Function.comp_def, structOf, List.any_append, Bool.or_eq_true,
          List.any_map]
        simp only [Bool.false_eq_true, and_false, exists_false, false_or, and_true]
        refine exists_congr fun a => and_congr_right fun _ => ?_
        cases a.queryParameters <;> simp
      intro x
      rw [← e]
      simp only [Mod.foreignTypes, usedTypes]
      by_cases hb : ((modOf m).structs.any fun s => s.fields.any Field.optional) = true
      · rw [if_pos hb, List.cons_append, List.mem_cons, List.mem_append, List.mem_singleton, List.mem_cons, or_assoc,
          and_iff_left hb]
        exact or_congr_right or_comm
      · rw [if_neg hb, List.cons_append, List.nil_append]
        exact ⟨.inl, fun h => h.elim id fun h => absurd h.2 hb⟩
    simp only [List.all_eq_true, mem_typeNames, Bool.not_eq_true', List.contains_eq_mem, decide_eq_false_iff_not, e, not_or, not_and]
    constructor
    · intro h
      refine ⟨fun a ha => (h _ (.inl ⟨a, ha, rfl⟩)).1, fun a ha => (h _ (.inr (.inl ⟨a, ha, rfl⟩))).1, fun a ha hq ht => ?_⟩
      exact (h _ ht).2 rfl ⟨a, ha, hq⟩
    · rintro ⟨h1, h2, h3⟩ x hx
      refine ⟨?_, fun e => ?_⟩
      · rcases hx with ⟨a, ha, rfl⟩ | ⟨a, ha, rfl⟩ | rfl | ⟨rfl, hx⟩
        · exact h1 a ha
        · exact h2 a ha
        · cases root <;> decide
        · simp only [List.mem_cons, List.not_mem_nil, or_false] at hx
          rcases hx with rfl | rfl | rfl <;> decide
      · rintro ⟨a, ha, hq⟩
        subst e
        exact h3 a ha hq hx
  simp only [Mod.localOk, Bool.and_eq_true, decide_eq_true_eq, hforeign, hvalues, hstructs, hpayload, hhandled, and_true,
    Bool.not_eq_true', hempty]
  rw [hnames, hvariants]
  constructor
  · rintro ⟨⟨⟨⟨⟨⟨n1, n2, n3, n4, n5⟩, f1, f2, f3⟩, v⟩, s⟩, _, a2, a3⟩, ne⟩
    exact ⟨ne, n1, n2, a2, fun a ha b hb => ⟨n3 a ha b hb, a3 a ha b hb⟩,
      fun a ha h => (reserved_iff.1 h).elim (n4 a ha) (f1 a ha), fun a ha h => (reserved_iff.1 h).elim (n5 a ha) (f2 a ha),
      f3, v, fun a ha => (s a ha).1, fun a ha => (s a ha).2.1, fun a ha => (s a ha).2.2⟩
  · intro h
    exact ⟨⟨⟨⟨⟨⟨h.actions, h.snakes, fun a ha b hb => (h.apart a ha b hb).1,
      fun a ha hx => h.actionFree a ha (reserved_iff.2 (.inl hx)), fun a ha hx => h.submoduleFree a ha (reserved_iff.2 (.inl hx))⟩,
      fun a ha hx => h.actionFree a ha (reserved_iff.2 (.inr hx)), fun a ha hx => h.submoduleFree a ha (reserved_iff.2 (.inr hx)),
      h.option⟩, h.values⟩, fun a ha => ⟨h.fields a ha, h.types a ha, h.bindable a ha⟩⟩,
      h.actions, h.caps, fun a ha b hb => (h.apart a ha b hb).2⟩, h.nonempty⟩

/-! ## All modules -/

theorem ok_iff {root : Bool} {m : FlattenedModule} : (modOf m).ok root = true ↔
    (modOf m).localOk root = true ∧ ∀ s ∈ m.modules, (modOf s).ok false = true := by
  obtain ⟨name, actions, modules⟩ := m
  simp only [modOf, Mod.ok, Bool.and_eq_true, modsOk_eq, modsOf_eq, List.all_map, List.all_eq_true, Function.comp_def,
    FlattenedModule.modules]

theorem ok_iff_local {m : FlattenedModule} (hp : Proper m) : ∀ root, (modOf m).ok root = true ↔
    ∀ mods node, HasModule m mods node → (modOf node).localOk (root && mods.isEmpty) = true := by
  induction hp with
  | mk h1 h2 h3 h4 ih =>
    intro root
    rw [ok_iff]
    constructor
    · rintro ⟨hl, hs⟩ mods node hn
      cases hn with
      | here => simpa using hl
      | inside hm hn =>
        have := (ih _ hm false).1 (hs _ hm) _ _ hn
        simpa using this
    · intro h
      refine ⟨by simpa using h [] _ (.here _), fun s hs => (ih s hs false).2 fun mods node hn => ?_⟩
      simpa using h _ _ (.inside hs hn)

theorem _root_.Wayfinder.HasModule.action {root node : FlattenedModule} {mods rest : List Str} {a : FlattenedAction}
    (h : HasModule root mods node) (ha : HasAction node rest a) : HasAction root (mods ++ rest) a := by
  induction h with
  | here => exact ha
  | inside hs _ ih => exact .inside hs (ih ha)

theorem hasModule_of {a : FlattenedAction} : ∀ {mods : List Str} {root : FlattenedModule} {rest : List Str},
    HasAction root (mods ++ rest) a → ∃ node, HasModule root mods node ∧ HasAction node rest a
  | [], root, rest, h => ⟨root, .here _, h⟩
  | x :: mods, root, rest, h => by
    obtain ⟨sub, hs, rfl, h'⟩ := hasAction_cons.1 h
    obtain ⟨node, h1, h2⟩ := hasModule_of h'
    exact ⟨node, .inside hs h1, h2⟩

theorem _root_.Wayfinder.HasModule.proper {root node : FlattenedModule} {mods : List Str} (h : HasModule root mods node) (hp : Proper root) :
    Proper node := by
  induction h with
  | here => exact hp
  | inside hs _ ih => exact ih (hp.sub hs)

theorem key_inj {α : Type} {key : α → Str} : ∀ {l : List α}, (l.map key).Nodup → ∀ a ∈ l, ∀ b ∈ l, key a = key b → a = b
  | [], _, a, ha => by cases ha
  | c :: l, h, a, ha => by
    simp only [List.map_cons, List.nodup_cons] at h
    intro b hb he
    rcases List.mem_cons.1 ha with ha | ha <;> rcases List.mem_cons.1 hb with hb | hb
    · rw [ha, hb]
    · rw [ha] at he; exact absurd (List.mem_map.2 ⟨b, hb, he.symm⟩) h.1
    · rw [hb] at he; exact absurd (List.mem_map.2 ⟨a, ha, he⟩) h.1
    · exact key_inj h.2 a ha b hb he

theorem hasModule_unique {a b : FlattenedModule} {mods : List Str} {root : FlattenedModule} (h : HasModule root mods a) :
    Proper root → HasModule root mods b → a = b := by
  induction h with
  | here => intro _ hb; cases hb; rfl
  | @inside m sub node mods hs hn ih =>
    intro hp hb
    generalize hx : sub.name :: mods = ms at hb
    cases hb with
    | here => cases hx
    | @inside _ sub' _ mods' hs' hn' =>
      obtain ⟨hx1, rfl⟩ := List.cons.inj hx
      have : sub = sub' := by
        cases hp with
        | mk h1 h2 h3 h4 =>
          refine key_inj (key := FlattenedModule.name) ?_ _ hs _ hs' hx1
          rw [List.Nodup, List.pairwise_map]
          exact h2.imp fun hab => Str.orderCmp.ne_of_lt hab
      subst this
      exact ih (hp.sub hs) hn'

section
variable {r : Routes} {root : FlattenedModule} (hroot : modulesRoot r = some root)
include hroot

theorem action_iff {mods : List Str} {node : FlattenedModule} (hn : HasModule root mods node) {x : Str} {params query : List Param} :
    Action r mods x params query ↔ ∃ a ∈ node.actions, a.name = x ∧ a.routeParameters = params ∧ a.queryParameters = query := by
  constructor
  · rintro ⟨segs, above, res, hd, hr, hm, rfl, rfl, rfl⟩
    have ha := (C24_actions hroot mods _).2 ⟨segs, above, res, hd, hr, hm.symm, rfl⟩
    obtain ⟨node', h1, h2⟩ := hasModule_of (rest := []) (by simpa using ha)
    obtain rfl := hasModule_unique hn (modulesRoot_spec hroot).1 h1
    exact ⟨_, hasAction_nil.1 h2, rfl, rfl, rfl⟩
  · rintro ⟨a, ha, rfl, rfl, rfl⟩
    have := hn.action (hasAction_nil.2 ha)
    rw [List.append_nil] at this
    obtain ⟨segs, query, res, hd, hr, hm, rfl⟩ := (C24_actions hroot _ _).1 this
    exact ⟨segs, query, res, hd, hr, hm.symm, rfl, rfl, rfl⟩

theorem action_module {mods : List Str} {x : Str} {params query : List Param} (h : Action r mods x params query) :
    ∃ node, HasModule root mods node := by
  obtain ⟨segs, above, res, hd, hr, hm, rfl, rfl, rfl⟩ := h
  have ha := (C24_actions hroot mods _).2 ⟨segs, above, res, hd, hr, hm.symm, rfl⟩
  obtain ⟨node', h1, h2⟩ := hasModule_of (rest := []) (by simpa using ha)
  exact ⟨_, h1⟩

theorem submodule_iff {mods : List Str} {node : FlattenedModule} (hn : HasModule root mods node) {x : Str} :
    Submodule r mods x ↔ ∃ s ∈ node.modules, s.name = x := by
  constructor
  · rintro ⟨rest, y, params, query, segs, above, res, hd, hr, hm, rfl, rfl, rfl⟩
    have ha := (C24_actions hroot _ _).2 ⟨segs, above, res, hd, hr, hm.symm, rfl⟩
    obtain ⟨node', h1, h2⟩ := hasModule_of ha
    obtain rfl := hasModule_unique hn (modulesRoot_spec hroot).1 h1
    obtain ⟨s, hs, hx, _⟩ := hasAction_cons.1 h2
    exact ⟨s, hs, hx⟩
  · rintro ⟨s, hs, rfl⟩
    cases hn.proper (modulesRoot_spec hroot).1 with
    | mk h1 h2 h3 h4 =>
      obtain ⟨rest, a, ha⟩ := h4 s hs
      have := hn.action (HasAction.inside hs ha)
      obtain ⟨segs, query, res, hd, hr, hm, rfl⟩ := (C24_actions hroot _ _).1 this
      exact ⟨rest, _, _, _, segs, query, res, hd, hr, hm.symm, rfl, rfl, rfl⟩

theorem submodule_module {mods : List Str} {x : Str} (h : Submodule r mods x) : ∃ node, HasModule root mods node := by
  obtain ⟨rest, y, params, query, segs, above, res, hd, hr, hm, rfl, rfl, rfl⟩ := h
  have ha := (C24_actions hroot _ _).2 ⟨segs, above, res, hd, hr, hm.symm, rfl⟩
  obtain ⟨node', h1, h2⟩ := hasModule_of ha
  exact ⟨_, h1⟩

theorem types_iff {mods : List Str} {node : FlattenedModule} (hn : HasModule root mods node) {t : Str} :
    Types mods.isEmpty node t ↔ TypeName r mods t := by
  constructor
  · rintro (⟨a, ha, rfl⟩ | ⟨s, hs, rfl⟩ | rfl | ⟨h1, h2⟩)
    · exact .action ((action_iff hroot hn).2 ⟨a, ha, rfl, rfl, rfl⟩)
    · exact .submodule ((submodule_iff hroot hn).2 ⟨s, hs, rfl⟩)
    · exact .enum
    · exact .prelude (by simpa using h1) h2
  · rintro (_ | ⟨h1, h2⟩ | h | h)
    · exact .inr (.inr (.inl rfl))
    · exact .inr (.inr (.inr ⟨by simpa using h1, h2⟩))
    · obtain ⟨a, ha, rfl, _, _⟩ := (action_iff hroot hn).1 h
      exact .inl ⟨a, ha, rfl⟩
    · obtain ⟨a, ha, rfl⟩ := (submodule_iff hroot hn).1 h
      exact .inr (.inl ⟨a, ha, rfl⟩)

theorem unit_iff {mods : List Str} {node : FlattenedModule} (hn : HasModule root mods node) {x : Str} :
    UnitStruct node x ↔ ∃ y, Action r mods y [] [] ∧ x = toCapsCase y := by
  constructor
  · rintro ⟨a, ha, rfl, h1, h2⟩
    exact ⟨_, (action_iff hroot hn).2 ⟨a, ha, rfl, h1, h2⟩, rfl⟩
  · rintro ⟨y, h, rfl⟩
    obtain ⟨a, ha, rfl, h1, h2⟩ := (action_iff hroot hn).1 h
    exact ⟨a, ha, rfl, h1, h2⟩

omit hroot in
theorem reserved_mods (mods : List Str) : reserved (if mods.isEmpty then [] else [c!""]) = reserved mods := by
  cases mods <;> rfl

theorem clear_of_local (h : ∀ mods node, HasModule root mods node → LocalClear mods.isEmpty node) : ClearNames r where
  nonempty := by
    have hp := (modulesRoot_spec hroot).1
    cases hp with
    | mk h1 h2 h3 h4 =>
      rcases (h [] root (.here _)).nonempty with hne | hne
      · obtain ⟨a, ha⟩ := List.exists_mem_of_ne_nil _ hne
        exact ⟨[], _, _, _, (action_iff hroot (.here _)).2 ⟨a, ha, rfl, rfl, rfl⟩⟩
      · obtain ⟨s, hs⟩ := List.exists_mem_of_ne_nil _ hne
        obtain ⟨rest, y, params, query, h⟩ := (submodule_iff hroot (.here _)).2 ⟨s, hs, rfl⟩
        exact ⟨_, y, params, query, h⟩
  actions := by
    intro mods x y params query params' query' hx hy he
    obtain ⟨node, hn⟩ := action_module hroot hx
    obtain ⟨a, ha, rfl, _, _⟩ := (action_iff hroot hn).1 hx
    obtain ⟨b, hb, rfl, _, _⟩ := (action_iff hroot hn).1 hy
    exact (h _ _ hn).actions a ha b hb he
  submodules := by
    intro mods x y hx hy he
    obtain ⟨node, hn⟩ := submodule_module hroot hx
    obtain ⟨a, ha, rfl⟩ := (submodule_iff hroot hn).1 hx
    obtain ⟨b, hb, rfl⟩ := (submodule_iff hroot hn).1 hy
    rcases he with he | he
    · exact (h _ _ hn).snakes a ha b hb he
    · exact (h _ _ hn).caps a ha b hb he
  apart := by
    intro mods x y params query hx hy
    obtain ⟨node, hn⟩ := action_module hroot hx
    obtain ⟨a, ha, rfl, _, _⟩ := (action_iff hroot hn).1 hx
    obtain ⟨b, hb, rfl⟩ := (submodule_iff hroot hn).1 hy
    exact (h _ _ hn).apart a ha b hb
  actionFree := by
    intro mods x params query hx
    obtain ⟨node, hn⟩ := action_module hroot hx
    obtain ⟨a, ha, rfl, _, _⟩ := (action_iff hroot hn).1 hx
    have := (h _ _ hn).actionFree a ha
    rwa [reserved_mods] at this
  submoduleFree := by
    intro mods x hx
    obtain ⟨node, hn⟩ := submodule_module hroot hx
    obtain ⟨a, ha, rfl⟩ := (submodule_iff hroot hn).1 hx
    have := (h _ _ hn).submoduleFree a ha
    rwa [reserved_mods] at this
  option := by
    intro mods x params query hx hq ht
    obtain ⟨node, hn⟩ := action_module hroot hx
    obtain ⟨a, ha, rfl, rfl, rfl⟩ := (action_iff hroot hn).1 hx
    exact (h _ _ hn).option a ha hq ((types_iff hroot hn).2 ht)
  values := by
    intro x hx
    exact (h [] root (.here _)).values rfl _ ((unit_iff hroot (.here _)).2 ⟨x, hx, rfl⟩)
  fields := by
    intro mods x params query hx
    obtain ⟨node, hn⟩ := action_module hroot hx
    obtain ⟨a, ha, rfl, rfl, rfl⟩ := (action_iff hroot hn).1 hx
    exact (h _ _ hn).fields a ha
  types := by
    intro mods x params query hx p hp ht
    obtain ⟨node, hn⟩ := action_module hroot hx
    obtain ⟨a, ha, rfl, rfl, rfl⟩ := (action_iff hroot hn).1 hx
    exact (h _ _ hn).types a ha p hp ((types_iff hroot hn).2 ht)
  bindable := by
    intro mods x params query hx p hp
    obtain ⟨node, hn⟩ := action_module hroot hx
    obtain ⟨a, ha, rfl, rfl, rfl⟩ := (action_iff hroot hn).1 hx
    obtain ⟨h1, h2⟩ := (h _ _ hn).bindable a ha p hp
    exact ⟨h1, fun {y} hy he => h2 ((unit_iff hroot hn).2 ⟨y, hy, he⟩)⟩

theorem local_of_clear (h : ClearNames r) {mods : List Str} {node : FlattenedModule} (hn : HasModule root mods node) :
    LocalClear mods.isEmpty node := by
  have hact : ∀ a ∈ node.actions, Action r mods a.name a.routeParameters a.queryParameters :=
    fun a ha => (action_iff hroot hn).2 ⟨a, ha, rfl, rfl, rfl⟩
  have hsub : ∀ a ∈ node.modules, Submodule r mods a.name := fun a ha => (submodule_iff hroot hn).2 ⟨a, ha, rfl⟩
  refine ⟨?_, fun a ha b hb => h.actions (hact a ha) (hact b hb), fun a ha b hb he => h.submodules (hsub a ha) (hsub b hb) (.inl he),
    fun a ha b hb he => h.submodules (hsub a ha) (hsub b hb) (.inr he), fun a ha b hb => h.apart (hact a ha) (hsub b hb),
    fun a ha => ?_, fun a ha => ?_, fun a ha hq ht => h.option (hact a ha) hq ((types_iff hroot hn).1 ht), fun hr x hx => ?_,
    fun a ha => h.fields (hact a ha), fun a ha p hp ht => h.types (hact a ha) p hp ((types_iff hroot hn).1 ht), fun a ha p hp => ?_⟩
  · have hne : ∃ rest a, HasAction node rest a := by
      by_cases hm : mods = []
      · subst hm
        cases hn with
        | here =>
          obtain ⟨mods, x, params, query, segs, above, res, hd, hr, hm, rfl, rfl, rfl⟩ := h.nonempty
          exact ⟨_, _, (C24_actions hroot mods _).2 ⟨segs, above, res, hd, hr, hm.symm, rfl⟩⟩
      · obtain ⟨mods', a, ha⟩ := C24_no_empty hroot hn hm
        obtain ⟨node', h1, h2⟩ := hasModule_of ha
        obtain rfl := hasModule_unique hn (modulesRoot_spec hroot).1 h1
        exact ⟨_, _, h2⟩
    obtain ⟨rest, a, ha⟩ := hne
    cases ha with
    | here ha => exact .inl fun e => by rw [e] at ha; cases ha
    | inside hs _ => exact .inr fun e => by rw [e] at hs; cases hs
  · rw [reserved_mods]; exact h.actionFree (hact a ha)
  · rw [reserved_mods]; exact h.submoduleFree (hsub a ha)
  · have hm : mods = [] := by simpa using hr
    subst hm
    obtain ⟨y, hy, rfl⟩ := (unit_iff hroot hn).1 hx
    exact h.values hy
  · obtain ⟨h1, h2⟩ := h.bindable (hact a ha) p hp
    refine ⟨h1, fun hu => ?_⟩
    obtain ⟨y, hy, he⟩ := (unit_iff hroot hn).1 hu
    exact h2 hy he

/-- The templates of the paths of actions are accepted. -/
def TemplatesOk (root : FlattenedModule) : Prop := ∀ mods a, HasAction root mods a →
  (literal a.template).isSome = true ∧ (formatText a.template a.formatArgs).isSome = true

/-- The declarations are accepted exactly if names do not clash. -/
theorem ok_iff_clear' (ht : TemplatesOk root) : (modOf root).ok true = true ↔ ClearNames r := by
  rw [ok_iff_local (modulesRoot_spec hroot).1]
  have key : ∀ mods node, HasModule root mods node → ((modOf node).localOk (true && mods.isEmpty) = true ↔ LocalClear mods.isEmpty node) := by
    intro mods node hn
    rw [Bool.true_and]
    obtain ⟨h1, h2⟩ := C24_once hroot hn
    refine localOk_iff h1 h2 fun a ha => ?_
    exact ht _ _ (hn.action (hasAction_nil.2 ha))
  constructor
  · exact fun h => clear_of_local hroot fun mods node hn => (key mods node hn).1 (h mods node hn)
  · exact fun h mods node hn => (key mods node hn).2 (local_of_clear hroot h hn)

theorem templates_ok (hb : NoBraces r) : TemplatesOk root := fun _ _ ha => template_ok hb hroot ha

theorem ok_iff_clear (hb : NoBraces r) : (modOf root).ok true = true ↔ ClearNames r :=
  ok_iff_clear' hroot (templates_ok hroot hb)

/-- In a file that is accepted the templates are. -/
theorem templates_of_ok (h : (modOf root).ok true = true) : TemplatesOk root := by
  intro mods a ha
  rw [← List.append_nil mods] at ha
  obtain ⟨node, hn, h2⟩ := hasModule_of ha
  have hl := (ok_iff_local (modulesRoot_spec hroot).1 true).1 h mods node hn
  have ha := hasAction_nil.1 h2
  simp only [Mod.localOk, Bool.and_eq_true, List.all_eq_true] at hl
  have hs := hl.1.1.1.1.2 (structOf a) (by
    obtain ⟨_, _, _⟩ := node
    exact List.mem_map_of_mem ha)
  simp only [Struct.ok, Bool.and_eq_true] at hs
  exact ⟨hs.1.1.2, hs.1.2⟩

theorem canBind_of (hf : FreeParams r) {segs query node} (hr : LiveRoute r segs query node) {p : Param} (hp : .dynamic p ∈ segs) :
    (modOf root).canBind p.name = true := by
  obtain ⟨h1, h2⟩ := hf _ _ _ hr p hp
  refine canBind_iff.2 ⟨h1, fun hu => ?_⟩
  obtain ⟨y, hy, he⟩ := (unit_iff hroot (.here _)).1 hu
  exact h2 hy he

end

end Wayfinder.Rust
