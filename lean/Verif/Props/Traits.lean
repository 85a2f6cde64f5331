import Verif.Spec.Traits
import Verif.Props.Scope
/-!
# What the types of parameters must implement: C87
-/

namespace Wayfinder

/-! ## Parsed variables -/

theorem lookup_check {s : Stmt} {sc sc' : Scope} (h : s.check sc = some sc') {x t : Str} (hl : lookupVar x sc' = some (.user t)) :
    lookupVar x sc = some (.user t) ∨ ⟨x, t⟩ ∈ s.parses := by
  cases s with
  | letParam name typ =>
    simp only [Stmt.check] at h
    split at h
    · rename_i ty _
      cases h
      simp only [lookupVar] at hl
      split at hl
      · rename_i e; cases hl; subst e; exact .inr (by simp [Stmt.parses])
      · exact .inl hl
    · cases h
  | letStart =>
    simp only [Stmt.check] at h
    split at h
    · cases h
      simp only [lookupVar] at hl
      split at hl
      · cases hl
      · exact .inl hl
    · cases h
  | letText =>
    simp only [Stmt.check] at h
    split at h
    · cases h
      simp only [lookupVar] at hl
      split at hl
      · cases hl
      · exact .inl hl
    · cases h
  | blank => simp only [Stmt.check] at h; cases h; exact .inl hl
  | retNotFound => simp only [Stmt.check] at h; cases h; exact .inl hl
  | addI _ => simp only [Stmt.check] at h; split at h <;> cases h; exact .inl hl
  | ifThen _ _ => simp only [Stmt.check] at h; split at h <;> cases h; exact .inl hl
  | matchMethod _ => simp only [Stmt.check] at h; split at h <;> cases h; exact .inl hl
  | matchPath _ _ => simp only [Stmt.check] at h; split at h <;> cases h; exact .inl hl
  | whileScan => simp only [Stmt.check] at h; split at h <;> cases h; exact .inl hl

mutual
/-- A captured variable is in scope, or parsed, or of type `usize` (`start`). -/
theorem block_captured : ∀ (b : List Stmt) (sc sc' : Scope), checkBlock b sc = some sc' → ∀ a ∈ blockLiterals b, ∀ p ∈ a.captures,
    lookupVar p.name sc = some (.user p.typ) ∨ p.typ = c!"usize" ∨ p ∈ blockParses b
  | [], _, _, _, _, ha, _, _ => by cases ha
  | s :: b, sc, sc', h, a, ha, p, hp => by
    simp only [checkBlock] at h
    simp only [blockLiterals, List.mem_append] at ha
    simp only [blockParses, List.mem_append]
    cases hs : s.check sc with
    | none => simp [hs] at h
    | some sc1 =>
      simp only [hs] at h
      rcases ha with ha | ha
      · rcases stmt_captured s sc sc1 hs a ha p hp with h' | h' | h' <;> simp [h']
      · rcases block_captured b sc1 sc' h a ha p hp with h' | h' | h'
        · rcases lookup_check hs h' with h'' | h'' <;> simp [h'']
        · simp [h']
        · simp [h']
theorem stmt_captured : ∀ (s : Stmt) (sc sc' : Scope), s.check sc = some sc' → ∀ a ∈ s.literals, ∀ p ∈ a.captures,
    lookupVar p.name sc = some (.user p.typ) ∨ p.typ = c!"usize" ∨ p ∈ s.parses
  | .ifThen c body, sc, sc', h, a, ha, p, hp => by
    simp only [Stmt.check] at h
    split at h
    · rename_i hb
      simp only [Bool.and_eq_true] at hb
      obtain ⟨sc2, h2⟩ := Option.isSome_iff_exists.1 hb.2
      simp only [Stmt.literals] at ha
      simpa only [Stmt.parses] using block_captured body sc sc2 h2 a ha p hp
    · cases h
  | .matchPath n arms, sc, sc', h, a, ha, p, hp => by
    simp only [Stmt.check] at h
    split at h
    · rename_i hb
      simp only [Bool.and_eq_true] at hb
      simp only [Stmt.literals] at ha
      simpa only [Stmt.parses] using arms_captured arms sc hb.2 a ha p hp
    · cases h
  | .matchMethod arms, sc, sc', h, a, ha, p, hp => by
    simp only [Stmt.check] at h
    split at h
    · rename_i hb
      simp only [Bool.and_eq_true, List.all_eq_true] at hb
      simp only [Stmt.literals] at ha
      have := hb.2 a ha
      simp only [MethodArm.typed, Bool.and_eq_true, List.all_eq_true] at this
      have := this.2 p hp
      split at this
      · rename_i t ht
        simp only [beq_iff_eq] at this
        subst this
        exact .inl ht
      · simp only [beq_iff_eq] at this
        exact .inr (.inl this)
      · cases this
    · cases h
  | .blank, _, _, _, _, ha, _, _ => by cases ha
  | .letStart, _, _, _, _, ha, _, _ => by cases ha
  | .addI _, _, _, _, _, ha, _, _ => by cases ha
  | .retNotFound, _, _, _, _, ha, _, _ => by cases ha
  | .whileScan, _, _, _, _, ha, _, _ => by cases ha
  | .letText, _, _, _, _, ha, _, _ => by cases ha
  | .letParam _ _, _, _, _, _, ha, _, _ => by cases ha
theorem arms_captured : ∀ (as : List Arm) (sc : Scope), checkArms as sc = true → ∀ a ∈ armsLiterals as, ∀ p ∈ a.captures,
    lookupVar p.name sc = some (.user p.typ) ∨ p.typ = c!"usize" ∨ p ∈ armsParses as
  | [], _, _, _, ha, _, _ => by cases ha
  | b :: as, sc, h, a, ha, p, hp => by
    simp only [checkArms, Bool.and_eq_true] at h
    simp only [armsLiterals, List.mem_append] at ha
    simp only [armsParses, List.mem_append]
    rcases ha with ha | ha
    · rcases arm_captured b sc h.1 a ha p hp with h' | h' | h' <;> simp [h']
    · rcases arms_captured as sc h.2 a ha p hp with h' | h' | h' <;> simp [h']
theorem arm_captured : ∀ (b : Arm) (sc : Scope), b.check sc = true → ∀ a ∈ b.literals, ∀ p ∈ a.captures,
    lookupVar p.name sc = some (.user p.typ) ∨ p.typ = c!"usize" ∨ p ∈ b.parses
  | .bytes pat body, sc, h, a, ha, p, hp => by
    simp only [Arm.check] at h
    obtain ⟨sc2, h2⟩ := Option.isSome_iff_exists.1 h
    simp only [Arm.literals] at ha
    simpa only [Arm.parses] using block_captured body sc sc2 h2 a ha p hp
  | .wildNotFound, _, _, _, ha, _, _ => by cases ha
  | .wildNothing, _, _, _, ha, _, _ => by cases ha
  | .someSlash, _, _, _, ha, _, _ => by cases ha
  | .stray _, _, h, _, _, _, _ => by cases h
end

mutual
/-- A parsed variable has the type of a field for which it is used. -/
theorem block_parsed : ∀ b : List Stmt, BlockInferred b → ∀ p ∈ blockParses b, ∃ a ∈ blockLiterals b, p ∈ a.captures
  | [], _, _, hp => by cases hp
  | s :: b, hi, p, hp => by
    simp only [BlockInferred] at hi
    simp only [blockParses, List.mem_append] at hp
    simp only [blockLiterals, List.mem_append]
    rcases hp with hp | hp
    · obtain ⟨a, ha, h⟩ := stmt_parsed s b hi.1 p hp
      exact ⟨a, ha, h⟩
    · obtain ⟨a, ha, h⟩ := block_parsed b hi.2 p hp
      exact ⟨a, .inr ha, h⟩
theorem stmt_parsed : ∀ (s : Stmt) (rest : List Stmt), StmtInferred rest s → ∀ p ∈ s.parses,
    ∃ a, (a ∈ s.literals ∨ a ∈ blockLiterals rest) ∧ p ∈ a.captures
  | .ifThen c body, rest, hi, p, hp => by
    simp only [StmtInferred] at hi
    simp only [Stmt.parses] at hp
    obtain ⟨a, ha, h⟩ := block_parsed body hi p hp
    exact ⟨a, .inl (by simpa [Stmt.literals] using ha), h⟩
  | .matchPath n arms, rest, hi, p, hp => by
    simp only [StmtInferred] at hi
    simp only [Stmt.parses] at hp
    obtain ⟨a, ha, h⟩ := arms_parsed arms hi p hp
    exact ⟨a, .inl (by simpa [Stmt.literals] using ha), h⟩
  | .letParam name (some typ), rest, hi, p, hp => by
    simp only [StmtInferred] at hi
    simp only [Stmt.parses, List.mem_singleton] at hp
    subst hp
    have hu : useBlock name rest = some (some typ) := by
      unfold inferType at hi
      split at hi
      · rename_i t ht; rw [ht, hi]
      · cases hi
    obtain ⟨a, ha, p, hf, rfl⟩ := useBlock_literal _ _ _ hu
    have hn : p.name = name := by simpa using List.find?_some hf
    subst hn
    exact ⟨a, .inr ha, List.mem_of_find?_eq_some hf⟩
  | .letParam name none, _, _, _, hp => by cases hp
  | .matchMethod _, _, _, _, hp => by cases hp
  | .blank, _, _, _, hp => by cases hp
  | .letStart, _, _, _, hp => by cases hp
  | .addI _, _, _, _, hp => by cases hp
  | .retNotFound, _, _, _, hp => by cases hp
  | .whileScan, _, _, _, hp => by cases hp
  | .letText, _, _, _, hp => by cases hp
theorem arms_parsed : ∀ as : List Arm, ArmsInferred as → ∀ p ∈ armsParses as, ∃ a ∈ armsLiterals as, p ∈ a.captures
  | [], _, _, hp => by cases hp
  | b :: as, hi, p, hp => by
    simp only [ArmsInferred] at hi
    simp only [armsParses, List.mem_append] at hp
    simp only [armsLiterals, List.mem_append]
    rcases hp with hp | hp
    · obtain ⟨a, ha, h⟩ := arm_parsed b hi.1 p hp
      exact ⟨a, .inl ha, h⟩
    · obtain ⟨a, ha, h⟩ := arms_parsed as hi.2 p hp
      exact ⟨a, .inr ha, h⟩
theorem arm_parsed : ∀ b : Arm, ArmInferred b → ∀ p ∈ b.parses, ∃ a ∈ b.literals, p ∈ a.captures
  | .bytes pat body, hi, p, hp => by
    simp only [ArmInferred] at hi
    simp only [Arm.parses] at hp
    simpa only [Arm.literals] using block_parsed body hi p hp
  | .wildNotFound, _, _, hp => by cases hp
  | .wildNothing, _, _, hp => by cases hp
  | .someSlash, _, _, hp => by cases hp
  | .stray _, _, _, hp => by cases hp
end

namespace Rust

theorem blockParses_append : ∀ a b : List Stmt, blockParses (a ++ b) = blockParses a ++ blockParses b
  | [], b => by simp [blockParses]
  | s :: a, b => by simp [blockParses, blockParses_append a b]

mutual
theorem emitStmt_parses : ∀ s : Stmt, blockParses (emitStmt s) = s.parses
  | .ifThen c body => by simp [emitStmt, blockParses, Stmt.parses, emitBlock_parses body]
  | .matchPath n arms => by simp [emitStmt, blockParses, Stmt.parses, emitArms_parses arms]
  | .matchMethod arms => by simp [emitStmt, blockParses, Stmt.parses]
  | .letParam name (some typ) => by simp [emitStmt, blockParses, Stmt.parses]
  | .letParam name none => by simp [emitStmt, blockParses, Stmt.parses]
  | .blank => by simp [emitStmt, blockParses, Stmt.parses]
  | .letStart => by simp [emitStmt, blockParses, Stmt.parses]
  | .addI _ => by simp [emitStmt, blockParses, Stmt.parses]
  | .retNotFound => by simp [emitStmt, blockParses, Stmt.parses]
  | .whileScan => by simp [emitStmt, blockParses, Stmt.parses]
  | .letText => by simp [emitStmt, blockParses, Stmt.parses]
theorem emitBlock_parses : ∀ b : List Stmt, blockParses (emitBlock b) = blockParses b
  | [] => rfl
  | s :: b => by rw [emitBlock, blockParses_append, emitStmt_parses s, emitBlock_parses b, blockParses]
theorem emitPathArm_parses : ∀ a : Arm, (emitPathArm a).parses = a.parses
  | .bytes pat body => by simp only [emitPathArm, Arm.parses, emitBlock_parses body]
  | .wildNotFound => rfl
  | .wildNothing => rfl
  | .someSlash => rfl
  | .stray _ => rfl
theorem emitArms_parses : ∀ as : List Arm, armsParses (emitArms as) = armsParses as
  | [] => rfl
  | a :: as => by simp only [emitArms, armsParses, emitPathArm_parses a, emitArms_parses as]
end

/-! ## Structs -/

mutual
theorem allStructs_iff : ∀ (m : FlattenedModule) (s : Struct),
    s ∈ (modOf m).allStructs ↔ ∃ mods a, HasAction m mods a ∧ s = structOf a
  | .mk name actions modules, s => by
    simp only [modOf, Mod.allStructs, List.mem_append, subStructs_iff modules s, List.mem_map]
    constructor
    · rintro (⟨a, ha, rfl⟩ | ⟨m, hm, mods, a, h, rfl⟩)
      · exact ⟨[], a, .here ha, rfl⟩
      · exact ⟨_, a, .inside hm h, rfl⟩
    · rintro ⟨mods, a, h, rfl⟩
      cases h with
      | here h => exact .inl ⟨a, h, rfl⟩
      | inside hm h => exact .inr ⟨_, hm, _, a, h, rfl⟩
theorem subStructs_iff : ∀ (ms : List FlattenedModule) (s : Struct),
    s ∈ subStructs (modsOf ms) ↔ ∃ m ∈ ms, ∃ mods a, HasAction m mods a ∧ s = structOf a
  | [], s => by simp [modsOf, subStructs]
  | m :: ms, s => by simp [modsOf, subStructs, allStructs_iff m s, subStructs_iff ms s]
end

theorem served_struct {impl : Trait → Str → Prop} {a : FlattenedAction} (hn : (structOf a).fields.map Field.name |>.Nodup) :
    (structOf a).Served impl ↔
      (∀ p ∈ a.routeParameters ++ a.queryParameters, impl .debug p.typ ∧ impl .partialEq p.typ ∧ impl .eq p.typ) ∧
      ∀ p ∈ a.routeParameters, impl .display p.typ := by
  have hd : ∀ {f g : Field}, f ∈ (structOf a).fields → g ∈ (structOf a).fields → f.name = g.name → f = g := by
    intro f g hf hg e
    exact List.inj_on_of_nodup_map hn hf hg e
  simp only [Struct.Served]
  refine and_congr ?_ ?_
  · simp only [structOf, List.mem_append, List.mem_map]
    constructor
    · rintro h p (hp | hp)
      · exact h _ (.inl ⟨p, hp, rfl⟩)
      · exact h _ (.inr ⟨p, hp, rfl⟩)
    · rintro h f (⟨p, hp, rfl⟩ | ⟨p, hp, rfl⟩)
      · exact h p (.inl hp)
      · exact h p (.inr hp)
  · constructor
    · intro h p hp
      obtain ⟨f, hf, h1, h2, h3⟩ := h p.name (by simp [structOf, FlattenedAction.formatArgs]; exact ⟨p, hp, rfl⟩)
      have hg : (⟨p.name, false, p.typ⟩ : Field) ∈ (structOf a).fields := by
        simp only [structOf, List.mem_append, List.mem_map]
        exact .inl ⟨p, hp, rfl⟩
      have := hd hf hg h1
      subst this
      exact h3
    · intro h x hx
      simp only [structOf, FlattenedAction.formatArgs, List.mem_map] at hx
      obtain ⟨p, hp, rfl⟩ := hx
      refine ⟨⟨p.name, false, p.typ⟩, ?_, rfl, rfl, h p hp⟩
      simp only [structOf, List.mem_append, List.mem_map]
      exact .inl ⟨p, hp, rfl⟩

/-! ## The emitted file -/

/-- The fields for which the parameters of a route are used. -/
theorem emitted_fieldType {r : Routes} (hr : RedirectsFit r) {segs : List PathSegment} {query : List Param} {res : Resource}
    (he : Emitted r segs query res) {x : Str} (hx : x ∈ (routeParams segs).map Param.name) : ∃ t, FieldType r res x t := by
  cases hi : res.isRedirect with
  | false =>
    obtain ⟨p, hp, rfl⟩ := List.mem_map.1 hx
    exact ⟨p.typ, res.modules, res.name, _, _, ⟨segs, _, res, emitted_declares he, hi, rfl, rfl, rfl, rfl⟩, ⟨rfl, rfl, rfl⟩, hp⟩
  | true =>
    obtain ⟨mods, y, params, query', ha, hs, h1, -⟩ := hr segs _ res he hi
    obtain ⟨p, hp, rfl⟩ := List.mem_map.1 (h1.mem_iff.1 hx)
    exact ⟨p.typ, mods, y, params, query', ha, hs, hp⟩

theorem names_retype (τ : Typing) : ∀ (segs pre : List PathSegment),
    (routeParams (retypeSegs τ pre segs)).map Param.name = (routeParams segs).map Param.name
  | [], _ => rfl
  | .static s :: segs, pre => by simpa [retypeSegs, PathSegment.retype, routeParams] using names_retype τ segs _
  | .dynamic p :: segs, pre => by simpa [retypeSegs, PathSegment.retype, routeParams] using names_retype τ segs _

/-- **C87.** If the emitted file is accepted, then rustc finds all implementations that it needs for the structs, for
`to_path` and for `match_route`, exactly if: the types of all parameters of actions are `Debug`, `PartialEq` and `Eq`; those of
path parameters are `Display`; and those of the fields for which path parameters are used, where there is code for them, are
`FromStr`.  Nothing is asked of the other types in a configuration, in particular not of those in redirects. -/
theorem C87_traits {c : RouteConfig} (h : Ready c) (hst : StartTypes c.routes) {impl : Trait → Str → Prop}
    (hu : impl .fromStr c!"usize") {m : Mod} {b : List Stmt}
    (e : readText (headerToks c.headers) (codegen c).text = some (m, b)) : Served impl m b ↔ Implemented impl c.routes := by
  obtain ⟨root, body, hr, hb, -⟩ := codegen_text h.generated
  obtain ⟨-, -, hclear, -, hfit, τ, ht, -⟩ := (C49_accepted h hst).1 ⟨m, b, e⟩
  obtain ⟨body', hb', hc, rfl, rfl, -, -⟩ := retyped_meaning h.legible hr hb e ht
  simp only [compiles, Bool.and_eq_true] at hc
  obtain ⟨sc, hsc⟩ := Option.isSome_iff_exists.1 hc.2
  have key : ∀ {mods a}, HasAction root mods a → Action c.routes mods a.name a.routeParameters a.queryParameters := by
    intro mods a ha
    obtain ⟨segs, above, res, hd, hi, rfl, rfl⟩ := (C24_actions hr _ _).1 ha
    exact ⟨segs, above, res, hd, hi, rfl, rfl, rfl, rfl⟩
  have key' : ∀ {mods x params query}, Action c.routes mods x params query →
      ∃ a, HasAction root mods a ∧ a.routeParameters = params ∧ a.queryParameters = query := by
    rintro mods x params query ⟨segs, above, res, hd, hi, rfl, rfl, rfl, rfl⟩
    exact ⟨_, (C24_actions hr _ _).2 ⟨segs, above, res, hd, hi, rfl, rfl⟩, rfl, rfl⟩
  have hn : ∀ {mods a}, HasAction root mods a → ((structOf a).fields.map Field.name).Nodup := by
    intro mods a ha
    have := hclear.fields (key ha)
    simpa [structOf, Function.comp_def] using this
  simp only [Served, emitBlock_parses]
  constructor
  · rintro ⟨h1, h2⟩
    refine ⟨fun ha p hp => ?_, fun ha p hp => ?_, fun {segs query res} he p hp t hf => ?_⟩
    · obtain ⟨a, ha', rfl, rfl⟩ := key' ha
      exact ((served_struct (hn ha')).1 (h1 _ ((allStructs_iff _ _).2 ⟨_, a, ha', rfl⟩))).1 p hp
    · obtain ⟨a, ha', rfl, rfl⟩ := key' ha
      exact ((served_struct (hn ha')).1 (h1 _ ((allStructs_iff _ _).2 ⟨_, a, ha', rfl⟩))).2 p hp
    · have hx : p.name ∈ (routeParams (retypeSegs τ [] segs)).map Param.name := by
        rw [names_retype]
        exact List.mem_map.2 ⟨p, mem_routeParams.2 hp, rfl⟩
      obtain ⟨q, hq, hqn⟩ := List.mem_map.1 hx
      have hqt : q.typ = t := ht _ _ _ he q hq t (hqn ▸ hf)
      obtain ⟨node, above, hl, hres, rfl⟩ := he
      have hlit := (emitted_literals hb' hc.1 (armOf (retypeSegs τ [] segs) (above ++ node.queryParameters) res)).2
        ⟨_, _, res, ⟨_, above, hl.retype _, by simpa using hres, by simp⟩, rfl⟩
      rcases block_captured body' [] sc hsc _ hlit q hq with h' | h' | h'
      · cases h'
      · rw [← hqt, h']; exact hu
      · rw [← hqt]; exact h2 q h'
  · intro hi
    refine ⟨fun s hs => ?_, fun p hp => ?_⟩
    · obtain ⟨mods, a, ha, rfl⟩ := (allStructs_iff _ _).1 hs
      exact (served_struct (hn ha)).2 ⟨hi.derived (key ha), hi.shown (key ha)⟩
    · obtain ⟨a, ha, hp⟩ := block_parsed body' (matcherBody_inferred hb') p hp
      obtain ⟨segs', query, res, he', rfl⟩ := (emitted_literals hb' hc.1 a).1 ha
      obtain ⟨segs, he, rfl⟩ := emitted_retype he'
      have hp : p ∈ routeParams (retypeSegs τ [] segs) := hp
      have hx : p.name ∈ (routeParams segs).map Param.name := by
        rw [← names_retype τ segs []]
        exact List.mem_map.2 ⟨p, hp, rfl⟩
      obtain ⟨t, hf⟩ := emitted_fieldType hfit he hx
      obtain ⟨q, hq, hqn⟩ := List.mem_map.1 hx
      rw [ht _ _ _ he p hp t hf]
      exact hi.parsed he q (mem_routeParams.1 hq) t (hqn ▸ hf)

/-- **C87, redirects with the types of their targets.** Then the types that must be `FromStr` are those that the configuration
gives to the parameters of the routes with code. -/
theorem C87_declared {c : RouteConfig} (h : Ready c) (ht : RedirectTypes c.routes) {impl : Trait → Str → Prop}
    (hu : impl .fromStr c!"usize") {m : Mod} {b : List Stmt}
    (e : readText (headerToks c.headers) (codegen c).text = some (m, b)) : Served impl m b ↔
      (∀ mods x params query, Action c.routes mods x params query →
        (∀ p ∈ params ++ query, impl .debug p.typ ∧ impl .partialEq p.typ ∧ impl .eq p.typ) ∧ ∀ p ∈ params, impl .display p.typ) ∧
      ∀ segs query res, Emitted c.routes segs query res → ∀ p, .dynamic p ∈ segs → impl .fromStr p.typ := by
  obtain ⟨-, -, -, hclear, -, hfit⟩ := (C49_agreeing h ht).1.1 ⟨m, b, e⟩
  obtain ⟨htyped, -⟩ := (C49_agreeing h ht).2 hclear
  have key : ∀ {segs query res}, Emitted c.routes segs query res → ∀ p, .dynamic p ∈ segs →
      ∀ t, FieldType c.routes res p.name t → p.typ = t := by
    intro segs query res he p hp t hf
    refine htyped _ _ _ he p ?_ t hf
    rw [retypeSegs_own]
    exact mem_routeParams.2 hp
  rw [C87_traits h (startTypes_of_types ht) hu e]
  constructor
  · intro hi
    refine ⟨fun mods x params query ha => ⟨hi.derived ha, hi.shown ha⟩, fun segs query res he p hp => ?_⟩
    obtain ⟨t, hf⟩ := emitted_fieldType hfit he (List.mem_map.2 ⟨p, mem_routeParams.2 hp, rfl⟩)
    rw [key he p hp t hf]
    exact hi.parsed he p hp t hf
  · rintro ⟨h1, h2⟩
    refine ⟨fun ha => (h1 _ _ _ _ ha).1, fun ha => (h1 _ _ _ _ ha).2, fun he p hp t hf => ?_⟩
    rw [← key he p hp t hf]
    exact h2 _ _ _ he p hp

/-- **C87, what is always enough**: path parameters of actions whose types have all five traits, query parameters of types with the
derived ones.  This depends on the declared actions only, so routes that are never reached and redirects may be added and removed. -/
theorem C87_enough {c : RouteConfig} (h : Ready c) (hst : StartTypes c.routes) {impl : Trait → Str → Prop}
    (hu : impl .fromStr c!"usize") {m : Mod} {b : List Stmt}
    (e : readText (headerToks c.headers) (codegen c).text = some (m, b))
    (hp : ∀ mods x params query, Action c.routes mods x params query → ∀ p ∈ params, ∀ tr, impl tr p.typ)
    (hq : ∀ mods x params query, Action c.routes mods x params query → ∀ p ∈ query,
      impl .debug p.typ ∧ impl .partialEq p.typ ∧ impl .eq p.typ) : Served impl m b := by
  refine (C87_traits h hst hu e).2 ⟨fun ha p hm => ?_, fun ha p hm => hp _ _ _ _ ha p hm _, fun he p hm t hf => ?_⟩
  · rcases List.mem_append.1 hm with hm | hm
    · exact ⟨hp _ _ _ _ ha p hm _, hp _ _ _ _ ha p hm _, hp _ _ _ _ ha p hm _⟩
    · exact hq _ _ _ _ ha p hm
  · obtain ⟨mods, name, params, query, ha, -, hm⟩ := hf
    exact hp _ _ _ _ ha _ hm _

end Rust

namespace Demo
open Rust

/-- All types have all traits, except for one. -/
def lacks (tr : Trait) (t : Str) : Trait → Str → Prop := fun tr' t' => ¬ (tr' = tr ∧ t' = t)

theorem people_show : Rust.Action people [c!"people"] c!"Show" [⟨c!"id", c!"u32"⟩] [⟨c!"lang", c!"String"⟩, ⟨c!"verbose", c!"bool"⟩] :=
  ⟨[.static c!"people", .dynamic ⟨c!"id", c!"u32"⟩], [⟨c!"lang", c!"String"⟩, ⟨c!"verbose", c!"bool"⟩], res .get c!"people" c!"Show",
    mem_declared.1 (by decide +kernel), rfl, rfl, rfl, rfl, rfl⟩

/-- The path parameters of the example are of type `u32`. -/
theorem people_params {mods : List Str} {x : Str} {params query : List Param} (h : Rust.Action people mods x params query) :
    ∀ p ∈ params, p.typ = c!"u32" := by
  obtain ⟨segs, above, res, hd, -, -, -, rfl, -⟩ := h
  have : ∀ d ∈ declared people, ∀ p ∈ routeParams d.1, p.typ = c!"u32" := by decide +kernel
  exact this _ (mem_declared.2 hd)

/-- **C87, each trait is needed**, for the example with the path parameter `id: u32` and the query parameters `verbose: bool` and
`tab: String`: `u32` with all of them, `bool` with the derived ones; `bool` and `String` need neither be shown nor read. -/
theorem C87_needed {m : Mod} {b : List Stmt}
    (e : readText (headerToks (conf people).headers) (codegen (conf people)).text = some (m, b)) :
    (∀ tr, ¬ Served (lacks tr c!"u32") m b) ∧
    (∀ tr, ¬ Served (lacks tr c!"bool") m b ↔ tr = .debug ∨ tr = .partialEq ∨ tr = .eq) := by
  have hr : Ready (conf people) := clean_ready people_clean
  have key : ∀ tr t, t ≠ c!"usize" → (Served (lacks tr t) m b ↔ Implemented (lacks tr t) people) := fun tr t ht =>
    C87_traits hr (startTypes_of_types people_clean.types) (fun h => ht h.2.symm) e
  constructor
  · intro tr h
    have hi := (key tr c!"u32" (by decide)).1 h
    cases tr with
    | debug => exact (hi.derived people_show ⟨c!"id", c!"u32"⟩ (by simp)).1 ⟨rfl, rfl⟩
    | partialEq => exact (hi.derived people_show ⟨c!"id", c!"u32"⟩ (by simp)).2.1 ⟨rfl, rfl⟩
    | eq => exact (hi.derived people_show ⟨c!"id", c!"u32"⟩ (by simp)).2.2 ⟨rfl, rfl⟩
    | display => exact hi.shown people_show ⟨c!"id", c!"u32"⟩ (by simp) ⟨rfl, rfl⟩
    | fromStr =>
      refine hi.parsed (segs := [.static c!"people", .dynamic ⟨c!"id", c!"u32"⟩]) (res := res .get c!"people" c!"Show")
        ⟨_, _, .static (List.mem_cons_self ..) (.dynamic (List.mem_cons_self ..) rfl (.here _)), List.mem_cons_self .., rfl⟩
        ⟨c!"id", c!"u32"⟩ (by simp) c!"u32" ⟨_, _, _, _, people_show, ⟨rfl, rfl, rfl⟩, by simp⟩ ⟨rfl, rfl⟩
  · intro tr
    rw [key tr c!"bool" (by decide)]
    constructor
    · intro h
      cases tr with
      | debug => simp
      | partialEq => simp
      | eq => simp
      | display =>
        refine absurd ⟨fun ha p hp => ?_, fun ha p hp => ?_, fun he p hp t hf => ?_⟩ h
        · simp [lacks]
        · rw [people_params ha p hp]; exact fun h => absurd h.2 (by decide)
        · simp [lacks]
      | fromStr =>
        refine absurd ⟨fun ha p hp => ?_, fun ha p hp => ?_, fun he p hp t hf => ?_⟩ h
        · simp [lacks]
        · simp [lacks]
        · obtain ⟨mods, name, params, query, ha, -, hm⟩ := hf
          have := people_params ha _ hm
          simp only at this
          rw [this]; exact fun h => absurd h.2 (by decide)
    · intro h hi
      have := hi.derived people_show ⟨c!"verbose", c!"bool"⟩ (by simp)
      rcases h with rfl | rfl | rfl
      · exact this.1 ⟨rfl, rfl⟩
      · exact this.2.1 ⟨rfl, rfl⟩
      · exact this.2.2 ⟨rfl, rfl⟩

/-- **C87, types in redirects.** The `{id: String}` of a redirect to an action with `{id: u32}` is a `u32`: `String` need not have any trait. -/
theorem C87_redirect {m : Mod} {b : List Stmt}
    (e : readText (headerToks (conf mistyped).headers) (codegen (conf mistyped)).text = some (m, b)) :
    Served (fun _ t => t ≠ c!"String") m b := by
  have hp : ∀ d ∈ declared mistyped, d.2.2.isRedirect = false →
      ∀ p ∈ routeParams d.1 ++ (d.2.1 ++ d.2.2.queryParameters), p.typ ≠ c!"String" := by decide +kernel
  refine C87_enough (accepted_of (by decide +kernel)).1 (startTypes_of (hygienic_of (by decide +kernel))) (by decide) e ?_ ?_
  · rintro mods x params query ⟨segs, above, res, hd, hi, -, -, rfl, rfl⟩ p hm tr
    exact hp _ (mem_declared.2 hd) hi p (by simp [hm])
  · rintro mods x params query ⟨segs, above, res, hd, hi, -, -, rfl, rfl⟩ p hm
    exact ⟨hp _ (mem_declared.2 hd) hi p (List.mem_append_right _ hm), hp _ (mem_declared.2 hd) hi p (List.mem_append_right _ hm),
      hp _ (mem_declared.2 hd) hi p (List.mem_append_right _ hm)⟩

/-- Both files are accepted. -/
example : (∃ m b, readText (headerToks (conf people).headers) (codegen (conf people)).text = some (m, b)) ∧
    ∃ m b, readText (headerToks (conf mistyped).headers) (codegen (conf mistyped)).text = some (m, b) :=
  ⟨(accepted_of (by decide +kernel)).2, (accepted_of (by decide +kernel)).2⟩

end Demo

end Wayfinder
