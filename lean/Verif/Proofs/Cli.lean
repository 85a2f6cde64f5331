import Verif.Spec.Cli
import Verif.Props.Pipeline
/-!
# Lemmas about the example program
-/

namespace Wayfinder
open Rust

theorem handled_modOf (m : FlattenedModule) : (modOf m).handled = handledOf m.actions m.modules := by
  obtain ⟨_, _, _⟩ := m; rfl

/-- The variants of the enums lead to the struct of an action, and `to_path` handles them. -/
theorem inside_found : ∀ (mods : List Str) (m : FlattenedModule) (a : FlattenedAction), ModGood m → HasAction m mods a →
    (modOf m).inside (mods.map toCapsCase) (toCapsCase a.name) = some (structOf a) ∧
      (modOf m).handles (mods.map toCapsCase) (toCapsCase a.name) = true
  | [], m, a, hg, h => by
    obtain ⟨sub, h1, h2, h3, h4, h5⟩ := struct_found hg h
    simp only [snakes, List.map_nil, Mod.at, Option.some.injEq] at h3
    rw [← h3] at h4 h5
    refine ⟨by simp only [List.map_nil, Mod.inside, h5, h4], ?_⟩
    simp only [List.map_nil, Mod.handles, handled_modOf, handledOf, List.contains_iff_mem, List.mem_append, List.mem_map]
    exact .inl ⟨a, hasAction_nil.1 h, rfl⟩
  | x :: mods, m, a, hg, h => by
    obtain ⟨sub, hs, rfl, h'⟩ := hasAction_cons.1 h
    obtain ⟨h1, h2⟩ := inside_found mods sub a (modGood_of (hg.subs sub hs)) h'
    have hl : lookupVar (toSnakeCase sub.name) (modOf m).subs = some (modOf sub) := by
      obtain ⟨name, actions, modules⟩ := m
      simp only [modOf, Mod.subs, modsOf_eq]
      refine lookupVar_mem ?_ (List.mem_map.2 ⟨sub, hs, rfl⟩)
      have := (List.nodup_append.1 hg.items).2.1
      simpa only [List.map_map, Function.comp_def, FlattenedModule.modules] using this
    have hv : lookupVar (toCapsCase sub.name) (modOf m).variants = some [toSnakeCase sub.name, c!"Route"] := by
      obtain ⟨name, actions, modules⟩ := m
      refine lookupVar_mem ?_ ?_
      · simpa only [modOf, Mod.variants, variantsOf, List.map_append, List.map_map, Function.comp_def, FlattenedModule.actions,
          FlattenedModule.modules] using hg.variants
      · simp only [modOf, Mod.variants, variantsOf, List.mem_append, List.mem_map]
        exact .inr ⟨sub, hs, rfl⟩
    have hh : (modOf m).handled.contains (toCapsCase sub.name) = true := by
      simp only [handled_modOf, handledOf, List.contains_iff_mem, List.mem_append, List.mem_map]
      exact .inr ⟨sub, hs, rfl⟩
    refine ⟨?_, ?_⟩
    · simp only [List.map_cons, Mod.inside, hv, hl, Option.bind_some, h1]
    · simp only [List.map_cons, Mod.handles, hv, hl, hh, Option.any_some, h2, Bool.and_self]

theorem debugVariants_eq (inner : Str) : ∀ vs : List Str, debugVariants vs inner = inVariants vs inner
  | [] => by simp [debugVariants, inVariants]
  | v :: vs => by
    rw [debugVariants, debugVariants_eq inner vs]
    simp [inVariants, List.replicate_succ', List.append_assoc]

theorem userFields_eq {W : World} : ∀ vals : List (Str × W.V),
    userFields (vals.map fun x => (x.1, Val.user x.2)) = some vals
  | [] => rfl
  | (x, v) :: vals => by simp [userFields, userFields_eq vals]

theorem spelled_texts {W : World} {display : W.V → Str} {vals : List (Str × W.V)} {segs : List PathSegment} {texts : List Str}
    (h : Spelled display vals segs texts) :
    ∃ caps : Caps W, Texts display segs caps texts ∧ ∀ pv ∈ caps, (pv.1.name, pv.2) ∈ vals := by
  induction h with
  | nil => exact ⟨[], .nil, by simp⟩
  | static s _ ih =>
    obtain ⟨caps, h1, h2⟩ := ih
    exact ⟨caps, .static s h1, h2⟩
  | @dynamic segs texts p v hv _ ih =>
    obtain ⟨caps, h1, h2⟩ := ih
    refine ⟨(p, v) :: caps, .dynamic p v h1, fun pv hpv => ?_⟩
    rcases List.mem_cons.1 hpv with rfl | hpv
    · exact hv
    · exact h2 pv hpv

theorem debugFields_none {V : Type} (debug : V → Str) (vals : List (Str × V)) : ∀ qs : List Param,
    debugFields debug vals (qs.map fun p => ⟨p.name, true, p.typ⟩) = some (qs.map fun p => p.name ++ c!": None")
  | [] => rfl
  | q :: qs => by
    simp [debugFields, debugFields_none debug vals qs]

theorem debugFields_eq {V : Type} {debug : V → Str} {vals : List (Str × V)} (hnd : (vals.map Prod.fst).Nodup) {ps : List Param}
    {fields : List Str} (h : FieldTexts debug vals ps fields) (qs : List Param) :
    debugFields debug vals (ps.map (fun p => ⟨p.name, false, p.typ⟩) ++ qs.map fun p => ⟨p.name, true, p.typ⟩) =
      some (fields ++ qs.map fun p => p.name ++ c!": None") := by
  induction h with
  | nil => simpa using debugFields_none debug vals qs
  | @cons ps texts p v hv _ ih =>
    simp only [List.map_cons, List.cons_append, debugFields, ih, lookupVar_fields hnd hv]
    simp

/-- Two lists of fields with the same values for the arguments. -/
theorem argTexts_agree {V : Type} (display : V → Str) {bound : List Str} {fields all : List (Str × V)}
    (hnd : (all.map Prod.fst).Nodup) (hnd' : (fields.map Prod.fst).Nodup) (hsub : ∀ x ∈ fields, x ∈ all)
    (hb : ∀ x ∈ fields, x.1 ∈ bound) :
    argTexts display bound all (fields.map Prod.fst) = argTexts display bound fields (fields.map Prod.fst) := by
  rw [argTexts_eq display hnd hsub hb, argTexts_eq display hnd' (fun _ h => h) hb]

variable {W : World}

/-- What the program computes for a value is what is specified. -/
theorem shows_sound {c : RouteConfig} (hbr : NoBraces c.routes) {root : FlattenedModule} (hr : modulesRoot c.routes = some root)
    (hg : ModGood root) {pr : Printer W} {v : RouteVal W} {text path : Str} (h : Shows pr c.routes v text path) :
    debugRoute pr.debug (modOf root) v = some text ∧ routeToPath pr.display (modOf root) v = some path := by
  cases h with
  | @mk segs query res vals texts fields hd hred hm hx hp hnd hsp hft =>
    have ha := (C24_actions hr res.modules _).2 ⟨segs, query, res, hd, hred, rfl, rfl⟩
    obtain ⟨h1, h2⟩ := inside_found _ _ _ hg ha
    obtain ⟨sub, g1, g2, -⟩ := struct_found hg ha
    have hfn := g1.fields _ g2
    simp only at hfn
    have hu := userFields_eq vals
    rw [← hp] at hu
    constructor
    · have hdf := debugFields_eq hnd hft (query ++ res.queryParameters)
      simp only [debugRoute, hm, hx, h1, hu, Option.bind_eq_bind, Option.bind_some, debugStruct]
      have hfe : (structOf ⟨res.name, res.method, segs, routeParams segs, query ++ res.queryParameters⟩).fields.isEmpty =
          decide (fields ++ (query ++ res.queryParameters).map (fun p => p.name ++ c!": None") = []) := by
        clear hdf ha h1 h2 g2 hfn
        generalize routeParams segs = ps at hft
        generalize query ++ res.queryParameters = qs
        cases hft <;> cases qs <;> simp [structOf]
      simp only [hfe, decide_eq_true_eq, debugVariants_eq]
      split
      · rename_i h0
        simp only [structText, if_pos h0, structOf, Option.bind_some]
        rfl
      · rename_i h0
        simp only [structOf, hdf, Option.map_some, Option.bind_some, structText, if_neg h0]
        rfl
    · obtain ⟨caps, hc1, hc2⟩ := spelled_texts hsp
      have hfields : (caps.map fun pv => (pv.1.name, pv.2)).map Prod.fst = (routeParams segs).map Param.name := by
        rw [texts_caps hc1]; simp [Function.comp_def]
      have hnd' : ((routeParams segs).map Param.name).Nodup := by
        simp only [List.map_append] at hfn
        exact (List.nodup_append.1 hfn).1
      have htp := C15_to_path hbr hr ha hc1 hnd'
      have hargs := argTexts_agree pr.display (bound := (routeParams segs).map Param.name ++
          (query ++ res.queryParameters).map Param.name) (fields := caps.map fun pv => (pv.1.name, pv.2)) hnd
        (by rw [hfields]; exact hnd') (by
          intro x hx
          obtain ⟨pv, h3, rfl⟩ := List.mem_map.1 hx
          exact hc2 pv h3) (by
          intro x hx
          have : x.1 ∈ (caps.map fun pv => (pv.1.name, pv.2)).map Prod.fst := List.mem_map_of_mem hx
          rw [hfields] at this
          exact List.mem_append.2 (.inl this))
      rw [hfields] at hargs
      simp only [routeToPath, hm, hx, h1, h2, hu, Option.bind_eq_bind, Option.bind_some, if_true]
      simp only [FlattenedAction.toPath] at htp
      simp only [structOf, FlattenedAction.bound, FlattenedAction.formatArgs] at htp ⊢
      rw [hargs]
      revert htp
      generalize literal _ = l
      generalize argTexts _ _ _ _ = a
      cases l <;> cases a <;> simp

end Wayfinder
