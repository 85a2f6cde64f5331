import Verif.Proofs.Accept
import Verif.Tests.Demo
/-!
# Checks for the conditions on concrete configurations
-/

namespace Wayfinder.Rust

/-- Check for `Name`. -/
def nameB (s : Str) : Bool := s.all isWordChar && isName s

theorem nameB_iff {s : Str} : nameB s = true ↔ Name s := by
  simp only [nameB, Bool.and_eq_true, List.all_eq_true, Name]

/-- Check for a segment and the type of its parameter. -/
def segB : PathSegment → Bool
  | .static s => s.all fun c => textChar c && c != '\n'
  | .dynamic p => nameB p.name && nameB p.typ

/-- Check for a parameter. -/
def paramB (p : Param) : Bool := nameB p.name && nameB p.typ

/-- Check for a resource. -/
def resB (x : Resource) : Bool :=
  x.modules.all (fun m => nameB (toSnakeCase m) && nameB (toCapsCase m)) && nameB (toCapsCase x.name) &&
  x.queryParameters.all paramB

/-- Check for `Words`. -/
def wordsB (r : Routes) : Bool :=
  (flattenRoutes r [] []).all fun v => v.path.all segB && v.queryParameters.all paramB && v.resources.all resB

theorem words_of {r : Routes} (h : wordsB r = true) : Words r := by
  have key : ∀ {segs query node}, HasRoute r segs query node →
      (∀ s ∈ segs, segB s = true) ∧ (∀ p ∈ query ++ node.queryParameters, paramB p = true) ∧ ∀ x ∈ node.resources, resB x = true := by
    intro segs query node hr
    have hv := (mem_flattenRoutes r [] [] ⟨segs, node.resources, query ++ node.queryParameters⟩).2 ⟨segs, query, node, hr, by simp⟩
    have := List.all_eq_true.1 h _ hv
    simpa only [Bool.and_eq_true, List.all_eq_true, and_assoc] using this
  have hparam : ∀ p, paramB p = true → ParamNamed Name p := by
    intro p hp
    simp only [paramB, Bool.and_eq_true, nameB_iff] at hp
    exact hp
  refine ⟨fun hr s hs => ?_, fun hr p hp => ?_, fun hr p hp => ?_, fun hr x hx => ?_⟩
  · have := (key hr).1 s hs
    cases s with
    | static s => simpa [segB, SegNamed] using this
    | dynamic p =>
      simp only [segB, Bool.and_eq_true, nameB_iff] at this
      exact this.1
  · have := (key hr).1 _ hp
    simp only [segB, Bool.and_eq_true, nameB_iff] at this
    exact this.2
  · exact hparam p ((key hr).2.1 p (List.mem_append_right _ hp))
  · have := (key hr).2.2 x hx
    simp only [resB, Bool.and_eq_true, List.all_eq_true, nameB_iff] at this
    exact ⟨fun m hm => ⟨(this.1.1 m hm).1, .inl (this.1.1 m hm).2⟩, .inl this.1.2, fun p hp => hparam p (this.2 p hp)⟩

/-- All resources with their routes and the query parameters of their blocks. -/
def declared (r : Routes) : List (List PathSegment × List Param × Resource) :=
  (flattenRoutes r [] []).flatMap fun v => v.resources.map fun x => (v.path, v.queryParameters, x)

theorem mem_declared {r : Routes} {segs : List PathSegment} {query : List Param} {res : Resource} :
    (segs, query, res) ∈ declared r ↔ Declares r segs query res := by
  simp only [declared, List.mem_flatMap, List.mem_map, Declares]
  constructor
  · rintro ⟨v, hv, x, hx, he⟩
    obtain ⟨segs', above, node, hr, rfl⟩ := (mem_flattenRoutes r [] [] v).1 hv
    simp only [List.nil_append, Prod.mk.injEq] at he
    obtain ⟨rfl, rfl, rfl⟩ := he
    exact ⟨node, above, hr, hx, rfl⟩
  · rintro ⟨node, above, hr, hx, rfl⟩
    exact ⟨_, (mem_flattenRoutes r [] [] _).2 ⟨segs, above, node, hr, rfl⟩, res, hx, by simp⟩

/-- Decides `SameName`. -/
def sameNameB (a b : Resource) : Bool :=
  decide (a.modules.map toSnakeCase = b.modules.map toSnakeCase) && decide (a.modules.map toCapsCase = b.modules.map toCapsCase) &&
  decide (toCapsCase a.name = toCapsCase b.name)

theorem sameNameB_iff {a b : Resource} : sameNameB a b = true ↔ SameName a.modules a.name b.modules b.name := by
  simp [sameNameB, SameName, and_assoc]

/-- Check for `RedirectsFit`. -/
def redirectsB (r : Routes) : Bool :=
  (declared r).all fun d => !d.2.2.isRedirect || (declared r).any fun d' =>
    !d'.2.2.isRedirect && sameNameB d'.2.2 d.2.2 &&
    ((routeParams d.1).map Param.name).isPerm ((routeParams d'.1).map Param.name) &&
    ((d.2.1 ++ d.2.2.queryParameters).map Param.name).isPerm ((d'.2.1 ++ d'.2.2.queryParameters).map Param.name)

theorem redirects_of {r : Routes} (h : redirectsB r = true) : RedirectsFit r := by
  intro segs query res he hr
  have := List.all_eq_true.1 h _ (mem_declared.2 (emitted_declares he))
  simp only [hr, Bool.not_true, Bool.false_or, List.any_eq_true, Bool.and_eq_true, Bool.not_eq_true', sameNameB_iff,
    List.isPerm_iff] at this
  obtain ⟨⟨segs', query', res'⟩, hd', ⟨⟨⟨h1, h2⟩, h4⟩, h5⟩⟩ := this
  exact ⟨_, _, _, _, ⟨segs', query', res', mem_declared.1 hd', h1, rfl, rfl, rfl, rfl⟩, h2, h4, h5⟩

/-- Check for `RedirectTypes`. -/
def typesB (r : Routes) : Bool :=
  (declared r).all fun d => !d.2.2.isRedirect || (declared r).all fun d' => d'.2.2.isRedirect || !sameNameB d'.2.2 d.2.2 ||
    (routeParams d.1).all fun p => (routeParams d'.1).all fun p' => p.name != p'.name || p.typ == p'.typ

theorem types_of {r : Routes} (h : typesB r = true) : RedirectTypes r := by
  rintro segs query res he hr _ _ _ _ ⟨segs', above, res', hd', hr', rfl, rfl, rfl, rfl⟩ hs p hp p' hp' hn
  have := List.all_eq_true.1 h _ (mem_declared.2 (emitted_declares he))
  simp only [hr, Bool.not_true, Bool.false_or] at this
  have := List.all_eq_true.1 this _ (mem_declared.2 hd')
  simp only [hr', sameNameB_iff.2 hs, Bool.not_true, Bool.false_or] at this
  have := List.all_eq_true.1 (List.all_eq_true.1 this _ hp) _ hp'
  simpa [hn] using this

/-- Check for `FreeParams`. -/
def paramsB (r : Routes) : Bool :=
  (flattenRoutes r [] []).all fun v => v.path.all fun
    | .static _ => true
    | .dynamic p => !preludeValues.contains p.name && (declared r).all fun d =>
      d.2.2.isRedirect || !d.2.2.modules.isEmpty || p.name != toCapsCase d.2.2.name

theorem params_of {r : Routes} (h : paramsB r = true) : FreeParams r := by
  intro segs query node hr p hp
  have hv := (mem_flattenRoutes r [] [] ⟨segs, node.resources, query ++ node.queryParameters⟩).2 ⟨segs, query, node, hr.hasRoute, by simp⟩
  have := List.all_eq_true.1 (List.all_eq_true.1 h _ hv) _ hp
  simp only [Bool.and_eq_true, List.all_eq_true, Bool.not_eq_true', List.contains_eq_mem, decide_eq_false_iff_not] at this
  refine ⟨this.1, ?_⟩
  rintro y ⟨segs', above, res, hd, hr, hm, rfl, -, -⟩ he
  have := this.2 _ (mem_declared.2 hd)
  simp [hr, hm, he] at this

/-- The module tree, if there is one. -/
def rootOf (r : Routes) : FlattenedModule := (modulesRoot r).getD (.mk [] [] [])

/-- Check for `Clean`. -/
def cleanB (c : RouteConfig) : Bool :=
  (codegen c).fail.isNone && c.headers.all (fun h => decide ((run .neutral (h.text ++ c!"\n")).2 = .neutral)) && wordsB c.routes &&
  segsAll bracelessSeg c.routes && redirectsB c.routes && typesB c.routes && paramsB c.routes && (modulesRoot c.routes).isSome &&
  (modOf (rootOf c.routes)).ok true

theorem clean_of {c : RouteConfig} (h : cleanB c = true) : Clean c := by
  simp only [cleanB, Bool.and_eq_true, List.all_eq_true, decide_eq_true_eq, Option.isNone_iff_eq_none] at h
  obtain ⟨⟨⟨⟨⟨⟨⟨⟨h1, h2⟩, h3⟩, h4⟩, h5⟩, h5'⟩, h6⟩, h7⟩, h8⟩ := h
  obtain ⟨root, hroot⟩ := Option.isSome_iff_exists.1 h7
  have hb := noBraces_of h4
  simp only [rootOf, hroot, Option.getD_some] at h8
  exact ⟨h1, h2, words_of h3, hb, redirects_of h5, types_of h5', (ok_iff_clear hroot hb).1 h8, params_of h6⟩

end Wayfinder.Rust
