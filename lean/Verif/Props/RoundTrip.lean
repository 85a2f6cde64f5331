import Verif.Props.Exact
import Verif.Props.Path
/-!
# C15, exact: when a printed path leads back to its action
-/

namespace Wayfinder

variable {W : World} {r : Routes} {body : List Stmt}

/-- With distinct siblings, the segments of a route determine its block. -/
theorem HasRoute.unique {r node node' : Routes} {segs : List PathSegment} {above above' : List Param}
    (hd : DistinctSiblings r) (h : HasRoute r segs above node) (h' : HasRoute r segs above' node') :
    above = above' ∧ node = node' := by
  induction h generalizing above' node' with
  | here => cases h'; exact ⟨rfl, rfl⟩
  | @child r node seg sub segs query hn h ih =>
    cases h' with
    | child hn' h' =>
      obtain ⟨_, rfl⟩ := same_child hd hn hn' (by cases seg <;> simp [SameSlot])
      obtain ⟨rfl, rfl⟩ := ih (distinct_child hd hn) h'
      exact ⟨rfl, rfl⟩

/-- Two non-redirect resources with the same module path and name are the same resource, declared once. -/
theorem declares_same {r : Routes} (hs : DistinctSiblings r) (hd : DistinctActions r) {segs segs' : List PathSegment}
    {query query' : List Param} {res res' : Resource} (h : Declares r segs query res) (h' : Declares r segs' query' res')
    (hn : res.isRedirect = false) (hn' : res'.isRedirect = false) (hm : res.modules = res'.modules)
    (hx : res.name = res'.name) : segs = segs' ∧ query = query' ∧ res = res' := by
  obtain ⟨m, hm0⟩ := (flattenModules_isSome r).2 hd
  have hroot : modulesRoot r = some (m.finalize c!"routes") := by simp [modulesRoot, hm0]
  have h1 := (C24_actions hroot res.modules _).2 ⟨segs, query, res, h, hn, rfl, rfl⟩
  have h2 := (C24_actions hroot res.modules _).2 ⟨segs', query', res', h', hn', hm, rfl⟩
  obtain ⟨n1, a1, b1⟩ := Rust.hasModule_of (rest := []) (by simpa using h1)
  obtain ⟨n2, a2, b2⟩ := Rust.hasModule_of (rest := []) (by simpa using h2)
  obtain rfl := Rust.hasModule_unique a1 (modulesRoot_spec hroot).1 a2
  have he := Rust.key_inj (C24_once hroot a1).1 _ (hasAction_nil.1 b1) _ (hasAction_nil.1 b2) hx
  injection he with e1 e2 e3 e4 e5
  subst e3
  obtain ⟨node, above, r1, r2, rfl⟩ := h
  obtain ⟨node', above', r1', r2', rfl⟩ := h'
  obtain ⟨rfl, rfl⟩ := r1.unique hs r1'
  refine ⟨rfl, rfl, ?_⟩
  obtain ⟨method, modules, name, red, qs⟩ := res
  obtain ⟨method', modules', name', red', qs'⟩ := res'
  simp only [List.append_cancel_left_eq] at *
  subst hn hn' hm hx e2 e5
  rfl

/-- Arriving along given pieces is following them. -/
theorem Arrives.follows_pieces {r node : Routes} {segs : List PathSegment} {above : List Param} {caps : Caps W}
    {pieces rest : List Bytes} (h : Arrives W r segs above caps pieces node rest) {parts tail : List Bytes}
    (he : pieces = parts ++ tail) (hl : parts.length = segs.length) (hp : ∀ p ∈ parts, p ≠ [] ∧ slash ∉ p) :
    Follows W r segs above caps parts node := by
  induction h generalizing parts with
  | here =>
    cases parts with
    | nil => exact .here _
    | cons _ _ => simp at hl
  | static hn hpre _ ih =>
    cases parts with
    | nil => simp at hl
    | cons p parts =>
      simp only [List.cons_append, List.cons.injEq] at he
      obtain ⟨rfl, he⟩ := he
      exact .static hn hpre (ih he (by simpa using hl) fun p h => hp p (by simp [h]))
  | dynamic ht hu hv _ ih =>
    cases parts with
    | nil => simp at hl
    | cons p parts =>
      simp only [List.cons_append, List.cons.injEq] at he
      obtain ⟨rfl, he⟩ := he
      exact .dynamic ht.child ht.first (hp _ (by simp)).1 (hp _ (by simp)).2 ht.free hu hv
        (ih he (by simpa using hl) fun p h => hp p (by simp [h]))

theorem Follows.caps {r node : Routes} {segs : List PathSegment} {above : List Param} {caps : Caps W}
    {parts : List Bytes} (h : Follows W r segs above caps parts node) : routeParams segs = caps.map Prod.fst := by
  induction h with
  | here => rfl
  | static _ _ _ ih => simpa [routeParams] using ih
  | dynamic _ _ _ _ _ _ _ _ ih => simpa [routeParams] using ih

theorem caps_ext {caps caps' : Caps W} (h1 : caps.map Prod.fst = caps'.map Prod.fst)
    (h2 : caps.map (fun pv => (pv.1.name, Val.user pv.2)) = caps'.map fun pv => (pv.1.name, Val.user pv.2)) : caps = caps' := by
  induction caps generalizing caps' with
  | nil => cases caps' <;> simp_all
  | cons x l ih =>
    cases caps' with
    | nil => simp at h1
    | cons y l' =>
      simp only [List.map_cons, List.cons.injEq, Prod.mk.injEq, Val.user.injEq] at h1 h2
      rw [ih h1.2 h2.2, Prod.ext h1.1 h2.1.2]

theorem Texts.length {display : W.V → Str} {segs : List PathSegment} {caps : Caps W} {texts : List Str}
    (h : Texts display segs caps texts) : texts.length = segs.length := by
  induction h with
  | nil => rfl
  | static _ _ ih => simp [ih]
  | dynamic _ _ _ ih => simp [ih]

theorem Texts.mem {display : W.V → Str} {segs : List PathSegment} {caps : Caps W} {texts : List Str}
    (h : Texts display segs caps texts) : ∀ t ∈ texts, .static t ∈ segs ∨ ∃ pv ∈ caps, t = display pv.2 := by
  induction h with
  | nil => simp
  | static s _ ih =>
    intro t ht
    rcases List.mem_cons.1 ht with rfl | ht
    · simp
    · rcases ih t ht with h | h
      · simp [h]
      · exact .inr h
  | dynamic p v _ ih =>
    intro t ht
    rcases List.mem_cons.1 ht with rfl | ht
    · exact .inr ⟨_, List.mem_cons_self .., rfl⟩
    · rcases ih t ht with h | ⟨pv, h1, h2⟩
      · simp [h]
      · exact .inr ⟨pv, by simp [h1], h2⟩

theorem slash_utf8 {s : Str} (h : '/' ∉ s) : slash ∉ utf8 s := by
  intro hm
  obtain ⟨a, b, e⟩ := List.append_of_mem hm
  obtain ⟨s1, s2, rfl, _, _⟩ := utf8_split (d := '/') (by decide) e
  exact h (by simp)

theorem utf8_nonempty {s : Str} (h : s ≠ []) : utf8 s ≠ [] := by
  intro he
  have h1 := fromUtf8_utf8 s
  rw [he, ← utf8_nil, fromUtf8_utf8] at h1
  exact h (Option.some.inj h1).symm

/-- **C15, exact, the path.** Let `res` be declared on the route `segs`, not a redirect, and `caps` be values for its
parameters whose `Display` texts are not empty and have no `/`.  `match_route` answers the path made of these texts with
the same values **exactly if** the texts follow the route (so: they parse back to the values, and no step is taken over
by a sibling) and `res` is the first resource of its block for its verb. -/
theorem C15_exact_path (h : Supported r body) (hp : PlainTexts r) (hda : DistinctActions r) {segs : List PathSegment}
    {query : List Param} {res : Resource} (hd : Declares r segs query res) (hred : res.isRedirect = false)
    {display : W.V → Str} {caps : Caps W} {texts : List Str}
    (ht : Texts display segs caps texts) (hv : ∀ pv ∈ caps, display pv.2 ≠ [] ∧ '/' ∉ display pv.2) :
    callMatchRoute W body (utf8 (c!"/" ++ List.intercalate c!"/" texts)) (verbBytes res.method) =
        .route (matchOf res caps query) ↔
      ∃ above node before after, Follows W r segs above caps (texts.map utf8) node ∧
        node.resources = before ++ res :: after ∧ ∀ o ∈ before, o.method ≠ res.method := by
  have hs := h.sound hp
  have hroute : ∀ t ∈ texts, t ≠ [] ∧ '/' ∉ t := by
    intro t h1
    rcases ht.mem t h1 with h2 | ⟨pv, h2, rfl⟩
    · obtain ⟨node, above, h3, -, -⟩ := hd
      exact hp _ _ _ h3 t h2
    · exact hv pv h2
  have hparts : ∀ p ∈ texts.map utf8, p ≠ [] ∧ slash ∉ p := by
    intro p hm
    obtain ⟨t, h1, rfl⟩ := List.mem_map.1 hm
    exact ⟨utf8_nonempty (hroute t h1).1, slash_utf8 (hroute t h1).2⟩
  have hspell : Spells (texts.map utf8) (stripSlash (utf8 (c!"/" ++ List.intercalate c!"/" texts))) := by
    rw [stripSlash_path]; exact utf8_intercalate texts
  constructor
  · intro hv
    obtain ⟨segs', above', caps', node', rest, before, res', after, h1, h2, h3, h4, h5, h6, h7⟩ :=
      (C47_match h hp _ (verbBytes res.method) false _).1 hv
    obtain ⟨rfl, hq, rfl⟩ := declares_same hs.distinct hda hd
      ⟨node', above', h1.hasRoute, by rw [h3]; simp, rfl⟩ hred h6.symm (congrArg RouteVal.modules h7)
      (congrArg RouteVal.name h7)
    obtain ⟨tail, htail⟩ := cut_spells (fun p hm => (hparts p hm).2) hspell
    have hf := h1.follows_pieces htail (by simp [ht.length]) hparts
    have hcaps : caps = caps' := caps_ext (by rw [← texts_caps ht, hf.caps]) (congrArg RouteVal.params h7)
    subst hcaps
    exact ⟨above', node', before, after, hf, h3, h5⟩
  · rintro ⟨above, node, before, after, hf, h3, h5⟩
    have := C02_follows h hp hf h3 h5 hspell
    rw [hred] at this
    obtain ⟨node', above', h6, -, rfl⟩ := hd
    obtain ⟨rfl, rfl⟩ := h6.unique hs.distinct hf.live.hasRoute
    exact this

theorem distinctActions_of {root : FlattenedModule} (hroot : modulesRoot r = some root) : DistinctActions r := by
  rw [← flattenModules_isSome]
  simp only [modulesRoot] at hroot
  cases e : flattenModules r with
  | none => rw [e] at hroot; cases hroot
  | some m => exact ⟨m, rfl⟩

/-- **C15, exact.** `to_path` is defined for these values, and the condition of `C15_exact_path` is the exact one for
`match_route` to answer its result with the same values. -/
theorem C15_exact (h : Supported r body) (hp : PlainTexts r) (hn : NoBraces r) {root : FlattenedModule}
    (hroot : modulesRoot r = some root) {segs : List PathSegment} {query : List Param} {res : Resource}
    (hd : Declares r segs query res) (hred : res.isRedirect = false)
    (hnd : ((routeParams segs).map Param.name).Nodup) {display : W.V → Str} {caps : Caps W} {texts : List Str}
    (ht : Texts display segs caps texts) (hv : ∀ pv ∈ caps, display pv.2 ≠ [] ∧ '/' ∉ display pv.2) :
    ∃ a path, HasAction root res.modules a ∧ a.name = res.name ∧
      a.toPath display (caps.map fun pv => (pv.1.name, pv.2)) = some path ∧
      (callMatchRoute W body (utf8 path) (verbBytes res.method) = .route (matchOf res caps query) ↔
        ∃ above node before after, Follows W r segs above caps (texts.map utf8) node ∧
          node.resources = before ++ res :: after ∧ ∀ o ∈ before, o.method ≠ res.method) := by
  have ha := (C24_actions hroot _ _).2 ⟨segs, query, res, hd, hred, rfl, rfl⟩
  exact ⟨_, _, ha, rfl, C15_to_path hn hroot ha ht hnd, C15_exact_path h hp (distinctActions_of hroot) hd hred ht hv⟩

/-- The hypotheses are met in the `commons` example by the action whose path is not answered with it: its path does not
follow its route. -/
example : Supported Demo.commons (bodyOf Demo.commons) ∧ PlainTexts Demo.commons ∧ NoBraces Demo.commons ∧
    (modulesRoot Demo.commons).isSome ∧
    Declares Demo.commons [.static c!"foobar"] [] (Demo.res .get c!"Foo" c!"Bar") ∧
    Texts (W := Demo.world) id [.static c!"foobar"] [] [c!"foobar"] ∧
    ∀ above node, ¬ Follows Demo.world Demo.commons [.static c!"foobar"] above [] [utf8 c!"foobar"] node := by
  refine ⟨Demo.commons_supported, Demo.commons_plain, noBraces_of (by decide), by decide +kernel,
    ⟨_, _, .child (List.mem_cons_self ..) (.here _), List.mem_cons_self .., rfl⟩, .static _ .nil, ?_⟩
  intro above node h
  generalize e : [utf8 c!"foobar"] = parts at h
  cases h with
  | static _ hpre _ => revert hpre; decide

/-- They are met in the people application by an action with a parameter, whose path does follow its route. -/
example : ∃ above node, Follows Demo.world Demo.people [.static c!"people", .dynamic ⟨c!"id", c!"u32"⟩] above
    [(⟨c!"id", c!"u32"⟩, c!"17")] ([c!"people", c!"17"].map utf8) node := by
  have free : ∀ s, [c!"new"] = [s] → ¬ bytesOf s <+: utf8 c!"17" := by
    intro s hs
    cases hs
    decide
  exact ⟨_, _, .static (r := Demo.people) (List.mem_cons_self ..) (.inl (by decide))
    (.dynamic (r := .mk _ _ _) (above := []) (text := c!"17") (List.mem_cons_self ..) (by decide) (by decide) (by decide)
      free (by decide +kernel) rfl (.here _))⟩

end Wayfinder
