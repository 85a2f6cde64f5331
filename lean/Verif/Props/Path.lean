import Verif.Model.Path
import Verif.Spec.Path
import Verif.Props.Reach
import Verif.Props.Generation
import Verif.Proofs.Rename
/-!
# C15: `to_path` and `match_route` are inverse
-/

namespace Wayfinder

variable {W : World}

/-- The text of a segment in a template. -/
def PathSegment.inTemplate (dyn : Str → Str) : PathSegment → Str
  | .static s => s
  | .dynamic p => dyn p.name

theorem renderPath_statics (dyn : Str → Str) (s : Str) (rest : List Charlike) :
    renderPath dyn (s.map .static ++ rest) = s ++ renderPath dyn rest := by
  induction s with
  | nil => rfl
  | cons c s ih => simp [renderPath, ih]

theorem renderPath_segment (dyn : Str → Str) (seg : PathSegment) (rest : List Charlike) :
    renderPath dyn (seg.charlikes ++ rest) =
      seg.inTemplate dyn ++ renderPath dyn (.separator :: rest) := by
  cases seg with
  | static s => simp [PathSegment.charlikes, List.append_assoc, renderPath_statics, PathSegment.inTemplate]
  | dynamic p => simp [PathSegment.charlikes, renderPath, PathSegment.inTemplate]

theorem charlikes_eq_nil {segs : List PathSegment} : charlikes segs = [] ↔ segs = [] := by
  cases segs with
  | nil => simp [charlikes]
  | cons s segs => simp [charlikes_cons, PathSegment.charlikes_ne_nil]

/-- A path is printed as its segments separated by `/`. -/
theorem renderPath_eq (dyn : Str → Str) : ∀ segs : List PathSegment,
    renderPath dyn (charlikes segs) = List.intercalate c!"/" (segs.map (PathSegment.inTemplate dyn))
  | [] => rfl
  | [s] => by
    rw [charlikes_cons, renderPath_segment, charlikes_nil]
    simp [renderPath, List.intercalate]
  | s :: s' :: segs => by
    rw [charlikes_cons, renderPath_segment]
    have hne : charlikes (s' :: segs) ≠ [] := by simp [charlikes_eq_nil]
    have : renderPath dyn (.separator :: charlikes (s' :: segs)) =
        '/' :: renderPath dyn (charlikes (s' :: segs)) := by
      cases hc : charlikes (s' :: segs) with
      | nil => exact absurd hc hne
      | cons k ks => rfl
    rw [this, renderPath_eq dyn (s' :: segs)]
    simp [List.intercalate]

theorem formatText_plain {s : Str} (h1 : '{' ∉ s) (h2 : '}' ∉ s) (rest : Str) (args : List Str) :
    formatText (s ++ rest) args = (formatText rest args).map (s ++ ·) := by
  induction s with
  | nil => simp
  | cons c s ih =>
    have hc1 : c ≠ '{' := fun e => h1 (by simp [e])
    have hc2 : c ≠ '}' := fun e => h2 (by simp [e])
    rw [List.cons_append, formatText, ih (fun h => h1 (by simp [h])) fun h => h2 (by simp [h])]
    · simp [Function.comp_def]
    all_goals intros; simp_all

theorem intercalate_cons (x y : Str) (l : List Str) :
    List.intercalate c!"/" (x :: y :: l) = x ++ ('/' :: List.intercalate c!"/" (y :: l)) := by
  simp [List.intercalate]

/-- Filling in the template of a route. -/
theorem formatText_template {display : W.V → Str} {segs : List PathSegment} {caps : Caps W}
    {texts : List Str} (ht : Texts display segs caps texts)
    (hb : ∀ s, PathSegment.static s ∈ segs → '{' ∉ s ∧ '}' ∉ s) :
    formatText (List.intercalate c!"/" (segs.map (PathSegment.inTemplate fun _ => c!"{}")))
      (caps.map fun pv => display pv.2) = some (List.intercalate c!"/" texts) := by
  have slashes : ∀ (rest : Str) args, formatText ('/' :: rest) args = (formatText rest args).map ('/' :: ·) :=
    fun rest args => formatText_plain (s := c!"/") (by decide) (by decide) rest args
  induction ht with
  | nil => rfl
  | @static segs caps texts s ht ih =>
    have ih := ih fun s hs => hb s (by simp [hs])
    obtain ⟨h1, h2⟩ := hb s (by simp)
    cases ht with
    | nil =>
      have := formatText_plain h1 h2 [] []
      simpa [List.intercalate, PathSegment.inTemplate, formatText] using this
    | static s' ht' =>
      simp only [List.map_cons] at ih ⊢
      rw [intercalate_cons, intercalate_cons]
      simp only [PathSegment.inTemplate] at ih ⊢
      rw [formatText_plain h1 h2, slashes, ih]
      rfl
    | dynamic p v ht' =>
      simp only [List.map_cons] at ih ⊢
      rw [intercalate_cons, intercalate_cons]
      simp only [PathSegment.inTemplate] at ih ⊢
      rw [formatText_plain h1 h2, slashes, ih]
      rfl
  | @dynamic segs caps texts p v ht ih =>
    have ih := ih fun s hs => hb s (by simp [hs])
    have hd : ∀ rest args, formatText (c!"{}" ++ rest) (display v :: args) =
        (formatText rest args).map (display v ++ ·) := fun rest args => rfl
    cases ht with
    | nil =>
      have := hd [] []
      simpa [List.intercalate, PathSegment.inTemplate, formatText] using this
    | static s' ht' =>
      simp only [List.map_cons] at ih ⊢
      rw [intercalate_cons, intercalate_cons]
      simp only [PathSegment.inTemplate] at ih ⊢
      rw [hd, slashes, ih]
      rfl
    | dynamic p' v' ht' =>
      simp only [List.map_cons] at ih ⊢
      rw [intercalate_cons, intercalate_cons]
      simp only [PathSegment.inTemplate] at ih ⊢
      rw [hd, slashes, ih]
      rfl

theorem texts_caps {display : W.V → Str} {segs : List PathSegment} {caps : Caps W}
    {texts : List Str} (ht : Texts display segs caps texts) : routeParams segs = caps.map Prod.fst := by
  induction ht with
  | nil => rfl
  | static s _ ih => simpa [routeParams] using ih
  | dynamic p v _ ih =>
    rw [List.map_cons, ← ih]
    rfl

theorem lookupVar_fields {V : Type} : ∀ {fields : List (Str × V)}, (fields.map Prod.fst).Nodup →
    ∀ {x : Str} {v : V}, (x, v) ∈ fields → lookupVar x fields = some v
  | [], _, x, v, h => by cases h
  | (y, w) :: fields, hnd, x, v, h => by
    simp only [List.map_cons, List.nodup_cons] at hnd
    simp only [lookupVar]
    rcases List.mem_cons.1 h with h | h
    · cases h; rw [if_pos rfl]
    · rw [if_neg, lookupVar_fields hnd.2 h]
      rintro rfl
      exact hnd.1 (List.mem_map_of_mem (f := Prod.fst) h)

theorem argTexts_eq {V : Type} (display : V → Str) {bound : List Str} {fields all : List (Str × V)}
    (hnd : (all.map Prod.fst).Nodup) (hsub : ∀ x ∈ fields, x ∈ all)
    (hb : ∀ x ∈ fields, x.1 ∈ bound) :
    argTexts display bound all (fields.map Prod.fst) = some (fields.map fun x => display x.2) := by
  induction fields with
  | nil => rfl
  | cons x fields ih =>
    obtain ⟨y, v⟩ := x
    simp only [List.map_cons, argTexts]
    rw [if_pos (show y ∈ bound from hb (y, v) (by simp)), lookupVar_fields hnd (hsub (y, v) (by simp)),
      ih (fun z hz => hsub z (by simp [hz])) fun z hz => hb z (by simp [hz])]

/-- The template of a route is a plain string literal. -/
theorem template_literal {segs : List PathSegment} (hnb : ∀ s, PathSegment.static s ∈ segs →
    '{' ∉ s ∧ '}' ∉ s ∧ '"' ∉ s ∧ '\\' ∉ s) :
    literal (c!"/" ++ List.intercalate c!"/" (segs.map (PathSegment.inTemplate fun _ => c!"{}"))) =
      some (c!"/" ++ List.intercalate c!"/" (segs.map (PathSegment.inTemplate fun _ => c!"{}"))) := by
  have htemp : ∀ c, c = '"' ∨ c = '\\' → c ∉ c!"/" ++ List.intercalate c!"/"
      (segs.map (PathSegment.inTemplate fun _ => c!"{}")) := by
    intro c hc hm
    have key : ∀ l : List PathSegment, (∀ s ∈ l, s ∈ segs) →
        c ∉ List.intercalate c!"/" (l.map (PathSegment.inTemplate fun _ => c!"{}")) := by
      intro l hl
      have hseg : ∀ s ∈ l, c ∉ s.inTemplate fun _ => c!"{}" := by
        intro s hs
        cases s with
        | static t =>
          have := hnb t (hl _ hs)
          rcases hc with rfl | rfl
          · exact this.2.2.1
          · exact this.2.2.2
        | dynamic p => rcases hc with rfl | rfl <;> simp [PathSegment.inTemplate]
      induction l with
      | nil => simp [List.intercalate]
      | cons s l ih =>
        cases l with
        | nil => simpa [List.intercalate] using hseg s (by simp)
        | cons s' l =>
          rw [List.map_cons, List.map_cons, intercalate_cons]
          simp only [List.mem_append, List.mem_cons, not_or]
          refine ⟨hseg s (by simp), by rcases hc with rfl | rfl <;> decide, ?_⟩
          exact ih (fun x hx => hl x (by simp [hx])) fun x hx => hseg x (by simp [hx])
    rcases List.mem_append.1 hm with h | h
    · rcases hc with rfl | rfl <;> revert h <;> decide
    · exact key segs (fun s h => h) h
  rw [literal, if_neg]
  rintro (h | h)
  · exact htemp _ (.inl rfl) h
  · exact htemp _ (.inr rfl) h

/-- **C15, `to_path`.** The path printed for an action with the values `caps` of its parameters consists of
the segments of its route, with the `Display` texts of the values, each behind a `/`. -/
theorem C15_to_path {r : Routes} (hn : NoBraces r) {root : FlattenedModule} (hroot : modulesRoot r = some root)
    {mods : List Str} {a : FlattenedAction} (ha : HasAction root mods a) {display : W.V → Str}
    {caps : Caps W} {texts : List Str} (ht : Texts display a.path caps texts)
    (hnd : (a.routeParameters.map Param.name).Nodup) :
    a.toPath display (caps.map fun pv => (pv.1.name, pv.2)) =
      some (c!"/" ++ List.intercalate c!"/" texts) := by
  obtain ⟨segs, query, res, ⟨node, above, hr, hres, rfl⟩, hred, rfl, rfl⟩ := (C24_actions hroot _ _).1 ha
  have hnb := hn _ _ _ hr
  simp only at ht hnd
  have hlit := template_literal hnb
  have hfields : (caps.map fun pv => (pv.1.name, pv.2)).map Prod.fst = (routeParams segs).map Param.name := by
    rw [texts_caps ht]; simp [Function.comp_def]
  have hargs := argTexts_eq display (bound := (routeParams segs).map Param.name ++
      (above ++ node.queryParameters ++ res.queryParameters).map Param.name)
    (fields := caps.map fun pv => (pv.1.name, pv.2)) (by rw [hfields]; exact hnd) (fun x h => h) (by
      intro x hx
      have : x.1 ∈ (caps.map fun pv => (pv.1.name, pv.2)).map Prod.fst := List.mem_map_of_mem hx
      rw [hfields] at this
      simp only [List.mem_append]
      exact .inl this)
  rw [hfields] at hargs
  simp only [FlattenedAction.toPath, FlattenedAction.template, FlattenedAction.bound,
    FlattenedAction.formatArgs, renderPath_eq, hlit, hargs, List.map_map]
  rw [formatText_plain (by decide) (by decide)]
  have := formatText_template ht fun s hs => ⟨(hnb s hs).1, (hnb s hs).2.1⟩
  simp only [Function.comp_def]
  rw [this]
  rfl

theorem utf8_intercalate : ∀ texts : List Str,
    Spells (texts.map utf8) (utf8 (List.intercalate c!"/" texts))
  | [] => .inl rfl
  | [t] => by simpa [List.intercalate] using Spells.single (utf8 t)
  | t :: t' :: texts => by
    rw [intercalate_cons, utf8_append, utf8_cons]
    have : String.utf8EncodeChar '/' = [slash] := encode_ascii (by decide)
    rw [this]
    exact Spells.cons (utf8_intercalate (t' :: texts))

theorem stripSlash_path (s : Str) : stripSlash (utf8 (c!"/" ++ s)) = utf8 s := by
  rw [utf8_append]
  have : utf8 c!"/" = [slash] := by decide
  rw [this]
  simp [stripSlash]

/-- The segments of an instance are the texts of the route, if `display` prints what was parsed. -/
theorem Fits.texts {display : W.V → Str} {segs : List PathSegment} {caps : Caps W} {parts : List Bytes}
    (h : Fits W segs caps parts) (hascii : ∀ s, PathSegment.static s ∈ segs → ∀ c ∈ s, c.toNat < 128)
    (hd : ∀ typ text v, W.parse typ text = .ok v → display v = text) :
    ∃ texts, Texts display segs caps texts ∧ parts = texts.map utf8 := by
  induction h with
  | nil => exact ⟨[], .nil, rfl⟩
  | static s _ ih =>
    obtain ⟨texts, h1, h2⟩ := ih fun t ht => hascii t (by simp [ht])
    exact ⟨s :: texts, .static s h1, by rw [List.map_cons, utf8_ascii (hascii s (by simp)), h2]⟩
  | @dynamic segs caps parts p v part text h1 h2 h3 _ ih =>
    obtain ⟨texts, h4, h5⟩ := ih fun t ht => hascii t (by simp [ht])
    refine ⟨display v :: texts, .dynamic p v h4, ?_⟩
    rw [List.map_cons, hd _ _ _ h3, utf8_of_fromUtf8 h2, h5]

theorem live_ascii {r : Routes} {segs : List PathSegment} {above : List Param} {node : Routes}
    (h : LiveRoute r segs above node) (hs : Shapely r) :
    ∀ s, PathSegment.static s ∈ segs → ∀ c ∈ s, c.toNat < 128 := by
  induction h with
  | here => simp
  | @static r node s sub segs query hn hl ih =>
    have hsub : Shapely sub := fun s' q n h' => hs _ _ n (.static hn h')
    intro t ht c hc
    rcases List.mem_cons.1 ht with h | h
    · cases h
      have := (hs [] [] r (.here r)).ascii s (mem_staticTexts.2 ⟨_, hn, rfl⟩) c hc
      simp only [byteStrChar, Bool.and_eq_true, decide_eq_true_eq] at this
      omega
    · exact ih hsub t h c hc
  | @dynamic r node p sub segs query hn hcap hl ih =>
    have hsub : Shapely sub := fun s' q n h' => hs _ _ n (.dynamic hn hcap h')
    intro t ht c hc
    rcases List.mem_cons.1 ht with h | h
    · cases h
    · exact ih hsub t h c hc

/-- The property in full: every action, with values whose texts are non-empty, free of `/` and parse back, is
recovered from its path. -/
def RoundTrip (W : World) (display : W.V → Str) (body : List Stmt) (root : FlattenedModule) : Prop :=
  ∀ mods a, HasAction root mods a → ∀ (caps : Caps W) (texts : List Str), Texts display a.path caps texts →
    (∀ pv ∈ caps, W.parse pv.1.typ (display pv.2) = .ok pv.2 ∧ display pv.2 ≠ [] ∧ '/' ∉ display pv.2) →
    ∃ path, a.toPath display (caps.map fun pv => (pv.1.name, pv.2)) = some path ∧
      callMatchRoute W body (utf8 path) (verbBytes a.method) = .route
        ⟨mods, a.name, caps.map fun pv => (pv.1.name, .user pv.2), a.queryParameters.map Param.name⟩

/-- **C15 (partial).** Along a route where no step is taken over by a sibling (see `Follows`), for the first
resource declared for its verb and values whose `Display` texts are written in the path and parse back:
`to_path` is defined and `match_route` answers it with the same values and all query parameters `None`.

Missing: without the conditions on siblings the round trip fails, see `C15_false`. -/
theorem C15_follows_partial {r : Routes} {body : List Stmt} (h : Supported r body) (hp : PlainTexts r)
    (hn : NoBraces r) {root : FlattenedModule} (hroot : modulesRoot r = some root)
    {display : W.V → Str} {segs : List PathSegment} {above : List Param} {caps : Caps W}
    {parts : List Bytes} {node : Routes} (hf : Follows W r segs above caps parts node)
    (hpr : Printed display segs caps parts) {before after : List Resource} {res : Resource}
    (hres : node.resources = before ++ res :: after) (hfirst : ∀ o ∈ before, o.method ≠ res.method)
    (hred : res.isRedirect = false) :
    ∃ a path, HasAction root res.modules a ∧ a.name = res.name ∧
      a.toPath display (caps.map fun pv => (pv.1.name, pv.2)) = some path ∧
      callMatchRoute W body (utf8 path) (verbBytes res.method) =
        .route (matchOf res caps (above ++ node.queryParameters)) := by
  obtain ⟨texts, ht, rfl⟩ := hpr
  have hmem : res ∈ node.resources := by rw [hres]; simp
  have ha := (C24_actions hroot _ _).2
    ⟨segs, _, res, ⟨node, above, hf.live.hasRoute, hmem, rfl⟩, hred, rfl, rfl⟩
  obtain ⟨_, h2, _⟩ := h.conditions
  have hnd := h2 _ _ _ hf.live res hmem
  simp only [List.append_assoc, List.map_append] at hnd
  have hpath := C15_to_path hn hroot ha ht (List.nodup_append.1 hnd).1
  refine ⟨_, _, ha, rfl, hpath, ?_⟩
  have := C02_follows h hp hf hres hfirst (path := utf8 (c!"/" ++ List.intercalate c!"/" texts))
    (by rw [stripSlash_path]; exact utf8_intercalate texts)
  rw [hred] at this
  exact this

/-- **C15 (partial), tame configurations.** If parameters have no parameter siblings and at most one static
sibling, the only conditions left are those on the values: their texts are non-empty, free of `/`, do not
begin with a static sibling and parse back (`Writes` with `Printed`). -/
theorem C15_tame_partial {r : Routes} {body : List Stmt} (h : Supported r body) (hp : PlainTexts r)
    (hn : NoBraces r) (htame : Tame r) {root : FlattenedModule} (hroot : modulesRoot r = some root)
    {display : W.V → Str} {segs : List PathSegment} {above : List Param} {caps : Caps W}
    {parts : List Bytes} {node : Routes} (hw : Writes W r segs above caps parts node)
    (hpr : Printed display segs caps parts) {before after : List Resource} {res : Resource}
    (hres : node.resources = before ++ res :: after) (hfirst : ∀ o ∈ before, o.method ≠ res.method)
    (hred : res.isRedirect = false) :
    ∃ a path, HasAction root res.modules a ∧ a.name = res.name ∧
      a.toPath display (caps.map fun pv => (pv.1.name, pv.2)) = some path ∧
      callMatchRoute W body (utf8 path) (verbBytes res.method) =
        .route (matchOf res caps (above ++ node.queryParameters)) :=
  C15_follows_partial h hp hn hroot (hw.follows htame) hpr hres hfirst hred

/-- **C15, the other direction.** If `match_route` answers a path with `Route(v)` and `Display` prints
every parsed value as it was written, then `v.to_path()` is defined and has the same segments as the
path (it may differ in the leading and the trailing `/`). -/
theorem C15_back {r : Routes} {body : List Stmt} (h : Supported r body) (hn : NoBraces r)
    {root : FlattenedModule} (hroot : modulesRoot r = some root) {display : W.V → Str}
    (hd : ∀ typ text v, W.parse typ text = .ok v → display v = text) {path m : Bytes} {v : RouteVal W}
    (hv : callMatchRoute W body path m = .route v) :
    ∃ a fields s parts, HasAction root v.modules a ∧ a.name = v.name ∧
      v.params = fields.map (fun x => (x.1, .user x.2)) ∧ a.toPath display fields = some s ∧
      Spells parts (stripSlash path) ∧ Spells parts (stripSlash (utf8 s)) := by
  obtain ⟨segs, above, node, caps, parts, res, h1, h2, h3, h4, h5, rfl⟩ :=
    matched (red := false) h hv
  obtain ⟨hmem, _, _⟩ := find_verb h4
  have ha := (C24_actions hroot _ _).2 ⟨segs, _, res, ⟨node, above, h1.hasRoute, hmem, rfl⟩, h5, rfl, rfl⟩
  obtain ⟨hsh, hfd, _⟩ := h.conditions
  have hnd := hfd _ _ _ h1 res hmem
  simp only [List.append_assoc, List.map_append] at hnd
  obtain ⟨texts, ht, rfl⟩ := h2.texts (live_ascii h1 hsh) hd
  have hpath := C15_to_path hn hroot ha ht (List.nodup_append.1 hnd).1
  refine ⟨_, caps.map fun pv => (pv.1.name, pv.2), _, _, ha, rfl, by simp, hpath, h3, ?_⟩
  rw [stripSlash_path]
  exact utf8_intercalate texts

/-- Check for `NoBraces`. -/
def bracelessSeg : PathSegment → Bool
  | .static s => !s.contains '{' && !s.contains '}' && !s.contains '"' && !s.contains '\\'
  | .dynamic _ => true

theorem noBraces_of {r : Routes} (h : segsAll bracelessSeg r = true) : NoBraces r := by
  intro segs q node hr s hs
  have := segsAll_route hr h _ hs
  simpa [bracelessSeg, and_assoc] using this

/-- C15 is false in general: in the project's own `commons` example the action `Foo::Bar` has the path
`/foobar`, which is answered with `Bar::Dyn`. -/
theorem C15_roundtrip_false : ∃ (r : Routes) (body : List Stmt) (root : FlattenedModule), Supported r body ∧
    PlainTexts r ∧ NoBraces r ∧ modulesRoot r = some root ∧ ¬ RoundTrip Demo.world id body root := by
  have hm : ∃ root, modulesRoot Demo.commons = some root := by
    cases hr : modulesRoot Demo.commons with
    | some root => exact ⟨root, rfl⟩
    | none => exact absurd hr (by decide +kernel)
  obtain ⟨root, hroot⟩ := hm
  have hnb : NoBraces Demo.commons := noBraces_of (by decide)
  refine ⟨Demo.commons, _, root, Demo.commons_supported, Demo.commons_plain, hnb, hroot, fun hc => ?_⟩
  have ha := (C24_actions hroot _ _).2 ⟨[.static c!"foobar"], _, Demo.res .get c!"Foo" c!"Bar",
    ⟨_, _, .child (List.mem_cons_self ..) (.here _), List.mem_cons_self .., rfl⟩, rfl, rfl, rfl⟩
  have ht : Texts (W := Demo.world) id [.static c!"foobar"] [] [c!"foobar"] := .static _ .nil
  obtain ⟨path, h1, h2⟩ := hc _ _ ha [] _ ht (by simp)
  have h3 := C15_to_path hnb hroot ha ht (by simp [routeParams])
  rw [h1] at h3
  cases h3
  have h4 : Demo.ask Demo.commons c!"/foobar" c!"GET" = .route [c!"Bar"] c!"Dyn" [(c!"a", c!"foobar")] [] := by
    decide +kernel
  unfold Demo.ask at h4
  rw [show utf8 (c!"/" ++ List.intercalate c!"/" [c!"foobar"]) = bytesOf c!"/foobar" by decide +kernel,
    show verbBytes (Demo.res .get c!"Foo" c!"Bar").method = bytesOf c!"GET" by decide +kernel] at h2
  rw [h2] at h4
  revert h4
  decide

/-- The hypotheses are met by the route `/people/{id}/edit`. -/
example : ∃ root node, modulesRoot Demo.people = some root ∧ NoBraces Demo.people ∧ Tame Demo.people ∧
    Writes Demo.world Demo.people [.static c!"people", .dynamic ⟨c!"id", c!"u32"⟩,
      .static c!"edit"] [⟨c!"lang", c!"String"⟩, ⟨c!"verbose", c!"bool"⟩]
      [(⟨c!"id", c!"u32"⟩, c!"17")] [bytesOf c!"people", bytesOf c!"17", bytesOf c!"edit"] node ∧
    Printed (W := Demo.world) id [.static c!"people", .dynamic ⟨c!"id", c!"u32"⟩, .static c!"edit"]
      [(⟨c!"id", c!"u32"⟩, c!"17")] [bytesOf c!"people", bytesOf c!"17", bytesOf c!"edit"] := by
  have hm : ∃ root, modulesRoot Demo.people = some root := by
    cases hr : modulesRoot Demo.people with
    | some root => exact ⟨root, rfl⟩
    | none => exact absurd hr (by decide +kernel)
  obtain ⟨root, hroot⟩ := hm
  refine ⟨root, .mk [⟨.get, [c!"people"], c!"Edit", false, [⟨c!"tab", c!"String"⟩]⟩] [] [], hroot,
    noBraces_of (by decide), Demo.people_tame, ?_, [c!"people", c!"17", c!"edit"], ?_, by decide +kernel⟩
  · refine .static (r := Demo.people) (above := [⟨c!"verbose", c!"bool"⟩]) (List.mem_cons_self ..) ?_
    refine .dynamic (r := .mk _ _ _) (above := [⟨c!"verbose", c!"bool"⟩]) (text := c!"17") (List.mem_cons_self ..)
      (by decide) (by decide) (by decide) (by decide +kernel) rfl ?_
    exact .static (r := .mk _ _ _) (above := []) (List.mem_cons_self ..) (.here _)
  · exact .static _ (.dynamic _ _ (.static _ .nil))

end Wayfinder
