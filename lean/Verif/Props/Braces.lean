import Verif.Proofs.Braces
import Verif.Props.Pipeline
/-!
# C95: braces in static texts
-/

namespace Wayfinder
open Rust

variable {W : World} {c : RouteConfig}

/-- **C95, `format!`.** The template is accepted, and the text printed, exactly if its braces are doubled or hold the place of an
argument, with as many places as arguments. -/
theorem C95_format (s : Str) (args : List Str) (t : Str) : formatText s args = some t ↔ Formats s args t := by
  constructor
  · intro h
    fun_induction formatText s args generalizing t with
    | case1 => cases h; exact .nil
    | case2 => cases h
    | case3 rest a args ih =>
      obtain ⟨u, hu, rfl⟩ := Option.map_eq_some_iff.1 h
      exact .place (ih _ hu)
    | case4 => cases h
    | case5 args rest ih =>
      obtain ⟨u, hu, rfl⟩ := Option.map_eq_some_iff.1 h
      exact .opening (ih _ hu)
    | case6 args rest ih =>
      obtain ⟨u, hu, rfl⟩ := Option.map_eq_some_iff.1 h
      exact .closing (ih _ hu)
    | case7 => cases h
    | case8 => cases h
    | case9 =>
      rename_i ih
      obtain ⟨u, hu, rfl⟩ := Option.map_eq_some_iff.1 h
      refine .char ?_ ?_ (ih _ hu)
      all_goals assumption
  · intro h
    induction h with
    | nil => rfl
    | @char c s t args h1 h2 _ ih =>
      have := formatText_plain (s := [c]) (by simpa using fun e => h1 e.symm) (by simpa using fun e => h2 e.symm) s args
      simpa [ih] using this
    | opening _ ih => simp [formatText, ih]
    | closing _ ih => simp [formatText, ih]
    | place _ ih => simp [formatText, ih]

/-- A template with a place, doubled braces and an argument; and two with an argument too few or too many. -/
example : formatText c!"/a{{b}}/{}" [c!"7"] = some c!"/a{b}/7" ∧ formatText c!"/{}" [] = none ∧ formatText c!"/{}" [c!"7", c!"8"] = none := by
  decide

/-- Texts can stand between quotes. -/
def TextsRead (r : Routes) : Prop :=
  ∀ segs query node, HasRoute r segs query node → ∀ s, .static s ∈ segs → ∀ c ∈ s, textChar c = true ∧ c ≠ '\n'

theorem textsRead_of {N : Str → Prop} {r : Routes} (hw : WordsIn N r) : TextsRead r := fun _ _ _ hr _ hs => hw.segs hr _ hs

theorem TextsRead.quotes {r : Routes} (hw : TextsRead r) : ∀ segs query node, HasRoute r segs query node → ∀ s, .static s ∈ segs →
    '"' ∉ s ∧ '\\' ∉ s := by
  intro segs query node hr s hs
  have h := hw _ _ _ hr s hs
  constructor <;> intro hc <;> have := (h _ hc).1 <;> revert this <;> decide

theorem legible_accepted (hg : (codegen c).fail = none) (hl : Legible c) (hw : TextsRead c.routes) (hst : StartTypes c.routes) :
    (∃ m b, readText (headerToks c.headers) (codegen c).text = some (m, b)) ↔
      BracesPaired c.routes ∧ Shapely c.routes ∧ ParamsUsed c.routes ∧ ClearNames c.routes ∧ FreeParams c.routes ∧
      RedirectsFit c.routes ∧ ∃ τ, Typed c.routes τ ∧ NamesOk (c.routes.retype τ) := by
  obtain ⟨root, body, hr, hb, -⟩ := codegen_text hg
  have hq := templates_iff hr hw.quotes
  constructor
  · rintro ⟨m, b, e⟩
    have ht := templates_of_ok hr (readText_some hl hr hb e).2.2.1
    obtain ⟨h1, _, h3, h5, h6, h7, h4⟩ := (retyped_accepted hl hr hb ht hst).1 ⟨m, b, e⟩
    exact ⟨hq.1 ht, h1, h3, h5, h6, h7, h4⟩
  · rintro ⟨h0, h1, h3, h5, h6, h7, h4⟩
    exact (retyped_accepted hl hr hb (hq.2 h0) hst).2 ⟨h1, fields_distinct h5 h7, h3, h5, h6, h7, h4⟩

/-- **C95, acceptance.** When all names are names of Rust, and quotes and backslashes do not occur in texts, the emitted file is
accepted exactly if the conditions of C49 hold and all braces on the routes of actions are doubled. -/
theorem C95_accepted (hg : (codegen c).fail = none) (hh : HeadersRead c.headers) (hw : Words c.routes) (hst : StartTypes c.routes) :
    (∃ m b, readText (headerToks c.headers) (codegen c).text = some (m, b)) ↔
      BracesPaired c.routes ∧ Shapely c.routes ∧ ParamsUsed c.routes ∧ ClearNames c.routes ∧ FreeParams c.routes ∧
      RedirectsFit c.routes ∧ ∃ τ, Typed c.routes τ ∧ NamesOk (c.routes.retype τ) :=
  legible_accepted hg (legible_of hg hh hw) (textsRead_of hw) hst

theorem legible_link (hg : (codegen c).fail = none) (hl : Legible c) (hw : TextsRead c.routes) {m : Mod} {b : List Stmt}
    (e : readText (headerToks c.headers) (codegen c).text = some (m, b)) {segs : List PathSegment} {query : List Param} {res : Resource}
    (hd : Declares c.routes segs query res) (hred : res.isRedirect = false) {display : W.V → Str} {caps : Caps W}
    {texts : List Str} (ht : LinkTexts display segs caps texts) :
    callToPath display (headerToks c.headers) (codegen c).text (res.modules.map toSnakeCase) (toCapsCase res.name)
      (caps.map fun pv => (pv.1.name, pv.2)) = some (c!"/" ++ List.intercalate c!"/" texts) := by
  obtain ⟨root, body, hr, hb, -⟩ := codegen_text hg
  obtain ⟨-, rfl, hok, -, -⟩ := readText_some hl hr hb e
  have ha := (C24_actions hr res.modules _).2 ⟨segs, query, res, hd, hred, rfl, rfl⟩
  obtain ⟨sub, h1, h2, h3, h4, h5⟩ := struct_found (modGood_of hok) ha
  have hf := h1.fields _ h2
  have hnd : ((routeParams segs).map Param.name).Nodup := by
    simp only [List.map_append] at hf
    exact (List.nodup_append.1 hf).1
  have hfields : (caps.map fun pv => (pv.1.name, pv.2)).map Prod.fst = (routeParams segs).map Param.name := by
    rw [linkTexts_caps ht]; simp [Function.comp_def]
  have hargs := argTexts_eq display (bound := (routeParams segs).map Param.name ++ (query ++ res.queryParameters).map Param.name)
    (fields := caps.map fun pv => (pv.1.name, pv.2)) (by rw [hfields]; exact hnd) (fun x h => h) (by
      intro x hx
      have : x.1 ∈ (caps.map fun pv => (pv.1.name, pv.2)).map Prod.fst := List.mem_map_of_mem hx
      rw [hfields] at this
      exact List.mem_append_left _ this)
  rw [hfields] at hargs
  obtain ⟨node, above, hroute, -, -⟩ := id hd
  have hlit := template_plain (hw.quotes _ _ _ hroute)
  simp only [callToPath, e, Option.bind_eq_bind, Option.bind_some]
  rw [show res.modules.map toSnakeCase = snakes res.modules from rfl, h3]
  simp only [Option.bind_some, h4]
  simp only [structOf, FlattenedAction.template, FlattenedAction.bound, FlattenedAction.formatArgs, renderPath_eq]
  rw [show List.intercalate c!"/" (segs.map (PathSegment.inTemplate fun _ => c!"{}")) = templateOf segs from rfl, hlit, hargs]
  simp only [Option.bind_some, List.map_map, Function.comp_def]
  rw [formatText_plain (by decide) (by decide), format_link ht]
  rfl

/-- **C95, links.** In a file that is accepted, `to_path` prints the texts of the route with single braces. -/
theorem C95_link (hg : (codegen c).fail = none) (hh : HeadersRead c.headers) (hw : Words c.routes) {m : Mod} {b : List Stmt}
    (e : readText (headerToks c.headers) (codegen c).text = some (m, b)) {segs : List PathSegment} {query : List Param} {res : Resource}
    (hd : Declares c.routes segs query res) (hred : res.isRedirect = false) {display : W.V → Str} {caps : Caps W}
    {texts : List Str} (ht : LinkTexts display segs caps texts) :
    callToPath display (headerToks c.headers) (codegen c).text (res.modules.map toSnakeCase) (toCapsCase res.name)
      (caps.map fun pv => (pv.1.name, pv.2)) = some (c!"/" ++ List.intercalate c!"/" texts) :=
  legible_link hg (legible_of hg hh hw) (textsRead_of hw) e hd hred ht

/-- The static texts of a link that fits its route have no braces. -/
theorem link_fits {display : W.V → Str} {segs : List PathSegment} {caps caps' : Caps W} {texts : List Str}
    (ht : LinkTexts display segs caps texts) (ha : ∀ s, .static s ∈ segs → ∀ c ∈ s, c.toNat < 128) :
    Fits W segs caps' (texts.map utf8) → ∀ s, .static s ∈ segs → '{' ∉ s ∧ '}' ∉ s := by
  induction ht generalizing caps' with
  | nil => intro _ s hs; cases hs
  | @static segs caps texts s t hst _ ih =>
    intro hf x hx
    generalize hparts : (t :: texts).map utf8 = parts at hf
    cases hf with
    | static _ hf =>
      simp only [List.map_cons, List.cons.injEq] at hparts
      obtain ⟨h1, rfl⟩ := hparts
      rcases List.mem_cons.1 hx with hx | hx
      · cases hx
        rw [← utf8_ascii (ha s (by simp))] at h1
        exact hst.same_iff.1 (utf8_inj h1)
      · exact ih (fun y hy => ha y (by simp [hy])) hf x hx
  | @dynamic segs caps texts p v _ ih =>
    intro hf x hx
    generalize hparts : (display v :: texts).map utf8 = parts at hf
    cases hf with
    | dynamic _ _ _ hf =>
      simp only [List.map_cons, List.cons.injEq] at hparts
      obtain ⟨-, rfl⟩ := hparts
      rcases List.mem_cons.1 hx with hx | hx
      · cases hx
      · exact ih (fun y hy => ha y (by simp [hy])) hf x hx

theorem link_texts {display : W.V → Str} {segs : List PathSegment} {caps : Caps W} {texts : List Str}
    (ht : LinkTexts display segs caps texts) (hn : ∀ s, .static s ∈ segs → '{' ∉ s ∧ '}' ∉ s) : Texts display segs caps texts := by
  induction ht with
  | nil => exact .nil
  | static hs _ ih =>
    rw [hs.same_iff.2 (hn _ (by simp))]
    exact .static _ (ih fun s h => hn s (by simp [h]))
  | dynamic p v _ ih => exact .dynamic p v (ih fun s h => hn s (by simp [h]))

theorem legible_back (hg : (codegen c).fail = none) (hl : Legible c) (hw : TextsRead c.routes) (hhy : Hygienic c.routes)
    (hp : PlainTexts c.routes) {m : Mod} {b : List Stmt} (e : readText (headerToks c.headers) (codegen c).text = some (m, b))
    {τ : Typing} (hτ : Typed c.routes τ) {segs : List PathSegment} {query : List Param} {res : Resource}
    (hd : Declares c.routes segs query res) (hred : res.isRedirect = false) {display : W.V → Str} {caps : Caps W}
    {texts : List Str} (ht : LinkTexts display segs caps texts) (hv : ∀ pv ∈ caps, display pv.2 ≠ [] ∧ '/' ∉ display pv.2) :
    callText W (headerToks c.headers) (codegen c).text (utf8 (c!"/" ++ List.intercalate c!"/" texts)) (verbBytes res.method) =
        .route (RouteVal.inRust (matchOf res caps query)) ↔
      (∀ s, .static s ∈ segs → '{' ∉ s ∧ '}' ∉ s) ∧
      ∃ above node before after, Follows W (c.routes.retype τ) segs above caps (texts.map utf8) node ∧
        node.resources = before ++ res :: after ∧ ∀ o ∈ before, o.method ≠ res.method := by
  obtain ⟨root, body0, hr, hb, -⟩ := codegen_text hg
  obtain ⟨-, -, hok, -, -⟩ := readText_some hl hr hb e
  have hn : ClearNames c.routes := (ok_iff_clear' hr (templates_of_ok hr hok)).1 hok
  obtain ⟨body, hb', hc, -, rfl, -, -⟩ := retyped_meaning hl hr hb e hτ
  have hs : Supported (c.routes.retype τ) body := ⟨hb', hc, hygienic_retype.2 hhy⟩
  have hcall : ∀ path verb, callText W (headerToks c.headers) (codegen c).text path verb =
      Outcome.inRust (callMatchRoute W body path verb) := fun path verb => by
    simp only [callText, e]
    exact emit_call path verb body
  rw [hcall]
  have hds : DistinctSiblings c.routes := distinct_of_body hb
  have hda := distinctActions_of hr
  obtain ⟨node0, above0, hroute, -, -⟩ := id hd
  have key : ∀ v : RouteVal W, v.modules.map toCapsCase = res.modules.map toCapsCase → toCapsCase v.name = toCapsCase res.name →
      callMatchRoute W body (utf8 (c!"/" ++ List.intercalate c!"/" texts)) (verbBytes res.method) = .route v →
      ∀ s, .static s ∈ segs → '{' ∉ s ∧ '}' ∉ s := by
    intro v hm hx h1
    have htexts : ∀ t ∈ texts, t ≠ [] ∧ '/' ∉ t := by
      intro t h1
      rcases linkTexts_mem ht h1 with ⟨s, h2, h3⟩ | ⟨pv, h2, rfl⟩
      · obtain ⟨h4, h5⟩ := hp _ _ _ hroute s h2
        exact ⟨h3.ne_nil h4, fun h6 => h5 (h3.mem h6)⟩
      · exact hv pv h2
    have hparts : ∀ p ∈ texts.map utf8, p ≠ [] ∧ slash ∉ p := by
      intro p hm
      obtain ⟨t, h1, rfl⟩ := List.mem_map.1 hm
      exact ⟨utf8_nonempty (htexts t h1).1, slash_utf8 (htexts t h1).2⟩
    have hspell : Spells (texts.map utf8) (stripSlash (utf8 (c!"/" ++ List.intercalate c!"/" texts))) := by
      rw [stripSlash_path]; exact utf8_intercalate texts
    obtain ⟨segs', above', caps', node', rest, before, res', after, a1, a2, a3, a4, a5, a6, rfl⟩ :=
      (C47_match hs (plainTexts_retype hp) _ _ false _).1 h1
    have he := emitted_action hτ ⟨node', above', a1.live, by rw [a3]; simp, rfl⟩ a6.symm
    have act : Action c.routes res.modules res.name _ _ := ⟨segs, query, res, hd, hred, rfl, rfl, rfl, rfl⟩
    have act' : Action c.routes res'.modules res'.name _ _ := ⟨segs', _, res', emitted_declares he, a6.symm, rfl, rfl, rfl, rfl⟩
    obtain ⟨e1, e2⟩ := caps_action_inj hn act act' hm.symm hx.symm
    obtain ⟨rfl, rfl, rfl⟩ := declares_same hds hda hd (emitted_declares he) hred a6.symm e1 e2
    obtain ⟨tail, htail⟩ := cut_spells (fun p hm => (hparts p hm).2) hspell
    have hf := a1.follows_pieces htail (by simp [linkTexts_length ht]) hparts
    exact link_fits ht (live_ascii a1.live hs.conditions.1) hf.fits
  constructor
  · intro h1
    obtain ⟨v, h2, h3⟩ := isMatch_inRust (red := false) h1
    have hm := (congrArg RouteVal.modules h3).symm
    have hx := (congrArg RouteVal.name h3).symm
    have h4 : (RouteVal.inRust (matchOf res caps query)).params = (RouteVal.inRust v).params := congrArg RouteVal.params h3
    have h4 : (matchOf res caps query).params = v.params := h4
    have hno := key v hm hx h2
    exact ⟨hno, ((lands hs hp hds hda hn hτ hd hred (link_texts ht hno) hv _ v hm hx (h4 ▸ .refl _)).1 h2).2.2⟩
  · rintro ⟨hno, h1⟩
    exact inRust_isMatch (red := false) ((lands hs hp hds hda hn hτ hd hred (link_texts ht hno) hv _ _ rfl rfl (.refl _)).2 ⟨rfl, rfl, h1⟩)

/-- **C95, the way back.** Let a file that is accepted be emitted for a configuration with plain texts, and `res` be one of
its actions.  Its link is answered with the same struct exactly if the route has no braces and the condition of C50 holds. -/
theorem C95_back (hg : (codegen c).fail = none) (hh : HeadersRead c.headers) (hw : Words c.routes) (hhy : Hygienic c.routes)
    (hp : PlainTexts c.routes) {m : Mod} {b : List Stmt} (e : readText (headerToks c.headers) (codegen c).text = some (m, b))
    {τ : Typing} (hτ : Typed c.routes τ) {segs : List PathSegment} {query : List Param} {res : Resource}
    (hd : Declares c.routes segs query res) (hred : res.isRedirect = false) {display : W.V → Str} {caps : Caps W}
    {texts : List Str} (ht : LinkTexts display segs caps texts) (hv : ∀ pv ∈ caps, display pv.2 ≠ [] ∧ '/' ∉ display pv.2) :
    callText W (headerToks c.headers) (codegen c).text (utf8 (c!"/" ++ List.intercalate c!"/" texts)) (verbBytes res.method) =
        .route (RouteVal.inRust (matchOf res caps query)) ↔
      (∀ s, .static s ∈ segs → '{' ∉ s ∧ '}' ∉ s) ∧
      ∃ above node before after, Follows W (c.routes.retype τ) segs above caps (texts.map utf8) node ∧
        node.resources = before ++ res :: after ∧ ∀ o ∈ before, o.method ≠ res.method :=
  legible_back hg (legible_of hg hh hw) (textsRead_of hw) hhy hp e hτ hd hred ht hv

/-- **C95, links of routes with braces.** They never lead back. -/
theorem C95_lost (hg : (codegen c).fail = none) (hh : HeadersRead c.headers) (hw : Words c.routes) (hhy : Hygienic c.routes)
    (hp : PlainTexts c.routes) {m : Mod} {b : List Stmt} (e : readText (headerToks c.headers) (codegen c).text = some (m, b))
    {segs : List PathSegment} {query : List Param} {res : Resource}
    (hd : Declares c.routes segs query res) (hred : res.isRedirect = false) {s : Str} (hs : .static s ∈ segs)
    (hb : '{' ∈ s ∨ '}' ∈ s) {display : W.V → Str} {caps : Caps W}
    {texts : List Str} (ht : LinkTexts display segs caps texts) (hv : ∀ pv ∈ caps, display pv.2 ≠ [] ∧ '/' ∉ display pv.2) :
    callText W (headerToks c.headers) (codegen c).text (utf8 (c!"/" ++ List.intercalate c!"/" texts)) (verbBytes res.method) ≠
      .route (RouteVal.inRust (matchOf res caps query)) := by
  obtain ⟨-, -, -, -, -, -, τ, hτ, -⟩ := (C95_accepted hg hh hw (startTypes_of hhy)).1 ⟨m, b, e⟩
  intro h
  obtain ⟨h1, h2⟩ := ((C95_back hg hh hw hhy hp e hτ hd hred ht hv).1 h).1 s hs
  exact hb.elim h1 h2

namespace Demo

/-- An action behind one static segment. -/
def braced (s : Str) : Routes := .mk [] [.mk (.static s) (.mk [res .get c!"people" c!"Show"] [] [])] []

/-- The emitted file can be read and is accepted. -/
def readsB (r : Routes) : Bool :=
  (codegen (conf r)).fail.isNone && wordsB r && (modulesRoot r).isSome && (match matcherBody r with | .ok _ => true | .error _ => false) &&
  blockShapeOk (bodyOf r) && (modOf (rootOf r)).ok true &&
  match elabBlock (modOf (rootOf r)) (eraseBlock (bodyOf r)) with
  | some b => compiles b
  | none => false

theorem reads_of {r : Routes} (h : readsB r = true) : (codegen (conf r)).fail = none ∧ Words r ∧
    ∃ m b, readText (headerToks (conf r).headers) (codegen (conf r)).text = some (m, b) ∧
      elabBlock (modOf (rootOf r)) (eraseBlock (bodyOf r)) = some b := by
  simp only [readsB, Bool.and_eq_true, Option.isNone_iff_eq_none] at h
  obtain ⟨⟨⟨⟨⟨⟨h0, h1⟩, h2⟩, h3⟩, h4⟩, h5⟩, h6⟩ := h
  refine ⟨h0, words_of h1, ?_⟩
  obtain ⟨root, hroot⟩ := Option.isSome_iff_exists.1 h2
  have hb : matcherBody r = .ok (bodyOf r) := by
    cases e : matcherBody r with
    | error _ => simp [e] at h3
    | ok b => simp [bodyOf, e]
  rw [rootOf, hroot] at h5 h6 ⊢
  simp only [Option.getD_some] at h5 h6 ⊢
  cases e : elabBlock (modOf root) (eraseBlock (bodyOf r)) with
  | none => simp [e] at h6
  | some b =>
    simp only [e] at h6
    exact ⟨_, _, readText_eq (codegen_read (c := conf r) h0 (demo_headers _) (words_of h1) hroot hb |>.trans (if_pos h4)) e h5 h6, rfl⟩

/-- The answer of the emitted block. -/
def askElab (r : Routes) (path m : Str) : Option Shown :=
  (elabBlock (modOf (rootOf r)) (eraseBlock (bodyOf r))).map fun b => shown (Wayfinder.callMatchRoute world b (bytesOf path) (bytesOf m))

theorem askElab_text {r : Routes} (h : readsB r = true) (path m : Str) : askElab r path m = some (askText r path m) := by
  obtain ⟨-, -, m', b, e1, e2⟩ := reads_of h
  simp only [askElab, askText, callText, e1, e2, Option.map_some]

/-- Braces that are not doubled. -/
theorem braced_rejected {s : Str} (hg : (codegen (conf (braced s))).fail = none) (hw : Words (braced s)) (hy : Hygienic (braced s))
    (hs : ¬ ∃ t, Doubled s t) : ¬ ∃ m b, readText (headerToks (conf (braced s)).headers) (codegen (conf (braced s))).text = some (m, b) := by
  intro h
  exact hs (((C95_accepted hg (demo_headers _) hw (startTypes_of hy)).1 h).1 [.static s] [] (res .get c!"people" c!"Show")
    ⟨_, _, .child (.head _) (.here _), List.mem_singleton.2 rfl, rfl⟩ rfl s (.head _))

end Demo

open Demo in
/-- **C95, doubled braces.** The file for a route with two braces is accepted; the route is requested with two braces, its link
has one, and requesting the link finds nothing. -/
theorem C95_doubled : ∃ r : Routes, (codegen (conf r)).fail = none ∧ Words r ∧ Hygienic r ∧ PlainTexts r ∧ ¬ NoBraces r ∧
    callToPath (fun v : Str => v) (headerToks (conf r).headers) (codegen (conf r)).text [c!"people"] c!"Show" [] = some c!"/{" ∧
    askText r c!"/{{" c!"GET" = .route [c!"People"] c!"Show" [] [] ∧ askText r c!"/{" c!"GET" = .notFound := by
  have hr : readsB (braced c!"{{") = true := by decide +kernel
  obtain ⟨h1, h2, m, b, h3, -⟩ := reads_of hr
  have hd : Declares (braced c!"{{") [.static c!"{{"] [] (res .get c!"people" c!"Show") :=
    ⟨_, _, .child (.head _) (.here _), List.mem_singleton.2 rfl, rfl⟩
  refine ⟨braced c!"{{", h1, h2, hygienic_of (by decide +kernel), plainTexts_of (by decide +kernel), fun h => ?_, ?_, ?_, ?_⟩
  · obtain ⟨node, above, h4, -, -⟩ := id hd
    exact absurd (h _ _ _ h4 c!"{{" (.head _)) (by decide)
  · have := C95_link (W := world) (display := fun v => v) h1 (demo_headers _) h2 h3 hd rfl (.static (.opening .nil) .nil)
    rw [show (res .get c!"people" c!"Show").modules.map toSnakeCase = [c!"people"] by decide,
      show toCapsCase (res .get c!"people" c!"Show").name = c!"Show" by decide] at this
    exact this
  · have : askElab (braced c!"{{") c!"/{{" c!"GET" = some (.route [c!"People"] c!"Show" [] []) := by decide +kernel
    exact Option.some.inj ((askElab_text hr _ _).symm.trans this)
  · have : askElab (braced c!"{{") c!"/{" c!"GET" = some .notFound := by decide +kernel
    exact Option.some.inj ((askElab_text hr _ _).symm.trans this)

open Demo in
/-- **C95, single braces.** The generator succeeds on a static text with a brace, and the file is rejected; likewise for a
text that looks like a place for an argument. -/
theorem C95_single : ∀ s ∈ [c!"{", c!"a}b", c!"{}"], (codegen (conf (braced s))).fail = none ∧ Words (braced s) ∧
    Hygienic (braced s) ∧ PlainTexts (braced s) ∧
    ¬ ∃ m b, readText (headerToks (conf (braced s)).headers) (codegen (conf (braced s))).text = some (m, b) := by
  intro s hs
  simp only [List.mem_cons, List.not_mem_nil, or_false] at hs
  have hg : (codegen (conf (braced s))).fail = none := by rcases hs with rfl | rfl | rfl <;> decide +kernel
  have hw : Words (braced s) := words_of (by rcases hs with rfl | rfl | rfl <;> decide +kernel)
  have hy : Hygienic (braced s) := hygienic_of (by rcases hs with rfl | rfl | rfl <;> decide +kernel)
  refine ⟨hg, hw, hy, plainTexts_of (by rcases hs with rfl | rfl | rfl <;> decide +kernel), braced_rejected hg hw hy ?_⟩
  rintro ⟨t, ht⟩
  rcases hs with rfl | rfl | rfl
  · cases ht with | char h _ _ => exact h rfl
  · cases ht with | char _ _ ht => cases ht with | char _ h _ => exact h rfl
  · cases ht with | char h _ _ => exact h rfl

end Wayfinder
