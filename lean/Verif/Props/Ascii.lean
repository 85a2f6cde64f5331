import Verif.Props.Braces
import Verif.Props.Spell
import Verif.Props.Decide
/-!
# C96: when the emitted file is accepted, without assuming that words are names
-/

namespace Wayfinder
open Rust

variable {W : World} {c : RouteConfig}

/-- If the words that are written as names are names, the file is read as meant. -/
theorem spelt_legible (hg : (codegen c).fail = none) (hh : HeadersRead c.headers) (hw : WordsIn Rust.Word c.routes)
    (hs : Spelt c.routes) : Legible c := by
  intro root body hr hb
  split
  · rename_i hshape
    rw [codegen_toks hg hh hw hr hb hshape, Option.bind_some, fileToks_read _ ((modNamed_iff hw hr).2 hs.actions) ?_ (blockAscii_of body hshape),
      if_pos hshape]
    refine (bodyNamed_iff hw hb hshape).2 ⟨fun {segs query res} he => ?_, hs.variables⟩
    cases hred : res.isRedirect with
    | true => exact hs.redirects he hred
    | false => exact (hs.actions (emitted_declares he) hred).1
  · rename_i hshape
    cases e : (lex (codegen c).text).bind (readFile (headerToks c.headers)) with
    | none => rfl
    | some f => exact absurd ((matcherBody_shape hb).2 ((C94_read hg hh hw).1 ⟨f, e⟩).2) hshape

/-- Accepted files are read as meant. -/
theorem accepted_legible (hg : (codegen c).fail = none) (hh : HeadersRead c.headers) (hw : WordsIn Rust.Word c.routes) {m : Mod}
    {b : List Stmt} (e : readText (headerToks c.headers) (codegen c).text = some (m, b)) : Legible c :=
  spelt_legible hg hh hw (C94_accepted hg hh hw e)

/-- **C96.** Whatever the words, the emitted file is accepted exactly if the words that are
written as names are names, the braces on the routes of actions are doubled, and the conditions of C49 hold. -/
theorem C96_accepted (hg : (codegen c).fail = none) (hh : HeadersRead c.headers) (hw : WordsIn Rust.Word c.routes)
    (hst : StartTypes c.routes) :
    (∃ m b, readText (headerToks c.headers) (codegen c).text = some (m, b)) ↔
      Spelt c.routes ∧ BracesPaired c.routes ∧ Shapely c.routes ∧ ParamsUsed c.routes ∧ ClearNames c.routes ∧ FreeParams c.routes ∧
      RedirectsFit c.routes ∧ ∃ τ, Typed c.routes τ ∧ NamesOk (c.routes.retype τ) := by
  constructor
  · rintro ⟨m, b, e⟩
    exact ⟨C94_accepted hg hh hw e, (legible_accepted hg (accepted_legible hg hh hw e) (textsRead_of hw) hst).1 ⟨m, b, e⟩⟩
  · rintro ⟨hs, h⟩
    exact (legible_accepted hg (spelt_legible hg hh hw hs) (textsRead_of hw) hst).2 h

/-- **C96, no parameter named `len`, or `start` with a parameter behind it.** -/
theorem C96_hygienic (hg : (codegen c).fail = none) (hh : HeadersRead c.headers) (hw : WordsIn Rust.Word c.routes)
    (hy : Hygienic c.routes) :
    (∃ m b, readText (headerToks c.headers) (codegen c).text = some (m, b)) ↔
      Spelt c.routes ∧ BracesPaired c.routes ∧ Shapely c.routes ∧ ParamsUsed c.routes ∧ NamesOk c.routes ∧ ClearNames c.routes ∧
      FreeParams c.routes ∧ RedirectsFit c.routes ∧ OneType c.routes := by
  rw [C96_accepted hg hh hw (startTypes_of hy), ← C49_typed]
  constructor
  · rintro ⟨hs, h0, h1, h3, h5, h6, h7, τ, ht, h4⟩
    exact ⟨hs, h0, h1, h3, (namesOk_retype hy).1 h4, h5, h6, h7, τ, ht⟩
  · rintro ⟨hs, h0, h1, h3, h4, h5, h6, h7, τ, ht⟩
    exact ⟨hs, h0, h1, h3, h5, h6, h7, τ, ht, (namesOk_retype hy).2 h4⟩

/-- **C96, meaning.** If the file is accepted, `match_route` in it gives every request the one answer that the configuration
with the types of the fields prescribes. -/
theorem C96_meaning (hg : (codegen c).fail = none) (hh : HeadersRead c.headers) (hw : WordsIn Rust.Word c.routes)
    (hy : Hygienic c.routes) (hp : PlainTexts c.routes) {m : Mod} {b : List Stmt}
    (e : readText (headerToks c.headers) (codegen c).text = some (m, b)) {τ : Typing} (hτ : Typed c.routes τ) (path verb : Bytes)
    (o : Outcome W) :
    callText W (headerToks c.headers) (codegen c).text path verb = o ↔ Answers W (c.routes.retype τ) path verb o := by
  obtain ⟨root, body, hr, hb, -⟩ := codegen_text hg
  obtain ⟨body', hb', hc, rfl, rfl, -, -⟩ := retyped_meaning (accepted_legible hg hh hw e) hr hb e hτ
  rw [show callText W (headerToks c.headers) (codegen c).text path verb = Outcome.inRust (callMatchRoute W body' path verb) by
    simp only [callText, e]; exact emit_call path verb body']
  exact call_answers ⟨hb', hc, hygienic_retype.2 hy⟩ (plainTexts_retype hp) path verb o

/-- **C96, links.** -/
theorem C96_link (hg : (codegen c).fail = none) (hh : HeadersRead c.headers) (hw : WordsIn Rust.Word c.routes) {m : Mod} {b : List Stmt}
    (e : readText (headerToks c.headers) (codegen c).text = some (m, b)) {segs : List PathSegment} {query : List Param} {res : Resource}
    (hd : Declares c.routes segs query res) (hred : res.isRedirect = false) {display : W.V → Str} {caps : Caps W}
    {texts : List Str} (ht : LinkTexts display segs caps texts) :
    callToPath display (headerToks c.headers) (codegen c).text (res.modules.map toSnakeCase) (toCapsCase res.name)
      (caps.map fun pv => (pv.1.name, pv.2)) = some (c!"/" ++ List.intercalate c!"/" texts) :=
  legible_link hg (accepted_legible hg hh hw e) (textsRead_of hw) e hd hred ht

/-- **C96, the way back.** -/
theorem C96_back (hg : (codegen c).fail = none) (hh : HeadersRead c.headers) (hw : WordsIn Rust.Word c.routes) (hy : Hygienic c.routes)
    (hp : PlainTexts c.routes) {m : Mod} {b : List Stmt} (e : readText (headerToks c.headers) (codegen c).text = some (m, b))
    {τ : Typing} (hτ : Typed c.routes τ) {segs : List PathSegment} {query : List Param} {res : Resource}
    (hd : Declares c.routes segs query res) (hred : res.isRedirect = false) {display : W.V → Str} {caps : Caps W}
    {texts : List Str} (ht : LinkTexts display segs caps texts) (hv : ∀ pv ∈ caps, display pv.2 ≠ [] ∧ '/' ∉ display pv.2) :
    callText W (headerToks c.headers) (codegen c).text (utf8 (c!"/" ++ List.intercalate c!"/" texts)) (verbBytes res.method) =
        .route (RouteVal.inRust (matchOf res caps query)) ↔
      (∀ s, .static s ∈ segs → '{' ∉ s ∧ '}' ∉ s) ∧
      ∃ above node before after, Follows W (c.routes.retype τ) segs above caps (texts.map utf8) node ∧
        node.resources = before ++ res :: after ∧ ∀ o ∈ before, o.method ≠ res.method :=
  legible_back hg (accepted_legible hg hh hw e) (textsRead_of hw) hy hp e hτ hd hred ht hv

theorem bracesPaired_of {r : Routes} (h : NoBraces r) : BracesPaired r := by
  rintro segs query res ⟨node, above, hr, -, -⟩ - s hs
  exact ⟨s, doubled_plain (h _ _ _ hr s hs).1 (h _ _ _ hr s hs).2.1⟩

/-- **C96, from the route file.** Like C50, for any route file: it is not assumed that its words are names of Rust. -/
theorem C96_build (w : Machine) (hw : w.Sound) {b : Builder} {name : Str} (hb : b.source = some (.file name))
    (h : (b.build w).ending = .returned) :
    ∃ contents c, w.read (b.inputPath w name) = some contents ∧ FileText w.cfg c contents ∧
      (HeadersRead c.headers →
        (StartTypes c.routes → (AcceptedFile (headerToks c.headers) (b.build w).written ↔
          Spelt c.routes ∧ Shapely c.routes ∧ ParamsUsed c.routes ∧ ClearNames c.routes ∧ FreeParams c.routes ∧
            RedirectsFit c.routes ∧ ∃ τ, Typed c.routes τ ∧ NamesOk (c.routes.retype τ))) ∧
        (AcceptedFile (headerToks c.headers) (b.build w).written → Hygienic c.routes → (∃ τ, Typed c.routes τ) ∧
          ∀ τ, Typed c.routes τ → ∀ (W : World) (path verb : Bytes) (o : Outcome W),
            callFile W (headerToks c.headers) (b.build w).written path verb = o ↔ Answers W (c.routes.retype τ) path verb o)) := by
  obtain ⟨c, hl, -, hd, -, hwr⟩ := (C37_success w hw b).1 h
  cases hl with
  | config he => rw [hb] at he; cases he
  | file he hr hp =>
    rw [hb] at he
    cases he
    refine ⟨_, c, hr, (C46_grammar _ _ _).1 ⟨_, hp⟩, fun hh => ?_⟩
    have hwc := (C29_written _ hp).2
    have hg := (C20_exact c).2 hd
    have haw := hwc.spoken
    have hu : fromUtf8 (b.build w).written = some (codegen c).text := by rw [hwr]; exact fromUtf8_utf8 _
    have hacc : AcceptedFile (headerToks c.headers) (b.build w).written ↔
        ∃ m b, readText (headerToks c.headers) (codegen c).text = some (m, b) := by
      constructor
      · rintro ⟨t, m, b', h1, h2⟩
        rw [hu] at h1; cases h1
        exact ⟨m, b', h2⟩
      · rintro ⟨m, b', h2⟩
        exact ⟨_, m, b', hu, h2⟩
    refine ⟨fun hst => hacc.trans ((C96_accepted hg hh haw hst).trans ?_), fun hacc' hhy => ?_⟩
    · exact ⟨fun ⟨g1, _, g2⟩ => ⟨g1, g2⟩, fun ⟨g1, g2⟩ => ⟨g1, bracesPaired_of hwc.noBraces, g2⟩⟩
    · obtain ⟨m, b', e⟩ := hacc.1 hacc'
      obtain ⟨-, -, -, -, -, -, -, -, h1⟩ := (C96_hygienic hg hh haw hhy).1 ⟨m, b', e⟩
      refine ⟨(C49_typed _).2 h1, fun τ ht W path verb o => ?_⟩
      simp only [callFile, hu]
      exact C96_meaning hg hh haw hhy hwc.plain e ht path verb o

/-! ## A case -/

namespace Demo

theorem untyped_spoken : WordsIn Rust.Word untyped := spoken_of (by decide +kernel)

theorem untyped_generated : (codegen (conf untyped)).fail = none := by decide +kernel

theorem untyped_root : modulesRoot untyped = some (rootOf untyped) := by
  have : (modulesRoot untyped).isSome = true := by decide +kernel
  obtain ⟨root, h⟩ := Option.isSome_iff_exists.1 this
  rw [rootOf, h]; rfl

/-- The program that is read from the file. -/
def untypedRead : List Stmt := (elabBlock (modOf (rootOf untyped)) (eraseBlock (bodyOf untyped))).getD []

theorem untyped_elab : elabBlock (modOf (rootOf untyped)) (eraseBlock (bodyOf untyped)) = some untypedRead := by
  have : (elabBlock (modOf (rootOf untyped)) (eraseBlock (bodyOf untyped))).isSome = true := by decide +kernel
  obtain ⟨b, e⟩ := Option.isSome_iff_exists.1 this
  rw [untypedRead, e]; rfl

theorem untyped_body : matcherBody untyped = .ok (bodyOf untyped) := (supported_of (r := untyped) (by decide +kernel)).generated

theorem untyped_accepted : readText (headerToks (conf untyped).headers) (codegen (conf untyped)).text =
    some (modOf (rootOf untyped), untypedRead) := by
  have hl : Legible (conf untyped) := spelt_legible untyped_generated (demo_headers _) untyped_spoken (spelt_of (by decide +kernel))
  rw [Legible.readText hl untyped_root untyped_body, if_pos (show blockShapeOk (bodyOf untyped) = true by decide +kernel)]
  simp only [Option.bind_some, untyped_elab]
  rw [if_pos (show ((modOf (rootOf untyped)).ok true && Wayfinder.compiles untypedRead) = true by decide +kernel)]

theorem untyped_ask {path : Str} {o : Shown} (h : shown (callMatchRoute world untypedRead (bytesOf path) (bytesOf c!"GET")) = o) :
    askText untyped path c!"GET" = o := by
  rw [askText, callText, untyped_accepted]
  exact h

end Demo

open Demo in
/-- **C96, types that are not written.** A redirect on a route with a parameter of the type `fn`: C49 says nothing about this
configuration, its file is accepted, and the parameter is read as the target has it. -/
theorem C96_untyped : ∃ r : Routes, (codegen (conf r)).fail = none ∧ WordsIn Rust.Word r ∧ Hygienic r ∧ PlainTexts r ∧ ¬ Words r ∧
    (∃ m b, readText (headerToks (conf r).headers) (codegen (conf r)).text = some (m, b)) ∧
    askText r c!"/b/12" c!"GET" = .redirect [c!"People"] c!"Show" [(c!"id", c!"12")] [] ∧
    askText r c!"/b/zz" c!"GET" = .err c!"id" c!"invalid digit" := by
  refine ⟨untyped, untyped_generated, untyped_spoken, hygienic_of (by decide +kernel), plainTexts_of (by decide +kernel),
    untyped_read.2, ⟨_, _, untyped_accepted⟩, untyped_ask (by decide +kernel), untyped_ask (by decide +kernel)⟩

namespace Demo

/-- A text beyond ASCII. -/
def cafe : Routes := .mk [] [.mk (.static c!"café") (.mk [res .get c!"people" c!"Show"] [] [])] []

/-- The same text below a parameter that is passed over in favour of another. -/
def hiddenCafe : Routes :=
  .mk [] [.mk (.static c!"x") (.mk [res .get c!"people" c!"Show"] [] []),
    .mk (.dynamic ⟨c!"a", c!"u32"⟩) (.mk [res .get c!"people" c!"Index"] [] []),
    .mk (.dynamic ⟨c!"b", c!"u32"⟩) (.mk [] [.mk (.static c!"café") (.mk [res .get c!"people" c!"Menu"] [] [])] [])] []

/-- ASCII letters and digits, and `é`. -/
def cafeWord (s : Str) : Bool :=
  !s.isEmpty && s.all fun x => x == 'é' || decide ('a' ≤ x ∧ x ≤ 'z') || decide ('A' ≤ x ∧ x ≤ 'Z') || decide ('0' ≤ x ∧ x ≤ '9')

/-- The words of a segment are such words. -/
def cafeSegment : PathSegment → Bool
  | .static s => cafeWord s
  | .dynamic p => cafeWord p.name && cafeWord p.typ

theorem cafe_words : ∀ r ∈ [cafe, hiddenCafe], ∀ segs query node, HasRoute r segs query node →
    (∀ seg ∈ segs, cafeSegment seg = true) ∧ (node.resources ≠ [] ∨ node.routes ≠ []) ∧
    (∀ x ∈ node.resources, cafeWord x.name = true ∧ (∀ m ∈ x.modules, cafeWord m = true) ∧ x.queryParameters = []) ∧
    node.queryParameters = [] ∧ segs.length + 1 ≤ 7 := by
  intro r hr
  simp only [List.mem_cons, List.not_mem_nil, or_false] at hr
  rcases hr with rfl | rfl <;> decide +kernel

/-- The printed texts of the two are read back, wherever `é` counts as a letter. -/
theorem cafe_parsed {cfg : ParseCfg} (hu : cfg.uni 'é' = true) {r : Routes} (hr : r ∈ [cafe, hiddenCafe]) :
    routeConfig cfg (conf r).stringify = .ok [] (conf r) := by
  have hword : ∀ {s : Str}, cafeWord s = true → Word cfg s := by
    intro s h
    simp only [cafeWord, Bool.and_eq_true, List.all_eq_true, Bool.or_eq_true, beq_iff_eq, decide_eq_true_eq] at h
    refine ⟨by simpa using h.1, fun x hx => ?_⟩
    rcases h.2 x hx with ((rfl | h) | h) | h
    · exact .inr (.inr (.inr (.inr ⟨by decide, hu⟩)))
    · exact .inr (.inl h)
    · exact .inr (.inr (.inl h))
    · exact .inr (.inr (.inr (.inl h)))
  refine C27_roundtrip_partial cfg ⟨by simp [conf, Header.Written], fun segs query node h => ?_⟩ fun segs query node h => ?_
  · obtain ⟨h1, h2, h3, h4, _⟩ := cafe_words r hr segs query node h
    refine ⟨fun seg hs => ?_, h2, fun x hx => ?_, by simp [h4]⟩
    · have := h1 seg hs
      cases seg with
      | static s => exact hword this
      | dynamic p => exact ⟨hword (Bool.and_eq_true _ _ ▸ this).1, hword (Bool.and_eq_true _ _ ▸ this).2⟩
    · obtain ⟨g1, g2, g3⟩ := h3 x hx
      exact ⟨hword g1, fun m hm => hword (g2 m hm), by simp [g3]⟩
  · obtain ⟨_, _, h3, _, h5⟩ := cafe_words r hr segs query node h
    exact ⟨h5, fun x hx hq => absurd (h3 x hx).2.2 hq⟩

end Demo

open Demo in
/-- **C96, texts beyond ASCII.** A text of letters beyond ASCII is accepted by the parser (wherever the letters count as such) and
by the generator.  If code is emitted for its route the file is rejected, since the text is written as a byte string (`cafe`); a
file that is accepted is shown for a route for which no code is emitted (`hiddenCafe`). -/
theorem C96_beyond :
    (∀ cfg : ParseCfg, cfg.uni 'é' = true → ∀ r ∈ [cafe, hiddenCafe], routeConfig cfg (conf r).stringify = .ok [] (conf r)) ∧
    (∀ r ∈ [cafe, hiddenCafe], (codegen (conf r)).fail = none ∧ HeadersRead (conf r).headers ∧ Words r ∧ Hygienic r ∧ PlainTexts r) ∧
    (¬ ∃ m b, readText (headerToks (conf cafe).headers) (codegen (conf cafe)).text = some (m, b)) ∧
    (∃ m b, readText (headerToks (conf hiddenCafe).headers) (codegen (conf hiddenCafe)).text = some (m, b)) := by
  have h1 := ready_of (r := cafe) (by decide +kernel)
  obtain ⟨h2, h3⟩ := accepted_of (r := hiddenCafe) (by decide +kernel)
  refine ⟨fun cfg hu r hr => cafe_parsed hu hr, fun r hr => ?_, fun ⟨m, b, e⟩ => ?_, h3⟩
  · simp only [List.mem_cons, List.not_mem_nil, or_false] at hr
    rcases hr with rfl | rfl
    · exact ⟨h1.generated, h1.headers, h1.words, hygienic_of (by decide +kernel), plainTexts_of (by decide +kernel)⟩
    · exact ⟨h2.generated, h2.headers, h2.words, hygienic_of (by decide +kernel), plainTexts_of (by decide +kernel)⟩
  · have hs := ((C49_hygienic h1 (hygienic_of (by decide +kernel))).1 ⟨m, b, e⟩).1
    have := (hs [] [] cafe (.here _)).ascii c!"café" (by decide) 'é' (by decide)
    revert this; decide

end Wayfinder
