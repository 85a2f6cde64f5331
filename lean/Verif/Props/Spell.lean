import Verif.Proofs.Spelt
import Verif.Props.Pipeline
/-!
# C94: the names that are written have to be names of Rust

The generator copies words of the configuration into the file and does not compare them with the keywords of Rust. Here is
exactly which words have to be names for the file to be readable.
-/

namespace Wayfinder
open Rust

/-! ## The module tree -/

theorem modNamed_action {N : Str → Prop} : ∀ {m : FlattenedModule} {mods : List Str} {a : FlattenedAction},
    HasAction m mods a → ModNamed N m → ActionNamed N a ∧ ∀ x ∈ mods, N (toSnakeCase x) ∧ CapsIn N (toCapsCase x) := by
  have mem : ∀ {ms : List FlattenedModule} {m}, m ∈ ms → ModsNamed N ms →
      N (toSnakeCase m.name) ∧ CapsIn N (toCapsCase m.name) ∧ ModNamed N m := by
    intro ms
    induction ms with
    | nil => intro m hm; cases hm
    | cons x xs ih =>
      intro m hm h
      simp only [ModsNamed] at h
      rcases List.mem_cons.1 hm with rfl | hm
      · exact ⟨h.1, h.2.1, h.2.2.1⟩
      · exact ih hm h.2.2.2
  intro m mods a h
  induction h with
  | @here m a ha =>
    obtain ⟨_, _, _⟩ := m
    intro h
    simp only [ModNamed] at h
    exact ⟨h.1 _ ha, by simp⟩
  | @inside m sub mods a hs _ ih =>
    obtain ⟨_, _, _⟩ := m
    intro h
    simp only [ModNamed] at h
    obtain ⟨h1, h2, h3⟩ := mem hs h.2
    have := ih h3
    refine ⟨this.1, fun x hx => ?_⟩
    rcases List.mem_cons.1 hx with rfl | hx
    · exact ⟨h1, h2⟩
    · exact this.2 x hx

/-- The words of what a configuration declares. -/
theorem declares_words {r : Routes} (hw : WordsIn Rust.Word r) {segs : List PathSegment} {query : List Param} {res : Resource}
    (hd : Declares r segs query res) : ResNamed Rust.Word res ∧
      (∀ p ∈ routeParams segs, ParamNamed Rust.Word p) ∧ ∀ p ∈ query ++ res.queryParameters, ParamNamed Rust.Word p := by
  obtain ⟨node, above, hr, hres, rfl⟩ := hd
  refine ⟨hw.resources hr _ hres, fun p hp => hw.params hr p (by rwa [dynamics_eq_routeParams]), fun p hp => ?_⟩
  rcases List.mem_append.1 hp with hp | hp
  · exact hw.allQuery hr p hp
  · exact (hw.resources hr _ hres).2.2 p hp

theorem modNamed_iff {r : Routes} (hw : WordsIn Rust.Word r) {root : FlattenedModule} (hr : modulesRoot r = some root) :
    ModNamed Name root ↔ ∀ {segs query res}, Declares r segs query res → res.isRedirect = false → ValueSpelt segs query res ∧
      ∀ p ∈ routeParams segs ++ query ++ res.queryParameters, isName p.typ = true := by
  constructor
  · intro h segs query res hd hred
    have ha := (C24_actions hr res.modules _).2 ⟨segs, query, res, hd, hred, rfl, rfl⟩
    obtain ⟨⟨h1, _, h3, h4⟩, h5⟩ := modNamed_action ha h
    have hp : ∀ p ∈ routeParams segs ++ query ++ res.queryParameters, ParamNamed Name p := by
      intro p hp
      rw [List.append_assoc] at hp
      rcases List.mem_append.1 hp with hp | hp
      · exact h3 p hp
      · exact h4 p hp
    exact ⟨⟨fun m hm => ⟨(h5 m hm).1.2, (capsIn_name.1 (h5 m hm).2).2⟩, (capsIn_name.1 h1).2, fun p h => (hp p h).1.2⟩, fun p h => (hp p h).2.2⟩
  · intro h
    refine modNamed_of root (modulesRoot_spec hr).1 fun mods a hma => ?_
    have hsegs := (modNamed_action hma (hw.modules hr)).1.2.1
    obtain ⟨segs, query, res, hd, hred, rfl, rfl⟩ := (C24_actions hr mods a).1 hma
    obtain ⟨g, gt⟩ := h hd hred
    obtain ⟨w1, w2, w3⟩ := declares_words hw hd
    refine ⟨⟨.inl (w1.2.1.name g.name), hsegs, fun p hp => ?_, fun p hp => ?_⟩, fun m hm =>
      ⟨(w1.1 m hm).1.name (g.modules m hm).1, .inl ((w1.1 m hm).2.name (g.modules m hm).2)⟩⟩
    · have hq : p ∈ routeParams segs ++ query ++ res.queryParameters := by
        rw [List.append_assoc]; exact List.mem_append_left _ hp
      exact ⟨(w2 p hp).1.name (g.fields p hq), (w2 p hp).2.name (gt p hq)⟩
    · have hq : p ∈ routeParams segs ++ query ++ res.queryParameters := by
        rw [List.append_assoc]; exact List.mem_append_right _ hp
      exact ⟨(w3 p hp).1.name (g.fields p hq), (w3 p hp).2.name (gt p hq)⟩

/-! ## The function -/

theorem armNamed_spelt {r : Routes} (hw : WordsIn Rust.Word r) {segs : List PathSegment} {query : List Param} {res : Resource}
    (hd : Declares r segs query res) : ArmNamed Name (armOf segs query res) ↔ ValueSpelt segs query res := by
  obtain ⟨w1, w2, w3⟩ := declares_words hw hd
  constructor
  · rintro ⟨h1, h2, h3, h4⟩
    refine ⟨fun m hm => ⟨(h1 m hm).1.2, (capsIn_name.1 (h1 m hm).2).2⟩, (capsIn_name.1 h2).2, fun p hp => ?_⟩
    rw [List.append_assoc] at hp
    rcases List.mem_append.1 hp with hp | hp
    · exact (h3 p hp).2
    · exact (h4 _ (List.mem_map_of_mem hp)).2
  · intro g
    refine ⟨fun m hm => ⟨(w1.1 m hm).1.name (g.modules m hm).1, .inl ((w1.1 m hm).2.name (g.modules m hm).2)⟩, .inl (w1.2.1.name g.name),
      fun p hp => (w2 p hp).1.name (g.fields p (by rw [List.append_assoc]; exact List.mem_append_left _ hp)), fun x hx => ?_⟩
    obtain ⟨p, hp, rfl⟩ := List.mem_map.1 hx
    exact (w3 p hp).1.name (g.fields p (by rw [List.append_assoc]; exact List.mem_append_right _ hp))

theorem bodyNamed_iff {r : Routes} (hw : WordsIn Rust.Word r) {body : List Stmt} (hb : matcherBody r = .ok body)
    (hs : blockShapeOk body = true) : BlockNamed Name body ↔
      (∀ {segs query res}, Emitted r segs query res → ValueSpelt segs query res) ∧
      ∀ {segs query node}, LiveRoute r segs query node → ∀ p, .dynamic p ∈ segs → isName p.name = true := by
  rw [blockNamed_iff body hs (hw.body hb)]
  refine and_congr ⟨fun h segs query res he => ?_, fun h a ha => ?_⟩ ⟨fun h segs query node hl p hp => ?_, fun h x hx => ?_⟩
  · exact (armNamed_spelt hw (emitted_declares he)).1 (h _ ((emitted_literals hb hs _).2 ⟨_, _, _, he, rfl⟩))
  · obtain ⟨_, _, _, he, rfl⟩ := (emitted_literals hb hs _).1 ha
    exact (armNamed_spelt hw (emitted_declares he)).2 (h he)
  · exact (h _ ((matcherBody_binds hb hs _).2 ⟨_, _, _, p, hl, hp, rfl⟩)).2
  · obtain ⟨segs, above, node, p, hl, hp, rfl⟩ := (matcherBody_binds hb hs _).1 hx
    have : Rust.Word p.name := hw.segs hl.hasRoute _ hp
    exact this.name (h hl p hp)

/-- **C94, readable files.** The emitted file can be read exactly if the words that are written as names are names, and the
blocks have the shape for which statements are emitted in their places. -/
theorem C94_read {c : RouteConfig} (h : (codegen c).fail = none) (hh : HeadersRead c.headers) (hw : WordsIn Rust.Word c.routes) :
    (∃ f, (lex (codegen c).text).bind (readFile (headerToks c.headers)) = some f) ↔ Spelt c.routes ∧ Shapely c.routes := by
  obtain ⟨root, body, hr, hb, -⟩ := codegen_text h
  rw [codegen_read_iff h hh hw hr hb, modNamed_iff hw hr]
  constructor
  · rintro ⟨h1, h2, h3⟩
    obtain ⟨h4, h5⟩ := (bodyNamed_iff hw hb h3).1 h2
    exact ⟨⟨h1, fun he _ => h4 he, h5⟩, (matcherBody_shape hb).1 h3⟩
  · rintro ⟨h1, h2⟩
    have h3 := (matcherBody_shape hb).2 h2
    refine ⟨h1.actions, (bodyNamed_iff hw hb h3).2 ⟨fun {segs query res} he => ?_, h1.variables⟩, h3⟩
    cases hred : res.isRedirect with
    | true => exact h1.redirects he hred
    | false => exact (h1.actions (emitted_declares he) hred).1

/-- **C94, accepted files.** In a file that is accepted all those words are names. -/
theorem C94_accepted {c : RouteConfig} (h : (codegen c).fail = none) (hh : HeadersRead c.headers)
    (hw : WordsIn Rust.Word c.routes) {m : Mod} {b : List Stmt}
    (e : readText (headerToks c.headers) (codegen c).text = some (m, b)) : Spelt c.routes := by
  have key := C94_read h hh hw
  refine (key.1 ?_).1
  clear key
  generalize (codegen c).text = text at e ⊢
  generalize headerToks c.headers = hs at e ⊢
  unfold readText at e
  obtain ⟨ts, h1, e⟩ := Option.bind_eq_some_iff.1 e
  obtain ⟨f, h2, -⟩ := Option.bind_eq_some_iff.1 e
  exact ⟨f, Option.bind_eq_some_iff.2 ⟨ts, h1, h2⟩⟩

/-! ## Configurations that were read from a file -/

theorem toCapsCase_ne_nil {s : Str} (h : s ≠ []) (h_ : s ≠ c!"_") : toCapsCase s ≠ [] := by
  cases s with
  | nil => exact absurd rfl h
  | cons c rest =>
    simp only [toCapsCase]
    unfold capsLoop
    split
    · rename_i he; cases he
    · rename_i he
      simp only [List.cons.injEq] at he
      obtain ⟨hc, rfl⟩ := he
      exfalso
      have h1 := toNat_toUpper c
      rw [hc] at h1
      have h2 : ('_' : Char).toNat = 95 := rfl
      split at h1
      · rename_i hl; unfold AsciiLower at hl; omega
      · exact h_ (by rw [Char.toNat_inj.1 (h1.symm.trans rfl)])
    · simp
    · simp

theorem toSnakeCase_ne_nil {s : Str} (h : s ≠ []) : toSnakeCase s ≠ [] := by
  cases s with
  | nil => exact absurd rfl h
  | cons c rest => simp only [toSnakeCase, snakeLoop]; split <;> simp

theorem Routes.Written.spoken {cfg : ParseCfg} {r : Routes} (h : r.Written cfg) : WordsIn Rust.Word r := by
  have plain : ∀ {s : Str}, Word cfg s → Rust.Word s := fun hs => ⟨hs.1, hs.chars⟩
  have snake : ∀ {s : Str}, Word cfg s → Rust.Word (toSnakeCase s) := fun hs =>
    ⟨toSnakeCase_ne_nil hs.1, toSnakeCase_all isWordChar_toLower (by decide) hs.chars⟩
  have caps : ∀ {s : Str}, Word cfg s → CapsIn Rust.Word (toCapsCase s) := fun {s} hs => by
    by_cases h_ : s = c!"_"
    · subst h_
      exact .inr ⟨rfl, by decide, by decide⟩
    · exact .inl ⟨toCapsCase_ne_nil hs.1 h_, toCapsCase_all isWordChar_toUpper hs.chars⟩
  have param : ∀ {p : Param}, p.Written cfg → ParamNamed Rust.Word p := fun hp => ⟨plain hp.1, plain hp.2⟩
  refine ⟨fun hr s hs => ?_, fun hr p hp => ?_, fun hr p hp => param ((h _ _ _ hr).2.2.2 p hp), fun hr x hx => ?_⟩
  · have h1 := (h _ _ _ hr).1 s hs
    cases s with
    | static s => exact fun c hc => isWordChar_text (h1.chars c hc)
    | dynamic p => exact plain h1.1
  · exact (param ((h _ _ _ hr).1 _ hp)).2
  · have h1 := (h _ _ _ hr).2.2.1 x hx
    exact ⟨fun m hm => ⟨snake (h1.2.1 m hm), caps (h1.2.1 m hm)⟩, caps h1.1, fun p hp => param (h1.2.2 p hp)⟩

/-- **C94, nothing left of a name.** `to_caps_case` makes of `_` the empty text: with an action that is called so, or lies in a
module that is called so, the file cannot be read. -/
theorem C94_underscore {c : RouteConfig} (hg : (codegen c).fail = none) (hh : HeadersRead c.headers) (hw : WordsIn Rust.Word c.routes)
    {segs : List PathSegment} {query : List Param} {res : Resource} (hd : Declares c.routes segs query res)
    (hred : res.isRedirect = false) (h : c!"_" ∈ res.name :: res.modules) :
    ¬ ∃ f, (lex (codegen c).text).bind (readFile (headerToks c.headers)) = some f := by
  intro he
  have hs := (((C94_read hg hh hw).1 he).1.actions hd hred).1
  rcases List.mem_cons.1 h with h | h
  · have := hs.name
    rw [← h] at this
    revert this; decide
  · have := (hs.modules _ h).2
    revert this; decide

/-- In a configuration that was read from a file, a resource lies in or below every block. -/
theorem Routes.Written.below {cfg : ParseCfg} : ∀ {r : Routes}, r.Written cfg → ∃ segs query node, HasRoute r segs query node ∧
    ∃ x, x ∈ node.resources := by
  intro r
  induction r using Routes.ind with
  | h rs ns qs ih =>
    intro h
    obtain ⟨h1, _, _, h4⟩ := (written_mk _).1 h
    cases rs with
    | cons x xs => exact ⟨[], [], _, .here _, x, by simp [Routes.resources]⟩
    | nil =>
      cases ns with
      | nil => simp at h1
      | cons n ns =>
        obtain ⟨segs, query, node, hr, hx⟩ := ih n (by simp) (h4 n (by simp)).2
        exact ⟨_, _, node, .child (r := .mk [] (n :: ns) qs) (seg := n.pathSegment) (sub := n.routes) (by cases n; simp [Routes.routes]) hr, hx⟩

/-- **C94, words that have to be names.** Without redirects, in a configuration that was read from a file, these are all
its words. -/
theorem C94_names {cfg : ParseCfg} {r : Routes} (hwr : r.Written cfg) (hn : NoRedirects r) (h : Spelt r) :
    RustNames r := by
  have key : ∀ {segs query node}, HasRoute r segs query node → ∃ segs' query' res, Declares r segs' query' res ∧
      (∀ s ∈ segs, s ∈ segs') ∧ ∀ p ∈ node.queryParameters, p ∈ query' := by
    intro segs query node hr
    have hw' : node.Written cfg := fun a b d hd => by
      have := hwr _ _ _ (hr.trans hd)
      exact ⟨fun s hs => this.1 s (List.mem_append_right _ hs), this.2⟩
    obtain ⟨segs', query', node', hr', x, hx⟩ := hw'.below
    refine ⟨_, _, x, ⟨node', _, hr.trans hr', hx, rfl⟩, fun s hs => List.mem_append_left _ hs, fun p hp => ?_⟩
    cases hr' with
    | here => simp [hp]
    | child _ _ => simp [hp]
  refine ⟨fun hr p hs => ?_, fun hr p hp => ?_, fun hr x hx => ?_⟩
  · obtain ⟨segs', query', res, hd, hs', -⟩ := key hr
    obtain ⟨g, gt⟩ := h.actions hd (hn _ _ _ hd)
    have hp : p ∈ routeParams segs' ++ query' ++ res.queryParameters := by simp [mem_routeParams, hs' _ hs]
    exact ⟨g.fields p hp, gt p hp⟩
  · obtain ⟨segs', query', res, hd, -, hq⟩ := key hr
    obtain ⟨g, gt⟩ := h.actions hd (hn _ _ _ hd)
    have hp : p ∈ routeParams segs' ++ query' ++ res.queryParameters := by simp [hq p hp]
    exact ⟨g.fields p hp, gt p hp⟩
  · have hd : Declares r _ _ x := ⟨_, _, hr, hx, rfl⟩
    obtain ⟨g, gt⟩ := h.actions hd (hn _ _ _ hd)
    refine ⟨g.modules, g.name, fun p hp => ?_⟩
    exact ⟨g.fields p (List.mem_append_right _ hp), gt p (List.mem_append_right _ hp)⟩

/-- **C94, all conditions on a file.** For a configuration that was read from a file, without redirects and without
parameters named like the variables `len` and `start`: the emitted file is accepted exactly if its words are names of Rust and
the conditions of C49 hold. Nothing is assumed about its words. -/
theorem C94_file {cfg : ParseCfg} {c : RouteConfig} (hg : (codegen c).fail = none) (hh : HeadersRead c.headers)
    (hwr : c.routes.Written cfg) (hn : NoRedirects c.routes) (hy : Hygienic c.routes) :
    (∃ m b, readText (headerToks c.headers) (codegen c).text = some (m, b)) ↔
      RustNames c.routes ∧ Shapely c.routes ∧ ParamsUsed c.routes ∧ NamesOk c.routes ∧ ClearNames c.routes ∧
      FreeParams c.routes ∧ OneType c.routes := by
  have ready : RustNames c.routes → Ready c := fun h => ⟨hg, hh, hwr.words h, hwr.noBraces⟩
  have nofit : RedirectsFit c.routes := fun segs above res he hred => by
    rw [hn _ _ _ (emitted_declares he)] at hred; cases hred
  constructor
  · rintro ⟨m, b, e⟩
    have h := C94_names hwr hn (C94_accepted hg hh hwr.spoken e)
    obtain ⟨h1, h2, h3, h4, h5, -, h7⟩ := (C49_hygienic (ready h) hy).1 ⟨m, b, e⟩
    exact ⟨h, h1, h2, h3, h4, h5, h7⟩
  · rintro ⟨h, h1, h2, h3, h4, h5, h7⟩
    exact (C49_hygienic (ready h) hy).2 ⟨h1, h2, h3, h4, h5, nofit, h7⟩

/-! ## Cases -/

namespace Demo

/-- Check for `Rust.Word`. -/
def wordB (s : Str) : Bool := !s.isEmpty && s.all isWordChar

theorem wordB_iff {s : Str} : wordB s = true ↔ Rust.Word s := by
  simp [wordB, Rust.Word]

theorem capsInB_iff {s : Str} : (∀ c ∈ s, isWordChar c = true) ↔ CapsIn Rust.Word s := by
  refine ⟨fun h => ?_, ?_⟩
  · by_cases hs : s = []
    · exact .inr ⟨hs, by decide, by decide⟩
    · exact .inl ⟨hs, h⟩
  · rintro (h | ⟨rfl, -⟩)
    · exact h.2
    · simp

/-- Check for `WordsIn Rust.Word`. -/
def wordsInB (r : Routes) : Bool :=
  (flattenRoutes r [] []).all fun v =>
    (v.path.all fun
      | .static s => s.all fun c => textChar c && c != '\n'
      | .dynamic p => wordB p.name && wordB p.typ) &&
    (v.queryParameters.all fun p => wordB p.name && wordB p.typ) &&
    v.resources.all fun x => x.modules.all (fun m => wordB (toSnakeCase m) && (toCapsCase m).all isWordChar) &&
      (toCapsCase x.name).all isWordChar && x.queryParameters.all fun p => wordB p.name && wordB p.typ

theorem spoken_of {r : Routes} (h : wordsInB r = true) : WordsIn Rust.Word r := by
  have key := fun {segs query node} (hr : HasRoute r segs query node) => List.all_eq_true.1 h _
    ((mem_flattenRoutes r [] [] ⟨segs, node.resources, query ++ node.queryParameters⟩).2 ⟨segs, query, node, hr, by simp⟩)
  simp only [Bool.and_eq_true, List.all_eq_true, wordB_iff] at key
  refine ⟨fun hr s hs => ?_, fun hr p hp => ?_, fun hr p hp => (key hr).1.2 p (List.mem_append_right _ hp), fun hr x hx => ?_⟩
  · have := (key hr).1.1 s hs
    cases s with
    | static s => simpa [SegNamed] using this
    | dynamic p =>
      simp only [Bool.and_eq_true, wordB_iff] at this
      exact this.1
  · have := (key hr).1.1 _ hp
    simp only [Bool.and_eq_true, wordB_iff] at this
    exact this.2
  · have := (key hr).2 x hx
    exact ⟨fun m hm => ⟨(this.1.1 m hm).1, capsInB_iff.1 (this.1.1 m hm).2⟩, capsInB_iff.1 this.1.2, this.2⟩

/-- One action on a route with a parameter. -/
def keyed (x t : Str) : Routes := .mk [] [.mk (.dynamic ⟨x, t⟩) (.mk [res .get c!"people" c!"Show"] [] [])] []

/-- A parameter named `type`. -/
def keyword : Routes := keyed c!"type" c!"u32"

/-- A redirect on a route with a parameter whose type is the keyword `fn`: types are written only for actions. -/
def untyped : Routes :=
  .mk [] [.mk (.static c!"a") (keyed c!"id" c!"u32"),
    .mk (.static c!"b") (.mk [] [.mk (.dynamic ⟨c!"id", c!"fn"⟩) (.mk [⟨.get, [c!"people"], c!"Show", true, []⟩] [] [])] [])] []

/-- The file of the example can be read, so its words are names. -/
example : (codegen (conf people)).fail = none ∧ HeadersRead (conf people).headers ∧ WordsIn Rust.Word people ∧ Spelt people := by
  have h := ready_of (r := people) (by decide +kernel)
  obtain ⟨_, _, e⟩ := people_clean.read people_supported
  have hw : WordsIn Rust.Word people := spoken_of (by decide +kernel)
  exact ⟨h.generated, h.headers, hw, C94_accepted h.generated h.headers hw e⟩

/-- A check that implies `Spelt`. -/
def speltB (r : Routes) : Bool :=
  (declared r).all (fun d =>
    d.2.2.modules.all (fun m => isName (toSnakeCase m) && isName (toCapsCase m)) && isName (toCapsCase d.2.2.name) &&
    (routeParams d.1 ++ d.2.1 ++ d.2.2.queryParameters).all fun p => isName p.name && (d.2.2.isRedirect || isName p.typ)) &&
  (flattenRoutes r [] []).all fun v => (routeParams v.path).all fun p => isName p.name

theorem spelt_of {r : Routes} (h : speltB r = true) : Spelt r := by
  simp only [speltB, Bool.and_eq_true, List.all_eq_true, Bool.or_eq_true] at h
  have key : ∀ {segs query res}, Declares r segs query res → ValueSpelt segs query res := fun hd =>
    have h1 := h.1 _ (mem_declared.2 hd)
    ⟨h1.1.1, h1.1.2, fun p hp => (h1.2 p hp).1⟩
  refine ⟨fun hd hred => ⟨key hd, fun p hp => ?_⟩, fun he _ => key (emitted_declares he), fun {segs query node} hl p hp => ?_⟩
  · have := ((h.1 _ (mem_declared.2 hd)).2 p hp).2
    simpa [hred] using this
  · exact h.2 _ ((mem_flattenRoutes r [] [] ⟨segs, node.resources, query ++ node.queryParameters⟩).2
      ⟨segs, query, node, hl.hasRoute, by simp⟩) p (mem_routeParams.2 hp)

theorem shapely_of {r : Routes} (h : (match matcherBody r with | .ok b => blockShapeOk b | .error _ => false) = true) : Shapely r := by
  cases hb : matcherBody r with
  | error _ => rw [hb] at h; cases h
  | ok b => rw [hb] at h; exact (matcherBody_shape hb).1 h

/-- Types that are not written need not be names: this file can be read. -/
theorem untyped_read : (∃ f, (lex (codegen (conf untyped)).text).bind (readFile (headerToks (conf untyped).headers)) = some f) ∧
    ¬ Words untyped := by
  have hw : WordsIn Rust.Word untyped := spoken_of (by decide +kernel)
  have hg : (codegen (conf untyped)).fail = none := by decide +kernel
  refine ⟨(C94_read hg (demo_headers _) hw).2 ⟨spelt_of (by decide +kernel), shapely_of (by decide +kernel)⟩, fun h => ?_⟩
  have hr : HasRoute untyped [.static c!"b", .dynamic ⟨c!"id", c!"fn"⟩] _ _ :=
    .child (.tail _ (.head _)) (.child (.head _) (.here _))
  have := (h.types hr ⟨c!"id", c!"fn"⟩ (by simp)).2
  revert this; decide

theorem word_written {cfg : ParseCfg} {s : Str} (h : (wordB s && s.all fun c => decide (c.toNat < 128)) = true) :
    Wayfinder.Word cfg s := by
  rw [Bool.and_eq_true, List.all_eq_true] at h
  refine ⟨(wordB_iff.1 h.1).1, fun c hc => ?_⟩
  have h1 := (wordB_iff.1 h.1).2 c hc
  have h2 := of_decide_eq_true (h.2 c hc)
  rcases (isWordChar_iff c).1 h1 with h | h
  · rcases h with h | h | h | h
    · exact .inr (.inr (.inl h))
    · exact .inr (.inl h)
    · exact .inr (.inr (.inr (.inl h)))
    · exact .inl h
  · omega

/-- The conditions of `C94_file` hold for a parameter named `id` and for one named `type`; one file is accepted, the other
is not. -/
theorem keyed_file (cfg : ParseCfg) (x : Str) (hx : x = c!"id" ∨ x = c!"type") :
    (codegen (conf (keyed x c!"u32"))).fail = none ∧ HeadersRead (conf (keyed x c!"u32")).headers ∧
    (keyed x c!"u32").Written cfg ∧ NoRedirects (keyed x c!"u32") ∧ Hygienic (keyed x c!"u32") ∧
    ((∃ m b, readText (headerToks (conf (keyed x c!"u32")).headers) (codegen (conf (keyed x c!"u32"))).text = some (m, b)) ↔
      x = c!"id") := by
  have hwr : (keyed x c!"u32").Written cfg := by
    refine (written_mk _).2 ⟨.inr (by simp), by simp, by simp, fun n hn => ?_⟩
    obtain rfl := List.mem_singleton.1 hn
    refine ⟨⟨word_written (by rcases hx with rfl | rfl <;> decide), word_written (s := c!"u32") (by decide)⟩,
      (written_mk _).2 ⟨.inl (by simp), fun y hy => ?_, by simp, by simp⟩⟩
    obtain rfl := List.mem_singleton.1 hy
    exact ⟨word_written (by decide), fun m hm => by obtain rfl := List.mem_singleton.1 hm; exact word_written (by decide), by simp [res]⟩
  have hall : ∀ {segs query node}, HasRoute (keyed x c!"u32") segs query node →
      (segs = [] ∧ node = keyed x c!"u32") ∨
      (segs = [.dynamic ⟨x, c!"u32"⟩] ∧ node = .mk [res .get c!"people" c!"Show"] [] []) := by
    intro segs query node h
    cases h with
    | here => exact .inl ⟨rfl, rfl⟩
    | child hm h =>
      obtain ⟨rfl, rfl⟩ : _ ∧ _ := by simpa [keyed, Routes.routes] using hm
      cases h with
      | here => exact .inr ⟨rfl, rfl⟩
      | child hm h => simp [Routes.routes] at hm
  have hn : NoRedirects (keyed x c!"u32") := by
    rintro segs query y ⟨node, above, hr, hy, rfl⟩
    rcases hall hr with ⟨rfl, rfl⟩ | ⟨rfl, rfl⟩
    · cases hy
    · obtain rfl := List.mem_singleton.1 hy; rfl
  have hg : (codegen (conf (keyed x c!"u32"))).fail = none := by rcases hx with rfl | rfl <;> decide +kernel
  have hy : Hygienic (keyed x c!"u32") := hygienic_of (by rcases hx with rfl | rfl <;> decide +kernel)
  refine ⟨hg, demo_headers _, hwr, hn, hy, fun h => ?_, fun h => ?_⟩
  · have h1 := ((C94_file hg (demo_headers _) hwr hn hy).1 h).1
    rcases hx with rfl | rfl
    · rfl
    · have := (h1.segs (.child (.head _) (.here _)) ⟨c!"type", c!"u32"⟩ (by simp)).1
      revert this; decide
  · subst h
    exact (accepted_of (r := keyed c!"id" c!"u32") (by decide +kernel)).2

end Demo

open Demo in
/-- An action called `_`, and one in a module called `_`: code is generated and the words are words. -/
example : ∀ r ∈ [Routes.mk [res .get c!"people" c!"_"] [] [], Routes.mk [res .get c!"_" c!"Show"] [] []],
    (codegen (conf r)).fail = none ∧ HeadersRead (conf r).headers ∧ WordsIn Rust.Word r ∧
    ¬ ∃ f, (lex (codegen (conf r)).text).bind (readFile (headerToks (conf r).headers)) = some f := by
  have key : ∀ m x, c!"_" ∈ x :: [m] → (codegen (conf (.mk [res .get m x] [] []))).fail = none →
      wordsInB (.mk [res .get m x] [] []) = true → _ := fun m x h hg hw =>
    C94_underscore (c := conf (.mk [res .get m x] [] [])) hg (demo_headers _) (spoken_of hw)
      (res := res .get m x) ⟨_, _, .here _, by simp [conf, Routes.resources], rfl⟩ rfl h
  intro r hr
  simp only [List.mem_cons, List.not_mem_nil, or_false] at hr
  rcases hr with rfl | rfl
  · exact ⟨by decide +kernel, demo_headers _, spoken_of (by decide +kernel), key _ _ (by decide) (by decide +kernel) (by decide +kernel)⟩
  · exact ⟨by decide +kernel, demo_headers _, spoken_of (by decide +kernel), key _ _ (by decide) (by decide +kernel) (by decide +kernel)⟩

open Demo in
/-- **C94, keywords are not noticed.** The generator succeeds on a parameter named `type`, and the file it writes cannot be read. -/
theorem C94_keyword : ∃ c : RouteConfig, (codegen c).fail = none ∧ HeadersRead c.headers ∧ WordsIn Rust.Word c.routes ∧
    Shapely c.routes ∧ ¬ Spelt c.routes ∧
    ¬ ∃ f, (lex (codegen c).text).bind (readFile (headerToks c.headers)) = some f := by
  have hg : (codegen (conf keyword)).fail = none := by decide +kernel
  have hw : WordsIn Rust.Word keyword := spoken_of (by decide +kernel)
  have hs : ¬ Spelt keyword := fun h => by
    have hl : LiveRoute keyword [.dynamic ⟨c!"type", c!"u32"⟩] _ _ := .dynamic (.head _) rfl (.here _)
    have := h.variables hl ⟨c!"type", c!"u32"⟩ (by simp)
    revert this; decide
  exact ⟨conf keyword, hg, demo_headers _, hw, shapely_of (by decide +kernel), hs,
    fun h => hs ((C94_read hg (demo_headers _) hw).1 h).1⟩

end Wayfinder
