import Verif.Spec.Doc
import Verif.Proofs.Text
import Verif.Props.File
import Verif.Props.Path
import Verif.Tests.Demo
/-!
# C48: the documentation in the emitted file shows the configuration
-/

namespace Wayfinder

theorem textLines_ne_nil : ∀ s : Str, textLines s ≠ []
  | [] => by simp [textLines]
  | c :: s => by
    simp only [textLines]
    split
    · simp
    · split <;> simp

theorem textLines_newline : ∀ a b : Str, textLines (a ++ '\n' :: b) = textLines a ++ textLines b
  | [], b => by simp [textLines]
  | c :: a, b => by
    simp only [List.cons_append, textLines, textLines_newline a b]
    split
    · rfl
    · cases h : textLines a with
      | nil => exact absurd h (textLines_ne_nil a)
      | cons l ls => rfl

theorem textLines_line {a : Str} (h : '\n' ∉ a) : textLines a = [a] := by
  induction a with
  | nil => rfl
  | cons c a ih =>
    simp only [List.mem_cons, not_or] at h
    simp only [textLines, Ne.symm h.1, if_false, ih h.2]

theorem textLines_prefix {a b : Str} (h : '\n' ∉ a) {l : Str} {ls : List Str} (hb : textLines b = l :: ls) :
    textLines (a ++ b) = (a ++ l) :: ls := by
  induction a with
  | nil => exact hb
  | cons c a ih =>
    simp only [List.mem_cons, not_or] at h
    simp only [List.cons_append, textLines, Ne.symm h.1, if_false, ih h.2]

theorem textLines_commentLines : ∀ (s t X : Str), '\n' ∉ t → ∃ l ls, textLines s = l :: ls ∧
    textLines (t ++ (commentLines s ++ '\n' :: X)) = (t ++ l) :: (ls.map (c!"    //! " ++ ·) ++ textLines X)
  | [], t, X, ht => by
    refine ⟨[], [], rfl, ?_⟩
    have : textLines (t ++ (commentLines [] ++ '\n' :: X)) = textLines (t ++ '\n' :: X) := by simp [commentLines]
    rw [this, textLines_newline, textLines_line ht]
    simp
  | c :: s, t, X, ht => by
    have hc : commentLines (c :: s) = (if c = '\n' then c!"\n    //! " else [c]) ++ commentLines s := by simp [commentLines]
    rw [hc]
    by_cases h : c = '\n'
    · subst h
      obtain ⟨l, ls, h1, h2⟩ := textLines_commentLines s c!"    //! " X (by decide)
      refine ⟨[], l :: ls, by simp [textLines, h1], ?_⟩
      have e : t ++ ((if ('\n' : Char) = '\n' then c!"\n    //! " else ['\n']) ++ commentLines s ++ '\n' :: X) =
          t ++ '\n' :: (c!"    //! " ++ (commentLines s ++ '\n' :: X)) := by simp
      rw [e, textLines_newline, textLines_line ht, h2]
      simp
    · obtain ⟨l, ls, h1, h2⟩ := textLines_commentLines s (t ++ [c]) X (by simp [ht, Ne.symm h])
      refine ⟨c :: l, ls, by simp [textLines, h1, h], ?_⟩
      rw [if_neg h]
      simpa using h2

theorem codeBlock_cons {x t u : Str} {ls : List Str} (h1 : x ≠ c!"    //! ```") (h2 : docLine x = some t)
    (h3 : codeBlock ls = some u) : codeBlock (x :: ls) = some (t ++ '\n' :: u) := by
  simp only [codeBlock]
  rw [if_neg h1, h2, h3]

theorem codeBlock_lines (more : List Str) : ∀ ls : List Str, (∀ l ∈ ls, '`' ∉ l) →
    codeBlock (ls.map (c!"    //! " ++ ·) ++ c!"    //! ```" :: more) = some (ls.flatMap (· ++ ['\n']))
  | [], _ => by simp [codeBlock]
  | l :: ls, h => by
    have hl : c!"    //! " ++ l ≠ c!"    //! ```" := by
      intro he
      have : l = c!"```" := by simpa using he
      exact h l (by simp) (by rw [this]; decide)
    have hd : docLine (c!"    //! " ++ l) = some l := by
      unfold docLine
      rw [if_pos ⟨l, rfl⟩]
      simp
    have ih := codeBlock_lines more ls fun l hl => h l (by simp [hl])
    refine (codeBlock_cons hl hd ih).trans ?_
    simp

theorem textLines_join : ∀ s : Str, (textLines s).flatMap (· ++ ['\n']) = s ++ ['\n']
  | [] => rfl
  | c :: s => by
    have ih := textLines_join s
    simp only [textLines]
    split
    · rename_i h; subst h; simp [ih]
    · cases h : textLines s with
      | nil => exact absurd h (textLines_ne_nil s)
      | cons l ls => rw [h] at ih; simp at ih ⊢; exact ih

theorem mem_textLines : ∀ {s l : Str}, l ∈ textLines s → ∀ c ∈ l, c ∈ s
  | [], l, h, c, hc => by simp [textLines] at h; simp [h] at hc
  | d :: s, l, h, c, hc => by
    simp only [textLines] at h
    split at h
    · rcases List.mem_cons.1 h with rfl | h
      · cases hc
      · exact List.mem_cons_of_mem _ (mem_textLines h c hc)
    · cases hs : textLines s with
      | nil => exact absurd hs (textLines_ne_nil s)
      | cons l' ls =>
        rw [hs] at h
        rcases List.mem_cons.1 h with rfl | h
        · rcases List.mem_cons.1 hc with rfl | hc
          · simp
          · exact List.mem_cons_of_mem _ (mem_textLines (s := s) (l := l') (by rw [hs]; simp) c hc)
        · exact List.mem_cons_of_mem _ (mem_textLines (s := s) (l := l) (by rw [hs]; simp [h]) c hc)

/-! ## No backquotes -/

variable {cfg : ParseCfg}

theorem word_tick {s : Str} (h : Word cfg s) : '`' ∉ s := by
  intro hm
  rcases h.2 _ hm with h | h | h | h | ⟨h, _⟩
  · exact absurd h (by decide)
  · exact absurd h (by decide)
  · exact absurd h (by decide)
  · exact absurd h (by decide)
  · exact absurd h (by decide)

theorem indent_tick (k : Nat) : '`' ∉ indent k := by
  unfold indent
  split <;> decide

theorem param_tick {p : Param} (h : p.Written cfg) : '`' ∉ p.display := by
  simp only [Param.display, List.mem_append, not_or]
  exact ⟨⟨word_tick h.1, by decide⟩, word_tick h.2⟩

theorem resource_tick {x : Resource} (h : x.Written cfg) (k : Nat) : '`' ∉ x.stringify k := by
  have h1 : '`' ∉ (x.queryParameters.map fun param => c!"\n" ++ indent (k + 1) ++ c!"[" ++ param.display ++ c!"]").flatten := by
    simp only [List.mem_flatten, List.mem_map, not_exists, not_and]
    rintro l ⟨p, hp, rfl⟩
    simp only [List.mem_append, not_or]
    exact ⟨⟨⟨⟨by decide, indent_tick _⟩, by decide⟩, param_tick (h.2.2 p hp)⟩, by decide⟩
  have h2 : '`' ∉ (x.modules.map fun m => m ++ c!"::").flatten := by
    simp only [List.mem_flatten, List.mem_map, not_exists, not_and]
    rintro l ⟨p, hp, rfl⟩
    simp only [List.mem_append, not_or]
    exact ⟨word_tick (h.2.1 p hp), by decide⟩
  have h3 : '`' ∉ x.method.display := by cases x.method <;> decide
  have h4 : '`' ∉ (if x.isRedirect then c!" ->" else c!"") := by split <;> decide
  simp only [Resource.stringify, List.mem_append, not_or]
  exact ⟨⟨⟨⟨⟨⟨⟨indent_tick _, h3⟩, h4⟩, by decide⟩, h2⟩, word_tick h.1⟩, h1⟩, by decide⟩

theorem routes_tick (r : Routes) : ∀ k, r.Written cfg → '`' ∉ r.stringify k := by
  induction r using Routes.ind with
  | h rs ns qs ih =>
    intro k hw
    obtain ⟨_, hrs, hqs, hns⟩ := (written_mk cfg).1 hw
    have h1 : '`' ∉ stringifyParams qs k := by
      simp only [stringifyParams, List.mem_flatten, List.mem_map, not_exists, not_and]
      rintro l ⟨p, hp, rfl⟩
      simp only [List.mem_append, not_or]
      exact ⟨⟨⟨indent_tick _, by decide⟩, param_tick (hqs p hp)⟩, by decide⟩
    have h2 : '`' ∉ stringifyResources rs k := by
      simp only [stringifyResources, List.mem_flatten, List.mem_map, not_exists, not_and]
      rintro l ⟨p, hp, rfl⟩
      exact resource_tick (hrs p hp) k
    have h3 : '`' ∉ stringifyNested ns k := by
      have : ∀ ms : List NestedRoutes, (∀ n ∈ ms, n ∈ ns) → '`' ∉ stringifyNested ms k := by
        intro ms
        induction ms with
        | nil => intro _; simp [stringifyNested]
        | cons n ms ihm =>
          intro hm
          have hn := hm n (by simp)
          obtain ⟨hs, hr⟩ := hns n hn
          have := ih n hn (k + 1) hr
          obtain ⟨seg, sub⟩ := n
          simp only [stringifyNested, NestedRoutes.stringify, List.mem_append, not_or]
          refine ⟨⟨⟨⟨indent_tick _, ?_⟩, by decide⟩, this⟩, ihm fun n h => hm n (by simp [h])⟩
          cases seg with
          | static s => exact word_tick hs
          | dynamic p =>
            simp only [PathSegment.stringify, List.mem_append, not_or]
            exact ⟨⟨by decide, param_tick hs⟩, by decide⟩
      exact this ns fun _ h => h
    simp only [Routes.stringify, List.mem_append, not_or]
    exact ⟨⟨h1, h2⟩, h3⟩

/-! ## C48 -/

theorem shownConfig_of {text : Str} {a ls : List Str} (h : textLines text = a ++ c!"    //! ```ignore" :: ls)
    (ha : ∀ l ∈ a, decide (l ≠ c!"    //! ```ignore") = true) : shownConfig text = codeBlock ls := by
  unfold shownConfig
  rw [h, List.dropWhile_append_of_pos ha, List.dropWhile_cons_of_neg (by simp)]

/-- The part of the first lines of the file up to the code block. -/
def prelude1a : Str :=
  c!"pub mod routes {\n\n    //! Application route configuration.\n    //!\n    //! Of note is the function [`match_route`] as well as request structs\n    //! specific to each named resource.\n    //!\n    //! Route configuration:\n    //!"

/-- **C48, shown.** The code block in the documentation of the emitted file is the route file (without headers) of the
configuration. -/
theorem C48_shown {c : RouteConfig} (h : (codegen c).fail = none) (hw : c.routes.Written cfg) :
    shownConfig (codegen c).text = some (RouteConfig.stringify ⟨[], c.routes⟩) := by
  obtain ⟨root, body, hroot, hbody, htext⟩ := Rust.codegen_text h
  rcases stringify_ends c.routes 1 with h0 | ⟨s, hs⟩
  · exact absurd (stringify_eq_nil.1 h0) (Rust.codegen_nonempty h)
  have htick : '`' ∉ s := by
    have := routes_tick c.routes 1 hw
    rw [hs] at this
    exact fun hm => this (by simp [hm])
  have hc : (configComment c.routes).text = c!"    //! " ++ commentLines s ++ c!"\n" := Rust.configComment_text hs
  generalize hX : renderModule c.headers 1 root ++ (c!"\n" ++ (fixedPart ++ (renderBlock 2 body ++ postlude))) = X at htext
  have e : (codegen c).text = prelude1a ++ '\n' :: (c!"    //! ```ignore" ++ '\n' :: (c!"    //! /" ++ '\n' ::
      (c!"    //! " ++ (commentLines s ++ '\n' :: (c!"    //! ```" ++ '\n' :: (prelude2.drop 12 ++ X)))))) := by
    rw [htext, hc]
    have e1 : prelude1 = prelude1a ++ '\n' :: (c!"    //! ```ignore" ++ '\n' :: (c!"    //! /" ++ c!"\n")) := by decide +kernel
    have e2 : prelude2 = c!"    //! ```" ++ '\n' :: prelude2.drop 12 := by decide +kernel
    generalize prelude2.drop 12 = Y at e2
    rw [e1, e2]
    generalize prelude1a = Z
    simp
  obtain ⟨l, ls, h1, h2⟩ := textLines_commentLines s c!"    //! " (c!"    //! ```" ++ '\n' :: (prelude2.drop 12 ++ X)) (by decide)
  have hl : textLines (codegen c).text = textLines prelude1a ++ c!"    //! ```ignore" ::
      ((c!"/" :: l :: ls).map (c!"    //! " ++ ·) ++ c!"    //! ```" :: textLines (prelude2.drop 12 ++ X)) := by
    rw [e, textLines_newline, textLines_newline, textLines_newline, h2, textLines_newline,
      textLines_line (a := c!"    //! ```ignore") (by decide), textLines_line (a := c!"    //! ```") (by decide),
      textLines_line (a := c!"    //! /") (by decide)]
    rfl
  rw [shownConfig_of hl (by decide +kernel), codeBlock_lines]
  · have := textLines_join s
    rw [h1] at this
    simp only [List.flatMap_cons] at this ⊢
    rw [this, RouteConfig.stringify, hs]
    rfl
  · intro x hx
    rcases List.mem_cons.1 hx with rfl | hx
    · decide
    · rw [← h1] at hx
      exact fun hm => htick (mem_textLines hx _ hm)

/-- **C48, read back.** The code block, given to the parser, gives the configuration back (its headers aside). -/
theorem C48_read {c : RouteConfig} (h : (codegen c).fail = none) (hw : c.routes.Written cfg) (hs : Shallow c.routes) :
    ∃ shown, shownConfig (codegen c).text = some shown ∧ routeConfig cfg shown = .ok [] ⟨[], c.routes⟩ :=
  ⟨_, C48_shown h hw, C27_roundtrip_partial cfg (c := ⟨[], c.routes⟩) ⟨by simp, hw⟩ hs⟩

/-- **C48, different configurations.** Files with the same text come from the same routes. -/
theorem C48_injective {c c' : RouteConfig} (h : (codegen c).fail = none) (h' : (codegen c').fail = none)
    (hw : c.routes.Written cfg) (hw' : c'.routes.Written cfg) (hs : Shallow c.routes)
    (he : (codegen c).text = (codegen c').text) : c.routes = c'.routes := by
  have h1 := C48_shown h hw
  have h2 := C48_shown h' hw'
  rw [← he, h1, Option.some.injEq] at h2
  have e1 := C27_roundtrip_partial cfg (c := ⟨[], c.routes⟩) ⟨by simp, hw⟩ hs
  unfold RoundTrips at e1
  by_cases hs' : Shallow c'.routes
  · have e2 := C27_roundtrip_partial cfg (c := ⟨[], c'.routes⟩) ⟨by simp, hw'⟩ hs'
    unfold RoundTrips at e2
    rw [← h2, e1] at e2
    simpa using e2
  · refine absurd e1 ?_
    rw [h2]
    exact C27_too_deep cfg (c := ⟨[], c'.routes⟩) ⟨by simp, hw'⟩ hs' _ _

/-! ## The documentation of the structs -/

theorem shownRoute_eq (segs : List PathSegment) :
    c!"/" ++ renderPath (fun p => c!"{" ++ p ++ c!"}") (charlikes segs) = shownRoute segs := by
  rw [renderPath_eq]
  match segs with
  | [] => rfl
  | s :: segs =>
    simp only [shownRoute]
    induction segs generalizing s with
    | nil => cases s <;> simp [List.intercalate, PathSegment.inTemplate]
    | cons s' segs ih =>
      have := ih s'
      rw [List.map_cons, List.map_cons, List.intercalate_cons_cons, List.flatMap_cons, ← this]
      cases s <;> simp [PathSegment.inTemplate]

theorem ind_replicate : ∀ k, ind k = List.replicate (4 * k) ' '
  | 0 => rfl
  | k + 1 => by rw [ind, ind_replicate k, Nat.mul_add, Nat.add_comm, List.replicate_add]; rfl

theorem documented_action (k : Nat) (a : FlattenedAction) : ∃ t, (t = c!";" ∨ t = c!" {") ∧
    documentedStruct k a.method a.path (toCapsCase a.name) ++ t <+: renderAction k a := by
  have key : ∃ t, (t = c!";" ∨ t = c!" {") ∧ ∃ R, renderAction k a =
      (line k (c!"/// Renders for `" ++ a.method.display ++ c!" /"
        ++ renderPath (fun p => c!"{" ++ p ++ c!"}") (charlikes a.path) ++ c!"`.")
      ++ line k c!"#[derive(Debug, PartialEq, Eq)]" ++ (ind k ++ (c!"pub struct " ++ (toCapsCase a.name ++ t)))) ++ R := by
    by_cases h : (a.routeParameters.isEmpty && a.queryParameters.isEmpty) = true
    · exact ⟨c!";", .inl rfl, _, by
        unfold renderAction
        simp only [h, if_true]
        simp only [line, List.append_assoc]
        rfl⟩
    · exact ⟨c!" {", .inr rfl, _, by
        rw [Bool.not_eq_true] at h
        unfold renderAction
        simp only [h, Bool.false_eq_true, if_false]
        simp only [line, List.append_assoc]
        rfl⟩
  obtain ⟨t, ht, R, e⟩ := key
  refine ⟨t, ht, ?_⟩
  rw [e]
  refine List.IsPrefix.trans ?_ (List.prefix_append _ _)
  unfold documentedStruct
  rw [← shownRoute_eq]
  generalize renderPath _ _ = P
  refine ⟨[], ?_⟩
  simp only [line, ind_replicate, List.append_assoc, List.cons_append, List.nil_append, List.append_nil]

theorem submodule_inside (headers : List Header) (k : Nat) (m : FlattenedModule) :
    renderModule headers (k + 1) m <:+: renderSubmodule headers k m := by
  obtain ⟨name, actions, modules⟩ := m
  simp only [renderSubmodule, renderModule]
  exact ⟨line k (c!"pub mod " ++ toSnakeCase name ++ c!" {"), line k c!"}" ++ c!"\n", by simp only [List.append_assoc]⟩

theorem submodules_inside (headers : List Header) (k : Nat) : ∀ {ms : List FlattenedModule} {m : FlattenedModule}, m ∈ ms →
    renderSubmodule headers k m <:+: renderSubmodules headers k ms
  | n :: ms, m, h => by
    simp only [renderSubmodules]
    rcases List.mem_cons.1 h with rfl | h
    · exact (List.prefix_append _ _).isInfix
    · exact (submodules_inside headers k h).trans (List.suffix_append _ _).isInfix

theorem action_inside (headers : List Header) {m : FlattenedModule} {mods : List Str} {a : FlattenedAction}
    (h : HasAction m mods a) : ∀ k, renderAction (k + mods.length) a <:+: renderModule headers k m := by
  induction h with
  | here ha =>
    rename_i m a
    intro k
    obtain ⟨name, actions, modules⟩ := m
    simp only [renderModule]
    have h1 : renderAction k a <:+: (actions.map (renderAction k)).flatten :=
      List.infix_of_mem_flatten (List.mem_map_of_mem (f := renderAction k) ha)
    refine h1.trans ?_
    exact ⟨renderHeaders k headers, renderSubmodules headers k modules ++ renderRouteEnum k name actions modules, by
      simp only [List.append_assoc]⟩
  | inside hs _ ih =>
    rename_i m sub mods a _
    intro k
    have h1 := ih (k + 1)
    rw [List.length_cons, show k + (mods.length + 1) = k + 1 + mods.length by omega]
    refine h1.trans ((submodule_inside headers k sub).trans ((submodules_inside headers k hs).trans ?_))
    obtain ⟨name, actions, modules⟩ := m
    simp only [renderModule]
    exact ⟨renderHeaders k headers ++ (actions.map (renderAction k)).flatten, renderRouteEnum k name actions modules, by
      simp only [List.append_assoc, FlattenedModule.modules]⟩

/-- **C48, structs.** The struct of every resource that is not a redirect is preceded by its method and route. -/
theorem C48_struct {c : RouteConfig} (h : (codegen c).fail = none) {segs : List PathSegment} {query : List Param}
    {res : Resource} (hd : Declares c.routes segs query res) (hr : res.isRedirect = false) :
    ∃ t, (t = c!";" ∨ t = c!" {") ∧
      documentedStruct (res.modules.length + 1) res.method segs (toCapsCase res.name) ++ t <:+: (codegen c).text := by
  obtain ⟨root, body, hroot, hbody, htext⟩ := Rust.codegen_text h
  have ha := (C24_actions hroot res.modules _).2 ⟨segs, query, res, hd, hr, rfl, rfl⟩
  have h1 := action_inside c.headers ha 1
  obtain ⟨t, ht, h2⟩ := documented_action (1 + res.modules.length) { name := res.name, method := res.method, path := segs, routeParameters := routeParams segs, queryParameters := query ++ res.queryParameters }
  refine ⟨t, ht, ?_⟩
  rw [Nat.add_comm] at h2 ⊢
  rw [Nat.add_comm] at h2
  refine (h2.isInfix.trans h1).trans ?_
  rw [htext]
  generalize prelude1 = A
  generalize prelude2 = B
  generalize renderModule c.headers 1 root = M
  generalize c!"\n" ++ (fixedPart ++ (renderBlock 2 body ++ postlude)) = T
  exact ⟨A ++ ((configComment c.routes).text ++ B), T, by simp only [List.append_assoc]⟩

/-! ## A case -/

/-- The route file of the people application, as the printer writes it. -/
def peopleText : Str := RouteConfig.stringify ⟨[], Demo.people⟩

set_option maxRecDepth 100000 in
theorem people_parsed : routeConfig (asciiOnly false) peopleText = .ok [] ⟨[], Demo.people⟩ := rfl

theorem people_written : (RouteConfig.mk [] Demo.people).Written (asciiOnly false) := C29_written _ people_parsed

theorem people_codegen : (codegen ⟨[], Demo.people⟩).fail = none := by decide +kernel

/-- The file of the people application shows its fifteen lines, and they give the application back. -/
example : ∃ shown, shownConfig (codegen ⟨[], Demo.people⟩).text = some shown ∧
    shown = c!"/\n  [lang: String]\n  GET home::Index\n  people\n    GET people::List\n    POST people::Create\n    GET people::Late\n    {id: u32}\n      [verbose: bool]\n      GET people::Show\n      edit\n        GET people::Edit\n          [tab: String]\n    new\n      GET people::New\n  old\n    GET -> people::List\n" ∧
    routeConfig (asciiOnly false) shown = .ok [] ⟨[], Demo.people⟩ := by
  obtain ⟨shown, h1, h2⟩ := C48_read people_codegen people_written.2 ((C27_exact _ people_written).1 people_parsed)
  refine ⟨shown, h1, ?_, h2⟩
  rw [C48_shown people_codegen people_written.2] at h1
  cases h1
  decide +kernel

example : documentedStruct 2 .get [.static c!"people", .dynamic ⟨c!"id", c!"u32"⟩] c!"Show" =
    c!"        /// Renders for `GET /people/{id}`.\n        #[derive(Debug, PartialEq, Eq)]\n        pub struct Show" := by
  decide

/-- It is there. -/
example : ∃ t, (t = c!";" ∨ t = c!" {") ∧
    documentedStruct 2 .get [.static c!"people", .dynamic ⟨c!"id", c!"u32"⟩] c!"Show" ++ t <:+:
      (codegen ⟨[], Demo.people⟩).text :=
  C48_struct (segs := [.static c!"people", .dynamic ⟨c!"id", c!"u32"⟩]) (query := [⟨c!"lang", c!"String"⟩, ⟨c!"verbose", c!"bool"⟩])
    (res := Demo.res .get c!"people" c!"Show") people_codegen
    ⟨_, _, .child (.head _) (.child (.head _) (.here _)), .head _, rfl⟩ rfl

end Wayfinder
