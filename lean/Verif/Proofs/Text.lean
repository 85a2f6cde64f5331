import Verif.Proofs.Emit
import Verif.Props.Generation
/-!
# The emitted file as a whole
-/

namespace Wayfinder.Rust

/-! ## The names in the trie and in the modules -/

theorem hasRoute_query {r : Routes} {P : Param → Prop} : ∀ {segs query node}, HasRoute r segs query node →
    (∀ {segs query node}, HasRoute r segs query node → ∀ p ∈ node.queryParameters, P p) → ∀ p ∈ query, P p := by
  intro segs query node h
  induction h with
  | here r => intro _ p hp; cases hp
  | @child r node seg sub segs query hm hr ih =>
    intro hq p hp
    rcases List.mem_append.1 hp with hp | hp
    · exact hq (.here r) p hp
    · exact ih (fun h p hp => hq (.child hm h) p hp) p hp

variable {N : Str → Prop}

theorem WordsIn.allQuery {r : Routes} (h : WordsIn N r) {segs query node} (hr : HasRoute r segs query node) :
    ∀ p ∈ query ++ node.queryParameters, ParamNamed N p := by
  intro p hp
  rcases List.mem_append.1 hp with hp | hp
  · exact hasRoute_query hr (P := ParamNamed N) (fun h' => h.query h') p hp
  · exact h.query hr p hp

theorem mem_dynamics {path : List PathSegment} {p : Param} : p ∈ dynamics path ↔ .dynamic p ∈ path := by
  simp only [dynamics, List.mem_filterMap]
  constructor
  · rintro ⟨s, hs, he⟩
    cases s with
    | static s => cases he
    | dynamic q => cases he; exact hs
  · intro h
    exact ⟨_, h, rfl⟩

theorem WordsIn.params {r : Routes} (h : WordsIn N r) {segs query node} (hr : HasRoute r segs query node) :
    ∀ p ∈ dynamics segs, ParamNamed N p := by
  intro p hp
  have hp := mem_dynamics.1 hp
  exact ⟨h.segs hr _ hp, h.types hr p hp⟩

theorem WordsIn.trie {r : Routes} (h : WordsIn N r) {t : RouteTrie} (ht : toTrie r = some t) : TrieNamed N t := by
  intro ks v hv
  obtain ⟨hv, hks⟩ := ((toTrie_rep ht).get ks v).1 hv
  obtain ⟨segs, above, node, hr, rfl⟩ := (mem_flattenRoutes r [] [] v).1 hv
  simp only [List.nil_append, charlikes_nil] at hks
  subst hks
  constructor
  · intro k hk
    cases k with
    | static c =>
      obtain ⟨s, hs, hc⟩ := mem_charlikes_static hk
      exact h.segs hr _ hs c hc
    | dynamic x =>
      obtain ⟨p, hp, rfl⟩ := mem_charlikes_dynamic hk
      exact h.segs hr _ hp
    | separator => trivial
  · intro a ha
    simp only [methodArms, List.mem_map, List.nil_append] at ha
    obtain ⟨x, hx, rfl⟩ := ha
    have hx := h.resources hr x hx
    refine ⟨hx.1, hx.2.1, fun p hp => (h.params hr p hp).1, fun y hy => ?_⟩
    simp only [List.mem_append, List.mem_map] at hy
    rcases hy with ⟨p, hp, rfl⟩ | ⟨p, hp, rfl⟩
    · exact (h.allQuery hr p (List.mem_append.2 hp)).1
    · exact (hx.2.2 p hp).1

theorem WordsIn.body {r : Routes} (h : WordsIn N r) {body : List Stmt} (hb : matcherBody r = .ok body) : BlockNamed N body := by
  unfold matcherBody at hb
  cases ht : toTrie r with
  | none => simp [ht] at hb
  | some t =>
    simp only [ht] at hb
    exact codegenTrie_named _ _ _ (toTrie_rep ht).wf (h.trie ht) hb

/-- Names in a tree of modules, action by action. -/
theorem modNamed_of : ∀ (m : FlattenedModule), Proper m →
    (∀ mods a, HasAction m mods a → ActionNamed N a ∧ ∀ x ∈ mods, N (toSnakeCase x) ∧ CapsIn N (toCapsCase x)) → ModNamed N m := by
  intro m hp
  induction hp with
  | @mk m h1 h2 h3 h4 ih =>
    intro h
    obtain ⟨name, actions, modules⟩ := m
    simp only [ModNamed]
    refine ⟨fun a ha => (h [] a (.here ha)).1, ?_⟩
    have : ∀ ms : List FlattenedModule, (∀ x ∈ ms, x ∈ modules) → ModsNamed N ms := by
      intro ms
      induction ms with
      | nil => intro _; trivial
      | cons x ms ihm =>
        intro hx
        have hxm := hx x (List.mem_cons_self ..)
        obtain ⟨mods, a, ha⟩ := h4 x hxm
        have hn := (h _ a (.inside hxm ha)).2 x.name (List.mem_cons_self ..)
        simp only [ModsNamed]
        refine ⟨hn.1, hn.2, ih x hxm fun mods a ha => ?_, ihm fun y hy => hx y (List.mem_cons_of_mem _ hy)⟩
        have := h _ a (.inside hxm ha)
        exact ⟨this.1, fun y hy => this.2 y (List.mem_cons_of_mem _ hy)⟩
    exact this modules fun _ h => h

theorem WordsIn.modules [Wordlike N] {r : Routes} (h : WordsIn N r) {root : FlattenedModule} (hr : modulesRoot r = some root) : ModNamed N root := by
  obtain ⟨hp, _, ha⟩ := modulesRoot_spec hr
  refine modNamed_of root hp fun mods a hma => ?_
  obtain ⟨segs, query, res, ⟨node, above, hroute, hres, rfl⟩, _, rfl, rfl⟩ := mem_entries.1 ((ha mods a).1 hma)
  have hx := h.resources hroute res hres
  refine ⟨⟨hx.2.1, fun s hs => ?_, h.params hroute, fun p hp => ?_⟩, hx.1⟩
  · have := h.segs hroute s hs
    cases s with
    | static _ => exact this
    | dynamic _ => exact Wordlike.word (N := N) this
  rcases List.mem_append.1 hp with hp | hp
  · exact h.allQuery hroute p hp
  · exact hx.2.2 p hp

/-! ## The fixed parts -/

theorem run_commentLines : ∀ s : Str, run .comment (commentLines s) = ([], .comment)
  | [] => rfl
  | c :: s => by
    have h : commentLines (c :: s) = (if c = '\n' then c!"\n    //! " else [c]) ++ commentLines s := by simp [commentLines]
    rw [h, run_append]
    have : run .comment (if c = '\n' then c!"\n    //! " else [c]) = ([], .comment) := by
      split
      · rfl
      · rename_i hc
        simp [run, lexStep, hc]
    rw [this, run_commentLines s]
    rfl

theorem configComment_text {r : Routes} {s : Str} (hs : r.stringify 1 = s ++ c!"\n") :
    (configComment r).text = c!"    //! " ++ commentLines s ++ c!"\n" := by
  have h9 := commentLines_newline s
  simp only [configComment]
  rw [hs, if_neg (by omega)]
  simp only [Out.write]
  rw [commentLines_append, List.length_append]
  have h8 : (commentLines c!"\n") = c!"\n    //! " := rfl
  rw [h8]
  have : (commentLines s).length + (c!"\n    //! ").length - 8 = (commentLines s ++ c!"\n").length := by
    simp
  rw [this]
  have : commentLines s ++ c!"\n    //! " = (commentLines s ++ c!"\n") ++ c!"    //! " := by simp
  rw [this, List.take_left']
  · simp
  · rfl

theorem lexes_configComment {r : Routes} (h : r ≠ .mk [] [] []) : Lexes (configComment r).text [] := by
  rcases stringify_ends r 1 with h0 | ⟨s, hs⟩
  · exact absurd (stringify_eq_nil.1 h0) h
  · have := configComment_text hs
    rw [this]
    refine lexes_of (ts := []) (us := []) (st := .neutral) ?_ rfl
    rw [run_append, run_append]
    have : run .neutral c!"    //! " = ([], .comment) := rfl
    rw [this]
    simp only
    rw [run_commentLines]
    rfl

/-- The attributes at the beginning of the file. -/
def allowText : Str := c!"#![allow(dead_code)] #![allow(unused_imports)] #![allow(unused_mut)] #![allow(unused_variables)]"

theorem run_prelude1 : run .neutral prelude1 = (toks c!"pub mod routes {", .neutral) := by decide +kernel

theorem run_prelude2 : run .neutral prelude2 = (toks allowText, .neutral) := by decide +kernel

theorem run_fixedPart : run .neutral fixedPart = (toks fixedItems ++ toks functionHead, .neutral) := by decide +kernel

theorem toks_fileHead : toks fileHead = toks c!"pub mod routes {" ++ toks allowText := by decide +kernel

theorem lexes_of_neutral {s : Str} {ts : List Tok} (h : run .neutral s = (ts, .neutral)) : Lexes s ts := by
  have := lexes_of (us := []) h rfl
  rwa [List.append_nil] at this

/-! ## The file -/

/-- The tokens of the file. -/
def fileToks (hs : List Tok) (root : FlattenedModule) (body : List Stmt) : List Tok :=
  toks fileHead ++ (modToks hs root ++ (toks fixedItems ++ (toks functionHead ++ (blockToks body ++ (toks c!"}" ++ toks c!"}")))))

theorem Out.andThen_text {a b : Out} (h : (a.andThen b).fail = none) :
    a.fail = none ∧ b.fail = none ∧ (a.andThen b).text = a.text ++ b.text := by
  unfold Out.andThen at h ⊢
  split at h
  · rename_i he; rw [he] at h; cases h
  · rename_i he; exact ⟨he, h, rfl⟩

/-- What `codegen` writes, if it completes. -/
theorem codegen_text {c : RouteConfig} (h : (codegen c).fail = none) : ∃ root body, modulesRoot c.routes = some root ∧
    matcherBody c.routes = .ok body ∧ (codegen c).text = prelude1 ++ ((configComment c.routes).text ++ (prelude2 ++
      (renderModule c.headers 1 root ++ (c!"\n" ++ (fixedPart ++ (renderBlock 2 body ++ postlude)))))) := by
  unfold codegen at h ⊢
  cases hr : modulesRoot c.routes with
  | none => simp [hr] at h
  | some root =>
    simp only [hr] at h ⊢
    unfold codegenFrom at h ⊢
    obtain ⟨_, h, e1⟩ := Out.andThen_text h
    obtain ⟨_, h, e2⟩ := Out.andThen_text h
    obtain ⟨_, h, e3⟩ := Out.andThen_text h
    obtain ⟨_, h, e4⟩ := Out.andThen_text h
    obtain ⟨_, h, e5⟩ := Out.andThen_text h
    obtain ⟨_, h, e6⟩ := Out.andThen_text h
    obtain ⟨h7, h, e7⟩ := Out.andThen_text h
    rw [e1, e2, e3, e4, e5, e6, e7]
    unfold matcherText at h7 ⊢
    cases hb : matcherBody c.routes with
    | error e => simp [hb] at h7
    | ok body => exact ⟨root, body, rfl, rfl, rfl⟩

theorem codegen_nonempty {c : RouteConfig} (h : (codegen c).fail = none) : c.routes ≠ .mk [] [] [] :=
  ((C20_exact c).1 h).2.2

theorem run_postlude : run .neutral postlude = (toks c!"}" ++ toks c!"}", .neutral) := rfl

theorem codegen_lex [Wordlike N] {c : RouteConfig} (h : (codegen c).fail = none) (hh : HeadersRead c.headers)
    (hw : WordsIn N c.routes)
    {root : FlattenedModule} {body : List Stmt} (hr : modulesRoot c.routes = some root)
    (hb : matcherBody c.routes = .ok body) :
    lex (codegen c).text = if blockAscii body then some (fileToks (headerToks c.headers) root body) else none := by
  obtain ⟨root', body', hr', hb', e⟩ := codegen_text h
  rw [hr] at hr'; cases hr'
  rw [hb] at hb'; cases hb'
  have l1 : Lexes prelude1 _ := lexes_of_neutral run_prelude1
  have l2 := lexes_configComment (codegen_nonempty h)
  have l3 : Lexes prelude2 _ := lexes_of_neutral run_prelude2
  have l4 := lexes_module hh root 1 (.inl rfl) (hw.modules hr)
  have l5 : Lexes fixedPart _ := lexes_of_neutral run_fixedPart
  have l6 := lexes_block body 2 (hw.body hb)
  have l7 := l1.if.append (l2.if.append (l3.if.append (l4.if.append (lexes_newline.if.append (l5.if.append l6)))))
  simp only [Bool.true_and] at l7
  have e' : (codegen c).text = (prelude1 ++ ((configComment c.routes).text ++ (prelude2 ++
      (renderModule c.headers 1 root ++ (c!"\n" ++ (fixedPart ++ renderBlock 2 body)))))) ++ postlude := by
    rw [e]; simp only [List.append_assoc]
  unfold lex
  cases ha : blockAscii body with
  | false =>
    rw [e', (l7.2 ha).append postlude]
    rfl
  | true =>
    rw [e', l7.1 ha postlude (by decide), run_postlude]
    simp only [flush, Option.map_some, List.append_nil, List.nil_append, List.append_assoc, fileToks, toks_fileHead, if_true]

theorem codegen_toks [Wordlike N] {c : RouteConfig} (h : (codegen c).fail = none) (hh : HeadersRead c.headers)
    (hw : WordsIn N c.routes)
    {root : FlattenedModule} {body : List Stmt} (hr : modulesRoot c.routes = some root)
    (hb : matcherBody c.routes = .ok body) (hs : blockShapeOk body = true) :
    lex (codegen c).text = some (fileToks (headerToks c.headers) root body) := by
  rw [codegen_lex h hh hw hr hb, if_pos (blockAscii_of body hs)]

/-- If a byte string is not in ASCII, the statements do not have the shape that rustc accepts. -/
theorem shape_of_ascii {body : List Stmt} (ha : ¬ blockAscii body = true) : ¬ blockShapeOk body = true :=
  fun h => ha (blockAscii_of body h)

theorem fileToks_read (hs : List Tok) {root : FlattenedModule} {body : List Stmt} (hm : ModNamed Name root) (hb : BlockNamed Name body)
    (ha : blockAscii body = true) :
    readFile hs (fileToks hs root body) = if blockShapeOk body then some (modOf root, eraseBlock body) else none := by
  have hn1 : (modToks hs root).length ≤ (fileToks hs root body).length + 1 := by
    simp only [fileToks, List.length_append]; omega
  have hn2 : (blockToks body).length + 1 ≤ (fileToks hs root body).length + 1 := by
    simp only [fileToks, List.length_append]; omega
  unfold readFile
  generalize (fileToks hs root body).length + 1 = n at hn1 hn2
  unfold fileToks
  simp only [eatText_append, Option.bind_eq_bind, Option.bind_some, readMod_mod hs root n _ hm hn1,
    readBlock_block body n _ hb ha hn2]
  cases blockShapeOk body <;> rfl

/-- The file is read back, unless it has arms that are not Rust. -/
theorem codegen_read {c : RouteConfig} (h : (codegen c).fail = none) (hh : HeadersRead c.headers) (hw : Words c.routes)
    {root : FlattenedModule} {body : List Stmt} (hr : modulesRoot c.routes = some root)
    (hb : matcherBody c.routes = .ok body) :
    (lex (codegen c).text).bind (readFile (headerToks c.headers)) =
      if blockShapeOk body then some (modOf root, eraseBlock body) else none := by
  rw [codegen_lex h hh hw hr hb]
  split
  · rename_i ha
    rw [Option.bind_some, fileToks_read _ (hw.modules hr) (hw.body hb) ha]
  · rename_i ha
    rw [if_neg (shape_of_ascii ha)]
    rfl

/-- The emitted file is read as what was meant, if it has the shape for that. -/
def Legible (c : RouteConfig) : Prop :=
  ∀ {root : FlattenedModule} {body : List Stmt}, modulesRoot c.routes = some root → matcherBody c.routes = .ok body →
    (lex (codegen c).text).bind (readFile (headerToks c.headers)) = if blockShapeOk body then some (modOf root, eraseBlock body) else none

theorem legible_of {c : RouteConfig} (h : (codegen c).fail = none) (hh : HeadersRead c.headers) (hw : Words c.routes) : Legible c :=
  codegen_read h hh hw

/-- What the rest of the reader makes of it. -/
theorem Legible.readText {c : RouteConfig} (hl : Legible c) {root : FlattenedModule} {body : List Stmt}
    (hr : modulesRoot c.routes = some root) (hb : matcherBody c.routes = .ok body) :
    readText (headerToks c.headers) (codegen c).text =
      (if blockShapeOk body then some (modOf root, eraseBlock body) else none).bind fun f =>
        (elabBlock f.1 f.2).bind fun b => if f.1.ok true && Wayfinder.compiles b then some (f.1, b) else none := by
  rw [← hl hr hb]
  generalize (codegen c).text = text
  generalize headerToks c.headers = hs
  unfold Rust.readText
  cases lex text with
  | none => rfl
  | some ts =>
    simp only [Option.bind_eq_bind, Option.bind_some]
    cases readFile hs ts with
    | none => rfl
    | some f => rfl

end Wayfinder.Rust
