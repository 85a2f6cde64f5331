import Verif.Props.Offset
import Verif.Props.Length
/-!
# C99: a parameter called `len` matters only to requests that give it a value

A parameter called `len` hides the length of the path (`gen/gen.rs:456`, `:792`) and compiles if it is a `usize` (C52).  Behind
it the emitted code takes its value for the length.  Which requests does that affect?
-/

namespace Wayfinder

variable {W : World}

/-- The path passes through a parameter called `len`: a beginning of it is an instance of a route that ends in one. -/
def PassesLen (W : World) (r : Routes) (path : Bytes) : Prop :=
  ∃ segs p above node caps parts, LiveRoute r (segs ++ [.dynamic p]) above node ∧ p.name = c!"len" ∧
    Fits W (segs ++ [.dynamic p]) caps parts ∧ spell parts <+: stripSlash path ++ [slash]

/-- **C99.** A request that does not pass through a parameter called `len` is answered as the configuration says, but for the field
called `start`.  Nothing else is assumed about names. -/
theorem C99_near {r : Routes} {body : List Stmt} (hb : matcherBody r = .ok body) (hc : compiles body = true)
    {path : Bytes} (hn : ¬ PassesLen W r path) (m : Bytes) :
    (callMatchRoute W body path m).Near path (referenceRouter W r path m) :=
  Offset.call_near W path m hb hc fun segs p above node hl he caps parts hf hpre =>
    hn ⟨segs, p, above, node, caps, parts, hl, he, hf, hpre⟩

/-- Such a request is not found, not allowed, an error or a panic exactly if it is one for the configuration. -/
theorem C99_kinds {r : Routes} {body : List Stmt} (hb : matcherBody r = .ok body) (hc : compiles body = true)
    {path : Bytes} (hn : ¬ PassesLen W r path) (m : Bytes) {o : Outcome W} (ho : ∀ red v, ¬ o.isMatch red v) :
    callMatchRoute W body path m = o ↔ referenceRouter W r path m = o :=
  near_kinds (C99_near hb hc hn m) ho

/-- Its matches name a declared resource whose route the path spells, with the values that were parsed, but for `start`. -/
theorem C99_matches {r : Routes} {body : List Stmt} (hb : matcherBody r = .ok body) (hc : compiles body = true)
    {path m : Bytes} (hn : ¬ PassesLen W r path) {red : Bool} {v : RouteVal W}
    (hv : (callMatchRoute W body path m).isMatch red v) :
    ∃ segs above node caps parts res, LiveRoute r segs above node ∧ Fits W segs caps parts ∧
      Spells parts (stripSlash path) ∧ res ∈ node.resources ∧ m = verbBytes res.method ∧ res.isRedirect = red ∧
      v.modules = res.modules ∧ v.name = res.name ∧ List.Forall₂ (FieldNear path) caps v.params ∧
      v.nones = (above ++ node.queryParameters ++ res.queryParameters).map Param.name :=
  near_matches (C99_near hb hc hn m) hv

/-- If no parameter is behind one called `start`, the answer is that of the configuration. -/
theorem C99_exact {r : Routes} {body : List Stmt} (hb : matcherBody r = .ok body) (hc : compiles body = true)
    (hs : ¬ StartHidden r) {path : Bytes} (hn : ¬ PassesLen W r path) (m : Bytes) :
    callMatchRoute W body path m = referenceRouter W r path m :=
  (Offset.call_near_if W path m hb hc fun segs p above node hl he caps parts hf hpre =>
    hn ⟨segs, p, above, node, caps, parts, hl, he, hf, hpre⟩).resolve_right fun h => hs h.1

/-- The two conditions together, for all paths, are that of C52. -/
theorem C99_hygienic (r : Routes) : Hygienic r ↔ LenFree r ∧ ¬ StartHidden r := by
  constructor
  · refine fun h => ⟨fun segs p above node hl => (h segs p above node hl).1, ?_⟩
    rintro ⟨segs, p, above, node, segs', above', node', hl, he, hl', hne⟩
    exact hne ((h _ _ _ _ hl).2 he _ _ _ hl')
  · refine fun ⟨h1, h2⟩ segs p above node hl => ⟨h1 _ _ _ _ hl, fun he segs' above' node' hl' => ?_⟩
    by_contra hne
    exact h2 ⟨segs, p, above, node, segs', above', node', hl, he, hl', hne⟩

/-- **C99, wrong answers.** If a function that compiles answers a request otherwise than the configuration says, and no parameter
is behind one called `start`, then there is a declared parameter `len: usize`, and the text that the path has in its place is a number. -/
theorem C99_wrong {r : Routes} {body : List Stmt} (hb : matcherBody r = .ok body) (hc : compiles body = true)
    (hs : ¬ StartHidden r) {path m : Bytes} (hw : callMatchRoute W body path m ≠ referenceRouter W r path m) :
    ∃ segs above node caps parts part text v, LiveRoute r (segs ++ [.dynamic ⟨c!"len", c!"usize"⟩]) above node ∧
      Fits W segs caps parts ∧ spell parts ++ part ++ [slash] <+: stripSlash path ++ [slash] ∧ slash ∉ part ∧
      fromUtf8 part = some text ∧ W.parse c!"usize" text = .ok v := by
  by_contra hcon
  refine hw (C99_exact hb hc hs ?_ m)
  rintro ⟨segs, p, above, node, caps, parts, hl, he, hf, hpre⟩
  have ht := ((matcherBody_compiles hb).1 hc).2.2.2.len _ _ _ _ hl he
  obtain ⟨pn, pt⟩ := p
  simp only at he ht
  subst he ht
  have split : ∀ (segs : List PathSegment) {caps : Caps W} {parts : List Bytes},
      Fits W (segs ++ [.dynamic ⟨c!"len", c!"usize"⟩]) caps parts → ∃ caps' parts' part text v, parts = parts' ++ [part] ∧
        Fits W segs caps' parts' ∧ slash ∉ part ∧ fromUtf8 part = some text ∧ W.parse c!"usize" text = .ok v := by
    intro segs
    induction segs with
    | nil =>
      intro caps parts h
      cases h with
      | dynamic h1 h2 h3 h4 =>
        cases h4
        exact ⟨[], [], _, _, _, rfl, .nil, h1, h2, h3⟩
    | cons seg segs ih =>
      intro caps parts h
      cases h with
      | static s h =>
        obtain ⟨c, ps, part, text, v, rfl, h1, h2⟩ := ih h
        exact ⟨c, _, part, text, v, rfl, .static s h1, h2⟩
      | dynamic g1 g2 g3 h =>
        obtain ⟨c, ps, part, text, v, rfl, h1, h2⟩ := ih h
        exact ⟨_, _, part, text, v, rfl, .dynamic g1 g2 g3 h1, h2⟩
  obtain ⟨caps', parts', part, text, v, rfl, h1, h2, h3, h4⟩ := split segs hf
  exact hcon ⟨segs, above, node, caps', parts', part, text, v, hl, h1, by
    rw [Offset.spell_snoc, ← List.append_assoc] at hpre; exact hpre, h2, h3, h4⟩

/-! ## Cases -/

namespace Demo

/-- `/files/{len}` beside `/people/{id}`. -/
def files : Routes :=
  .mk [] [.mk (.static c!"files") (.mk [] [.mk (.dynamic ⟨c!"len", c!"usize"⟩) (.mk [res .get c!"files" c!"Of"] [] [])] []),
    .mk (.static c!"people") (.mk [] [.mk (.dynamic ⟨c!"id", c!"u32"⟩) (.mk [res .get c!"people" c!"Show"] [] [])] [])] []

end Demo

open Demo

theorem files_generated : matcherBody files = .ok (bodyOf files) := rfl

theorem startFree_of {r : Routes} (h : nodesAll (fun node => !(paramNames node.routes).contains c!"start") r = true) :
    ¬ StartHidden r := by
  rintro ⟨segs, p, above, node, _, _, _, hl, he, _, _⟩
  obtain ⟨q1, q2, mid, h1, h2⟩ := hl.split
  have := nodesAll_route h1.hasRoute h
  cases h2 with
  | dynamic hm _ _ =>
    have hp : p.name ∈ paramNames mid.routes := mem_paramNames.2 ⟨_, hm, p, rfl, rfl⟩
    rw [he] at hp
    simp [hp] at this

/-- Everything that passes through `len` begins with `/files/`. -/
theorem files_passes {path : Bytes} (h : PassesLen W files path) : bytesOf c!"files/" <+: stripSlash path ++ [slash] := by
  obtain ⟨segs, p, above, node, caps, parts, hl, he, hf, hpre⟩ := h
  have : ∃ s more, segs ++ [.dynamic p] = .static s :: more ∧ s = c!"files" := by
    cases hl' : segs ++ [PathSegment.dynamic p] with
    | nil => simp at hl'
    | cons seg more =>
      rw [hl'] at hl
      have hmem : PathSegment.dynamic p ∈ seg :: more := by rw [← hl']; simp
      cases hl with
      | static hm hl2 =>
        simp only [files, Routes.routes, List.mem_cons, NestedRoutes.mk.injEq, PathSegment.static.injEq, List.not_mem_nil, or_false] at hm
        rcases hm with ⟨rfl, rfl⟩ | ⟨rfl, rfl⟩
        · exact ⟨_, _, rfl, rfl⟩
        · exfalso
          cases hl2 with
          | here => simp at hmem
          | static hm _ => simp [Routes.routes] at hm
          | dynamic hm _ hl3 =>
            simp only [Routes.routes, List.mem_cons, NestedRoutes.mk.injEq, PathSegment.dynamic.injEq, List.not_mem_nil, or_false] at hm
            obtain ⟨rfl, rfl⟩ := hm
            cases hl3 with
            | here =>
              simp only [List.mem_cons, reduceCtorEq, PathSegment.dynamic.injEq, List.not_mem_nil, or_false, false_or] at hmem
              subst hmem
              exact absurd he (by decide)
            | static hm _ => simp [Routes.routes] at hm
            | dynamic hm _ _ => simp [Routes.routes] at hm
      | dynamic hm _ _ => simp [files, Routes.routes] at hm
  obtain ⟨s, more, hseg, rfl⟩ := this
  rw [hseg] at hf
  cases hf with
  | static _ hf =>
    refine List.IsPrefix.trans ⟨?_, ?_⟩ hpre
    · exact spell ‹_›
    · simp [spell, bytesOf]

/-- The theorem applied: everything that does not begin with `/files/`, numbers or not. -/
theorem C99_applies {path : Bytes} (hp : ¬ bytesOf c!"files/" <+: stripSlash path ++ [slash]) (m : Bytes) :
    callMatchRoute W (bodyOf files) path m = referenceRouter W files path m :=
  C99_exact files_generated (by decide +kernel) (startFree_of (by decide +kernel)) (fun h => hp (files_passes h)) m

/-- `/people/17` does not pass through `len`; `/files/8/more` does, though its route is not declared. -/
theorem C99_passes : ¬ PassesLen indexWorld files (bytesOf c!"/people/17") ∧ PassesLen indexWorld files (bytesOf c!"/files/8/more") := by
  refine ⟨fun h => ?_, [.static c!"files"], ⟨c!"len", c!"usize"⟩, _, _, [(⟨c!"len", c!"usize"⟩, c!"8")], [bytesOf c!"files", bytesOf c!"8"],
    .static (r := files) (by simp [files, Routes.routes]; rfl) (.dynamic (by simp [Routes.routes]; rfl) (by decide +kernel) (.here _)), rfl,
    .static c!"files" (.dynamic (text := c!"8") (by decide) (by decide +kernel) (by rfl) .nil), by decide +kernel⟩
  have := files_passes h
  revert this
  decide +kernel

/-- The neighbour with a number, `len` with a text, and `len` with a number: right, right and wrong;
of the last two requests, the first is answered rightly by accident and the second should find nothing. -/
theorem C99_cases :
    askIndex files c!"/people/17" c!"GET" = .route [c!"people"] c!"Show" [(c!"id", c!"17")] [] ∧
    askIndex files c!"/files/all" c!"GET" = .err c!"len" c!"invalid digit" ∧
    askIndex files c!"/files/17" c!"GET" = .panic ∧
    askIndex files c!"/files/8" c!"GET" = .route [c!"files"] c!"Of" [(c!"len", c!"8")] [] ∧
    askIndex files c!"/files/8/more" c!"GET" = .route [c!"files"] c!"Of" [(c!"len", c!"8")] [] := by decide +kernel

/-- What the configuration says on the requests that pass through `len`: the hypotheses of `C99_wrong` are met, for instance by
`/files/17`. -/
theorem C99_differs :
    shownIndex (referenceRouter indexWorld files (bytesOf c!"/files/17") (bytesOf c!"GET")) =
      .route [c!"files"] c!"Of" [(c!"len", c!"17")] [] ∧
    shownIndex (referenceRouter indexWorld files (bytesOf c!"/files/8/more") (bytesOf c!"GET")) = .notFound ∧
    callMatchRoute indexWorld (bodyOf files) (bytesOf c!"/files/17") (bytesOf c!"GET") ≠
      referenceRouter indexWorld files (bytesOf c!"/files/17") (bytesOf c!"GET") := by
  refine ⟨by decide +kernel, by decide +kernel, fun h => ?_⟩
  have := congrArg shownIndex h
  revert this
  decide +kernel

end Wayfinder
