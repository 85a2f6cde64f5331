import Mathlib.Data.List.Perm.Subperm
import Verif.Spec.Client
import Verif.Props.Cli
import Verif.Props.Shipped
/-!
# C60: following redirects
-/

namespace Wayfinder
open Rust

variable {W : World}

theorem Arrives.parsed {r node : Routes} {segs : List PathSegment} {above : List Param} {caps : Caps W}
    {pieces rest : List Bytes} (h : Arrives W r segs above caps pieces node rest) :
    ∀ pv ∈ caps, ∃ text, W.parse pv.1.typ text = .ok pv.2 := by
  induction h with
  | here => simp
  | static _ _ _ ih => exact ih
  | dynamic _ _ hv _ ih =>
    intro pv hpv
    rcases List.mem_cons.1 hpv with rfl | hpv
    · exact ⟨_, hv⟩
    · exact ih pv hpv

/-- Lists of named values with the same names are the same up to order if one is contained in the other. -/
theorem named_perm {V : Type} {l l' : List (Str × V)} (hp : (l.map Prod.fst).Perm (l'.map Prod.fst)) (hn : (l.map Prod.fst).Nodup)
    (hs : ∀ x ∈ l, x ∈ l') : l.Perm l' := by
  have h1 : l.Nodup := hn.of_map _
  exact (h1.subperm hs).perm_of_length_le (by have := hp.length_eq; simp only [List.length_map] at this; omega)

/-- **C60, the target.** Let a file be accepted that is emitted for a configuration with plain texts.  If `match_route` answers a
request with a redirect, then a redirect `red` for the verb of the request is declared, and an action `res` of the name that
`red` gives.  The value that is returned is a value of the struct of `res`: it has all of its fields, and no others, each parameter
with a value read as its own type.  `to_path` is defined for it: it is the route of `res` with the texts of these values. -/
theorem C60_target {c : RouteConfig} (h : Ready c) (hhy : Hygienic c.routes) (hp : PlainTexts c.routes) {m : Mod} {b : List Stmt}
    (e : readText (headerToks c.headers) (codegen c).text = some (m, b)) {τ : Typing} (hτ : Typed c.routes τ) {path verb : Bytes} {v : RouteVal W}
    (hv : callText W (headerToks c.headers) (codegen c).text path verb = .redirect v) (display : W.V → Str) :
    ∃ segsr queryr red segs query res caps texts, Declares c.routes segsr queryr red ∧ red.isRedirect = true ∧ verb = verbBytes red.method ∧
      Declares c.routes segs query res ∧ res.isRedirect = false ∧ SameName res.modules res.name red.modules red.name ∧
      v.Same (RouteVal.inRust (matchOf res caps query)) ∧
      (∀ pv ∈ caps, ∃ text, W.parse pv.1.typ text = .ok pv.2) ∧ Texts display segs caps texts ∧
      Hop display (headerToks c.headers) (codegen c).text verb path v (c!"/" ++ List.intercalate c!"/" texts) := by
  obtain ⟨root, body, hr, hb, -⟩ := codegen_text h.generated
  obtain ⟨-, hm, hok, -, -⟩ := readText_some h.legible hr hb e
  obtain ⟨-, -, -, -, -, hfit, -⟩ := retyped_meaning h.legible hr hb e hτ
  have hg := modGood_of hok
  have hn : ClearNames c.routes := (ok_iff_clear hr h.braces).1 hok
  obtain ⟨body', -, -, hs, hcall⟩ := C49_meaning h e hτ
  have hv' := hv
  rw [hcall] at hv'
  obtain ⟨v0, h2, rfl⟩ := isMatch_inRust (red := true) hv'
  obtain ⟨segs1, above1, caps1, node1, rest, before, red, after, a1, a2, a3, rfl, a5, a6, rfl⟩ :=
    (C47_match (hs hhy) (plainTexts_retype (τ := τ) hp) _ verb true _).1 h2
  obtain ⟨segsr, he, rfl⟩ := emitted_retype (τ := τ) ⟨node1, above1, a1.live, (by rw [a3]; simp : red ∈ node1.resources), rfl⟩
  obtain ⟨mods, x, params, query, ⟨segs, above, res, hd, hred, rfl, rfl, rfl, rfl⟩, hsame, hperm, hperm'⟩ := hfit _ _ _ he a6.symm
  have act : Action c.routes res.modules res.name _ _ := ⟨segs, above, res, hd, hred, rfl, rfl, rfl, rfl⟩
  have hnames : (caps1.map fun pv => (pv.1.name, pv.2)).map Prod.fst = (routeParams segsr).map Param.name := by
    rw [← routeParams_retype (τ := τ) segsr [], a1.caps]
    simp [Function.comp_def]
  have hnd : ((routeParams segs).map Param.name).Nodup := by
    have hfn := hn.fields act
    simp only [List.map_append] at hfn
    exact (List.nodup_append.1 hfn).1
  obtain ⟨texts, h3⟩ := spelled_exists display segs (vals := caps1.map fun pv => (pv.1.name, pv.2)) (by
    intro p hp
    rw [hnames]
    exact hperm.mem_iff.2 (List.mem_map_of_mem hp))
  obtain ⟨caps, h4, h5⟩ := spelled_texts h3
  have hcn : (caps.map fun pv => (pv.1.name, pv.2)).map Prod.fst = (routeParams segs).map Param.name := by
    rw [texts_caps h4]
    simp [Function.comp_def]
  have hcp : (caps.map fun pv => (pv.1.name, pv.2)).Perm (caps1.map fun pv => (pv.1.name, pv.2)) :=
    named_perm (by rw [hcn, hnames]; exact hperm.symm) (by rw [hcn]; exact hnd) (by
      intro x hx
      obtain ⟨pv, hpv, rfl⟩ := List.mem_map.1 hx
      exact h5 pv hpv)
  refine ⟨segsr, _, red, segs, above, res, caps, texts, emitted_declares he, a6.symm, rfl, hd, hred, hsame, ⟨?_, ?_, ?_, ?_⟩, ?_, h4, hv, m, b, e, ?_⟩
  · simp only [RouteVal.inRust, matchOf]; exact hsame.2.1.symm
  · simp only [RouteVal.inRust, matchOf]; exact hsame.2.2.symm
  · have := (hcp.map fun x => (x.1, Val.user (W := W) x.2)).symm
    simpa [RouteVal.inRust, matchOf, Function.comp_def] using this
  · simpa only [RouteVal.inRust, matchOf] using hperm'
  · intro pv hpv
    obtain ⟨pv1, hpv1, he1⟩ := List.mem_map.1 (h5 pv hpv)
    have hx : pv1.1.name = pv.1.name := (Prod.ext_iff.1 he1).1
    have hy : pv1.2 = pv.2 := (Prod.ext_iff.1 he1).2
    have hmem : pv1.1 ∈ routeParams (retypeSegs τ [] segsr) := by rw [a1.caps]; exact List.mem_map_of_mem hpv1
    have hmem' : pv.1 ∈ routeParams segs := by rw [texts_caps h4]; exact List.mem_map_of_mem hpv
    have htyp := hτ _ _ _ he _ hmem pv.1.typ ⟨res.modules, res.name, _, _, act, hsame, by rw [hx]; exact hmem'⟩
    obtain ⟨text, ht⟩ := a1.parsed _ hpv1
    exact ⟨text, by rw [← htyp, ← hy]; exact ht⟩
  · subst hm
    obtain ⟨fields, h6⟩ := fieldTexts_exists (fun _ => c!"") (routeParams segs) (vals := caps1.map fun pv => (pv.1.name, pv.2)) (by
      intro p hp
      rw [hnames]
      exact hperm.mem_iff.2 (List.mem_map_of_mem hp))
    exact (shows_sound (W := W) (pr := ⟨display, fun _ => c!"", fun _ => c!""⟩) h.braces hr hg (.mk hd hred (by simp only [RouteVal.inRust, matchOf]; exact hsame.2.1.symm)
      (by simp only [RouteVal.inRust, matchOf]; exact hsame.2.2.symm) (by simp [RouteVal.inRust, matchOf])
      (by rw [hnames]; exact hperm.nodup_iff.2 hnd) h3 h6)).2

/-- **C60, landing.** Let a request be answered by a redirect to the path `next`, with values whose texts are not empty and have no
`/`.  Some action `res` is named by it, with values `caps` for its parameters, and `next` is its route with the texts of these values.  The
request for `next` with the same verb is answered by the same struct and values **exactly if** this is the verb of `res`, the texts follow
the route of `res` (so: they parse back to the values, and no step is taken over by a sibling), and `res` is the first one of its
block for its verb. -/
theorem C60_lands {c : RouteConfig} (h : Ready c) (hhy : Hygienic c.routes) (hp : PlainTexts c.routes) {m : Mod} {b : List Stmt}
    (e : readText (headerToks c.headers) (codegen c).text = some (m, b)) {τ : Typing} (hτ : Typed c.routes τ) {display : W.V → Str}
    {path verb : Bytes} {v : RouteVal W} {next : Str} (hop : Hop display (headerToks c.headers) (codegen c).text verb path v next)
    (htx : ∀ x u, (x, .user u) ∈ v.params → display u ≠ [] ∧ '/' ∉ display u) :
    ∃ segsr queryr red segs query res caps texts, Declares c.routes segsr queryr red ∧ red.isRedirect = true ∧ verb = verbBytes red.method ∧
      Declares c.routes segs query res ∧ res.isRedirect = false ∧ SameName res.modules res.name red.modules red.name ∧
      v.Same (RouteVal.inRust (matchOf res caps query)) ∧ (∀ pv ∈ caps, ∃ text, W.parse pv.1.typ text = .ok pv.2) ∧
      Texts display segs caps texts ∧ next = c!"/" ++ List.intercalate c!"/" texts ∧
      ((∃ v', callText W (headerToks c.headers) (codegen c).text (utf8 next) verb = .route v' ∧ v.Same v') ↔
        verb = verbBytes res.method ∧ ∃ above node before after, Follows W (c.routes.retype τ) segs above caps (texts.map utf8) node ∧
          node.resources = before ++ res :: after ∧ ∀ o ∈ before, o.method ≠ res.method) := by
  obtain ⟨segsr, queryr, red, segs, query, res, caps, texts, r1, r2, r3, hd, hred, r4, hsame, r5, ht, -, m', b', e', hnext⟩ :=
    C60_target h hhy hp e hτ hop.1 display
  obtain ⟨-, m'', b'', e'', hnext'⟩ := hop
  rw [e''] at e'
  cases e'
  rw [hnext'] at hnext
  cases hnext
  refine ⟨segsr, queryr, red, segs, query, res, caps, texts, r1, r2, r3, hd, hred, r4, hsame, r5, ht, rfl, ?_⟩
  obtain ⟨root, body, hr, hb, -⟩ := codegen_text h.generated
  obtain ⟨-, -, hok, -, -⟩ := readText_some h.legible hr hb e
  have hn : ClearNames c.routes := (ok_iff_clear hr h.braces).1 hok
  obtain ⟨body', -, -, hs, hcall⟩ := C49_meaning h e hτ
  have hds : DistinctSiblings c.routes := by
    by_contra hh
    have h1 := matcherBody_error hh
    rw [hb] at h1
    cases h1
  have hv : ∀ pv ∈ caps, display pv.2 ≠ [] ∧ '/' ∉ display pv.2 := fun pv hpv =>
    htx pv.1.name pv.2 (hsame.2.2.1.mem_iff.2 (List.mem_map.2 ⟨pv, hpv, rfl⟩))
  have key := lands (W := W) (hs hhy) hp hds (distinctActions_of hr) hn hτ hd hred ht hv verb
  rw [hcall]
  constructor
  · rintro ⟨v', h1, h2⟩
    obtain ⟨v0, h3, rfl⟩ := isMatch_inRust (red := false) h1
    exact ((key v0 (h2.1.symm.trans hsame.1) (h2.2.1.symm.trans hsame.2.1) (h2.2.2.1.symm.trans hsame.2.2.1)).1 h3).2
  · rintro ⟨h1, h2⟩
    exact ⟨_, inRust_isMatch (red := false) ((key _ rfl rfl (.refl _)).2 ⟨rfl, h1, h2⟩), hsame⟩

theorem Wide.retype {τ : Typing} {r node : Routes} {segs : List PathSegment} {above : List Param} (h : Wide r segs above node) (pre : List PathSegment) :
    ∃ node', Wide (retypeRoutes τ pre r) (retypeSegs τ pre segs) above node' ∧ node'.resources = node.resources := by
  induction h generalizing pre with
  | here r => exact ⟨_, .here _, by simp⟩
  | @static r sub node s segs above hn h1 _ ih =>
    obtain ⟨node', h2, h3⟩ := ih (pre ++ [.static s])
    rw [← queryParameters_retype (τ := τ) pre r]
    refine ⟨node', .static ?_ ?_ h2, h3⟩
    · rw [routes_retype]
      exact List.mem_map.2 ⟨_, hn, rfl⟩
    · rw [routes_retype, paramNames_retype, staticTexts_retype]
      exact h1
  | @dynamic r sub node p segs above hn h1 h4 _ ih =>
    obtain ⟨node', h2, h3⟩ := ih (pre ++ [.dynamic p])
    rw [← queryParameters_retype (τ := τ) pre r]
    refine ⟨node', .dynamic ?_ ?_ ?_ h2, h3⟩
    · rw [routes_retype]
      exact List.mem_map.2 ⟨_, hn, rfl⟩
    · rw [routes_retype, captor_retype]
      exact h1
    · rw [routes_retype, staticTexts_retype]
      exact h4

/-- **C60, at most one redirect.** Let everything that a redirect names have the verb of the redirect, be the first of its block
for it, and be on a route that withholds nothing, and let values parse back from their texts.  Then
a request that is redirected, with values whose texts are not empty and have no `/`, is redirected to a path that is answered, for
the same verb, by a route with the same struct and values.  So it is not redirected again. -/
theorem C60_once {c : RouteConfig} (h : Ready c) (hhy : Hygienic c.routes) (hp : PlainTexts c.routes) {m : Mod} {b : List Stmt}
    (e : readText (headerToks c.headers) (codegen c).text = some (m, b)) {τ : Typing} (hτ : Typed c.routes τ) (hf : Forwarding c.routes)
    {display : W.V → Str} (hback : ∀ typ text u, W.parse typ text = .ok u → W.parse typ (display u) = .ok u)
    {path verb : Bytes} {v : RouteVal W} {next : Str} (hop : Hop display (headerToks c.headers) (codegen c).text verb path v next)
    (htx : ∀ x u, (x, .user u) ∈ v.params → display u ≠ [] ∧ '/' ∉ display u) :
    (∃ v', callText W (headerToks c.headers) (codegen c).text (utf8 next) verb = .route v' ∧ v.Same v') ∧
      ∀ more, Hops W display (headerToks c.headers) (codegen c).text verb (utf8 next) more → more = [] := by
  have key : ∃ v', callText W (headerToks c.headers) (codegen c).text (utf8 next) verb = .route v' ∧ v.Same v' := by
    obtain ⟨segsr, queryr, red, segs, query, res, caps, texts, r1, r2, r3, hd, hred, r4, hsame, r5, ht, rfl, hiff⟩ :=
      C60_lands h hhy hp e hτ hop htx
    obtain ⟨hmeth, above, node, before, after, hw, hres, hfirst⟩ := hf _ _ _ r1 r2 _ _ _ hd hred r4
    obtain ⟨node', hw', hres'⟩ := hw.retype (τ := τ) []
    rw [typed_segs hτ ⟨node, above, hw.open.live, by rw [hres]; simp, rfl⟩ hred] at hw'
    obtain ⟨body', -, -, hs, -⟩ := C49_meaning h e hτ
    refine hiff.2 ⟨by rw [hmeth]; exact r3, above, node', before, after, hw'.follows ((hs hhy).sound (plainTexts_retype hp)) ht ?_, by rw [hres', hres], hfirst⟩
    intro pv hpv
    obtain ⟨text, h1⟩ := r5 pv hpv
    exact ⟨hback _ _ _ h1, htx pv.1.name pv.2 (hsame.2.2.1.mem_iff.2 (List.mem_map.2 ⟨pv, hpv, rfl⟩))⟩
  refine ⟨key, fun more hm => ?_⟩
  obtain ⟨v', h1, -⟩ := key
  cases hm with
  | done => rfl
  | hop h2 _ =>
    have h2 := h2.1
    rw [h1] at h2
    cases h2

instance (mods : List Str) (x : Str) (mods' : List Str) (x' : Str) : Decidable (SameName mods x mods' x') := by
  unfold SameName
  infer_instance

instance (r : Routes) : Decidable (Forwarding r) :=
  have : ∀ red : Resource, Decidable (∀ segs' query' res, Declares r segs' query' res → (res.isRedirect = false →
      SameName res.modules res.name red.modules red.name →
      res.method = red.method ∧ ∃ above node before after, Wide r segs' above node ∧
        node.resources = before ++ res :: after ∧ ∀ o ∈ before, o.method ≠ res.method)) := fun _ => declaredDecidable
  declaredDecidable (P := fun _ _ red => red.isRedirect = true → _)

end Wayfinder

namespace Wayfinder.Demo
open Rust

variable {W : World}

/-- A block with `POST` for an action, and `GET` redirected to it: `to_path` of the action is the path of the block, where `GET` is redirected. -/
def ring : Routes :=
  .mk [] [.mk (.static c!"b") (.mk [⟨.get, [c!"x"], c!"Make", true, []⟩, res .post c!"x" c!"Make"] [] [])] []

theorem ring_accepted : acceptedB ring = true := by decide +kernel
theorem ring_clean : Clean (conf ring) := clean_of (by decide +kernel)
theorem ring_supported : Supported ring (bodyOf ring) := supported_of (by decide +kernel)
theorem ring_plain : PlainTexts ring := plainTexts_of (by decide)

theorem ring_hop (display : W.V → Str) :
    Hop display (headerToks (conf ring).headers) (codegen (conf ring)).text (verbBytes .get) (utf8 c!"/b") ⟨[c!"X"], c!"Make", [], []⟩ c!"/b" := by
  refine ⟨?_, _, _, fileOf_read ring_accepted, rfl⟩
  have hf : Follows W ring [.static c!"b"] [] [] [bytesOf c!"b"] _ := .static (List.mem_cons_self ..) (.inl rfl) (.here _)
  have := C02_follows ring_supported ring_plain hf (before := []) rfl (by simp) (path := utf8 c!"/b") (.inr (by decide +kernel))
  rw [C42_program ring_clean ring_supported.1 ring_supported.2]
  exact match_inRust this

/-- **C60, redirects need not end.** In this accepted file a client that asks for `/b` with `GET` is sent to `/b` again and again. -/
theorem _root_.Wayfinder.C60_end_false : ∃ c : RouteConfig, Ready c ∧ Hygienic c.routes ∧ PlainTexts c.routes ∧
    (∃ m b, readText (headerToks c.headers) (codegen c).text = some (m, b)) ∧ (∃ τ, Typed c.routes τ) ∧
    ∀ (W : World) (display : W.V → Str) (n : Nat), ∃ paths, paths.length = n ∧
      Hops W display (headerToks c.headers) (codegen c).text (verbBytes .get) (utf8 c!"/b") paths := by
  obtain ⟨h1, h2⟩ := accepted_of ring_accepted
  refine ⟨conf ring, h1, ring_supported.hygienic, ring_plain, h2, ⟨_, ((C49_agreeing h1 ring_clean.types).2 ring_clean.names).1⟩, fun W display n => ?_⟩
  induction n with
  | zero => exact ⟨[], rfl, .done _⟩
  | succ n ih =>
    obtain ⟨paths, h3, h4⟩ := ih
    exact ⟨c!"/b" :: paths, by simp [h3], .hop (ring_hop display) h4⟩

/-- So what `Forwarding` asks is not always the case. -/
example : ¬ Forwarding ring := by decide +kernel

def sameText (a b : Str) : Bool := decide (a = b)

/-- Check that a value with one field is returned with a redirect. -/
def redirectsTo (o : Outcome world) (mods : List Str) (name x text : Str) : Bool :=
  match o with
  | .redirect ⟨m, n, [(y, .user t)], []⟩ => decide (m = mods ∧ n = name ∧ y = x) && sameText t text
  | _ => false

theorem redirectsTo_eq {o : Outcome world} {mods : List Str} {name x text : Str} (h : redirectsTo o mods name x text = true) :
    o = .redirect ⟨mods, name, [(x, .user text)], []⟩ := by
  unfold redirectsTo at h
  split at h
  · simp only [sameText, Bool.and_eq_true, decide_eq_true_eq] at h
    obtain ⟨⟨rfl, rfl, rfl⟩, rfl⟩ := h
    rfl
  · cases h

/-- A redirect with a parameter, whose type is not the one of its target: the value is read as the type of the target, and parses
back from the path to which the client is sent. -/
example : Forwarding mistyped ∧ (∃ τ, Typed mistyped τ) ∧ Hygienic mistyped ∧ PlainTexts mistyped ∧ Ready (conf mistyped) ∧
    Hop (W := world) (fun t : Str => t) (headerToks (conf mistyped).headers) (codegen (conf mistyped)).text (verbBytes .get) (utf8 c!"/b/17")
      ⟨[c!"X"], c!"Show", [(c!"id", .user c!"17")], []⟩ c!"/a/17" := by
  have hacc : acceptedB mistyped = true := by decide +kernel
  obtain ⟨h1, h2⟩ := accepted_of hacc
  have hh : Hygienic mistyped := hygienic_of (by decide +kernel)
  refine ⟨by decide +kernel, (C49_typed _).2 ((C49_hygienic h1 hh).1 h2).2.2.2.2.2.2, hh, plainTexts_of (by decide), h1, ?_, _, _,
    fileOf_read hacc, by decide +kernel⟩
  rw [callText, fileOf_read hacc]
  exact redirectsTo_eq (by decide +kernel)

end Wayfinder.Demo

namespace Wayfinder.Shipped
open Rust

variable {W : World}

theorem once_clean {c : RouteConfig} (hc : Clean c) {body : List Stmt} (hs : Supported c.routes body) (hp : PlainTexts c.routes)
    (hf : Forwarding c.routes) {display : W.V → Str} (hback : ∀ typ text u, W.parse typ text = .ok u → W.parse typ (display u) = .ok u)
    {path verb : Bytes} {v : RouteVal W} {next : Str} (hop : Hop display (headerToks c.headers) (codegen c).text verb path v next)
    (htx : ∀ x u, (x, .user u) ∈ v.params → display u ≠ [] ∧ '/' ∉ display u) :
    (∃ v', callText W (headerToks c.headers) (codegen c).text (utf8 next) verb = .route v' ∧ v.Same v') ∧
      ∀ more, Hops W display (headerToks c.headers) (codegen c).text verb (utf8 next) more → more = [] := by
  have hready : Ready c := ⟨hc.generated, hc.headers, hc.words, hc.braces⟩
  obtain ⟨m, b, e⟩ := hc.read hs
  exact C60_once hready hs.hygienic hp e ((C49_agreeing hready hc.types).2 hc.names).1 hf hback hop htx

/-- **C60, shipped.** In the files emitted for the configurations shipped with the project, a request that is redirected, with
values whose texts are not empty, have no `/` and parse back, is redirected to a path that is answered by a route with the same
struct and values. -/
theorem C60_shipped {c : RouteConfig} (hc : c = cli ∨ c = structured ∨ c = commons ∨ c = nesting) {display : W.V → Str}
    (hback : ∀ typ text u, W.parse typ text = .ok u → W.parse typ (display u) = .ok u)
    {path verb : Bytes} {v : RouteVal W} {next : Str} (hop : Hop display (headerToks c.headers) (codegen c).text verb path v next)
    (htx : ∀ x u, (x, .user u) ∈ v.params → display u ≠ [] ∧ '/' ∉ display u) :
    (∃ v', callText W (headerToks c.headers) (codegen c).text (utf8 next) verb = .route v' ∧ v.Same v') ∧
      ∀ more, Hops W display (headerToks c.headers) (codegen c).text verb (utf8 next) more → more = [] := by
  rcases hc with rfl | rfl | rfl | rfl
  · exact once_clean (clean_of (by decide +kernel)) cli_supported cli_plain (by decide +kernel) hback hop htx
  · exact once_clean (clean_of (by decide +kernel)) structured_supported structured_plain (by decide +kernel) hback hop htx
  · exact once_clean (clean_of (by decide +kernel)) Demo.commons_supported Demo.commons_plain (by decide +kernel) hback hop htx
  · exact once_clean (clean_of (by decide +kernel)) nesting_supported nesting_plain (by decide +kernel) hback hop htx

theorem cli_clean : Clean cli := clean_of (by decide +kernel)

/-- A case: `GET /users` is redirected to `/people`, and there answered by `People::Index`. -/
example {display : W.V → Str} (hback : ∀ typ text u, W.parse typ text = .ok u → W.parse typ (display u) = .ok u) :
    ∃ v next v', Hop display (headerToks cli.headers) (codegen cli).text (verbBytes .get) (utf8 c!"/users") v next ∧
      callText W (headerToks cli.headers) (codegen cli).text (utf8 next) (verbBytes .get) = .route v' ∧ v.Same v' ∧
      v = ⟨[c!"People"], c!"Index", [], [c!"lang"]⟩ := by
  have h1 := ((C59_structured (W := W) (utf8 c!"/users") (verbBytes .get)).2.2 [] (by decide +kernel)).1 (.inl rfl) rfl
  have h2 : callText W (headerToks cli.headers) (codegen cli).text (utf8 c!"/users") (verbBytes .get) = .redirect ⟨[c!"People"], c!"Index", [], [c!"lang"]⟩ := by
    rw [C59_text (.inl rfl), h1.2]
    rfl
  have hready : Ready cli := ⟨cli_clean.generated, cli_clean.headers, cli_clean.words, cli_clean.braces⟩
  obtain ⟨m, b, e⟩ := cli_clean.read cli_supported
  obtain ⟨_, _, _, _, _, _, _, _, -, -, -, -, -, -, -, -, -, hop⟩ :=
    C60_target hready cli_supported.hygienic cli_plain e ((C49_agreeing hready cli_clean.types).2 cli_clean.names).1 h2 display
  obtain ⟨⟨v', h3, h4⟩, -⟩ := C60_shipped (.inl rfl) hback hop (by simp)
  exact ⟨_, _, v', hop, h3, h4, rfl⟩

end Wayfinder.Shipped
