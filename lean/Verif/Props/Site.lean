import Verif.Spec.Site
import Verif.Props.Client
/-!
# C80: links and redirects stay on the site
-/

namespace Wayfinder
open Rust

variable {W : World}

/-- A path made from texts is on the site unless its first text is empty with another one behind it, or begins with a slash. -/
theorem onSite_texts {texts : List Str} : OnSite (c!"/" ++ List.intercalate c!"/" texts) ↔
    ∀ t more, texts = t :: more → t.head? ≠ some '/' ∧ (t = [] → more = []) := by
  have key : OnSite (c!"/" ++ List.intercalate c!"/" texts) ↔ (List.intercalate c!"/" texts).head? ≠ some '/' := by
    constructor
    · rintro ⟨rest, h1, h2⟩
      cases h1
      exact h2
    · exact fun h => ⟨_, rfl, h⟩
  rw [key]
  cases texts with
  | nil => simp
  | cons t texts =>
    cases texts with
    | nil =>
      simp only [List.intercalate_singleton]
      constructor
      · rintro h t' more h'
        cases h'
        exact ⟨h, fun _ => rfl⟩
      · intro h
        exact (h t [] rfl).1
    | cons u texts =>
      rw [List.intercalate_cons_cons]
      cases t with
      | nil =>
        constructor
        · intro h
          exact absurd rfl h
        · intro h
          exact absurd ((h [] _ rfl).2 rfl) (by simp)
      | cons a t =>
        constructor
        · rintro h t' more h'
          cases h'
          exact ⟨h, fun h => by cases h⟩
        · intro h
          exact (h _ _ rfl).1

theorem texts_start {display : W.V → Str} {segs : List PathSegment} {caps : Caps W} {texts : List Str} (h : Texts display segs caps texts)
    (hp : ∀ s, PathSegment.static s ∈ segs → s ≠ [] ∧ '/' ∉ s) :
    OnSite (c!"/" ++ List.intercalate c!"/" texts) ↔ ∀ p more, segs = .dynamic p :: more →
      ∃ v caps', caps = (p, v) :: caps' ∧ (display v).head? ≠ some '/' ∧ (display v = [] → more = []) := by
  rw [onSite_texts]
  have hlen : ∀ {segs caps texts}, Texts display segs caps texts → (segs = [] ↔ texts = []) := by
    intro segs caps texts h
    cases h <;> simp
  cases h with
  | nil => simp
  | static s h =>
    obtain ⟨h1, h2⟩ := hp s (by simp)
    constructor
    · rintro - p more h'
      cases h'
    · rintro - t more h'
      cases h'
      refine ⟨fun hh => ?_, fun h => absurd h h1⟩
      obtain ⟨a, s', rfl⟩ := List.exists_cons_of_ne_nil h1
      simp only [List.head?_cons, Option.some.injEq] at hh
      subst hh
      exact h2 (by simp)
  | dynamic q v h =>
    have := hlen h
    constructor
    · intro hh p more h'
      cases h'
      exact ⟨v, _, rfl, (hh _ _ rfl).1, fun he => this.2 ((hh _ _ rfl).2 he)⟩
    · rintro hh t more h'
      cases h'
      obtain ⟨v', caps', hc, g1, g2⟩ := hh _ _ rfl
      cases hc
      exact ⟨g1, fun he => this.1 (g2 he)⟩

/-- **C80, links.** The `to_path` of a struct of the emitted file returns a reference to the same host, **exactly if** not: the route begins
with a parameter, and the text of its value begins with a slash, or is empty while the route goes on. -/
theorem C80_link {c : RouteConfig} (h : Clean c) {body : List Stmt} (hs : Supported c.routes body) (hp : PlainTexts c.routes)
    {segs : List PathSegment} {query : List Param} {res : Resource} (hd : Declares c.routes segs query res) (hred : res.isRedirect = false)
    {display : W.V → Str} {caps : Caps W} {texts : List Str} (ht : Texts display segs caps texts) : ∃ path,
      callToPath display (headerToks c.headers) (codegen c).text (res.modules.map toSnakeCase) (toCapsCase res.name)
        (caps.map fun pv => (pv.1.name, pv.2)) = some path ∧
      (OnSite path ↔ ∀ p more, segs = .dynamic p :: more →
        ∃ v caps', caps = (p, v) :: caps' ∧ (display v).head? ≠ some '/' ∧ (display v = [] → more = [])) := by
  obtain ⟨node, above, h1, h2, rfl⟩ := hd
  exact ⟨_, C45_to_path h hs ⟨node, above, h1, h2, rfl⟩ hred ht, texts_start ht (hp _ _ _ h1)⟩

/-- **C80, redirects.** A request is answered by a redirect to `next`. Its value is that of an action, and `next` is a reference to the
same host, **exactly if** not: the route of the action begins with a parameter, and the text of its value begins with a slash, or is
empty while the route goes on. -/
theorem C80_redirect {c : RouteConfig} (h : Ready c) (hhy : Hygienic c.routes) (hp : PlainTexts c.routes) {m : Mod} {b : List Stmt}
    (e : readText (headerToks c.headers) (codegen c).text = some (m, b)) {τ : Typing} (hτ : Typed c.routes τ) {display : W.V → Str}
    {path verb : Bytes} {v : RouteVal W} {next : Str} (hop : Hop display (headerToks c.headers) (codegen c).text verb path v next) :
    ∃ segs query res caps, Declares c.routes segs query res ∧ res.isRedirect = false ∧ v.Same (RouteVal.inRust (matchOf res caps query)) ∧
      (OnSite next ↔ ∀ p more, segs = .dynamic p :: more →
        ∃ u caps', caps = (p, u) :: caps' ∧ (display u).head? ≠ some '/' ∧ (display u = [] → more = [])) := by
  obtain ⟨segsr, queryr, red, segs, query, res, caps, texts, r1, r2, r3, hd, hred, r4, hsame, r5, ht, -, m', b', e', hnext⟩ :=
    C60_target h hhy hp e hτ hop.1 display
  obtain ⟨-, m'', b'', e'', hnext'⟩ := hop
  rw [e''] at e'
  cases e'
  rw [hnext'] at hnext
  cases hnext
  obtain ⟨node, above, h1, h2, rfl⟩ := hd
  exact ⟨segs, _, res, caps, ⟨node, above, h1, h2, rfl⟩, hred, hsame, texts_start ht (hp _ _ _ h1)⟩

/-- **C80, values.** So `next` is a reference to the same host if the texts of the values are not empty and do not begin with a slash. -/
theorem C80_values {c : RouteConfig} (h : Ready c) (hhy : Hygienic c.routes) (hp : PlainTexts c.routes) {m : Mod} {b : List Stmt}
    (e : readText (headerToks c.headers) (codegen c).text = some (m, b)) {τ : Typing} (hτ : Typed c.routes τ) {display : W.V → Str}
    {path verb : Bytes} {v : RouteVal W} {next : Str} (hop : Hop display (headerToks c.headers) (codegen c).text verb path v next)
    (htx : ∀ x u, (x, .user u) ∈ v.params → display u ≠ [] ∧ (display u).head? ≠ some '/') : OnSite next := by
  obtain ⟨segsr, queryr, red, segs, query, res, caps, texts, r1, r2, r3, hd, hred, r4, hsame, r5, ht, -, m', b', e', hnext⟩ :=
    C60_target h hhy hp e hτ hop.1 display
  obtain ⟨-, m'', b'', e'', hnext'⟩ := hop
  rw [e''] at e'
  cases e'
  rw [hnext'] at hnext
  cases hnext
  obtain ⟨node, above, h1, h2, rfl⟩ := hd
  rw [texts_start ht (hp _ _ _ h1)]
  rintro p more rfl
  cases ht with
  | @dynamic _ caps' texts' _ u ht =>
    have hm := hsame.2.2.1.symm.subset (a := (p.name, .user u)) (by simp [RouteVal.inRust, matchOf])
    obtain ⟨g1, g2⟩ := htx _ _ hm
    exact ⟨u, caps', rfl, g2, fun hh => absurd hh g1⟩

/-- **C80, redirects to fixed places.** If no redirect names an action whose route begins with a parameter, every redirect leads to a
reference to the same host, whatever the types and values are; its first segment is that of a route of the configuration. -/
theorem C80_fixed {c : RouteConfig} (h : Ready c) (hhy : Hygienic c.routes) (hp : PlainTexts c.routes) {m : Mod} {b : List Stmt}
    (e : readText (headerToks c.headers) (codegen c).text = some (m, b)) {τ : Typing} (hτ : Typed c.routes τ) (hf : FixedTargets c.routes)
    {display : W.V → Str} {path verb : Bytes} {v : RouteVal W} {next : Str}
    (hop : Hop display (headerToks c.headers) (codegen c).text verb path v next) :
    OnSite next ∧ (next = c!"/" ∨ ∃ s segs above node, HasRoute c.routes (.static s :: segs) above node ∧ c!"/" ++ s <+: next) := by
  obtain ⟨segsr, queryr, red, segs, query, res, caps, texts, r1, r2, r3, hd, hred, r4, hsame, r5, ht, -, m', b', e', hnext⟩ :=
    C60_target h hhy hp e hτ hop.1 display
  obtain ⟨-, m'', b'', e'', hnext'⟩ := hop
  rw [e''] at e'
  cases e'
  rw [hnext'] at hnext
  cases hnext
  have hfix := hf _ _ _ r1 r2 _ _ _ hd hred r4
  obtain ⟨node, above, h1, h2, rfl⟩ := hd
  refine ⟨(texts_start ht (hp _ _ _ h1)).2 fun p more hh => absurd hh (hfix p more), ?_⟩
  cases ht with
  | nil => exact .inl rfl
  | @static segs' _ texts' s ht =>
    refine .inr ⟨s, segs', above, node, h1, ?_⟩
    cases texts' with
    | nil => exact ⟨[], by rw [List.intercalate_singleton, List.append_nil]⟩
    | cons t texts' =>
      rw [List.intercalate_cons_cons]
      exact ⟨c!"/" ++ List.intercalate c!"/" (t :: texts'), by simp⟩
  | dynamic p _ _ => exact absurd rfl (hfix p _)

instance (segs : List PathSegment) : Decidable (FixedStart segs) :=
  match segs with
  | [] => .isTrue (by intro p more h; cases h)
  | .static s :: more => .isTrue (by intro p more h; cases h)
  | .dynamic p :: more => .isFalse (fun h => h p more rfl)

instance (r : Routes) : Decidable (FixedTargets r) :=
  decidable_of_iff (∀ d ∈ declared r, d.2.2.isRedirect = true → ∀ d' ∈ declared r, d'.2.2.isRedirect = false →
      SameName d'.2.2.modules d'.2.2.name d.2.2.modules d.2.2.name → FixedStart d'.1)
    ⟨fun h segs query red hd hr segs' query' res hd' hr' hs => h (segs, query, red) (mem_declared.2 hd) hr (segs', query', res)
      (mem_declared.2 hd') hr' hs,
    fun h _ hd hr _ hd' hr' hs => h _ _ _ (mem_declared.1 hd) hr _ _ _ (mem_declared.1 hd') hr' hs⟩

end Wayfinder

namespace Wayfinder.Demo
open Rust

/-- Pages of users; an old address is redirected:

```
/
  go
    {user: String}
      {page: String}
        GET -> Pages::Show
  {user: String}
    {page: String}
      GET Pages::Show
```
-/
def pages : Routes :=
  let user : PathSegment := .dynamic ⟨c!"user", c!"String"⟩
  let page : PathSegment := .dynamic ⟨c!"page", c!"String"⟩
  .mk [] [.mk (.static c!"go") (.mk [] [.mk user (.mk [] [.mk page (.mk [⟨.get, [c!"pages"], c!"Show", true, []⟩] [] [])] [])] []),
    .mk user (.mk [] [.mk page (.mk [res .get c!"pages" c!"Show"] [] [])] [])] []

/-- Check that a value with two fields is returned with a redirect. -/
def redirectsTwo (o : Outcome world) (mods : List Str) (name x s y t : Str) : Bool :=
  match o with
  | .redirect ⟨m, n, [(x', .user s'), (y', .user t')], []⟩ => decide (m = mods ∧ n = name ∧ x' = x ∧ y' = y) && sameText s' s && sameText t' t
  | _ => false

theorem redirectsTwo_eq {o : Outcome world} {mods : List Str} {name x s y t : Str} (h : redirectsTwo o mods name x s y t = true) :
    o = .redirect ⟨mods, name, [(x, .user s), (y, .user t)], []⟩ := by
  unfold redirectsTwo at h
  split at h
  · simp only [sameText, Bool.and_eq_true, decide_eq_true_eq] at h
    obtain ⟨⟨⟨rfl, rfl, rfl, rfl⟩, rfl⟩, rfl⟩ := h
    rfl
  · cases h

theorem pages_accepted : acceptedB pages = true := by decide +kernel
theorem pages_plain : PlainTexts pages := plainTexts_of (by decide)
theorem pages_hygienic : Hygienic pages := hygienic_of (by decide +kernel)
theorem pages_typed : ∃ τ, Typed pages τ :=
  (C49_typed _).2 ((C49_hygienic (accepted_of pages_accepted).1 pages_hygienic).1 (accepted_of pages_accepted).2).2.2.2.2.2.2

/-- **C80, redirects can lead to other hosts.** The file for these routes is accepted, and types are texts that are shown as they are. A
request for `/go//evil.example` is answered by a redirect to `//evil.example`, which names the host `evil.example`. -/
theorem _root_.Wayfinder.C80_leaves_false : Ready (conf pages) ∧ Hygienic pages ∧ PlainTexts pages ∧ (∃ τ, Typed pages τ) ∧
    (∃ m b, readText (headerToks (conf pages).headers) (codegen (conf pages)).text = some (m, b)) ∧
    ∃ v next, Hop (W := world) (fun t : Str => t) (headerToks (conf pages).headers) (codegen (conf pages)).text (verbBytes .get)
      (utf8 c!"/go//evil.example") v next ∧ next = c!"//evil.example" ∧ ¬ OnSite next := by
  refine ⟨(accepted_of pages_accepted).1, pages_hygienic, pages_plain, pages_typed, (accepted_of pages_accepted).2,
    ⟨[c!"Pages"], c!"Show", [(c!"user", .user c!""), (c!"page", .user c!"evil.example")], []⟩, c!"//evil.example",
    ⟨?_, _, _, fileOf_read pages_accepted, by decide +kernel⟩, rfl, ?_⟩
  · rw [callText, fileOf_read pages_accepted]
    exact redirectsTwo_eq (by decide +kernel)
  · rintro ⟨rest, h, hr⟩
    cases h
    exact hr rfl

/-- A case of `C80_values`: `/go/ann/home` is redirected to `/ann/home`. -/
example : ∃ next, Hop (W := world) (fun t : Str => t) (headerToks (conf pages).headers) (codegen (conf pages)).text (verbBytes .get)
    (utf8 c!"/go/ann/home") ⟨[c!"Pages"], c!"Show", [(c!"user", .user c!"ann"), (c!"page", .user c!"home")], []⟩ next ∧
    next = c!"/ann/home" ∧ OnSite next := by
  obtain ⟨h1, m, b, e⟩ := accepted_of pages_accepted
  obtain ⟨τ, hτ⟩ := pages_typed
  have hop : Hop (W := world) (fun t : Str => t) (headerToks (conf pages).headers) (codegen (conf pages)).text (verbBytes .get)
      (utf8 c!"/go/ann/home") ⟨[c!"Pages"], c!"Show", [(c!"user", .user c!"ann"), (c!"page", .user c!"home")], []⟩ c!"/ann/home" := by
    refine ⟨?_, _, _, fileOf_read pages_accepted, by decide +kernel⟩
    rw [callText, fileOf_read pages_accepted]
    exact redirectsTwo_eq (by decide +kernel)
  refine ⟨_, hop, rfl, C80_values h1 pages_hygienic pages_plain e hτ hop ?_⟩
  intro x u hx
  simp only [List.mem_cons, Prod.mk.injEq, List.not_mem_nil, or_false] at hx
  rcases hx with ⟨-, hx⟩ | ⟨-, hx⟩
  · cases hx; exact ⟨by decide, by decide⟩
  · cases hx; exact ⟨by decide, by decide⟩

example : ¬ FixedTargets pages := by decide +kernel

/-- Users without redirects, and the links to their pages. -/
def bare : Routes :=
  .mk [] [.mk (.dynamic ⟨c!"user", c!"String"⟩) (.mk [res .get c!"pages" c!"Home"]
    [.mk (.dynamic ⟨c!"page", c!"String"⟩) (.mk [res .get c!"pages" c!"Show"] [] [])] [])] []

/-- Cases of `C80_link`: the link to a page of the user with the empty name names a host; that to the page of `ann` does not, and neither
does the link to the home of the user with the empty name, where nothing follows. -/
example : ∃ away near home,
    callToPath (V := Str) id (headerToks (conf bare).headers) (codegen (conf bare)).text [c!"pages"] c!"Show"
      [(c!"user", c!""), (c!"page", c!"evil.example")] = some away ∧ ¬ OnSite away ∧
    callToPath (V := Str) id (headerToks (conf bare).headers) (codegen (conf bare)).text [c!"pages"] c!"Show"
      [(c!"user", c!"ann"), (c!"page", c!"evil.example")] = some near ∧ OnSite near ∧
    callToPath (V := Str) id (headerToks (conf bare).headers) (codegen (conf bare)).text [c!"pages"] c!"Home" [(c!"user", c!"")] = some home ∧
    OnSite home := by
  have hc : Clean (conf bare) := clean_of (by decide +kernel)
  have hs : Supported bare (bodyOf bare) := supported_of (by decide +kernel)
  have hp : PlainTexts bare := plainTexts_of (by decide)
  have hd : Declares bare [.dynamic ⟨c!"user", c!"String"⟩, .dynamic ⟨c!"page", c!"String"⟩] [] (res .get c!"pages" c!"Show") :=
    mem_declared.1 (by decide +kernel)
  have hd' : Declares bare [.dynamic ⟨c!"user", c!"String"⟩] [] (res .get c!"pages" c!"Home") := mem_declared.1 (by decide +kernel)
  have go (a b : Str) := C80_link (W := world) hc hs hp hd rfl (display := fun t : Str => t) (.dynamic _ a (.dynamic _ b .nil))
  obtain ⟨away, a1, a2⟩ := go c!"" c!"evil.example"
  obtain ⟨near, b1, b2⟩ := go c!"ann" c!"evil.example"
  obtain ⟨home, c1, c2⟩ := C80_link (W := world) hc hs hp hd' rfl (display := fun t : Str => t) (.dynamic _ c!"" .nil)
  refine ⟨away, near, home, a1, ?_, b1, b2.2 ?_, c1, c2.2 ?_⟩
  · intro h
    obtain ⟨v, caps', h1, -, h2⟩ := a2.1 h _ _ rfl
    cases h1
    exact absurd (h2 rfl) (by simp)
  · rintro p more ⟨⟩
    exact ⟨_, _, rfl, by decide, fun h => by cases h⟩
  · rintro p more ⟨⟩
    exact ⟨_, _, rfl, by decide, fun _ => rfl⟩

end Wayfinder.Demo

namespace Wayfinder.Shipped
open Rust

variable {W : World}

theorem stays_clean {c : RouteConfig} (hc : Clean c) {body : List Stmt} (hs : Supported c.routes body) (hp : PlainTexts c.routes)
    (hf : FixedTargets c.routes) {display : W.V → Str} {path verb : Bytes} {v : RouteVal W} {next : Str}
    (hop : Hop display (headerToks c.headers) (codegen c).text verb path v next) : OnSite next := by
  have hready : Ready c := ⟨hc.generated, hc.headers, hc.words, hc.braces⟩
  obtain ⟨m, b, e⟩ := hc.read hs
  exact (C80_fixed hready hs.hygienic hp e ((C49_agreeing hready hc.types).2 hc.names).1 hf hop).1

/-- **C80, shipped.** The redirects of the files emitted for the configurations shipped with the project stay on the site, whatever the
types, their values and the texts shown for them are. -/
theorem C80_shipped {c : RouteConfig} (hc : c = cli ∨ c = structured ∨ c = commons ∨ c = nesting) {display : W.V → Str}
    {path verb : Bytes} {v : RouteVal W} {next : Str} (hop : Hop display (headerToks c.headers) (codegen c).text verb path v next) :
    OnSite next := by
  rcases hc with rfl | rfl | rfl | rfl
  · exact stays_clean (clean_of (by decide +kernel)) cli_supported cli_plain (by decide +kernel) hop
  · exact stays_clean (clean_of (by decide +kernel)) structured_supported structured_plain (by decide +kernel) hop
  · exact stays_clean (clean_of (by decide +kernel)) Demo.commons_supported Demo.commons_plain (by decide +kernel) hop
  · exact stays_clean (clean_of (by decide +kernel)) nesting_supported nesting_plain (by decide +kernel) hop

/-- A case: `GET /users` of the first one is redirected. -/
example {display : W.V → Str} : ∃ v next, Hop display (headerToks cli.headers) (codegen cli).text (verbBytes .get) (utf8 c!"/users") v next ∧
    OnSite next := by
  have h1 := ((C59_structured (W := W) (utf8 c!"/users") (verbBytes .get)).2.2 [] (by decide +kernel)).1 (.inl rfl) rfl
  have h2 : callText W (headerToks cli.headers) (codegen cli).text (utf8 c!"/users") (verbBytes .get) = .redirect ⟨[c!"People"], c!"Index", [], [c!"lang"]⟩ := by
    rw [C59_text (.inl rfl), h1.2]
    rfl
  have hready : Ready cli := ⟨cli_clean.generated, cli_clean.headers, cli_clean.words, cli_clean.braces⟩
  obtain ⟨m, b, e⟩ := cli_clean.read cli_supported
  obtain ⟨_, _, _, _, _, _, _, _, -, -, -, -, -, -, -, -, -, hop⟩ :=
    C60_target hready cli_supported.hygienic cli_plain e ((C49_agreeing hready cli_clean.types).2 cli_clean.names).1 h2 display
  exact ⟨_, _, hop, C80_shipped (.inl rfl) hop⟩

end Wayfinder.Shipped
