import Verif.Spec.Reach
import Verif.Proofs.Classify
/-!
# Demonstration configurations

Concrete configurations used beside the theorems in `Props/` to show that their hypotheses are met.
-/

namespace Wayfinder

mutual
/-- All segments of a block satisfy `f`. -/
def segsAll (f : PathSegment → Bool) : Routes → Bool
  | .mk _ ns _ => segsAllL f ns
/-- All segments of a list of children satisfy `f`. -/
def segsAllL (f : PathSegment → Bool) : List NestedRoutes → Bool
  | [] => true
  | n :: ns => segsAllN f n && segsAllL f ns
/-- All segments of a child satisfy `f`. -/
def segsAllN (f : PathSegment → Bool) : NestedRoutes → Bool
  | .mk seg r => f seg && segsAll f r
end

theorem segsAllL_mem {f : PathSegment → Bool} : ∀ {ns : List NestedRoutes}, segsAllL f ns = true →
    ∀ seg sub, NestedRoutes.mk seg sub ∈ ns → f seg = true ∧ segsAll f sub = true
  | [], _, _, _, h => by cases h
  | n :: ns, hall, seg, sub, hm => by
    simp only [segsAllL, Bool.and_eq_true] at hall
    rcases List.mem_cons.1 hm with rfl | hm
    · simpa [segsAllN] using hall.1
    · exact segsAllL_mem hall.2 seg sub hm

theorem segsAll_route {f : PathSegment → Bool} {r node : Routes} {segs : List PathSegment}
    {query : List Param} (h : HasRoute r segs query node) (hall : segsAll f r = true) :
    ∀ seg ∈ segs, f seg = true := by
  induction h with
  | here => simp
  | @child r node seg sub segs q hm _ ih =>
    obtain ⟨rs, ns, qs⟩ := r
    obtain ⟨h1, h2⟩ := segsAllL_mem (by simpa [segsAll] using hall) seg sub hm
    intro s hs
    rcases List.mem_cons.1 hs with rfl | hs
    · exact h1
    · exact ih h2 s hs

/-- Check for `PlainTexts`. -/
def plainSeg : PathSegment → Bool
  | .static s => !s.isEmpty && !s.contains '/'
  | .dynamic _ => true

theorem plainTexts_of {r : Routes} (h : segsAll plainSeg r = true) : PlainTexts r := by
  intro segs q node hr s hs
  have := segsAll_route hr h _ hs
  simpa [plainSeg] using this

mutual
/-- All blocks satisfy `f`. -/
def nodesAll (f : Routes → Bool) : Routes → Bool
  | .mk rs ns qs => f (.mk rs ns qs) && nodesAllL f ns
/-- All blocks below a list of children satisfy `f`. -/
def nodesAllL (f : Routes → Bool) : List NestedRoutes → Bool
  | [] => true
  | n :: ns => nodesAllN f n && nodesAllL f ns
/-- All blocks below a child satisfy `f`. -/
def nodesAllN (f : Routes → Bool) : NestedRoutes → Bool
  | .mk _ r => nodesAll f r
end

theorem nodesAllL_mem {f : Routes → Bool} : ∀ {ns : List NestedRoutes}, nodesAllL f ns = true →
    ∀ seg sub, NestedRoutes.mk seg sub ∈ ns → nodesAll f sub = true
  | [], _, _, _, h => by cases h
  | n :: ns, hall, seg, sub, hm => by
    simp only [nodesAllL, Bool.and_eq_true] at hall
    rcases List.mem_cons.1 hm with rfl | hm
    · simpa [nodesAllN] using hall.1
    · exact nodesAllL_mem hall.2 seg sub hm

theorem nodesAll_route {f : Routes → Bool} {r node : Routes} {segs : List PathSegment}
    {query : List Param} (h : HasRoute r segs query node) (hall : nodesAll f r = true) :
    f node = true := by
  induction h with
  | here r =>
    obtain ⟨rs, ns, qs⟩ := r
    simp only [nodesAll, Bool.and_eq_true] at hall
    exact hall.1
  | @child r node seg sub segs q hm _ ih =>
    obtain ⟨rs, ns, qs⟩ := r
    simp only [nodesAll, Bool.and_eq_true] at hall
    exact ih (nodesAllL_mem hall.2 seg sub hm)

mutual
/-- Check for `Hygienic`. -/
def hygienicB : Routes → Bool
  | .mk _ ns _ => hygienicL ns
/-- The same for a list of children. -/
def hygienicL : List NestedRoutes → Bool
  | [] => true
  | n :: ns => hygienicN n && hygienicL ns
/-- The same for a child. -/
def hygienicN : NestedRoutes → Bool
  | .mk (.static _) r => hygienicB r
  | .mk (.dynamic p) r => p.name != c!"len" &&
      (p.name != c!"start" || nodesAll (fun n => (paramNames n.routes).isEmpty) r) && hygienicB r
end

theorem hygienicL_mem : ∀ {ns : List NestedRoutes}, hygienicL ns = true → ∀ n ∈ ns,
    hygienicN n = true
  | [], _, _, h => by cases h
  | n :: ns, hall, m, hm => by
    simp only [hygienicL, Bool.and_eq_true] at hall
    rcases List.mem_cons.1 hm with rfl | hm
    · exact hall.1
    · exact hygienicL_mem hall.2 m hm

theorem hygienic_step {r : Routes} {seg : PathSegment} {sub : Routes} (h : hygienicB r = true)
    (hm : NestedRoutes.mk seg sub ∈ r.routes) : hygienicB sub = true := by
  obtain ⟨rs, ns, qs⟩ := r
  have := hygienicL_mem (by simpa [hygienicB] using h) _ hm
  cases seg with
  | static t => simpa [hygienicN] using this
  | dynamic p =>
    simp only [hygienicN, Bool.and_eq_true] at this
    exact this.2

theorem hygienic_of {r : Routes} (h : hygienicB r = true) : Hygienic r := by
  intro segs p above node hl
  have hr := hl.hasRoute
  clear hl
  generalize hs : segs ++ [PathSegment.dynamic p] = ss at hr
  induction hr generalizing segs with
  | here => simp at hs
  | @child r node seg sub segs1 q hm h1 ih =>
    cases segs with
    | cons s0 segs0 =>
      simp only [List.cons_append, List.cons.injEq] at hs
      exact ih (hygienic_step h hm) segs0 hs.2
    | nil =>
      simp only [List.nil_append, List.cons.injEq] at hs
      obtain ⟨rfl, rfl⟩ := hs
      cases h1
      obtain ⟨rs, ns, qs⟩ := r
      have := hygienicL_mem (by simpa [hygienicB] using h) _ hm
      simp only [hygienicN, Bool.and_eq_true, bne_iff_ne, ne_eq, Bool.or_eq_true] at this
      refine ⟨this.1.1, fun e segs' above' node' hl => ?_⟩
      have h2 := this.1.2.resolve_left (fun hne => hne e)
      simpa using nodesAll_route hl.hasRoute h2

theorem tame_of {r : Routes} (h : nodesAll (fun node => (paramNames node.routes).isEmpty ||
    ((paramNames node.routes).length == 1 && (staticTexts node.routes).length ≤ 1)) r = true) :
    Tame r := by
  intro segs q node hr hp
  have := nodesAll_route hr h
  simpa [hp] using this

theorem unmixed_of {r : Routes} (h : nodesAll (fun node => (paramNames node.routes).isEmpty ||
    (staticTexts node.routes).isEmpty) r = true) : Unmixed r := by
  intro segs q node hr
  have := nodesAll_route hr h
  simpa using this

theorem noCliff_of {r : Routes} (h : nodesAll (fun node => !node.resources.isEmpty ||
    (paramNames node.routes).isEmpty || (staticTexts node.routes).map List.length != [1]) r = true)
    {segs : List PathSegment} {q : List Param} {node : Routes} (hr : HasRoute r segs q node) :
    ¬ Cliff node := by
  rintro ⟨h1, h2, c, h3⟩
  have := nodesAll_route hr h
  simp [h1, h2, h3] at this

/-- The generated code, if any. -/
def bodyOf (r : Routes) : List Stmt :=
  match matcherBody r with
  | .ok b => b
  | .error _ => []

/-- Check for `Supported`. -/
def supportedB (r : Routes) : Bool :=
  match matcherBody r with
  | .ok b => compiles b && hygienicB r
  | .error _ => false

theorem supported_of {r : Routes} (h : supportedB r = true) : Supported r (bodyOf r) := by
  unfold supportedB at h
  unfold bodyOf
  cases hb : matcherBody r with
  | error e => simp [hb] at h
  | ok b =>
    simp only [hb, Bool.and_eq_true] at h
    exact ⟨hb, h.1, hygienic_of h.2⟩

namespace Demo

/-- A resource without query parameters. -/
def res (m : Method) (module name : Str) : Resource := ⟨m, [module], name, false, []⟩

/-- `FromStr` of the demonstrations: `u32` accepts non-empty strings of digits, every other type
accepts everything; values are the texts. -/
def world : World where
  V := Str
  E := Str
  parse := fun typ text =>
    if typ = c!"u32" then
      (if text ≠ [] ∧ text.all Char.isDigit then .ok text else .error c!"invalid digit")
    else .ok text
  asUsize := fun _ => none

/-- The people application:

```
/
  [lang: String]
  GET home::Index
  people
    GET people::List
    POST people::Create
    GET people::Late
    {id: u32}
      [verbose: bool]
      GET people::Show
      edit
        GET people::Edit
          [tab: String]
    new
      GET people::New
  old
    GET -> people::List
```
-/
def people : Routes :=
  .mk [res .get c!"home" c!"Index"]
    [.mk (.static c!"people")
      (.mk [res .get c!"people" c!"List", res .post c!"people" c!"Create", res .get c!"people" c!"Late"]
        [.mk (.dynamic ⟨c!"id", c!"u32"⟩)
          (.mk [res .get c!"people" c!"Show"]
            [.mk (.static c!"edit")
              (.mk [⟨.get, [c!"people"], c!"Edit", false, [⟨c!"tab", c!"String"⟩]⟩] [] [])]
            [⟨c!"verbose", c!"bool"⟩]),
         .mk (.static c!"new") (.mk [res .get c!"people" c!"New"] [] [])]
        []),
     .mk (.static c!"old") (.mk [⟨.get, [c!"people"], c!"List", true, []⟩] [] [])]
    [⟨c!"lang", c!"String"⟩]

theorem people_supported : Supported people (bodyOf people) := supported_of (by decide +kernel)

theorem people_plain : PlainTexts people := plainTexts_of (by decide)

theorem people_tame : Tame people := tame_of (by decide)

/-- `/repo/wayfinder-tests/cases/commons/routes.routes`:

```
/
  foobar
    GET Foo::Bar
  fomo
    GET Fomo::AsUsual
  foosh
    GET Foosh::Ball
  {a: String}
    GET Bar::Dyn
```
-/
def commons : Routes :=
  .mk [] [
    .mk (.static c!"foobar") (.mk [res .get c!"Foo" c!"Bar"] [] []),
    .mk (.static c!"fomo") (.mk [res .get c!"Fomo" c!"AsUsual"] [] []),
    .mk (.static c!"foosh") (.mk [res .get c!"Foosh" c!"Ball"] [] []),
    .mk (.dynamic ⟨c!"a", c!"String"⟩) (.mk [res .get c!"Bar" c!"Dyn"] [] [])] []

theorem commons_supported : Supported commons (bodyOf commons) := supported_of (by decide +kernel)

theorem commons_plain : PlainTexts commons := plainTexts_of (by decide)

/-- Like `commons`, but the parameter has no resource of its own:

```
/
  foo
    GET a::Foo
  far
    GET a::Far
  {x: String}
    deep
      GET a::Deep
```
-/
def buried : Routes :=
  .mk [] [
    .mk (.static c!"foo") (.mk [res .get c!"a" c!"Foo"] [] []),
    .mk (.static c!"far") (.mk [res .get c!"a" c!"Far"] [] []),
    .mk (.dynamic ⟨c!"x", c!"String"⟩)
      (.mk [] [.mk (.static c!"deep") (.mk [res .get c!"a" c!"Deep"] [] [])] [])] []

theorem buried_supported : Supported buried (bodyOf buried) := supported_of (by decide +kernel)

theorem buried_plain : PlainTexts buried := plainTexts_of (by decide)

/-- A parameter next to a static segment of one character, in a block without resources:

```
/
  {x: String}
    GET a::X
  z
    GET a::Z
```
-/
def cliff : Routes :=
  .mk [] [
    .mk (.dynamic ⟨c!"x", c!"String"⟩) (.mk [res .get c!"a" c!"X"] [] []),
    .mk (.static c!"z") (.mk [res .get c!"a" c!"Z"] [] [])] []

theorem cliff_supported : Supported cliff (bodyOf cliff) := supported_of (by decide +kernel)

/-- Parameters without static siblings:

```
/
  GET a::Home
  users
    {id: u32}
      GET a::User
      posts
        {post: u32}
          GET a::Post
```
-/
def unmixed : Routes :=
  .mk [res .get c!"a" c!"Home"] [
    .mk (.static c!"users") (.mk [] [
      .mk (.dynamic ⟨c!"id", c!"u32"⟩) (.mk [res .get c!"a" c!"User"] [
        .mk (.static c!"posts") (.mk [] [
          .mk (.dynamic ⟨c!"post", c!"u32"⟩) (.mk [res .get c!"a" c!"Post"] [] [])] [])] [])] [])] []

theorem unmixed_supported : Supported unmixed (bodyOf unmixed) := supported_of (by decide +kernel)

theorem unmixed_plain : PlainTexts unmixed := plainTexts_of (by decide)

theorem unmixed_unmixed : Unmixed unmixed := unmixed_of (by decide)

/-- Outcomes of demonstrations in a form that can be compared. -/
inductive Shown where
  | notFound | notAllowed | panic | rejected
  | route (modules : List Str) (name : Str) (params : List (Str × Str)) (nones : List Str)
  | redirect (modules : List Str) (name : Str) (params : List (Str × Str)) (nones : List Str)
  | err (param : Str) (what : Str)
deriving DecidableEq

/-- A parameter value. -/
def showVal : Val world → Str
  | .usize n => (toString n).toList
  | .str s => s
  | .user v => v

/-- Show an outcome. -/
def shown : Outcome world → Shown
  | .notFound => .notFound
  | .notAllowed => .notAllowed
  | .panic => .panic
  | .rejected => .rejected
  | .route v => .route v.modules v.name (v.params.map fun x => (x.1, showVal x.2)) v.nones
  | .redirect v => .redirect v.modules v.name (v.params.map fun x => (x.1, showVal x.2)) v.nones
  | .err p e => .err p e

/-- Request a path from the generated matcher of `r`. -/
def ask (r : Routes) (path m : Str) : Shown :=
  shown (callMatchRoute world (bodyOf r) (bytesOf path) (bytesOf m))

end Demo

end Wayfinder
