import Verif.Spec.Slashes
import Verif.Props.Config
import Verif.Props.Links
import Verif.Props.Site
/-!
# C83: mount points with slashes
-/

namespace Wayfinder
open Rust

variable {W : World} {m : Bytes}

/-- A block whose text has slashes and blocks inside each other answer alike, except that the outermost of the latter also takes requests that
go on differently, and says that they are not found. -/
theorem nested_static (r : Routes) (q : List Param) (caps : Caps W) : ∀ (more : List Str) (s : Str) (bs : Bytes),
    routeStatic1 W m (.mk (.static s) (nested more r)) q caps bs =
      match routeStatic1 W m (.mk (.static (slashed s more)) r) q caps bs with
      | some o => some o
      | none => if bytesOf s <+: bs then some .notFound else none := by
  intro more
  induction more with
  | nil =>
    intro s bs
    by_cases h : bytesOf s <+: bs
    · obtain ⟨rest, rfl⟩ := h
      simp only [nested, slashed]
      rw [routeStatic1_prefix rfl]
    · simp only [nested, slashed, if_neg h]
      rw [routeStatic1_not_prefix rfl h]
  | cons t more ih =>
    intro s bs
    by_cases h : bytesOf s <+: bs
    · obtain ⟨rest, rfl⟩ := h
      rw [routeStatic1_prefix rfl, if_pos (List.prefix_append _ _)]
      simp only [nested, slashed, NestedRoutes.routes_mk]
      have hcut : routeStatic1 W m (.mk (.static (s ++ '/' :: slashed t more)) r) q caps (bytesOf s ++ rest) =
          match rest with
          | [] => none
          | b :: rest => if b = slash then routeStatic1 W m (.mk (.static (slashed t more)) r) q caps rest else none := by
        have hpre : ∀ b rest, bytesOf (s ++ '/' :: slashed t more) <+: bytesOf s ++ b :: rest ↔ slash = b ∧ bytesOf (slashed t more) <+: rest := by
          intro b rest
          rw [bytesOf_append, List.prefix_append_right_inj, bytesOf_cons, List.cons_prefix_cons]
        cases rest with
        | nil =>
          apply routeStatic1_not_prefix rfl
          rw [bytesOf_append, List.prefix_append_right_inj, bytesOf_cons]
          simp
        | cons b rest =>
          simp only
          split
          · rename_i hb
            subst hb
            by_cases hj : bytesOf (slashed t more) <+: rest
            · obtain ⟨rest, rfl⟩ := hj
              rw [show bytesOf s ++ slash :: (bytesOf (slashed t more) ++ rest) =
                bytesOf (s ++ '/' :: slashed t more) ++ rest by simp, routeStatic1_prefix rfl, routeStatic1_prefix rfl]
              rfl
            · rw [routeStatic1_not_prefix rfl hj, routeStatic1_not_prefix rfl (fun h => hj ((hpre _ _).1 h).2)]
          · rename_i hb
            exact routeStatic1_not_prefix rfl (fun h => hb ((hpre _ _).1 h).1.symm) _ _
      rw [hcut]
      cases rest with
      | nil => simp [enter, atEnd]
      | cons b rest =>
        simp only [enter]
        split
        · have := ih t rest
          simp only [route, paramNames, stuck, preferStatic, captor, staticTexts, List.append_nil, ne_eq, not_true_eq_false, and_false, if_false,
            routeStatic, List.filterMap_cons, List.filterMap_nil, List.isEmpty_nil, Bool.true_or, if_true, this, NestedRoutes.pathSegment_mk]
          cases routeStatic1 W m (.mk (.static (slashed t more)) r) q caps rest with
          | some o => simp
          | none => by_cases hj : bytesOf t <+: rest <;> simp [hj]
        · rfl
    · rw [routeStatic1_not_prefix rfl h, if_neg h, routeStatic1_not_prefix rfl]
      intro hh
      exact h (List.IsPrefix.trans (by simp [slashed]) hh)

theorem routeStatic_append_one {q : List Param} {caps : Caps W} {bs : Bytes} {n : NestedRoutes} : ∀ (ns : List NestedRoutes),
    routeStatic W m (ns ++ [n]) q caps bs =
      match routeStatic W m ns q caps bs with
      | some o => some o
      | none => routeStatic1 W m n q caps bs
  | [] => by
    simp only [List.nil_append, routeStatic]
    cases routeStatic1 W m n q caps bs <;> rfl
  | n' :: ns => by
    simp only [List.cons_append, routeStatic]
    cases routeStatic1 W m n' q caps bs with
    | some o => rfl
    | none => exact routeStatic_append_one ns

/-- A world in which no text is a value. -/
def strict : World := ⟨Unit, Unit, fun _ _ => .error (), fun _ => none⟩

theorem routeParam_strict {x : Str} {q : List Param} {bs : Bytes} : ∀ {ns : List NestedRoutes}, x ∈ paramNames ns →
    routeParam strict m x ns q [] bs ≠ .notFound
  | n :: ns, hx => by
    obtain ⟨seg, r⟩ := n
    simp only [routeParam]
    cases seg with
    | static s =>
      simp only [routeParam1]
      exact routeParam_strict (by simpa [paramNames] using hx)
    | dynamic p =>
      by_cases hp : p.name = x
      · simp only [routeParam1, if_pos hp]
        cases fromUtf8 (bs.takeWhile (· ≠ slash)) with
        | none => simp
        | some text => simp [strict]
      · simp only [routeParam1, if_neg hp]
        refine routeParam_strict ?_
        simp only [paramNames, List.filterMap_cons, NestedRoutes.pathSegment_mk, List.mem_cons] at hx
        rcases hx with rfl | hx
        · exact absurd rfl hp
        · exact hx

variable {base sub : RouteConfig}

/-- **C83.** A configuration mounted at a text with slashes is answered as if it were mounted below blocks inside each other, whatever `FromStr`
does, **exactly if** the root of the base has no parameter, or has static children too. -/
theorem C83_mount {s : Str} {more : List Str} (hmore : more ≠ []) {body body' : List Stmt}
    (h : Supported (base.mount (slashed s more) sub).routes body)
    (h' : Supported (base.mount s ⟨sub.headers, nested more sub.routes⟩).routes body') :
    (∀ W path m, callMatchRoute W body path m = callMatchRoute W body' path m) ↔
      paramNames base.routes.routes = [] ∨ staticTexts base.routes.routes ≠ [] := by
  obtain ⟨hs, rs, ns, qs⟩ := base
  simp only [RouteConfig.mount, Routes.resources_mk, Routes.routes_mk, Routes.queryParameters_mk] at h h' ⊢
  have hpn : ∀ (t : Str) (r : Routes), paramNames (ns ++ [.mk (.static t) r]) = paramNames ns := fun t r => by simp [paramNames]
  have hst : ∀ (t : Str) (r : Routes), staticTexts (ns ++ [.mk (.static t) r]) = staticTexts ns ++ [t] := fun t r => by simp [staticTexts]
  have hcap : ∀ (t : Str) (r : Routes), captor (ns ++ [.mk (.static t) r]) = captor ns := fun t r => by simp only [captor, hpn]
  constructor
  · intro he
    refine Classical.byContradiction fun hno => ?_
    rw [not_or, not_not] at hno
    obtain ⟨h1, h2⟩ := hno
    obtain ⟨x, hx⟩ : ∃ x, captor ns = some x := by
      unfold captor
      cases hq : paramNames ns with
      | nil => exact absurd hq h1
      | cons y ys => exact ⟨_, rfl⟩
    have := he strict (slash :: (bytesOf s ++ [asciiByte 'x'])) []
    rw [call_eq h, call_eq h'] at this
    simp only [stripSlash, if_true] at this
    have hns : routeStatic strict [] ns ([] ++ qs) [] (bytesOf s ++ [asciiByte 'x']) = none := by
      apply routeStatic_eq_none
      intro n hn
      obtain ⟨seg', r'⟩ := n
      cases seg' with
      | dynamic p => exact routeStatic1_dynamic rfl _ _ _
      | static s =>
        have : s ∈ staticTexts ns := mem_staticTexts'.2 ⟨_, hn, rfl⟩
        rw [h2] at this; cases this
    have hj : routeStatic1 strict [] (.mk (.static (slashed s more)) sub.routes) ([] ++ qs) [] (bytesOf s ++ [asciiByte 'x']) = none := by
      apply routeStatic1_not_prefix rfl
      cases more with
      | nil => exact absurd rfl hmore
      | cons t more =>
        rw [slashed, bytesOf_append, List.prefix_append_right_inj, bytesOf_cons, List.cons_prefix_cons]
        exact fun hh => absurd hh.1 (by decide)
    have hne : bytesOf s ++ [asciiByte 'x'] ≠ [] := by simp
    have hstuck : ∀ ns : List NestedRoutes, stuck ns (bytesOf s ++ [asciiByte 'x']) = false := fun ns => by
      simp only [stuck, List.isEmpty_eq_false_iff.2 hne, Bool.false_and]
    have hpref : ∀ (t : Str) (r : Routes), preferStatic (ns ++ [.mk (.static t) r]) = true := fun t r => by
      simp [preferStatic, hst, h2]
    simp only [route, hne, false_and, if_false, hstuck, hpref, if_true, routeStatic_append_one, hns, hj, hcap, hx, routeParam_append_static,
      nested_static, Bool.false_eq_true] at this
    rw [if_pos (List.prefix_append _ _)] at this
    exact routeParam_strict (captor_mem hx) this
  · intro hone W path m
    rw [call_eq h, call_eq h']
    generalize stripSlash path = bs
    by_cases hp : paramNames ns = []
    · have hcn : captor ns = none := by simp [captor, hp]
      simp only [route, stuck, hpn, hp, List.isEmpty_nil, Bool.not_true, Bool.and_false, Bool.false_and, Bool.false_eq_true, if_false, preferStatic,
        Bool.true_or, if_true, hcap, hcn, routeStatic_append_one, nested_static]
      split
      · rfl
      · cases routeStatic W m ns ([] ++ qs) [] bs with
        | some o => rfl
        | none =>
          simp only
          cases routeStatic1 W m (.mk (.static (slashed s more)) sub.routes) ([] ++ qs) [] bs with
          | some o => rfl
          | none => by_cases hj : bytesOf s <+: bs <;> simp [hj]
    · have hlen : ∀ (t : Str) (r : Routes), (staticTexts (ns ++ [.mk (.static t) r])).length ≠ 1 := fun t r => by
        rw [hst]
        have := List.length_pos_iff.2 (hone.resolve_left hp)
        simp
        exact hone.resolve_left hp
      have hpref : ∀ (t : Str) (r : Routes), preferStatic (ns ++ [.mk (.static t) r]) = false := fun t r => by
        simp only [preferStatic, hpn, List.isEmpty_eq_false_iff.2 hp, Bool.false_or, beq_eq_false_iff_ne]
        exact hlen t r
      have hstuck : ∀ (t : Str) (r : Routes), stuck (ns ++ [.mk (.static t) r]) bs = false := fun t r => by
        have : ((staticTexts (ns ++ [NestedRoutes.mk (.static t) r])).map List.length == [1]) = false := by
          rw [beq_eq_false_iff_ne]
          intro e
          exact hlen t r (by simpa using congrArg List.length e)
        simp only [stuck, this, Bool.and_false]
      simp only [route, hpref, hstuck, Bool.false_eq_true, if_false, hcap, routeParam_append_static]

theorem Declares.mounted {seg : Str} {segs : List PathSegment} {query : List Param} {res : Resource} (h : Declares sub.routes segs query res) :
    Declares (base.mount seg sub).routes (.static seg :: segs) (base.routes.queryParameters ++ query) res := by
  obtain ⟨node, above, h1, h2, rfl⟩ := h
  exact ⟨node, _, .child (r := (base.mount seg sub).routes) (by simp [RouteConfig.mount]) h1, h2, by simp [RouteConfig.mount]⟩

theorem Declares.nested {r : Routes} {segs : List PathSegment} {query : List Param} {res : Resource} (h : Declares r segs query res) :
    ∀ more : List Str, Declares (nested more r) (more.map .static ++ segs) query res
  | [] => h
  | s :: more => by
    obtain ⟨node, above, h1, h2, h3⟩ := h.nested more
    exact ⟨node, _, .child (r := .mk [] [.mk (.static s) (Wayfinder.nested more r)] []) (by simp) h1, h2, by simpa using h3⟩

theorem texts_fixed {display : W.V → Str} {segs : List PathSegment} {caps : Caps W} {texts : List Str} (h : Texts display segs caps texts) :
    ∀ more : List Str, Texts display (more.map .static ++ segs) caps (more ++ texts)
  | [] => h
  | s :: more => .static s (texts_fixed h more)

theorem slashed_joined (texts : List Str) : ∀ (more : List Str) (s : Str),
    List.intercalate c!"/" (slashed s more :: texts) = List.intercalate c!"/" (s :: (more ++ texts))
  | [], s => rfl
  | t :: more, s => by
    have := slashed_joined texts more t
    rw [intercalate_flat] at this
    rw [slashed, intercalate_flat, List.cons_append, List.intercalate_cons_cons, ← this]
    simp

/-- **C83, links.** The links to the actions of the mounted configuration are the same in both cases. -/
theorem C83_links {s : Str} {more : List Str} {body body' : List Stmt} {display : W.V → Str}
    (hc : Clean (base.mount (slashed s more) sub)) (h : Supported (base.mount (slashed s more) sub).routes body)
    (hc' : Clean (base.mount s ⟨sub.headers, nested more sub.routes⟩))
    (h' : Supported (base.mount s ⟨sub.headers, nested more sub.routes⟩).routes body')
    {segs : List PathSegment} {query : List Param} {res : Resource} (hd : Declares sub.routes segs query res) (hr : res.isRedirect = false)
    {caps : Caps W} {texts : List Str} (ht : Texts display segs caps texts) :
    linkTo (base.mount (slashed s more) sub) display res caps = some (c!"/" ++ List.intercalate c!"/" (s :: (more ++ texts))) ∧
    linkTo (base.mount s ⟨sub.headers, nested more sub.routes⟩) display res caps = some (c!"/" ++ List.intercalate c!"/" (s :: (more ++ texts))) := by
  constructor
  · rw [linkTo, C45_to_path hc h hd.mounted hr (.static _ ht), slashed_joined]
  · exact C45_to_path hc' h' (Declares.mounted (sub := ⟨sub.headers, nested more sub.routes⟩) (hd.nested more)) hr (.static _ (texts_fixed ht more))

/-- **C83, delegation.** A configuration mounted at a text, which may have slashes, gets the requests whose paths begin with it, slash by
slash, unless the root of the base has both parameters and static children. -/
theorem C83_delegates {seg : Str} (hseg : seg ≠ []) {body : List Stmt} (h : Supported (base.mount seg sub).routes body)
    (hone : paramNames base.routes.routes = [] ∨ staticTexts base.routes.routes = []) :
    Delegates W body [] (bytesOf seg) sub.routes [] base.routes.queryParameters := by
  have hn : NestedRoutes.mk (.static seg) sub.routes ∈ (base.mount seg sub).routes.routes := by simp [RouteConfig.mount]
  obtain ⟨body', hb'⟩ := h.child (.static hn (.here _))
  have hok : LocalOk (base.mount seg sub).routes.routes := h.conditions.1 _ _ _ (.here _)
  have hds := h.distinct _ _ _ (.here _)
  have hone' : paramNames (base.mount seg sub).routes.routes = [] ∨ staticTexts (base.mount seg sub).routes.routes = [seg] := by
    refine hone.imp (fun h => ?_) (fun h => ?_)
    · simpa [RouteConfig.mount, paramNames] using h
    · have : staticTexts (base.mount seg sub).routes.routes = staticTexts base.routes.routes ++ [seg] := by
        simp [RouteConfig.mount, staticTexts]
      rw [this, h]
      rfl
  have hstep := route_static (W := W) (rs := base.routes.resources) (qs := base.routes.queryParameters) hok hds hn rfl hseg hone'
  refine ⟨body', hb', fun rest m => ?_, fun m => ?_⟩
  · rw [call_eq h]
    simp only [stripSlash, if_true]
    exact (hstep _ m [] []).trans ((enter_call hb' _ _ m).1 rest)
  · rw [call_eq h]
    simp only [stripSlash, if_true]
    have := hstep [] m [] []
    rw [List.append_nil] at this
    exact this.trans (enter_call hb' _ _ m).2

/-- **C83, a slash at the beginning.** A configuration mounted at `/seg` leaves the answers to all requests as they are whose paths do not
begin with two slashes. -/
theorem C83_leading {seg : Str} {body body' : List Stmt} (hb : Supported base.routes body) (hm : Supported (base.mount ('/' :: seg) sub).routes body')
    (hone : paramNames base.routes.routes = [] ∨ (staticTexts base.routes.routes).length ≠ 1)
    (path m : Bytes) (hne : stripSlash path ≠ []) (hs : ¬ [slash, slash] <+: path) :
    callMatchRoute W body' path m = callMatchRoute W body path m := by
  refine C19_elsewhere hb hm hone path m hne fun h => hs ?_
  rw [bytesOf_cons] at h
  cases path with
  | nil => exact absurd rfl hne
  | cons b path =>
    simp only [stripSlash] at h
    split at h
    · rename_i hb
      subst hb
      obtain ⟨rest, rfl⟩ := h
      exact ⟨_, rfl⟩
    · rename_i hb
      rw [List.cons_prefix_cons] at h
      exact absurd h.1.symm hb

/-- **C83, links and a slash at the beginning.** The links to its actions then name other hosts. -/
theorem C83_away {seg : Str} {body : List Stmt} {display : W.V → Str} (hc : Clean (base.mount ('/' :: seg) sub))
    (h : Supported (base.mount ('/' :: seg) sub).routes body) {segs : List PathSegment} {query : List Param} {res : Resource}
    (hd : Declares sub.routes segs query res) (hr : res.isRedirect = false) {caps : Caps W} {texts : List Str} (ht : Texts display segs caps texts) :
    ∃ link, linkTo (base.mount ('/' :: seg) sub) display res caps = some link ∧ ¬ OnSite link := by
  refine ⟨_, C45_to_path hc h hd.mounted hr (.static _ ht), ?_⟩
  rw [onSite_texts]
  exact fun h => (h _ _ rfl).1 rfl

/-- **C83, route files.** No route file says what is mounted at a text with slashes. -/
theorem C83_file {cfg : ParseCfg} {seg : Str} (hs : '/' ∈ seg) (i rest : Str) : routeConfig cfg i ≠ .ok rest (base.mount seg sub) := by
  intro h
  have hw := (C29_written cfg h).2
  exact (hw.plain.static (s := seg) (by simp [RouteConfig.mount, staticTexts])).2 hs

end Wayfinder

namespace Wayfinder.Demo
open Rust

/-- A root with a page. -/
def front : Routes :=
  .mk [res .get c!"pages" c!"Index"] [.mk (.static c!"about") (.mk [res .get c!"pages" c!"About"] [] [])] [⟨c!"lang", c!"String"⟩]

/-- A root with a parameter. -/
def wild : Routes := .mk [] [.mk (.dynamic ⟨c!"user", c!"String"⟩) (.mk [res .get c!"pages" c!"Home"] [] [])] []

/-- What is mounted: a list and its elements. -/
def things : Routes :=
  .mk [res .get c!"things" c!"List"] [.mk (.dynamic ⟨c!"id", c!"u32"⟩) (.mk [res .get c!"things" c!"Show"] [] [])] []

/-- A case of `C83_mount`: mounted at `api/v1` next to a page. -/
example (W : World) (path m : Bytes) : callMatchRoute W (bodyOf ((conf front).mount c!"api/v1" (conf things)).routes) path m =
    callMatchRoute W (bodyOf ((conf front).mount c!"api" ⟨[], nested [c!"v1"] things⟩).routes) path m :=
  (C83_mount (base := conf front) (sub := conf things) (s := c!"api") (more := [c!"v1"]) (by simp)
    (supported_of (r := ((conf front).mount c!"api/v1" (conf things)).routes) (by decide +kernel))
    (supported_of (r := ((conf front).mount c!"api" ⟨[], nested [c!"v1"] things⟩).routes) (by decide +kernel))).2 (.inl rfl) W path m

/-- **C83, parameters.** Next to a parameter they are different: with `{user}` at the root, `GET /api` is the home of a user if things are
mounted at `api/v1`, and not found if they are in a block `v1` of a block `api`. -/
theorem C83_parameter : ∃ body body',
    Supported ((conf wild).mount c!"api/v1" (conf things)).routes body ∧
    Supported ((conf wild).mount c!"api" ⟨[], nested [c!"v1"] things⟩).routes body' ∧
    callMatchRoute world body (bytesOf c!"/api") (verbBytes .get) = .route ⟨[c!"pages"], c!"Home", [(c!"user", .user c!"api")], []⟩ ∧
    callMatchRoute world body' (bytesOf c!"/api") (verbBytes .get) = .notFound := by
  have h1 := supported_of (r := ((conf wild).mount c!"api/v1" (conf things)).routes) (by decide +kernel)
  have h2 := supported_of (r := ((conf wild).mount c!"api" ⟨[], nested [c!"v1"] things⟩).routes) (by decide +kernel)
  refine ⟨_, _, h1, h2, ?_, ?_⟩
  · rw [call_eq h1]
    rfl
  · rw [call_eq h2]
    rfl

/-- A case of `C83_links`. -/
example : linkTo (W := world) ((conf front).mount c!"api/v1" (conf things)) (fun t : Str => t) (res .get c!"things" c!"Show")
    [(⟨c!"id", c!"u32"⟩, c!"7")] = some c!"/api/v1/7" :=
  (C83_links (W := world) (display := fun t : Str => t) (base := conf front) (sub := conf things) (s := c!"api") (more := [c!"v1"])
    (clean_of (c := (conf front).mount c!"api/v1" (conf things)) (by decide +kernel))
    (supported_of (r := ((conf front).mount c!"api/v1" (conf things)).routes) (by decide +kernel))
    (clean_of (c := (conf front).mount c!"api" ⟨[], nested [c!"v1"] things⟩) (by decide +kernel))
    (supported_of (r := ((conf front).mount c!"api" ⟨[], nested [c!"v1"] things⟩).routes) (by decide +kernel))
    (segs := [.dynamic ⟨c!"id", c!"u32"⟩]) (query := []) (mem_declared.1 (by decide +kernel)) rfl
    (Texts.dynamic (W := world) (display := fun t : Str => t) _ c!"7" .nil)).1

/-- A case of `C83_away`. -/
example : ∃ link, linkTo (W := world) ((conf front).mount c!"/things" (conf things)) (fun t : Str => t) (res .get c!"things" c!"List") [] = some link ∧
    ¬ OnSite link :=
  C83_away (W := world) (display := fun t : Str => t) (base := conf front) (sub := conf things) (seg := c!"things")
    (clean_of (c := (conf front).mount c!"/things" (conf things)) (by decide +kernel))
    (supported_of (r := ((conf front).mount c!"/things" (conf things)).routes) (by decide +kernel))
    (segs := []) (query := []) (mem_declared.1 (by decide +kernel)) rfl .nil

/-- Cases of `C83_leading` and `C83_delegates`: things mounted at `/things` are not found at `/things` but at `//things`. -/
example : ∃ body, Supported ((conf front).mount c!"/things" (conf things)).routes body ∧
    callMatchRoute world body (bytesOf c!"/things") (verbBytes .get) = .notFound ∧
    callMatchRoute world body (bytesOf c!"//things") (verbBytes .get) = .route ⟨[c!"things"], c!"List", [], [c!"lang"]⟩ := by
  have h1 := supported_of (r := ((conf front).mount c!"/things" (conf things)).routes) (by decide +kernel)
  have h2 := supported_of (r := front) (by decide +kernel)
  refine ⟨_, h1, ?_, ?_⟩
  · rw [C83_leading (base := conf front) h2 h1 (.inl rfl) _ _ (by decide) (by decide +kernel), call_eq h2]
    rfl
  · obtain ⟨body', h3, -, h4⟩ := C83_delegates (W := world) (base := conf front) (sub := conf things) (seg := c!"/things") (by simp) h1 (.inl rfl)
    have := h4 (verbBytes .get)
    refine this.trans ?_
    rw [if_neg (by simp [conf, things, Routes.resources]), call_eq h3]
    rfl

end Wayfinder.Demo
