import Verif.Props.Path
import Verif.Props.Found
import Verif.Tests.Demo
/-!
# C71: what `match_route` does with `FromStr`

The values are passed on as they are, and `FromStr` is asked about pieces of the path only, and only behind a fitting beginning of a
declared route.
-/

namespace Wayfinder

variable {W W' : World}

/-! ## Specification -/

/-- A result with value and error replaced. -/
def mapResult (f : W.V → W'.V) (g : W.E → W'.E) : Except W.E W.V → Except W'.E W'.V
  | .ok v => .ok (f v)
  | .error e => .error (g e)

/-- A value of a variable, with those of `FromStr` replaced. -/
def Val.mapUser (f : W.V → W'.V) : Val W → Val W'
  | .usize n => .usize n
  | .str s => .str s
  | .user v => .user (f v)

/-- The value of a route, with the parameters replaced. -/
def RouteVal.mapUser (f : W.V → W'.V) (v : RouteVal W) : RouteVal W' :=
  ⟨v.modules, v.name, v.params.map fun x => (x.1, x.2.mapUser f), v.nones⟩

/-- An answer, with parameters and errors replaced. -/
def Outcome.mapUser (f : W.V → W'.V) (g : W.E → W'.E) : Outcome W → Outcome W'
  | .notFound => .notFound
  | .notAllowed => .notAllowed
  | .route v => .route (v.mapUser f)
  | .redirect v => .redirect (v.mapUser f)
  | .err x e => .err x (g e)
  | .panic => .panic
  | .rejected => .rejected

/-- The places where `FromStr` has a say: the path `bs` begins with pieces that fit the beginning of a declared route, and `text` is the
piece behind them, where the route has a parameter of type `typ`. -/
def Consulted (W : World) (r : Routes) (bs : Bytes) (typ text : Str) : Prop :=
  ∃ segs p above node caps parts part, HasRoute r (segs ++ [.dynamic p]) above node ∧ Fits W segs caps parts ∧
    GoesOn parts part bs ∧ fromUtf8 part = some text ∧ typ = p.typ

/-! ## Proofs -/

/-- The same for the values captured so far. -/
def mapCaps (f : W.V → W'.V) (caps : Caps W) : Caps W' := caps.map fun x => (x.1, f x.2)

theorem answer_map (f : W.V → W'.V) (g : W.E → W'.E) (rs : List Resource) (q : List Param) (caps : Caps W) (m : Bytes) :
    answer rs q (mapCaps f caps) m = (answer rs q caps m).mapUser f g := by
  unfold answer
  cases rs.find? (fun r => r.method.bytes = m) with
  | none => rfl
  | some x =>
    simp only
    split <;> simp [Outcome.mapUser, RouteVal.mapUser, mapCaps, Function.comp_def, Val.mapUser]

theorem atEnd_map (f : W.V → W'.V) (g : W.E → W'.E) (r : Routes) (q : List Param) (caps : Caps W) (m : Bytes) :
    atEnd m r q (mapCaps f caps) = (atEnd m r q caps).mapUser f g := by
  unfold atEnd
  split
  · rfl
  · exact answer_map f g ..

theorem mapCaps_snoc (f : W.V → W'.V) (caps : Caps W) (p : Param) (v : W.V) :
    mapCaps f caps ++ [(p, f v)] = mapCaps f (caps ++ [(p, v)]) := by simp [mapCaps]

theorem Consulted.child {rs : List Resource} {ns : List NestedRoutes} {qs : List Param} {n : NestedRoutes} (hn : n ∈ ns) {bs : Bytes}
    {typ text : Str} (h : Consulted W (.mk [] [n] []) bs typ text) : Consulted W (.mk rs ns qs) bs typ text := by
  obtain ⟨segs, p, above, node, caps, parts, part, h1, h2⟩ := h
  generalize hr : Routes.mk [] [n] [] = r at h1
  generalize hs : segs ++ [.dynamic p] = segs' at h1
  cases h1 with
  | here => simp at hs
  | @child _ _ seg sub segs1 q hm hr' =>
    subst hr
    have : NestedRoutes.mk seg sub = n := by simpa using hm
    subst this
    exact ⟨segs, p, _, node, caps, parts, part, by rw [hs]; exact .child hn hr', h2⟩

theorem Consulted.static {s : Str} {r : Routes} {rest : Bytes} {typ text : Str} (h : Consulted W r rest typ text) :
    Consulted W (.mk [] [.mk (.static s) r] []) (bytesOf s ++ slash :: rest) typ text := by
  obtain ⟨segs, p, above, node, caps, parts, part, h1, h2, ⟨h3, rest', h4, h5⟩, h6⟩ := h
  refine ⟨.static s :: segs, p, _, node, caps, bytesOf s :: parts, part, .child (List.mem_singleton.2 rfl) h1, .static s h2,
    ⟨h3, rest', ?_, h5⟩, h6⟩
  rw [h4]
  simp [spell]

theorem Consulted.dynamic {p : Param} {r : Routes} {part rest : Bytes} {typ text txt : Str} {v : W.V} (hp : slash ∉ part)
    (ht : fromUtf8 part = some txt) (hv : W.parse p.typ txt = .ok v) (h : Consulted W r rest typ text) :
    Consulted W (.mk [] [.mk (.dynamic p) r] []) (part ++ slash :: rest) typ text := by
  obtain ⟨segs, p', above, node, caps, parts, part', h1, h2, ⟨h3, rest', h4, h5⟩, h6⟩ := h
  refine ⟨.dynamic p :: segs, p', _, node, (p, v) :: caps, part :: parts, part', .child (List.mem_singleton.2 rfl) h1,
    .dynamic hp ht hv h2, ⟨h3, rest', ?_, h5⟩, h6⟩
  rw [h4]
  simp [spell]

theorem Consulted.now {p : Param} {r : Routes} {part rest : Bytes} {text : Str} (hp : slash ∉ part)
    (ht : fromUtf8 part = some text) (hr : rest = [] ∨ ∃ more, rest = slash :: more) :
    Consulted W (.mk [] [.mk (.dynamic p) r] []) (part ++ rest) p.typ text :=
  ⟨[], p, _, r, [], [], part, .child (List.mem_singleton.2 rfl) (.here r), .nil, ⟨hp, rest, by simp [spell], hr⟩, ht, rfl⟩

section
variable (f : W.V → W'.V) (g : W.E → W'.E) (m : Bytes)

mutual
theorem route_map : ∀ (r : Routes) (q : List Param) (caps : Caps W) (bs : Bytes),
    (∀ typ text, Consulted W r bs typ text → W'.parse typ text = mapResult f g (W.parse typ text)) →
    route W' m r q (mapCaps f caps) bs = (route W m r q caps bs).mapUser f g
  | .mk rs ns qs, q, caps, bs, h => by
    have h' : ∀ n ∈ ns, ∀ typ text, Consulted W (.mk [] [n] []) bs typ text →
        W'.parse typ text = mapResult f g (W.parse typ text) := fun n hn typ text hc => h typ text (hc.child hn)
    simp only [route]
    split
    · exact answer_map f g ..
    · split
      · rfl
      · have h1 := routeStatic_map ns (q ++ qs) caps bs h'
        have h2 := fun x => routeParam_map x ns (q ++ qs) caps bs h'
        by_cases hp : preferStatic ns = true
        · simp only [hp, if_true]
          rw [h1]
          cases routeStatic W m ns (q ++ qs) caps bs with
          | some o => rfl
          | none =>
            simp only [Option.map_none]
            cases captor ns with
            | none => rfl
            | some x => exact h2 x
        · simp only [hp]
          cases captor ns with
          | none => rfl
          | some x => exact h2 x
theorem routeStatic_map : ∀ (ns : List NestedRoutes) (q : List Param) (caps : Caps W) (bs : Bytes),
    (∀ n ∈ ns, ∀ typ text, Consulted W (.mk [] [n] []) bs typ text → W'.parse typ text = mapResult f g (W.parse typ text)) →
    routeStatic W' m ns q (mapCaps f caps) bs = (routeStatic W m ns q caps bs).map (Outcome.mapUser f g)
  | [], _, _, _, _ => rfl
  | n :: ns, q, caps, bs, h => by
    simp only [routeStatic]
    rw [routeStatic1_map n q caps bs (h n List.mem_cons_self)]
    cases routeStatic1 W m n q caps bs with
    | some o => rfl
    | none => exact routeStatic_map ns q caps bs fun n hn => h n (List.mem_cons_of_mem _ hn)
theorem routeStatic1_map : ∀ (n : NestedRoutes) (q : List Param) (caps : Caps W) (bs : Bytes),
    (∀ typ text, Consulted W (.mk [] [n] []) bs typ text → W'.parse typ text = mapResult f g (W.parse typ text)) →
    routeStatic1 W' m n q (mapCaps f caps) bs = (routeStatic1 W m n q caps bs).map (Outcome.mapUser f g)
  | .mk (.static s) r, q, caps, bs, h => by
    simp only [routeStatic1]
    split
    · rename_i hp
      obtain ⟨x, rfl⟩ := List.isPrefixOf_iff_prefix.1 hp
      have hd : (bytesOf s ++ x).drop s.length = x := by
        have : s.length = (bytesOf s).length := by simp [bytesOf]
        rw [this, List.drop_left]
      rw [hd]
      cases x with
      | nil => simp only [Option.map_some, atEnd_map f g]
      | cons b rest =>
        simp only
        split
        · rename_i hb
          subst hb
          rw [route_map r q caps rest fun typ text hc => h typ text hc.static]
          rfl
        · rfl
    · rfl
  | .mk (.dynamic _) _, _, _, _, _ => rfl
theorem routeParam_map (x : Str) : ∀ (ns : List NestedRoutes) (q : List Param) (caps : Caps W) (bs : Bytes),
    (∀ n ∈ ns, ∀ typ text, Consulted W (.mk [] [n] []) bs typ text → W'.parse typ text = mapResult f g (W.parse typ text)) →
    routeParam W' m x ns q (mapCaps f caps) bs = (routeParam W m x ns q caps bs).mapUser f g
  | [], _, _, _, _ => rfl
  | n :: ns, q, caps, bs, h => by
    simp only [routeParam]
    rw [routeParam1_map x n q caps bs (h n List.mem_cons_self)]
    cases routeParam1 W m x n q caps bs with
    | some o => rfl
    | none => exact routeParam_map x ns q caps bs fun n hn => h n (List.mem_cons_of_mem _ hn)
theorem routeParam1_map (x : Str) : ∀ (n : NestedRoutes) (q : List Param) (caps : Caps W) (bs : Bytes),
    (∀ typ text, Consulted W (.mk [] [n] []) bs typ text → W'.parse typ text = mapResult f g (W.parse typ text)) →
    routeParam1 W' m x n q (mapCaps f caps) bs = (routeParam1 W m x n q caps bs).map (Outcome.mapUser f g)
  | .mk (.static _) _, _, _, _, _ => rfl
  | .mk (.dynamic p) r, q, caps, bs, h => by
    simp only [routeParam1]
    split
    · have hbs : bs.takeWhile (· ≠ slash) ++ bs.dropWhile (· ≠ slash) = bs := List.takeWhile_append_dropWhile
      have hp : slash ∉ bs.takeWhile (· ≠ slash) := not_mem_takeWhile_slash bs
      have hr : bs.dropWhile (· ≠ slash) = [] ∨ ∃ more, bs.dropWhile (· ≠ slash) = slash :: more := by
        cases hd : bs.dropWhile (· ≠ slash) with
        | nil => exact .inl rfl
        | cons b more =>
          have := List.head?_dropWhile_not (fun b => decide (b ≠ slash)) bs
          rw [hd] at this
          simp at this
          exact .inr ⟨more, by rw [this]⟩
      generalize bs.takeWhile (· ≠ slash) = part at *
      generalize bs.dropWhile (· ≠ slash) = rest at *
      subst hbs
      cases ht : fromUtf8 part with
      | none => rfl
      | some text =>
        simp only
        rw [h p.typ text (.now hp ht hr)]
        cases hv : W.parse p.typ text with
        | error e => rfl
        | ok v =>
          simp only [mapResult]
          cases rest with
          | nil => simp only [mapCaps_snoc, atEnd_map f g, Option.map_some]
          | cons b rest =>
            simp only [mapCaps_snoc]
            have hb : b = slash := by
              rcases hr with hr | ⟨_, hr⟩
              · cases hr
              · exact (List.cons.inj hr).1
            subst hb
            rw [route_map r q _ rest fun typ text' hc => h typ text' (.dynamic hp ht hv hc)]
            rfl
    · rfl
end
end

/-! ## C71 -/

variable {r : Routes} {body : List Stmt}

/-- **C71.** If two behaviours of `FromStr` correspond at all places where `FromStr` has a say, the answers correspond: the same route,
with the corresponding values in the fields, or the corresponding error of the same parameter. -/
theorem C71_asked (h : Supported r body) (f : W.V → W'.V) (g : W.E → W'.E) (path m : Bytes)
    (hp : ∀ typ text, Consulted W r (stripSlash path) typ text → W'.parse typ text = mapResult f g (W.parse typ text)) :
    callMatchRoute W' body path m = (callMatchRoute W body path m).mapUser f g := by
  rw [call_eq h, call_eq h]
  exact route_map f g m r [] [] _ hp

/-- `FromStr` followed by functions on values and errors. -/
def World.after (W : World) {V E : Type} (f : W.V → V) (g : W.E → E) : World where
  V := V
  E := E
  parse := fun typ text => match W.parse typ text with
    | .ok v => .ok (f v)
    | .error e => .error (g e)
  asUsize := fun _ => none

/-- **C71, opaque.** The values and errors of `FromStr` are passed on as they are; nothing in the answer depends on what they are. -/
theorem C71_opaque (h : Supported r body) {V E : Type} (f : W.V → V) (g : W.E → E) (path m : Bytes) :
    callMatchRoute (W.after f g) body path m = (callMatchRoute W body path m).mapUser (W' := W.after f g) f g := by
  refine C71_asked h (W' := W.after f g) f g path m fun typ text _ => ?_
  simp only [World.after]
  cases W.parse typ text <;> rfl

theorem goesOn_mem {parts : List Bytes} (hc : Clear parts) {part bs : Bytes} (h : GoesOn parts part bs) : part ∈ cut bs := by
  obtain ⟨h1, rest, rfl, h2⟩ := h
  induction parts with
  | nil =>
    simp only [spell, List.flatMap_nil, List.nil_append]
    rcases h2 with rfl | ⟨more, rfl⟩
    · rw [List.append_nil, cut_single h1]; simp
    · rw [cut_append_slash h1]; simp
  | cons p ps ih =>
    have := ih hc.tail
    simp only [spell, List.flatMap_cons, List.append_assoc, List.cons_append, List.nil_append] at this ⊢
    rw [cut_append_slash hc.head]
    exact List.mem_cons_of_mem _ this

theorem hasRoute_init {p : PathSegment} : ∀ {segs : List PathSegment} {r node : Routes} {above : List Param},
    HasRoute r (segs ++ [p]) above node → ∃ above' node', HasRoute r segs above' node'
  | [], r, _, _, _ => ⟨[], r, .here r⟩
  | _ :: _, _, _, _, .child hn h => by
    obtain ⟨a, n, h'⟩ := hasRoute_init h
    exact ⟨_, n, .child hn h'⟩

/-- The same values and errors, with another `FromStr`. -/
def World.withParse (W : World) (parse : Str → Str → Except W.E W.V) : World := { W with parse := parse }

/-- **C71, local.** The answer depends on `FromStr` only through what it does with the pieces of the path, for the types of the parameters
of the configuration. -/
theorem C71_local (h : Supported r body) (hp : PlainTexts r) (ha : AsciiTexts r) (parse : Str → Str → Except W.E W.V) (path m : Bytes)
    (hs : ∀ segs above node, HasRoute r segs above node → ∀ p, PathSegment.dynamic p ∈ segs → ∀ text, utf8 text ∈ cut (stripSlash path) →
      parse p.typ text = W.parse p.typ text) :
    callMatchRoute (W.withParse parse) body path m = Outcome.mapUser (W := W) (W' := W.withParse parse) id id (callMatchRoute W body path m) := by
  refine C71_asked h (W := W) (W' := W.withParse parse) id id path m fun typ text hc => ?_
  obtain ⟨segs, p, above, node, caps, parts, part, h1, h2, h3, h4, rfl⟩ := hc
  have hc : Clear parts := by
    obtain ⟨a1, n1, h5⟩ := hasRoute_init h1
    exact fits_clear h5 h2 hp ha
  have h6 := goesOn_mem hc h3
  rw [utf8_of_fromUtf8 h4] at h6
  have := hs _ _ _ h1 p (by simp) text h6
  change parse p.typ text = _
  rw [this]
  cases W.parse p.typ text <;> rfl

/-! ## Cases -/

/-- `FromStr` is asked about `17` at the type `u32`, -/
example : Consulted Demo.world Demo.people (stripSlash (bytesOf c!"/people/17/edit")) c!"u32" c!"17" :=
  ⟨[.static c!"people"], ⟨c!"id", c!"u32"⟩, _, _, [], [bytesOf c!"people"], bytesOf c!"17",
    .child (by exact List.mem_cons_self ..) (.child (List.mem_cons_self ..) (.here _)), .static _ .nil,
    ⟨by decide, bytesOf c!"/edit", by decide, .inr ⟨_, rfl⟩⟩, by decide +kernel, rfl⟩

/-- A `FromStr` that refuses long texts. -/
def shortParse (typ text : Str) : Except Str Str := if text.length ≤ 6 then Demo.world.parse typ text else .error c!"long"

/-- and not about long texts: with a `FromStr` that refuses these, the answer is the same. -/
example (m : Bytes) : callMatchRoute (Demo.world.withParse shortParse)
    (bodyOf Demo.people) (bytesOf c!"/people/17/edit") m =
      Outcome.mapUser (W := Demo.world) (W' := Demo.world.withParse shortParse) id id
        (callMatchRoute Demo.world (bodyOf Demo.people) (bytesOf c!"/people/17/edit") m) := by
  refine C71_local Demo.people_supported Demo.people_plain (asciiTexts_of (by decide)) _ _ _ fun _ _ _ _ p _ text ht => ?_
  have hc : cut (stripSlash (bytesOf c!"/people/17/edit")) = [utf8 c!"people", utf8 c!"17", utf8 c!"edit"] := by decide +kernel
  rw [hc] at ht
  simp only [List.mem_cons, List.not_mem_nil, or_false] at ht
  rcases ht with ht | ht | ht <;> rw [utf8_inj ht] <;> rfl

end Wayfinder
