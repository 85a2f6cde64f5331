import Verif.Proofs.Exact
import Verif.Props.Reach
import Verif.Props.Generation
import Verif.Proofs.Clear
/-!
# C47: the exact answer to every request; C02, the exact condition
-/

namespace Wayfinder

variable {W : World} {r : Routes} {body : List Stmt}

theorem call_go (h : Supported r body) (path m : Bytes) :
    callMatchRoute W body path m = go W m r [] [] (cut (stripSlash path)) := by
  rw [call_eq h, route_cut]

theorem not_match {o : Outcome W} (h : o.answered = false) (red : Bool) (v : RouteVal W) : ¬ o.isMatch red v := by
  rintro rfl
  cases red <;> cases h

theorem answer_notAllowed {rs : List Resource} {q : List Param} {caps : Caps W} {m : Bytes} :
    answer rs q caps m = .notAllowed ↔ ∀ res ∈ rs, verbBytes res.method ≠ m := by
  simp only [answer]
  constructor
  · intro h res hres he
    cases hf : rs.find? (fun r => r.method.bytes = m) with
    | some x => rw [hf] at h; simp only at h; split at h <;> cases h
    | none =>
      rw [List.find?_eq_none] at hf
      have := hf res hres
      rw [verbBytes_eq] at he
      simp [he] at this
  · intro h
    have : rs.find? (fun r => r.method.bytes = m) = none := by
      rw [List.find?_eq_none]
      intro x hx
      have := h x hx
      rw [verbBytes_eq] at this
      simpa using this
    rw [this]

/-! ## C47 -/

/-- **C47, matches.** `match_route` returns the match `v` exactly if the pieces of the path arrive at a block,
with nothing left but an optional `/`, and `v` is the match of the first resource of this block for the
verb. -/
theorem C47_match (h : Supported r body) (hp : PlainTexts r) (path m : Bytes) (red : Bool) (v : RouteVal W) :
    (callMatchRoute W body path m).isMatch red v ↔
      ∃ segs above caps node rest before res after,
        Arrives W r segs above caps (cut (stripSlash path)) node rest ∧ Finished rest ∧
        node.resources = before ++ res :: after ∧ m = verbBytes res.method ∧
        (∀ o ∈ before, o.method ≠ res.method) ∧ red = res.isRedirect ∧
        v = matchOf res caps (above ++ node.queryParameters) := by
  rw [call_go h]
  have hs := h.sound hp
  have hc : Clear (cut (stripSlash path)) := cut_slash _
  constructor
  · intro hv
    cases exactly_all W r hs _ hc with
    | answered h1 h2 h3 =>
      rw [go_answered h1 hs hc h2 h3] at hv
      obtain ⟨res, h4, h5, h6⟩ := answer_isMatch hv
      obtain ⟨h7, h8, before, after, h9, h10⟩ := find_verb h4
      exact ⟨_, _, _, _, _, before, res, after, h1, h2, h9, h8, fun o ho he => h10 o ho (by rw [he, h8]), h5.symm,
        by rw [h6]; simp [matchOf]⟩
    | fails h1 h2 h3 h4 => exact absurd hv (not_match (by rw [go_fails h1 hs hc h2 h3 h4]; rfl) _ _)
    | badText h1 h2 h3 => exact absurd hv (not_match (by rw [go_badText h1 hs hc h2 h3]; rfl) _ _)
    | cliff h1 h2 => exact absurd hv (not_match (by rw [go_atCliff h1 hs hc h2]; rfl) _ _)
    | notFound h1 => exact absurd hv (not_match (by rw [h1]; rfl) _ _)
  · rintro ⟨segs, above, caps, node, rest, before, res, after, h1, h2, h3, rfl, h5, rfl, rfl⟩
    rw [go_answered h1 hs hc h2 (by rw [h3]; simp)]
    exact answer_first h3 h5 _ caps

/-- **C47, NotAllowed.** -/
theorem C47_not_allowed (h : Supported r body) (hp : PlainTexts r) (path m : Bytes) :
    callMatchRoute W body path m = .notAllowed ↔
      ∃ segs above caps node rest, Arrives W r segs above caps (cut (stripSlash path)) node rest ∧ Finished rest ∧
        node.resources ≠ [] ∧ ∀ res ∈ node.resources, verbBytes res.method ≠ m := by
  rw [call_go h]
  have hs := h.sound hp
  have hc : Clear (cut (stripSlash path)) := cut_slash _
  constructor
  · intro hv
    cases exactly_all W r hs _ hc with
    | answered h1 h2 h3 =>
      rw [go_answered h1 hs hc h2 h3] at hv
      exact ⟨_, _, _, _, _, h1, h2, h3, answer_notAllowed.1 hv⟩
    | fails h1 h2 h3 h4 => rw [go_fails h1 hs hc h2 h3 h4] at hv; cases hv
    | badText h1 h2 h3 => rw [go_badText h1 hs hc h2 h3] at hv; cases hv
    | cliff h1 h2 => rw [go_atCliff h1 hs hc h2] at hv; cases hv
    | notFound h1 => rw [h1] at hv; cases hv
  · rintro ⟨segs, above, caps, node, rest, h1, h2, h3, h4⟩
    rw [go_answered h1 hs hc h2 h3]
    exact answer_notAllowed.2 h4

/-- **C47, errors.** An error is returned exactly if the pieces arrive at a block where a parameter takes the
next piece and `FromStr` fails on it; whatever comes behind. -/
theorem C47_error (h : Supported r body) (hp : PlainTexts r) (path m : Bytes) (x : Str) (e : W.E) :
    callMatchRoute W body path m = .err x e ↔
      ∃ segs above caps node p sub part more text,
        Arrives W r segs above caps (cut (stripSlash path)) node (part :: more) ∧ Takes node p sub part more ∧
        fromUtf8 part = some text ∧ W.parse p.typ text = .error e ∧ x = p.name := by
  rw [call_go h]
  have hs := h.sound hp
  have hc : Clear (cut (stripSlash path)) := cut_slash _
  constructor
  · intro hv
    cases exactly_all W r hs _ hc with
    | answered h1 h2 h3 =>
      rw [go_answered h1 hs hc h2 h3] at hv
      simp only [answer] at hv
      split at hv
      · cases hv
      · split at hv <;> cases hv
    | fails h1 h2 h3 h4 =>
      rw [go_fails h1 hs hc h2 h3 h4] at hv
      injection hv with hx he
      subst he
      exact ⟨_, _, _, _, _, _, _, _, _, h1, h2, h3, h4, hx.symm⟩
    | badText h1 h2 h3 => rw [go_badText h1 hs hc h2 h3] at hv; cases hv
    | cliff h1 h2 => rw [go_atCliff h1 hs hc h2] at hv; cases hv
    | notFound h1 => rw [h1] at hv; cases hv
  · rintro ⟨segs, above, caps, node, p, sub, part, more, text, h1, h2, h3, h4, rfl⟩
    exact go_fails h1 hs hc h2 h3 h4 m

/-- **C47, panics.** A call panics exactly if the pieces arrive at a block where a parameter takes a piece that
is not UTF-8, or where the path ends with `/` and the generated code indexes past its end. -/
theorem C47_panic (h : Supported r body) (hp : PlainTexts r) (path m : Bytes) :
    callMatchRoute W body path m = .panic ↔
      ∃ segs above caps node part more, Arrives W r segs above caps (cut (stripSlash path)) node (part :: more) ∧
        ((∃ p sub, Takes node p sub part more ∧ fromUtf8 part = none) ∨ (part = [] ∧ more = [] ∧ Cliff node)) := by
  rw [call_go h]
  have hs := h.sound hp
  have hc : Clear (cut (stripSlash path)) := cut_slash _
  constructor
  · intro hv
    cases exactly_all W r hs _ hc with
    | answered h1 h2 h3 =>
      rw [go_answered h1 hs hc h2 h3] at hv
      simp only [answer] at hv
      split at hv
      · cases hv
      · split at hv <;> cases hv
    | fails h1 h2 h3 h4 => rw [go_fails h1 hs hc h2 h3 h4] at hv; cases hv
    | badText h1 h2 h3 => exact ⟨_, _, _, _, _, _, h1, .inl ⟨_, _, h2, h3⟩⟩
    | cliff h1 h2 => exact ⟨_, _, _, _, _, _, h1, .inr ⟨rfl, rfl, h2⟩⟩
    | notFound h1 => rw [h1] at hv; cases hv
  · rintro ⟨segs, above, caps, node, part, more, h1, ⟨p, sub, h2, h3⟩ | ⟨rfl, rfl, h2⟩⟩
    · exact go_badText h1 hs hc h2 h3 m
    · exact go_atCliff h1 hs hc h2 m

/-- **C47, NotFound.** In all other cases, and only in these: wherever the pieces arrive, something is left or
the block has no resources, and no parameter there fails to parse, to be UTF-8 or to be indexed. -/
theorem C47_not_found (h : Supported r body) (hp : PlainTexts r) (path m : Bytes) :
    callMatchRoute W body path m = .notFound ↔
      ∀ segs above caps node rest, Arrives W r segs above caps (cut (stripSlash path)) node rest →
        ¬ (Finished rest ∧ node.resources ≠ []) ∧ ¬ (rest = [[]] ∧ Cliff node) ∧
        ∀ part more p sub, rest = part :: more → Takes node p sub part more →
          ∃ text v, fromUtf8 part = some text ∧ W.parse p.typ text = .ok v := by
  have hs := h.sound hp
  have hc : Clear (cut (stripSlash path)) := cut_slash _
  rw [call_go h]
  constructor
  · intro hv segs above caps node rest ha
    refine ⟨fun ⟨h1, h2⟩ => ?_, fun ⟨h1, h2⟩ => ?_, ?_⟩
    · rw [go_answered ha hs hc h1 h2] at hv
      simp only [answer] at hv
      split at hv
      · cases hv
      · split at hv <;> cases hv
    · subst h1
      rw [go_atCliff ha hs hc h2] at hv; cases hv
    · rintro part more p sub rfl ht
      cases hu : fromUtf8 part with
      | none => rw [go_badText ha hs hc ht hu] at hv; cases hv
      | some text =>
        cases hpa : W.parse p.typ text with
        | error e => rw [go_fails ha hs hc ht hu hpa] at hv; cases hv
        | ok v => exact ⟨text, v, rfl, hpa⟩
  · intro hno
    cases exactly_all W r hs _ hc with
    | answered h1 h2 h3 => exact absurd ⟨h2, h3⟩ (hno _ _ _ _ _ h1).1
    | fails h1 h2 h3 h4 =>
      obtain ⟨text, v, h5, h6⟩ := (hno _ _ _ _ _ h1).2.2 _ _ _ _ rfl h2
      rw [h3] at h5
      cases h5
      rw [h4] at h6; cases h6
    | badText h1 h2 h3 =>
      obtain ⟨text, v, h5, h6⟩ := (hno _ _ _ _ _ h1).2.2 _ _ _ _ rfl h2
      rw [h3] at h5; cases h5
    | cliff h1 h2 => exact absurd ⟨rfl, h2⟩ (hno _ _ _ _ _ h1).2.1
    | notFound h1 => exact h1 m [] []

/-- A request whose pieces arrive: a parameter beside a static sibling, and a trailing `/`. -/
example : Supported Demo.people (bodyOf Demo.people) ∧ PlainTexts Demo.people ∧
    ∃ node, node.resources ≠ [] ∧
      Arrives Demo.world Demo.people [.static c!"people", .dynamic ⟨c!"id", c!"u32"⟩]
        [⟨c!"lang", c!"String"⟩] [(⟨c!"id", c!"u32"⟩, c!"17")] (cut (stripSlash (bytesOf c!"/people/17/"))) node [[]] := by
  refine ⟨Demo.people_supported, Demo.people_plain, ?_⟩
  have e : cut (stripSlash (bytesOf c!"/people/17/")) = [bytesOf c!"people", bytesOf c!"17", []] := by decide
  rw [e]
  refine ⟨.mk [Demo.res .get c!"people" c!"Show"]
            [.mk (.static c!"edit")
              (.mk [⟨.get, [c!"people"], c!"Edit", false, [⟨c!"tab", c!"String"⟩]⟩] [] [])]
            [⟨c!"verbose", c!"bool"⟩], by decide, ?_⟩
  refine .static (r := Demo.people) (above := []) (List.mem_cons_self ..) (.inl (by decide)) ?_
  refine .dynamic (r := .mk _ _ _) (above := []) (text := c!"17")
    ⟨List.mem_cons_self .., by decide, fun s hs => ?_, fun h => absurd h (by decide)⟩ (by decide +kernel) rfl (.here _ _)
  change [c!"new"] = [s] at hs
  cases hs
  decide

/-! ## No choice -/

theorem Arrives.length {r node : Routes} {segs : List PathSegment} {above : List Param} {caps : Caps W}
    {pieces rest : List Bytes} (h : Arrives W r segs above caps pieces node rest) : rest.length ≤ pieces.length := by
  induction h with
  | here => exact Nat.le_refl _
  | static _ _ _ ih => simp; omega
  | dynamic _ _ _ _ ih => simp; omega

theorem Arrives.unique {r node node' : Routes} {segs segs' : List PathSegment} {above above' : List Param}
    {caps caps' : Caps W} {pieces rest rest' : List Bytes} (hs : Sound r)
    (h : Arrives W r segs above caps pieces node rest) (h' : Arrives W r segs' above' caps' pieces node' rest')
    (hl : rest.length = rest'.length) :
    segs = segs' ∧ above = above' ∧ caps = caps' ∧ node = node' ∧ rest = rest' := by
  induction h generalizing segs' above' caps' node' rest' with
  | here =>
    cases h' with
    | here => exact ⟨rfl, rfl, rfl, rfl, rfl⟩
    | static _ _ h' => have := h'.length; simp at hl; omega
    | dynamic _ _ _ h' => have := h'.length; simp at hl; omega
  | @static r sub node s segs above caps pieces rest hn hpre ha ih =>
    generalize hx : bytesOf s :: pieces = ps at h'
    cases h' with
    | here => have := ha.length; rw [← hx] at hl; simp at hl; omega
    | @static _ sub' _ s' _ _ _ _ _ hn' hpre' h' =>
      obtain ⟨hb, rfl⟩ := List.cons.inj hx
      have := static_unique (hs.shapely _ _ _ (.here r)) (hs.distinct _ _ _ (.here r)) hn hn' rfl rfl
        (List.prefix_refl _) (hb ▸ List.prefix_refl _)
      cases this
      obtain ⟨rfl, rfl, rfl, rfl, rfl⟩ := ih (hs.child (.static hn (.here _))) h' hl
      exact ⟨rfl, rfl, rfl, rfl, rfl⟩
    | dynamic ht hu hv h' =>
      obtain ⟨rfl, rfl⟩ := List.cons.inj hx
      rcases hpre with hpre | hpre
      · have := captor_mem ht.first
        rw [hpre] at this
        cases this
      · exact absurd (List.prefix_refl _) (ht.free s hpre)
  | @dynamic r sub node p segs above caps part pieces rest v text ht hu hv ha ih =>
    generalize hx : part :: pieces = ps at h'
    cases h' with
    | here => have := ha.length; rw [← hx] at hl; simp at hl; omega
    | @static _ sub' _ s' _ _ _ _ _ hn' hpre h' =>
      obtain ⟨rfl, rfl⟩ := List.cons.inj hx
      rcases hpre with hpre | hpre
      · have := captor_mem ht.first
        rw [hpre] at this
        cases this
      · exact absurd (List.prefix_refl _) (ht.free s' hpre)
    | dynamic ht' hu' hv' h' =>
      obtain ⟨rfl, rfl⟩ := List.cons.inj hx
      have := dynamic_unique (hs.distinct _ _ _ (.here r)) ht.child ht'.child rfl rfl
        (Option.some.inj (ht.first.symm.trans ht'.first))
      cases this
      cases hu.symm.trans hu'
      cases hv.symm.trans hv'
      obtain ⟨rfl, rfl, rfl, rfl, rfl⟩ := ih (hs.child (.dynamic ht.child ht.first (.here _))) h' hl
      exact ⟨rfl, rfl, rfl, rfl, rfl⟩

theorem Arrives.mem {r node : Routes} {segs : List PathSegment} {above : List Param} {caps : Caps W}
    {pieces rest : List Bytes} (h : Arrives W r segs above caps pieces node rest) : ∀ p ∈ rest, p ∈ pieces := by
  induction h with
  | here => exact fun _ h => h
  | static _ _ _ ih => exact fun p hp => List.mem_cons_of_mem _ (ih p hp)
  | dynamic _ _ _ _ ih => exact fun p hp => List.mem_cons_of_mem _ (ih p hp)

/-- **C47, no choice.** Which block is reached when a given number of pieces is left, on which route and with
which values, is determined by the pieces. -/
theorem C47_unique (h : Supported r body) (hp : PlainTexts r) {node node' : Routes} {segs segs' : List PathSegment}
    {above above' : List Param} {caps caps' : Caps W} {pieces rest rest' : List Bytes}
    (h1 : Arrives W r segs above caps pieces node rest) (h2 : Arrives W r segs' above' caps' pieces node' rest')
    (hl : rest.length = rest'.length) :
    segs = segs' ∧ above = above' ∧ caps = caps' ∧ node = node' ∧ rest = rest' :=
  Arrives.unique (h.sound hp) h1 h2 hl

/-! ## C02, exact -/

theorem Writes.hasRoute {r node : Routes} {segs : List PathSegment} {above : List Param}
    {caps : Caps W} {parts : List Bytes} (h : Writes W r segs above caps parts node) : HasRoute r segs above node := by
  induction h with
  | here => exact .here _
  | static hn _ ih => exact .child hn ih
  | dynamic hn _ _ _ _ _ _ ih => exact .child hn ih

theorem Arrives.hasRoute {r node : Routes} {segs : List PathSegment} {above : List Param} {caps : Caps W}
    {pieces rest : List Bytes} (h : Arrives W r segs above caps pieces node rest) : HasRoute r segs above node :=
  h.live.hasRoute

theorem Arrives.statics {r node : Routes} {segs : List PathSegment} {above : List Param} {caps : Caps W}
    {pieces rest : List Bytes} (h : Arrives W r segs above caps pieces node rest) (hc : Clear pieces) :
    ∀ s, PathSegment.static s ∈ segs → slash ∉ bytesOf s := by
  induction h with
  | here => intro s hs; cases hs
  | static _ _ _ ih =>
    intro s hs
    rcases List.mem_cons.1 hs with he | hs
    · cases he; exact hc.head
    · exact ih hc.tail s hs
  | dynamic _ _ _ _ ih =>
    intro s hs
    rcases List.mem_cons.1 hs with he | hs
    · cases he
    · exact ih hc.tail s hs

/-- Two non-redirect resources with the same module path and name are declared on the same route. -/
theorem declares_unique {r : Routes} (hd : DistinctActions r) {segs segs' : List PathSegment}
    {query query' : List Param} {res res' : Resource} (h : Declares r segs query res) (h' : Declares r segs' query' res')
    (hn : res.isRedirect = false) (hn' : res'.isRedirect = false) (hm : res.modules = res'.modules)
    (hx : res.name = res'.name) : segs = segs' := by
  obtain ⟨m, hm0⟩ := (flattenModules_isSome r).2 hd
  have hroot : modulesRoot r = some (m.finalize c!"routes") := by simp [modulesRoot, hm0]
  have h1 := (C24_actions hroot res.modules _).2 ⟨segs, query, res, h, hn, rfl, rfl⟩
  have h2 := (C24_actions hroot res.modules _).2 ⟨segs', query', res', h', hn', hm, rfl⟩
  obtain ⟨n1, a1, b1⟩ := Rust.hasModule_of (rest := []) (by simpa using h1)
  obtain ⟨n2, a2, b2⟩ := Rust.hasModule_of (rest := []) (by simpa using h2)
  obtain rfl := Rust.hasModule_unique a1 (modulesRoot_spec hroot).1 a2
  have := Rust.key_inj (C24_once hroot a1).1 _ (hasAction_nil.1 b1) _ (hasAction_nil.1 b2) hx
  exact congrArg FlattenedAction.path this

theorem cut_append_slash : ∀ {part : Bytes}, slash ∉ part → ∀ bs, cut (part ++ slash :: bs) = part :: cut bs
  | [], _, bs => by simp [cut]
  | b :: part, h, bs => by
    have hb : b ≠ slash := fun he => h (by simp [he])
    simp only [List.cons_append, cut, hb, if_false]
    rw [cut_append_slash (fun hm => h (by simp [hm]))]

theorem cut_snoc : ∀ bs : Bytes, cut (bs ++ [slash]) = cut bs ++ [[]]
  | [] => by simp [cut]
  | b :: bs => by
    simp only [List.cons_append, cut, cut_snoc bs]
    split
    · rfl
    · cases h : cut bs with
      | nil => exact absurd h (cut_ne_nil bs)
      | cons p ps => rfl

theorem cut_spell : ∀ {parts : List Bytes}, Clear parts → cut (spell parts) = parts ++ [[]]
  | [], _ => rfl
  | p :: ps, hc => by
    have := cut_spell hc.tail
    simp only [spell, List.flatMap_cons, List.append_assoc, List.cons_append, List.nil_append] at this ⊢
    rw [cut_append_slash hc.head, this]

theorem cut_spells {parts : List Bytes} (hc : Clear parts) {bs : Bytes} (h : Spells parts bs) :
    ∃ tail, cut bs = parts ++ tail := by
  rcases h with rfl | h
  · exact ⟨_, cut_spell hc⟩
  · have := cut_spell hc
    rw [← h, cut_snoc] at this
    exact ⟨[], by simpa using this⟩

theorem Arrives.follows {r node : Routes} {segs : List PathSegment} {above : List Param}
    {caps : Caps W} {parts : List Bytes} (h : Writes W r segs above caps parts node) (hd : DistinctSiblings r)
    {node' : Routes} {above' : List Param} {caps' : Caps W} {tail rest : List Bytes}
    (ha : Arrives W r segs above' caps' (parts ++ tail) node' rest) : Follows W r segs above caps parts node := by
  induction h generalizing node' above' caps' rest with
  | here => exact .here _
  | static hn _ ih =>
    generalize hp : (bytesOf _ :: _ ++ tail : List Bytes) = pieces at ha
    cases ha with
    | static hn' hpre ha =>
      obtain ⟨_, rfl⟩ := same_child hd hn hn' rfl
      rw [List.cons_append, List.cons.injEq] at hp
      obtain ⟨_, rfl⟩ := hp
      exact .static hn hpre (ih (distinct_child hd hn) ha)
  | dynamic hn h1 h2 h3 h4 h5 _ ih =>
    generalize hp : (_ :: _ ++ tail : List Bytes) = pieces at ha
    cases ha with
    | dynamic ht hu hv ha =>
      obtain ⟨_, rfl⟩ := same_child hd hn ht.child rfl
      rw [List.cons_append, List.cons.injEq] at hp
      obtain ⟨rfl, rfl⟩ := hp
      exact .dynamic hn ht.first h1 h2 ht.free h4 h5 (ih (distinct_child hd hn) ha)

theorem Writes.clear {r node : Routes} {segs : List PathSegment} {above : List Param}
    {caps : Caps W} {parts : List Bytes} (h : Writes W r segs above caps parts node)
    (hst : ∀ s, PathSegment.static s ∈ segs → slash ∉ bytesOf s) : Clear parts := by
  induction h with
  | here => intro p hp; cases hp
  | static hn _ ih =>
    intro p hp
    rcases List.mem_cons.1 hp with rfl | hp
    · exact hst _ (by simp)
    · exact ih (fun s hs => hst s (by simp [hs])) p hp
  | dynamic hn _ h2 _ _ _ _ ih =>
    intro p hp
    rcases List.mem_cons.1 hp with rfl | hp
    · exact h2
    · exact ih (fun s hs => hst s (by simp [hs])) p hp

/-- **C02, exact.** Let `segs` be a declared route of a supported configuration, written out as a path with
texts for its parameters, and `res` its first resource for its verb, not a redirect.  The request is answered
with `res` and the values of the texts **exactly if** no step of the route is taken over by a sibling
(`Follows`). -/
theorem C02_exact (h : Supported r body) (hp : PlainTexts r) (hd : DistinctActions r) {segs : List PathSegment}
    {above : List Param} {caps : Caps W} {parts : List Bytes} {node : Routes}
    (hw : Writes W r segs above caps parts node) {before after : List Resource} {res : Resource}
    (hres : node.resources = before ++ res :: after) (hfirst : ∀ o ∈ before, o.method ≠ res.method)
    (hred : res.isRedirect = false) {path : Bytes} (hpath : Spells parts (stripSlash path)) :
    callMatchRoute W body path (verbBytes res.method) = .route (matchOf res caps (above ++ node.queryParameters)) ↔
      Follows W r segs above caps parts node := by
  have hs := h.sound hp
  constructor
  · intro hv
    obtain ⟨segs', above', caps', node', rest, before', res', after', h1, h2, h3, h4, h5, h6, h7⟩ :=
      (C47_match h hp path (verbBytes res.method) false _).1 hv
    have he : segs' = segs := declares_unique hd ⟨node', above', h1.hasRoute, by rw [h3]; simp, rfl⟩
      ⟨node, above, hw.hasRoute, by rw [hres]; simp, rfl⟩ h6.symm hred
      (congrArg RouteVal.modules h7).symm (congrArg RouteVal.name h7).symm
    subst he
    have hc : Clear parts := hw.clear fun s hseg => ?_
    · obtain ⟨tail, ht⟩ := cut_spells hc hpath
      rw [ht] at h1
      exact Arrives.follows hw hs.distinct h1
    · exact h1.statics (cut_slash _) s hseg
  · intro hf
    have := C02_follows h hp hf hres hfirst hpath
    rwa [hred] at this

/-- In the project's `commons` example, `/foobar` is written out of a declared route, and does not follow it. -/
example : Supported Demo.commons (bodyOf Demo.commons) ∧ PlainTexts Demo.commons ∧ DistinctActions Demo.commons ∧
    (∃ node, Writes Demo.world Demo.commons [.static c!"foobar"] [] [] [bytesOf c!"foobar"] node ∧
      node.resources = [] ++ Demo.res .get c!"Foo" c!"Bar" :: []) ∧
    Spells [bytesOf c!"foobar"] (stripSlash (bytesOf c!"/foobar")) :=
  ⟨Demo.commons_supported, Demo.commons_plain, by unfold DistinctActions; decide +kernel,
    ⟨_, .static (r := Demo.commons) (List.mem_cons_self ..) (.here _), rfl⟩, .inr (by decide)⟩

/-! ## C09, exact -/

theorem cut_single : ∀ {part : Bytes}, slash ∉ part → cut part = [part]
  | [], _ => rfl
  | b :: part, h => by
    have hb : b ≠ slash := fun he => h (by simp [he])
    simp only [cut, hb, if_false]
    rw [cut_single (fun hm => h (by simp [hm]))]

theorem cut_utf8 (n : Nat) : ∀ (s : Str), (utf8 s).length ≤ n → ∀ p ∈ cut (utf8 s), ∃ t, p = utf8 t := by
  induction n with
  | zero =>
    intro s hs p hp
    have : utf8 s = [] := by simpa using hs
    rw [this] at hp
    exact ⟨[], by simpa [cut] using hp⟩
  | succ n ih =>
    intro s hs p hp
    by_cases hm : slash ∈ utf8 s
    · obtain ⟨a, b, hab, ha⟩ := List.eq_append_cons_of_mem hm
      obtain ⟨s1, s2, _, h1, h2⟩ := utf8_split (d := '/') (by decide) hab
      rw [hab, cut_append_slash ha] at hp
      rcases List.mem_cons.1 hp with rfl | hp
      · exact ⟨s1, h1⟩
      · rw [h2] at hp
        refine ih s2 ?_ p hp
        rw [← h2]
        rw [hab] at hs
        simp at hs
        omega
    · rw [cut_single hm] at hp
      exact ⟨s, by simpa using hp⟩

/-- **C09, exact.** A request with a valid UTF-8 path panics exactly if its pieces arrive, with only the last `/`
left, at a block without resources that has a parameter child next to a single static child of one character. -/
theorem C09_exact (h : Supported r body) (hp : PlainTexts r) (path : Str) (m : Bytes) :
    callMatchRoute W body (utf8 path) m = .panic ↔
      ∃ segs above caps node, Arrives W r segs above caps (cut (stripSlash (utf8 path))) node [[]] ∧ Cliff node := by
  rw [C47_panic h hp]
  constructor
  · rintro ⟨segs, above, caps, node, part, more, h1, ⟨p, sub, h2, h3⟩ | ⟨rfl, rfl, h2⟩⟩
    · obtain ⟨t, ht⟩ := stripSlash_utf8 path
      have hu : ∃ t, part = utf8 t := by
        rw [ht] at h1
        exact cut_utf8 _ t (Nat.le_refl _) part (h1.mem part (by simp))
      obtain ⟨u, rfl⟩ := hu
      rw [fromUtf8_utf8] at h3
      cases h3
    · exact ⟨segs, above, caps, node, h1, h2⟩
  · rintro ⟨segs, above, caps, node, h1, h2⟩
    exact ⟨segs, above, caps, node, [], [], h1, .inr ⟨rfl, rfl, h2⟩⟩

/-- The request `/` of `Demo.cliff`. -/
example : Supported Demo.cliff (bodyOf Demo.cliff) ∧ PlainTexts Demo.cliff ∧ ∃ node,
    Arrives Demo.world Demo.cliff [] [] [] (cut (stripSlash (utf8 c!"/"))) node [[]] ∧ Cliff node :=
  ⟨Demo.cliff_supported, plainTexts_of (by decide), Demo.cliff,
    by rw [utf8_ascii (by decide)]; exact .here _ _, by decide, by decide, _, rfl⟩

end Wayfinder
