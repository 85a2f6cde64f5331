import Verif.Proofs.Classify
import Verif.Proofs.Follow
import Verif.Proofs.Naming
import Verif.Tests.Demo
/-!
# Routing: what an answer of a generated `match_route` means

C01, C03, C05, C07, C08, C10, C16, C17.
-/

namespace Wayfinder

variable {W : World}

theorem verbBytes_eq (m : Method) : verbBytes m = m.bytes := by cases m <;> decide

/-- The answer `v`, reported as a redirect iff `redirect`. -/
def Outcome.isMatch (redirect : Bool) (o : Outcome W) (v : RouteVal W) : Prop :=
  o = if redirect then .redirect v else .route v

theorem call_eq {r : Routes} {body : List Stmt} (h : Supported r body) (path m : Bytes) :
    callMatchRoute W body path m = route W m r [] [] (stripSlash path) := by
  rw [h.call W path m, referenceRouter_eq]

theorem answer_isMatch {rs : List Resource} {q : List Param} {caps : Caps W} {m : Bytes}
    {red : Bool} {v : RouteVal W} (h : (answer rs q caps m).isMatch red v) :
    ∃ res, rs.find? (fun r => r.method.bytes = m) = some res ∧ res.isRedirect = red ∧
      v = ⟨res.modules, res.name, caps.map fun pv => (pv.1.name, .user pv.2),
        q.map Param.name ++ res.queryParameters.map Param.name⟩ := by
  simp only [answer, Outcome.isMatch] at h
  cases hf : rs.find? (fun r => r.method.bytes = m) with
  | none => rw [hf] at h; cases red <;> simp at h
  | some res =>
    rw [hf] at h
    refine ⟨res, rfl, ?_⟩
    cases hr : res.isRedirect <;> cases red <;> simp [hr] at h
    all_goals exact ⟨rfl, h.symm⟩

/-- Everything about a match. -/
theorem matched {r : Routes} {body : List Stmt} (h : Supported r body) {path m : Bytes} {red : Bool}
    {v : RouteVal W} (hv : (callMatchRoute W body path m).isMatch red v) :
    ∃ segs above node caps parts res, LiveRoute r segs above node ∧ Fits W segs caps parts ∧
      Spells parts (stripSlash path) ∧ node.resources.find? (fun r => r.method.bytes = m) = some res ∧
      res.isRedirect = red ∧
      v = ⟨res.modules, res.name, caps.map fun pv => (pv.1.name, .user pv.2),
        (above ++ node.queryParameters ++ res.queryParameters).map Param.name⟩ := by
  rw [call_eq h] at hv
  rcases route_classified W r [] [] (stripSlash path) with hc | hc | hc | hc
  · obtain ⟨segs, above, node, caps, parts, h1, h2, h3, h4, h5⟩ := hc
    rw [h5] at hv
    obtain ⟨res, h6, h7, h8⟩ := answer_isMatch hv
    exact ⟨segs, above, node, caps, parts, res, h1, h3, h4, h6, h7, by rw [h8]; simp⟩
  · rw [show route W m r [] [] (stripSlash path) = _ from hc m, Outcome.isMatch] at hv; cases red <;> simp at hv
  · obtain ⟨_, _, _, _, _, _, _, _, _, _, _, _, _, _, h6⟩ := hc
    rw [h6, Outcome.isMatch] at hv; cases red <;> simp at hv
  · rw [show route W m r [] [] (stripSlash path) = _ from hc.1 m, Outcome.isMatch] at hv; cases red <;> simp at hv

theorem find_verb {rs : List Resource} {m : Bytes} {res : Resource}
    (h : rs.find? (fun r => r.method.bytes = m) = some res) :
    res ∈ rs ∧ m = verbBytes res.method ∧ ∃ before after, rs = before ++ res :: after ∧
      ∀ r ∈ before, verbBytes r.method ≠ m := by
  obtain ⟨h1, before, after, h2, h3⟩ := List.find?_eq_some_iff_append.1 h
  refine ⟨by simp [h2], ?_, before, after, h2, ?_⟩
  · rw [verbBytes_eq]; exact (of_decide_eq_true h1).symm
  · intro r hr he
    have := h3 r hr
    rw [verbBytes_eq] at he
    simp [he] at this

/-! ## C01 -/

/-- **C01.** If `match_route(path, method)` answers `Route(v)` or `Redirect(v)`, then `v` names a
declared resource, `method` is its verb and `path`, after one optional leading `/`, spells its route
with every parameter replaced by a text without `/` (with at most one trailing `/`). -/
theorem C01_soundness {r : Routes} {body : List Stmt} (h : Supported r body) {path m : Bytes}
    {red : Bool} {v : RouteVal W} (hv : (callMatchRoute W body path m).isMatch red v) :
    ∃ segs query res caps parts, Declares r segs query res ∧
      res.modules = v.modules ∧ res.name = v.name ∧ m = verbBytes res.method ∧
      Fits W segs caps parts ∧ Spells parts (stripSlash path) := by
  obtain ⟨segs, above, node, caps, parts, res, h1, h2, h3, h4, h5, rfl⟩ := matched h hv
  obtain ⟨h6, h7, _⟩ := find_verb h4
  exact ⟨segs, _, res, caps, parts, ⟨node, above, h1.hasRoute, h6, rfl⟩, rfl, rfl, h7, h2, h3⟩

/-- A request answered with a match, so that C01, C07, C10 and C17 apply. -/
example : Demo.ask Demo.people c!"/people/17/edit/" c!"GET" =
    .route [c!"people"] c!"Edit" [(c!"id", c!"17")] [c!"lang", c!"verbose", c!"tab"] := by
  decide +kernel

/-! ## C16 -/

/-- **C16.** A match is reported as `Redirect` exactly if the matched resource is declared with `->`:
the resource found on the route of the path has the redirect flag of the report. -/
theorem C16_redirects {r : Routes} {body : List Stmt} (h : Supported r body) {path m : Bytes}
    {red : Bool} {v : RouteVal W} (hv : (callMatchRoute W body path m).isMatch red v) :
    ∃ segs query res caps parts, Declares r segs query res ∧ res.modules = v.modules ∧
      res.name = v.name ∧ m = verbBytes res.method ∧ Fits W segs caps parts ∧
      Spells parts (stripSlash path) ∧ res.isRedirect = red := by
  obtain ⟨segs, above, node, caps, parts, res, h1, h2, h3, h4, h5, rfl⟩ := matched h hv
  obtain ⟨h6, h7, _⟩ := find_verb h4
  exact ⟨segs, _, res, caps, parts, ⟨node, above, h1.hasRoute, h6, rfl⟩, rfl, rfl, h7, h2, h3, h5⟩

/-- If no redirect is declared, none is ever reported; if only redirects are declared, no route is. -/
theorem C16_only {r : Routes} {body : List Stmt} (h : Supported r body) (red : Bool)
    (hall : ∀ segs query res, Declares r segs query res → res.isRedirect = !red)
    (path m : Bytes) (v : RouteVal W) : ¬ (callMatchRoute W body path m).isMatch red v := by
  intro hv
  obtain ⟨segs, query, res, _, _, hd, _, _, _, _, _, hr⟩ := C16_redirects h hv
  have := hall segs query res hd
  rw [hr] at this
  cases red <;> simp at this

example : Demo.ask Demo.people c!"old" c!"GET" =
    .redirect [c!"people"] c!"List" [] [c!"lang"] := by decide +kernel

/-! ## C17 -/

/-- **C17.** The matched resource is the first one its route declares for the verb. -/
theorem C17_first_wins {r : Routes} {body : List Stmt} (h : Supported r body) {path m : Bytes}
    {red : Bool} {v : RouteVal W} (hv : (callMatchRoute W body path m).isMatch red v) :
    ∃ segs above node caps parts before res after, HasRoute r segs above node ∧
      Fits W segs caps parts ∧ Spells parts (stripSlash path) ∧
      node.resources = before ++ res :: after ∧ res.modules = v.modules ∧ res.name = v.name ∧
      verbBytes res.method = m ∧ ∀ other ∈ before, verbBytes other.method ≠ m := by
  obtain ⟨segs, above, node, caps, parts, res, h1, h2, h3, h4, h5, rfl⟩ := matched h hv
  obtain ⟨h6, h7, before, after, h8, h9⟩ := find_verb h4
  exact ⟨segs, above, node, caps, parts, before, res, after, h1.hasRoute, h2, h3, h8, rfl, rfl,
    h7.symm, h9⟩

/-- `people::Late` is declared for the same verb after `people::List`. -/
example : Demo.ask Demo.people c!"/people" c!"GET" =
    .route [c!"people"] c!"List" [] [c!"lang"] := by decide +kernel

/-! ## C07 and C10 -/

/-- The value of the field `x`. -/
def RouteVal.field {W : World} (v : RouteVal W) (x : Str) : Option (Val W) :=
  (v.params.find? (fun f => f.1 = x)).map Prod.snd

theorem fits_params {segs : List PathSegment} {caps : Caps W} {parts : List Bytes}
    (h : Fits W segs caps parts) : caps.map (fun pv => pv.1.name) = (routeParams segs).map Param.name := by
  induction h with
  | nil => rfl
  | static s _ ih => simpa [routeParams] using ih
  | dynamic _ _ _ _ ih => simpa [routeParams] using ih

theorem fits_length {segs : List PathSegment} {caps : Caps W} {parts : List Bytes}
    (h : Fits W segs caps parts) : segs.length = parts.length := by
  induction h with
  | nil => rfl
  | static s _ ih => simpa using ih
  | dynamic _ _ _ _ ih => simpa using ih

theorem fits_at {segs : List PathSegment} {caps : Caps W} {parts : List Bytes}
    (h : Fits W segs caps parts) (hnd : ((routeParams segs).map Param.name).Nodup) :
    ∀ (j : Nat) (p : Param), segs[j]? = some (.dynamic p) →
      ∃ part text val, parts[j]? = some part ∧ slash ∉ part ∧ fromUtf8 part = some text ∧
        W.parse p.typ text = .ok val ∧
        ((caps.map fun pv => (pv.1.name, Val.user pv.2)).find? (fun f => f.1 = p.name)).map Prod.snd =
          some (.user val) := by
  induction h with
  | nil => intro j p hj; simp at hj
  | static s _ ih =>
    intro j p hj
    cases j with
    | zero => simp at hj
    | succ j => simpa using ih (by simpa [routeParams] using hnd) j p (by simpa using hj)
  | @dynamic segs caps parts p0 v part text hsl hu hp hf ih =>
    intro j p hj
    have hnd' : p0.name ∉ (routeParams segs).map Param.name ∧
        ((routeParams segs).map Param.name).Nodup := by
      simpa [routeParams] using hnd
    cases j with
    | zero =>
      simp only [List.getElem?_cons_zero, Option.some.injEq, PathSegment.dynamic.injEq] at hj
      subst hj
      exact ⟨part, text, v, rfl, hsl, hu, hp, by simp⟩
    | succ j =>
      rw [List.getElem?_cons_succ] at hj
      obtain ⟨part', text', val', h1, h2, h3, h4, h5⟩ := ih hnd'.2 j p hj
      refine ⟨part', text', val', by simpa using h1, h2, h3, h4, ?_⟩
      have hne : p0.name ≠ p.name := by
        intro he
        apply hnd'.1
        rw [he]
        refine List.mem_map_of_mem ?_
        have := List.mem_of_getElem? hj
        simp only [routeParams, List.mem_filterMap]
        exact ⟨_, this, rfl⟩
      rw [List.map_cons, List.find?_cons_of_neg (by simpa using hne)]
      exact h5

theorem supported_fields {r : Routes} {body : List Stmt} (h : Supported r body) : FieldsDistinct r :=
  (h.conditions).2.1

/-- **C07.** In a match, the parameter fields are exactly the route's parameters, with distinct names,
and the field of the parameter at position `j` of the route holds what `FromStr` of its declared type
gives for exactly the text at position `j` of the path. -/
theorem C07_parameters {r : Routes} {body : List Stmt} (h : Supported r body) {path m : Bytes}
    {red : Bool} {v : RouteVal W} (hv : (callMatchRoute W body path m).isMatch red v) :
    ∃ segs query res parts, Declares r segs query res ∧ res.modules = v.modules ∧
      res.name = v.name ∧ m = verbBytes res.method ∧ Spells parts (stripSlash path) ∧
      segs.length = parts.length ∧
      (∀ (j : Nat) (s : Str), segs[j]? = some (.static s) → parts[j]? = some (bytesOf s)) ∧
      v.params.map Prod.fst = (routeParams segs).map Param.name ∧ (v.params.map Prod.fst).Nodup ∧
      ∀ (j : Nat) (p : Param), segs[j]? = some (.dynamic p) →
        ∃ part text val, parts[j]? = some part ∧ slash ∉ part ∧ fromUtf8 part = some text ∧
          W.parse p.typ text = .ok val ∧ v.field p.name = some (.user val) := by
  obtain ⟨segs, above, node, caps, parts, res, h1, h2, h3, h4, h5, rfl⟩ := matched h hv
  obtain ⟨h6, h7, _⟩ := find_verb h4
  have hnd : ((routeParams segs).map Param.name).Nodup := by
    have := supported_fields h segs above node h1 res h6
    simp only [List.map_append, List.append_assoc] at this
    exact (List.nodup_append.1 this).1
  have hfst : (caps.map fun pv => (pv.1.name, Val.user (W := W) pv.2)).map Prod.fst =
      (routeParams segs).map Param.name := by
    rw [← fits_params h2]; simp
  refine ⟨segs, _, res, parts, ⟨node, above, h1.hasRoute, h6, rfl⟩, rfl, rfl, h7, h3, fits_length h2,
    ?_, hfst, hfst ▸ hnd, ?_⟩
  · clear hnd h3 hfst h1 hv
    induction h2 with
    | nil => intro j s hj; simp at hj
    | static s _ ih =>
      intro j s' hj
      cases j with
      | zero => simp at hj; simp [hj]
      | succ j => simpa using ih j s' (by simpa using hj)
    | dynamic _ _ _ _ ih =>
      intro j s' hj
      cases j with
      | zero => simp at hj
      | succ j => simpa using ih j s' (by simpa using hj)
  · exact fits_at h2 hnd

/-- **C10.** The remaining fields are all `None`: one for each query parameter in scope, namely those
of the enclosing blocks from the outermost on, those of the route itself and those of the resource. -/
theorem C10_query_none {r : Routes} {body : List Stmt} (h : Supported r body) {path m : Bytes}
    {red : Bool} {v : RouteVal W} (hv : (callMatchRoute W body path m).isMatch red v) :
    ∃ segs query res, Declares r segs query res ∧ res.modules = v.modules ∧
      res.name = v.name ∧ m = verbBytes res.method ∧
      v.params.map Prod.fst = (routeParams segs).map Param.name ∧
      v.nones = (query ++ res.queryParameters).map Param.name ∧
      (v.params.map Prod.fst ++ v.nones).Nodup := by
  obtain ⟨segs, above, node, caps, parts, res, h1, h2, h3, h4, h5, rfl⟩ := matched h hv
  obtain ⟨h6, h7, _⟩ := find_verb h4
  have hfst : (caps.map fun pv => (pv.1.name, Val.user (W := W) pv.2)).map Prod.fst =
      (routeParams segs).map Param.name := by
    rw [← fits_params h2]; simp
  refine ⟨segs, _, res, ⟨node, above, h1.hasRoute, h6, rfl⟩, rfl, rfl, h7, hfst, rfl, ?_⟩
  have := supported_fields h segs above node h1 res h6
  simp only [hfst]
  simpa using this

example : Demo.ask Demo.people c!"/people/17" c!"GET" =
    .route [c!"people"] c!"Show" [(c!"id", c!"17")] [c!"lang", c!"verbose"] := by decide +kernel

/-! ## C08 -/

/-- **C08.** An error is reported only if the path goes through an instance of the beginning of a
declared route, all parameters before position `parts.length` having parsed, and `FromStr` of the
parameter at that position fails on exactly the text found there; name and error are those. -/
theorem C08_errors {r : Routes} {body : List Stmt} (h : Supported r body) {path m : Bytes}
    {x : Str} {e : W.E} (hv : callMatchRoute W body path m = .err x e) :
    ∃ segs p above node caps parts part text, HasRoute r (segs ++ [.dynamic p]) above node ∧
      Fits W segs caps parts ∧ GoesOn parts part (stripSlash path) ∧ fromUtf8 part = some text ∧
      W.parse p.typ text = .error e ∧ x = p.name := by
  rw [call_eq h] at hv
  rcases route_classified W r [] [] (stripSlash path) with hc | hc | hc | hc
  · obtain ⟨segs, above, node, caps, parts, h1, h2, h3, h4, h5⟩ := hc
    rw [h5] at hv
    simp only [answer] at hv
    split at hv
    · cases hv
    · split at hv <;> cases hv
  · rw [show route W m r [] [] (stripSlash path) = _ from hc m] at hv; cases hv
  · obtain ⟨segs, p, above, node, caps', parts, part, text, e', h1, h2, h3, h4, h5, h6⟩ := hc
    rw [h6] at hv
    injection hv with hx he
    subst he
    exact ⟨segs, p, above, node, caps', parts, part, text, h1.hasRoute, h2, h3, h4, h5, hx.symm⟩
  · rw [show route W m r [] [] (stripSlash path) = _ from hc.1 m] at hv; cases hv

example : Demo.ask Demo.people c!"/people/x7" c!"GET" = .err c!"id" c!"invalid digit" := by
  decide +kernel

/-! ## C03 -/

/-- **C03.** `NotAllowed` is returned exactly if some other verb gets a match on the same path and this
one does not; and then the path is an instance of a declared route that has resources, none of them
for this verb. Verbs are compared as byte strings. -/
theorem C03_not_allowed {r : Routes} {body : List Stmt} (h : Supported r body) (path m : Bytes) :
    (callMatchRoute W body path m = .notAllowed ↔
      (∃ m' red v, (callMatchRoute W body path m').isMatch red v) ∧
        ¬ ∃ red v, (callMatchRoute W body path m).isMatch red v) ∧
    (callMatchRoute W body path m = .notAllowed →
      ∃ segs above node caps parts, HasRoute r segs above node ∧ node.resources ≠ [] ∧
        Fits W segs caps parts ∧ Spells parts (stripSlash path) ∧
        (∀ res ∈ node.resources, verbBytes res.method ≠ m) ∧
        ∀ res ∈ node.resources, ∃ red v,
          (callMatchRoute W body path (verbBytes res.method)).isMatch red v) := by
  have hmatch : ∀ {rs : List Resource} {q : List Param} {caps : Caps W} {res : Resource}, res ∈ rs →
      ∃ red v, (answer rs q caps (verbBytes res.method)).isMatch red v := by
    intro rs q caps res hres
    simp only [answer]
    cases hf : rs.find? (fun r => r.method.bytes = verbBytes res.method) with
    | none =>
      rw [List.find?_eq_none] at hf
      exact absurd (by simp [verbBytes_eq]) (hf res hres)
    | some res' => exact ⟨res'.isRedirect, _, by simp only [Outcome.isMatch]; rfl⟩
  have hnone : ∀ {rs : List Resource} {q : List Param} {caps : Caps W},
      answer rs q caps m = .notAllowed → ∀ res ∈ rs, verbBytes res.method ≠ m := by
    intro rs q caps ha res hres he
    obtain ⟨red, v, hv⟩ := hmatch (q := q) (caps := caps) hres
    rw [he, ha, Outcome.isMatch] at hv
    cases red <;> simp at hv
  have hno : ∀ o : Outcome W, (∀ red v, o ≠ if red = true then .redirect v else .route v) →
      ¬ ∃ red v, o.isMatch red v := fun o ho ⟨red, v, hv⟩ => ho red v hv
  simp only [call_eq h]
  rcases route_classified W r [] [] (stripSlash path) with hc | hc | hc | hc
  · obtain ⟨segs, above, node, caps, parts, h1, h2, h3, h4, h5⟩ := hc
    simp only [h5]
    constructor
    · constructor
      · intro ha
        obtain ⟨res, hres⟩ := List.exists_mem_of_ne_nil _ h2
        exact ⟨⟨_, hmatch hres⟩, hno _ (by rw [ha]; intro red v; cases red <;> simp)⟩
      · rintro ⟨_, hn⟩
        simp only [answer] at hn ⊢
        cases hf : node.resources.find? (fun r => r.method.bytes = m) with
        | none => rfl
        | some res =>
          rw [hf] at hn
          exact absurd ⟨res.isRedirect, _, by simp only [Outcome.isMatch]; rfl⟩ hn
    · intro ha
      exact ⟨segs, above, node, caps, parts, h1.hasRoute, h2, h3, h4, hnone ha, fun res hres => hmatch hres⟩
  · simp only [hc]
    refine ⟨⟨fun h => (by cases h), ?_⟩, fun h => (by cases h)⟩
    rintro ⟨⟨_, red, v, hv⟩, _⟩
    simp only [Outcome.isMatch] at hv; cases red <;> simp at hv
  · obtain ⟨_, _, _, _, _, _, _, _, _, _, _, _, _, _, h6⟩ := hc
    simp only [h6]
    refine ⟨⟨fun h => (by cases h), ?_⟩, fun h => (by cases h)⟩
    rintro ⟨⟨_, red, v, hv⟩, _⟩
    simp only [Outcome.isMatch] at hv; cases red <;> simp at hv
  · simp only [hc.1]
    refine ⟨⟨fun h => (by cases h), ?_⟩, fun h => (by cases h)⟩
    rintro ⟨⟨_, red, v, hv⟩, _⟩
    simp only [Outcome.isMatch] at hv; cases red <;> simp at hv

example : Demo.ask Demo.people c!"/people" c!"PUT" = .notAllowed ∧
    Demo.ask Demo.people c!"/people" c!"get" = .notAllowed := by decide +kernel

/-! ## C05 -/

/-- **C05.** One leading `/` makes no difference. -/
theorem C05_leading_slash {r : Routes} {body : List Stmt} (h : Supported r body) (path m : Bytes)
    (hp : path.head? ≠ some slash) :
    callMatchRoute W body (slash :: path) m = callMatchRoute W body path m := by
  rw [call_eq h, call_eq h]
  congr 1
  cases path with
  | nil => simp [stripSlash]
  | cons b bs =>
    have : b ≠ slash := fun he => hp (by simp [he])
    simp only [stripSlash, if_true, this, if_false]

example : Demo.ask Demo.people c!"people/5" c!"GET" = Demo.ask Demo.people c!"/people/5" c!"GET" ∧
    (bytesOf c!"people/5").head? ≠ some slash := by decide +kernel

end Wayfinder
