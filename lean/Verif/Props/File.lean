import Verif.Proofs.Consume
/-!
# C27–C30: reading and printing route files
-/

namespace Wayfinder

variable (cfg : ParseCfg)

/-! ## C30 -/

/-- The runs of a nom loop: `Loop p i r` if repeating `p` from `i` until it fails, or stops
consuming, ends with `r`. -/
inductive Loop {α : Type} (p : Parser α) : Str → Res (List α) → Prop where
  | stop {i : Str} {c : Ctx} : p i = .error c → Loop p i (.ok i [])
  | abort {i : Str} {c : Ctx} : p i = .failure c → Loop p i (.failure c)
  | stuck {i : Str} {a : α} : p i = .ok i a → Loop p i (.ok i [])
  | step {i rest j : Str} {a : α} {l : List α} : p i = .ok rest a → rest ≠ i → Loop p rest (.ok j l) →
      Loop p i (.ok j (a :: l))
  | stepAbort {i rest : Str} {a : α} {c : Ctx} : p i = .ok rest a → rest ≠ i → Loop p rest (.failure c) →
      Loop p i (.failure c)

theorem loop_many0 {α : Type} {p : Parser α} (hp : Tidy p) : ∀ (n : Nat) (i : Str), i.length ≤ n →
    Loop p i (pMany0 p i)
  | n, i, hn => by
    rw [many0_eq hp]
    cases h : p i with
    | error c => exact .stop h
    | failure c => exact .abort h
    | ok rest a =>
      simp only
      split
      · rename_i e; rw [e] at h; exact .stuck h
      · rename_i hne
        have hlt := hp.shorter h hne
        cases n with
        | zero => omega
        | succ n =>
          have ih := loop_many0 hp n rest (by omega)
          cases hm : pMany0 p rest with
          | ok j l => rw [hm] at ih; exact .step h hne ih
          | error c => rw [hm] at ih; cases ih
          | failure c => rw [hm] at ih; exact .stepAbort h hne ih

/-- **C30, loops.** Every loop of the parser ends: the loops over headers, blank lines, query
parameters, resources and children have finite runs with the result that the model gives. -/
theorem C30_loops (level : Nat) (i : Str) :
    Loop pHeader i (pMany0 pHeader i) ∧ Loop pLineEnding i (pMany0 pLineEnding i) ∧
    Loop (pTerminated (pIdent cfg) (pWs (pTag c!"::"))) i
      (pMany0 (pTerminated (pIdent cfg) (pWs (pTag c!"::"))) i) ∧
    Loop (pTerminated (pQueryParameter cfg level) (pMany1 pLineEnding)) i
      (pMany0 (pTerminated (pQueryParameter cfg level) (pMany1 pLineEnding)) i) ∧
    Loop (pTerminated (pQueryParameter cfg level) pRequireNewline) i
      (pMany0 (pTerminated (pQueryParameter cfg level) pRequireNewline) i) ∧
    Loop (pResource cfg level) i (pMany0 (pResource cfg level) i) ∧
    Loop (nestedRoutes cfg level) i (pMany0 (nestedRoutes cfg level) i) := by
  have h : ∀ {α : Type} {p : Parser α}, Tidy p → Loop p i (pMany0 p i) :=
    fun hp => loop_many0 hp i.length i (Nat.le_refl _)
  exact ⟨h tidy_header, h tidy_lineEnding, h ((tidy_ident cfg).terminated (tidy_tag _).ws),
    h ((tidy_queryParameter cfg level).terminated tidy_lineEnding.many1),
    h ((tidy_queryParameter cfg level).terminated tidy_requireNewline), h (tidy_resource cfg level),
    h (tidy_nested cfg level)⟩

/-- **C30, recursion.** Nesting ends: the bound on the nesting depth that the model works with has no
influence as soon as it exceeds the number of characters, and without it `nested_routes` and `routes`
call each other as in the code. -/
theorem C30_recursion (level : Nat) :
    (∀ (fuel : Nat) (i : Str), i.length < fuel → pNestedRoutes cfg fuel level i = nestedRoutes cfg level i) ∧
    (nestedRoutes cfg level =
      pBind (pPathSegment cfg level) fun segment =>
      pBind (pMany1 pLineEnding) fun _ =>
      pBind (pReturnError (.custom c!"In routes starting here") (pRoutes cfg (level + 1))) fun routes =>
        pPure (.mk segment routes)) ∧
    pRoutes cfg level = pRoutesWith cfg (nestedRoutes cfg level) level := by
  refine ⟨fun fuel i h => nestedRoutes_fuel cfg _ _ level i h (Nat.lt_succ_self _), ?_, routes_eq cfg level⟩
  rw [routes_eq]; exact nestedRoutes_eq cfg level

/-- **C30, consumption.** When a text is accepted nothing remains. -/
theorem C30_consumes {i rest : Str} {c : RouteConfig} (h : routeConfig cfg i = .ok rest c) : rest = [] := by
  have eofs : Yields pEof fun _ => True := yields_true _
  have key : ∀ {α β : Type} (p : Parser α) (f : α → Parser β) (j r : Str) (b : β),
      (∀ a j r b, f a j = .ok r b → r = []) → pBind p f j = .ok r b → r = [] := by
    intro α β p f j r b hf hb
    unfold pBind at hb
    split at hb
    · exact hf _ _ _ _ hb
    · cases hb
    · cases hb
  refine key _ _ _ _ _ (fun _ _ _ _ h => ?_) h
  refine key _ _ _ _ _ (fun _ _ _ _ h => ?_) h
  refine key _ _ _ _ _ (fun _ _ _ _ h => ?_) h
  refine key _ _ _ _ _ (fun _ _ _ _ h => ?_) h
  refine key _ _ _ _ _ (fun _ j r b h => ?_) h
  unfold pBind pEof at h
  cases j with
  | nil => cases h; rfl
  | cons c j => cases h

/-- **C30, positions.** When a text is rejected, every position recorded in the error is a suffix of
the text. -/
theorem C30_positions (i : Str) (c : Ctx)
    (h : routeConfig cfg i = .error c ∨ routeConfig cfg i = .failure c) :
    (∀ j k, c = .code j k → j <:+ i) ∧ ∀ v, c = .list v → ∀ x ∈ v, x.1 <:+ i := by
  have := tidy_routeConfig cfg i
  have hc : c.Within i := by rcases h with h | h <;> rw [h] at this <;> exact this
  constructor
  · rintro j k rfl; exact hc
  · rintro v rfl x hx; exact hc x hx

/-! ## C29 -/

/-- **C29.** Whatever is accepted is well-formed: all names are words, every block has a resource or a
child, and headers are non-empty lines not beginning with `/`. -/
theorem C29_written {i rest : Str} {c : RouteConfig} (h : routeConfig cfg i = .ok rest c) : c.Written cfg :=
  yields_routeConfig cfg _ _ _ h

/-! ## C27 -/

/-- The property in full. -/
def RoundTrips (cfg : ParseCfg) (c : RouteConfig) : Prop := routeConfig cfg c.stringify = .ok [] c

theorem headers_print {r : Str} : ∀ hs : List Header, hs ≠ [] → (∀ h ∈ hs, h.Written) →
    pMany0 pHeader ((hs.map fun h => h.text ++ c!"\n").flatten ++ '\n' :: '/' :: r) = .ok ('/' :: r) hs
  | [], h, _ => absurd rfl h
  | [h], _, hw => by
    obtain ⟨h1, h2, h3⟩ := hw h (by simp)
    have htext : (([h].map fun h => h.text ++ c!"\n").flatten ++ '\n' :: '/' :: r) =
        h.text ++ ('\n' :: '\n' :: '/' :: r) := by simp
    rw [htext, many0_eq tidy_header]
    have hall : ∀ c ∈ h.text, notEol c = true := fun c hc => by simpa [notEol] using h2 c hc
    have hm : pMany1 pLineEnding ('\n' :: '\n' :: '/' :: r) = .ok ('/' :: r) [(), ()] := by
      rw [many1_eq]
      simp only [pLineEnding]
      rw [many0_eq tidy_lineEnding]
      simp only [pLineEnding]
      rw [if_neg (by simp), NoEol.many0 (by intro c hc; simp at hc; subst hc; rfl)]
      rfl
    have hh : pHeader (h.text ++ ('\n' :: '\n' :: '/' :: r)) = .ok ('/' :: r) h := by
      rcases header_eq (h.text ++ ('\n' :: '\n' :: '/' :: r)) with ⟨_, rest, l, h4, h5⟩ | ⟨h4, _⟩
      · rw [List.dropWhile_append_of_pos hall, List.dropWhile_cons, if_neg (by decide), hm] at h4
        cases h4
        rw [h5, List.takeWhile_append_of_pos hall, List.takeWhile_cons, if_neg (by decide), List.append_nil]
      · exfalso
        rcases h4 with h4 | ⟨e, h4⟩
        · cases ht : h.text with
          | nil => exact h1 ht
          | cons c t => rw [ht] at h3 h4; exact h3 h4
        · rw [List.dropWhile_append_of_pos hall, List.dropWhile_cons, if_neg (by decide)] at h4
          cases h4
    have hstop : ∃ c, pHeader ('/' :: r) = .error c := by
      rcases header_eq ('/' :: r) with ⟨h4, _⟩ | ⟨_, h4⟩
      · exact absurd rfl h4
      · exact h4
    obtain ⟨c, hstop⟩ := hstop
    rw [hh]
    simp only
    rw [if_neg, many0_eq tidy_header, hstop]
    · rfl
    · intro e
      have := congrArg List.length e
      simp at this
      omega
  | h :: h' :: hs, _, hw => by
    obtain ⟨h1, h2, h3⟩ := hw h (by simp)
    have ih := headers_print (r := r) (h' :: hs) (by simp) fun x hx => hw x (by simp [hx])
    obtain ⟨h1', h2', _⟩ := hw h' (by simp)
    generalize hi : ((h' :: hs).map fun h => h.text ++ c!"\n").flatten ++ '\n' :: '/' :: r = i at ih
    have htext : (((h :: h' :: hs).map fun h => h.text ++ c!"\n").flatten ++ '\n' :: '/' :: r) =
        h.text ++ ('\n' :: i) := by rw [← hi]; simp
    have hno : NoEol i := by
      rw [← hi]
      cases ht : h'.text with
      | nil => exact absurd ht h1'
      | cons c t =>
        intro d hd
        simp [ht] at hd
        subst hd
        simpa [notEol] using h2' c (by simp [ht])
    rw [htext, many0_eq tidy_header]
    have hall : ∀ c ∈ h.text, notEol c = true := fun c hc => by simpa [notEol] using h2 c hc
    have hh : pHeader (h.text ++ ('\n' :: i)) = .ok i h := by
      rcases header_eq (h.text ++ ('\n' :: i)) with ⟨_, rest, l, h4, h5⟩ | ⟨h4, _⟩
      · rw [List.dropWhile_append_of_pos hall, List.dropWhile_cons, if_neg (by decide), hno.many1] at h4
        cases h4
        rw [h5, List.takeWhile_append_of_pos hall, List.takeWhile_cons, if_neg (by decide), List.append_nil]
      · exfalso
        rcases h4 with h4 | ⟨e, h4⟩
        · cases ht : h.text with
          | nil => exact h1 ht
          | cons c t => rw [ht] at h3 h4; exact h3 h4
        · rw [List.dropWhile_append_of_pos hall, List.dropWhile_cons, if_neg (by decide)] at h4
          cases h4
    rw [hh]
    simp only
    rw [if_neg, ih]
    · rfl
    · intro e
      have := congrArg List.length e
      simp at this
      omega

/-- The headers of a printed configuration are read back. -/
theorem config_headers {headers : List Header} (hh : ∀ h ∈ headers, h.Written) (routes : Routes) :
    pMany0 pHeader (RouteConfig.stringify ⟨headers, routes⟩) =
      .ok (c!"/\n" ++ routes.stringify 1) headers := by
  cases hh0 : headers with
  | nil =>
    simp only [RouteConfig.stringify, List.map_nil, List.flatten_nil, ne_eq, not_true_eq_false, if_false,
      List.nil_append]
    rw [many0_eq tidy_header]
    rcases header_eq (c!"/\n" ++ routes.stringify 1) with ⟨h4, _⟩ | ⟨_, c, h4⟩
    · exact absurd rfl h4
    · rw [h4]
  | cons h hs =>
    rw [← hh0]
    have hne : (headers.map fun h => h.text ++ c!"\n").flatten ≠ c!"" := by
      rw [hh0]; simp
    simp only [RouteConfig.stringify]
    rw [if_pos hne]
    have := headers_print (r := '\n' :: routes.stringify 1) headers (by simp [hh0]) hh
    simpa using this

/-- **C27 (partial).** Printing and parsing gives the configuration back, for every configuration
that a route file can express and that the printer can indent.

Missing: deeper configurations, for which the property fails (`C27_roundtrip_false`). -/
theorem C27_roundtrip_partial {c : RouteConfig} (hw : c.Written cfg) (hs : Shallow c.routes) :
    RoundTrips cfg c := by
  obtain ⟨headers, routes⟩ := c
  obtain ⟨hh, hr⟩ := hw
  have hd : Deep 1 routes := fun segs q node h => hs segs q node h
  have hprint := routes_print cfg routes 1 [] hr hd ⟨0, [], .inr rfl, rfl, by simp [Plain]⟩
  rw [List.append_nil, ← routes_eq] at hprint
  have hstart : NoEol (routes.stringify 1) := by
    obtain ⟨rs, ns, qs⟩ := routes
    obtain ⟨hne, _, _, hns⟩ := (written_mk cfg).1 hr
    simp only [Routes.stringify]
    cases qs with
    | cons q qs => intro c hc; simp [stringifyParams, indent] at hc; subst hc; rfl
    | nil =>
      cases rs with
      | cons x rs => intro c hc; simp [stringifyParams, stringifyResources, Resource.stringify, indent] at hc; subst hc; rfl
      | nil =>
        cases ns with
        | nil => simp at hne
        | cons n ns =>
          obtain ⟨seg, sub⟩ := n
          intro c hc
          simp [stringifyParams, stringifyResources, stringifyNested, NestedRoutes.stringify, indent] at hc
          subst hc; rfl
  have hheads := config_headers hh routes
  unfold RoundTrips
  unfold routeConfig
  conv => lhs; unfold pBind
  rw [hheads]
  simp only
  conv => lhs; unfold pBind
  rw [NoEol.many0 (by intro c hc; simp at hc; subst hc; rfl)]
  simp only
  conv => lhs; unfold pBind
  rw [show pChar '/' (c!"/\n" ++ routes.stringify 1) = .ok ('\n' :: routes.stringify 1) '/' by simp [pChar]]
  simp only
  conv => lhs; unfold pBind
  rw [hstart.many1]
  simp only
  conv => lhs; unfold pBind
  rw [hprint]
  simp only [pBind, pEof, pPure, Res.ok.injEq, true_and, RouteConfig.mk.injEq, and_true]
  rw [List.filter_eq_self]
  intro h hm
  have := (hh h hm).1
  simp only [bne_iff_ne, ne_eq]
  intro he
  exact this (List.length_eq_zero_iff.1 he)

/-- **C27, the exact limit.** The printed text of a configuration that the printer cannot indent is
rejected by the parser. -/
theorem C27_too_deep {c : RouteConfig} (hw : c.Written cfg) (hs : ¬ Shallow c.routes) (rest : Str)
    (c' : RouteConfig) : routeConfig cfg c.stringify ≠ .ok rest c' := by
  obtain ⟨headers, routes⟩ := c
  obtain ⟨hh, hr⟩ := hw
  intro h
  -- the accepted text has no dashes except in arrows
  have hd : Dashes (routes.stringify 1) := by
    have hrest := C30_consumes cfg h
    subst hrest
    unfold routeConfig at h
    conv at h => lhs; unfold pBind
    rw [config_headers hh routes] at h
    simp only at h
    conv at h => lhs; unfold pBind
    rw [NoEol.many0 (by intro c hc; simp at hc; subst hc; rfl)] at h
    simp only at h
    conv at h => lhs; unfold pBind
    rw [show pChar '/' (c!"/\n" ++ routes.stringify 1) = .ok ('\n' :: routes.stringify 1) '/' by
      simp [pChar]] at h
    simp only at h
    have heats : Eats (pBind (pMany1 pLineEnding) fun _ => pBind (pRoutes cfg 1) fun routes =>
        pBind pEof fun _ => pPure (⟨headers.filter fun h => h.text.length != 0, routes⟩ : RouteConfig)) := by
      refine eats_lineEnding.many1.bind fun _ => (eats_routes cfg 1).bind fun _ => Eats.bind ?_ fun _ => eats_pure _
      intro i rest a h
      unfold pEof at h
      split at h <;> cases h
      exact ⟨[], rfl, dashes_of_not_mem (by simp)⟩
    obtain ⟨u, hu, hd⟩ := heats _ _ _ h
    rw [List.append_nil] at hu
    subst hu
    intro a b hab
    exact hd ('\n' :: a) b (by rw [hab]; rfl)
  -- the printed text has
  apply hs
  intro segs q node hroute
  obtain ⟨_, hne, _, _⟩ := hr segs q node hroute
  have hinf := hasRoute_infix hroute 1
  constructor
  · refine Nat.le_of_not_lt fun hlt => ?_
    exact dash_infix hlt ((block_dashes hne _).trans hinf) hd
  · intro x hx hq
    refine Nat.le_of_not_lt fun hlt => ?_
    exact dash_infix hlt ((resource_dashes hx hq _).trans hinf) hd

/-- **C27, exactly.** A configuration that a route file can express survives printing and parsing if
and only if the printer can indent it. -/
theorem C27_exact {c : RouteConfig} (hw : c.Written cfg) : RoundTrips cfg c ↔ Shallow c.routes := by
  constructor
  · intro h
    refine Classical.byContradiction fun hs => ?_
    exact C27_too_deep cfg hw hs _ _ h
  · exact C27_roundtrip_partial cfg hw

mutual
/-- Nesting depth. -/
def Routes.height : Routes → Nat
  | .mk _ ns _ => heightL ns
/-- Nesting depth below a list of children. -/
def heightL : List NestedRoutes → Nat
  | [] => 0
  | n :: ns => max n.height (heightL ns)
/-- Nesting depth of a child. -/
def NestedRoutes.height : NestedRoutes → Nat
  | .mk _ r => r.height + 1
end

mutual
theorem height_route : ∀ r : Routes, ∃ segs q node, HasRoute r segs q node ∧ segs.length = r.height
  | .mk rs ns qs => by
    rcases heightL_route ns with h | ⟨seg, sub, segs, q, node, hm, hr, hl⟩
    · exact ⟨_, _, _, .here _, by simp [Routes.height, h]⟩
    · exact ⟨_, _, _, .child (r := .mk rs ns qs) hm hr, by simp [Routes.height, hl]⟩
theorem heightL_route : ∀ ns : List NestedRoutes, heightL ns = 0 ∨ ∃ seg sub segs q node,
    NestedRoutes.mk seg sub ∈ ns ∧ HasRoute sub segs q node ∧ segs.length + 1 = heightL ns
  | [] => .inl rfl
  | n :: ns => by
    right
    have h1 := nheight_route n
    have h2 := heightL_route ns
    simp only [heightL]
    obtain ⟨seg, sub, segs, q, node, rfl, hr, hl⟩ := h1
    rcases h2 with h2 | ⟨seg', sub', segs', q', node', hm', hr', hl'⟩
    · exact ⟨seg, sub, segs, q, node, by simp, hr, by rw [h2]; omega⟩
    · rcases Nat.le_total (heightL ns) (NestedRoutes.mk seg sub).height with h | h
      · exact ⟨seg, sub, segs, q, node, by simp, hr, by omega⟩
      · exact ⟨seg', sub', segs', q', node', by simp [hm'], hr', by omega⟩
theorem nheight_route : ∀ n : NestedRoutes, ∃ seg sub segs q node, n = .mk seg sub ∧
    HasRoute sub segs q node ∧ segs.length + 1 = n.height
  | .mk seg sub => by
    obtain ⟨segs, q, node, hr, hl⟩ := height_route sub
    exact ⟨seg, sub, segs, q, node, rfl, hr, by simp [NestedRoutes.height, hl]⟩
end

theorem not_shallow {r : Routes} (h : 7 ≤ r.height) : ¬ Shallow r := by
  obtain ⟨segs, q, node, hr, hl⟩ := height_route r
  intro hs
  have := (hs segs q node hr).1
  omega

/-- Only ASCII letters and digits are alphanumeric. -/
def asciiOnly (b : Bool) : ParseCfg := ⟨fun _ => false, b, b⟩

/-- A file eight levels deep. -/
def towerText : Str :=
  c!"/\n  x\n    x\n      x\n        x\n          x\n            x\n              x\n                GET m::A\n"

theorem tower_accepted (b : Bool) : ∃ c, routeConfig (asciiOnly b) towerText = .ok [] c ∧ ¬ Shallow c.routes := by
  have key : (match routeConfig (asciiOnly b) towerText with
    | .ok _ c => decide (7 ≤ c.routes.height)
    | _ => false) = true := by
    cases b <;> decide +kernel
  cases h : routeConfig (asciiOnly b) towerText with
  | error c => rw [h] at key; cases key
  | failure c => rw [h] at key; cases key
  | ok rest c =>
    rw [h] at key
    have := C30_consumes _ h
    subst this
    exact ⟨c, rfl, not_shallow (of_decide_eq_true key)⟩

/-- C27 is false in general: the configuration read from a file eight levels deep is printed with
dashes, and the result is not even accepted. -/
theorem C27_roundtrip_false (b : Bool) : ∃ c : RouteConfig, c.Written (asciiOnly b) ∧
    ¬ RoundTrips (asciiOnly b) c ∧ ∀ rest c', routeConfig (asciiOnly b) c.stringify ≠ .ok rest c' := by
  obtain ⟨c, h1, h2⟩ := tower_accepted b
  have hw := C29_written _ h1
  exact ⟨c, hw, C27_too_deep _ hw h2 _ _, C27_too_deep _ hw h2⟩

/-- C28 is false in general, by the same file. -/
theorem C28_idempotent_false (b : Bool) : ∃ (i : Str) (c : RouteConfig),
    routeConfig (asciiOnly b) i = .ok [] c ∧ ∀ rest c', routeConfig (asciiOnly b) c.stringify ≠ .ok rest c' := by
  obtain ⟨c, h1, h2⟩ := tower_accepted b
  exact ⟨_, c, h1, C27_too_deep _ (C29_written _ h1) h2⟩

/-- **C28 (partial).** If a text is accepted, printing the result and parsing it again gives the same
configuration, provided the printer can indent it.

Missing: deeper configurations, for which the property fails (`C28_idempotent_false`). -/
theorem C28_idempotent_partial {i rest : Str} {c : RouteConfig} (h : routeConfig cfg i = .ok rest c)
    (hs : Shallow c.routes) : routeConfig cfg c.stringify = .ok [] c :=
  C27_roundtrip_partial cfg (C29_written cfg h) hs

/-- **C28, exact.** The result of an accepted text survives printing and parsing exactly if the printer can indent
it; otherwise the printed text is not accepted at all. -/
theorem C28_exact {i rest : Str} {c : RouteConfig} (h : routeConfig cfg i = .ok rest c) :
    (routeConfig cfg c.stringify = .ok [] c ↔ Shallow c.routes) ∧
    (¬ Shallow c.routes → ∀ rest' c', routeConfig cfg c.stringify ≠ .ok rest' c') :=
  ⟨C27_exact cfg (C29_written cfg h), C27_too_deep cfg (C29_written cfg h)⟩

/-- Printed configurations are fixed points of reading and printing. -/
theorem C28_normal_form {c c' : RouteConfig} {rest : Str} (hw : c.Written cfg) (hs : Shallow c.routes)
    (h : routeConfig cfg c.stringify = .ok rest c') : c'.stringify = c.stringify := by
  have := C27_roundtrip_partial cfg hw hs
  unfold RoundTrips at this
  rw [this] at h
  cases h; rfl

/-- A file with headers, blank lines, CRLF, a redirect and query parameters at both places. -/
def sampleText : Str :=
  c!"use a::B;\r\n\nuse c::D;\n\n/\n  [ lang : String ]\n  get -> people :: List\n\n  people\n    GET people::List\n      [page:u32]\n    {id: u32}\n      Post people::Save\n"

/-- The sample is accepted and survives printing and parsing (the hypotheses of C27–C29 are met). -/
example : (match routeConfig (asciiOnly false) sampleText with
    | .ok rest c => decide (rest = [] ∧ c.headers.length = 2 ∧ c.routes.height = 2 ∧ c.stringify =
        c!"use a::B;\nuse c::D;\n\n/\n  [lang: String]\n  GET -> people::List\n  people\n    GET people::List\n      [page: u32]\n    {id: u32}\n      POST people::Save\n")
    | _ => false) = true := by decide +kernel

/-- A rejected text, with two positions. -/
example : (match routeConfig (asciiOnly false) c!"/\n  x\n" with
    | .failure c => decide (c = .list [(c!"  x\n", .many1),
        (c!"  x\n", .custom c!"Expected resources or child routes")])
    | _ => false) = true := by decide +kernel

end Wayfinder
