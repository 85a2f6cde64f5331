import Verif.Proofs.Print
/-!
# Dashes in accepted texts

The parsers of the block structure accept a dash only in `->`.
-/

namespace Wayfinder

variable {α β : Type}

/-- Every dash is followed by `>`. -/
def Dashes (u : Str) : Prop := ∀ a b, u = a ++ '-' :: b → ∃ b', b = '>' :: b'

theorem dashes_of_not_mem {u : Str} (h : '-' ∉ u) : Dashes u := by
  rintro a b rfl; simp at h

theorem Dashes.append {u v : Str} (hu : Dashes u) (hv : Dashes v) : Dashes (u ++ v) := by
  intro a b h
  rcases List.append_eq_append_iff.1 h with ⟨x, h1, h2⟩ | ⟨x, h1, h2⟩
  · exact hv x b h2
  · cases x with
    | nil =>
      exact hv [] b (by simpa using h2.symm)
    | cons c x =>
      simp only [List.cons_append, List.cons.injEq] at h2
      obtain ⟨rfl, rfl⟩ := h2
      obtain ⟨b', rfl⟩ := hu a x h1
      exact ⟨b' ++ v, rfl⟩

/-- What `p` consumes satisfies `Dashes`. -/
def Eats (p : Parser α) : Prop := ∀ i rest a, p i = .ok rest a → ∃ u, i = u ++ rest ∧ Dashes u

theorem eats_pure (a : α) : Eats (pPure a) := by
  intro i rest b h; cases h; exact ⟨[], rfl, dashes_of_not_mem (by simp)⟩

theorem Eats.bind {p : Parser α} {f : α → Parser β} (hp : Eats p) (hf : ∀ a, Eats (f a)) : Eats (pBind p f) := by
  intro i rest b h
  unfold pBind at h
  split at h
  · rename_i r a e
    obtain ⟨u, rfl, hu⟩ := hp _ _ _ e
    obtain ⟨v, rfl, hv⟩ := hf a _ _ _ h
    exact ⟨u ++ v, by simp, hu.append hv⟩
  · cases h
  · cases h

theorem Eats.map {p : Parser α} (hp : Eats p) (f : α → β) : Eats (pMap f p) := hp.bind fun _ => eats_pure _

theorem Eats.preceded {p : Parser α} {q : Parser β} (hp : Eats p) (hq : Eats q) : Eats (pPreceded p q) :=
  hp.bind fun _ => hq

theorem Eats.terminated {p : Parser α} {q : Parser β} (hp : Eats p) (hq : Eats q) : Eats (pTerminated p q) :=
  hp.bind fun _ => hq.bind fun _ => eats_pure _

theorem eats_tag {t : Str} (ht : Dashes t) : Eats (pTag t) := by
  intro i rest a h
  unfold pTag at h
  split at h
  · rename_i hp
    cases h
    rw [List.isPrefixOf_iff_prefix] at hp
    obtain ⟨v, rfl⟩ := hp
    exact ⟨t, by simp, ht⟩
  · cases h

theorem eats_tagNoCase {t : Str} (ht : '-' ∉ t.map asciiLower) : Eats (pTagNoCase t) := by
  intro i rest a h
  unfold pTagNoCase at h
  split at h
  · rename_i hp
    cases h
    refine ⟨i.take t.length, by simp, dashes_of_not_mem fun hm => ht ?_⟩
    rw [List.isPrefixOf_iff_prefix] at hp
    have : t.map asciiLower = (i.take t.length).map asciiLower := by
      obtain ⟨v, hv⟩ := hp
      rw [List.map_take, ← hv]
      simp
    rw [this]
    have hd : asciiLower '-' = '-' := by decide
    rw [← hd]
    exact List.mem_map_of_mem hm
  · cases h

theorem eats_char {c : Char} (hc : c ≠ '-') : Eats (pChar c) := by
  intro i rest a h
  unfold pChar at h
  split at h
  · split at h
    · rename_i e; cases h; subst e; exact ⟨[_], rfl, dashes_of_not_mem (by simpa using Ne.symm hc)⟩
    · cases h
  · cases h

theorem eats_takeWhile1 {f : Char → Bool} (hf : f '-' = false) : Eats (pTakeWhile1 f) := by
  intro i rest a h
  unfold pTakeWhile1 at h
  split at h
  · cases h
  · cases h
    refine ⟨i.takeWhile f, by simp, dashes_of_not_mem fun hm => ?_⟩
    have := List.all_takeWhile (p := f) (l := i)
    rw [List.all_eq_true] at this
    have := this _ hm
    rw [hf] at this; cases this

theorem eats_lineEnding : Eats pLineEnding := by
  intro i rest a h
  unfold pLineEnding at h
  split at h
  · cases h; exact ⟨c!"\n", rfl, dashes_of_not_mem (by decide)⟩
  · cases h; exact ⟨c!"\r\n", rfl, dashes_of_not_mem (by decide)⟩
  · cases h

theorem Eats.many0Loop {p : Parser α} (hp : Eats p) : ∀ fuel i acc rest l, many0Loop p fuel i acc = .ok rest l →
    ∃ u, i = u ++ rest ∧ Dashes u
  | 0, i, acc, rest, l, h => by cases h; exact ⟨[], rfl, dashes_of_not_mem (by simp)⟩
  | fuel + 1, i, acc, rest, l, h => by
    unfold Wayfinder.many0Loop at h
    split at h
    · cases h; exact ⟨[], rfl, dashes_of_not_mem (by simp)⟩
    · cases h
    · rename_i r a e
      split at h
      · cases h; exact ⟨[], rfl, dashes_of_not_mem (by simp)⟩
      · obtain ⟨u, rfl, hu⟩ := hp _ _ _ e
        obtain ⟨v, rfl, hv⟩ := Eats.many0Loop hp fuel _ _ _ _ h
        exact ⟨u ++ v, by simp, hu.append hv⟩

theorem Eats.many0 {p : Parser α} (hp : Eats p) : Eats (pMany0 p) := fun _ _ _ h => hp.many0Loop _ _ _ _ _ h

theorem Eats.many1 {p : Parser α} (hp : Eats p) : Eats (pMany1 p) := by
  intro i rest l h
  unfold pMany1 at h
  split at h
  · cases h
  · cases h
  · rename_i r a e
    obtain ⟨u, rfl, hu⟩ := hp _ _ _ e
    obtain ⟨v, rfl, hv⟩ := hp.many0Loop _ _ _ _ _ h
    exact ⟨u ++ v, by simp, hu.append hv⟩

theorem Eats.count {p : Parser α} (hp : Eats p) (n : Nat) : Eats (pCount p n) := by
  have key : ∀ n start i acc rest l, countLoop p start n i acc = .ok rest l → ∃ u, i = u ++ rest ∧ Dashes u := by
    intro n
    induction n with
    | zero => intro start i acc rest l h; cases h; exact ⟨[], rfl, dashes_of_not_mem (by simp)⟩
    | succ n ih =>
      intro start i acc rest l h
      unfold countLoop at h
      split at h
      · rename_i r a e
        obtain ⟨u, rfl, hu⟩ := hp _ _ _ e
        obtain ⟨v, rfl, hv⟩ := ih _ _ _ _ _ h
        exact ⟨u ++ v, by simp, hu.append hv⟩
      · cases h
      · cases h
  exact fun i rest l h => key _ _ _ _ _ _ h

theorem Eats.returnError {p : Parser α} (hp : Eats p) (k : Kind) : Eats (pReturnError k p) := by
  intro i rest a h
  unfold pReturnError at h
  split at h <;> cases h
  rename_i e; exact hp _ _ _ e

theorem eats_alt (b : Bool) {ps : List (Parser α)} (hp : ∀ p ∈ ps, Eats p) : Eats (pAlt b ps) := by
  intro i rest a h
  obtain ⟨p, hm, e⟩ := alt_ok h
  exact hp p hm _ _ _ e

theorem dashes_ws {u : Str} (h : ∀ c ∈ u, isWs c = true) : Dashes u :=
  dashes_of_not_mem fun hm => by have := h _ hm; revert this; decide

theorem takeWs (i : Str) : ∀ c ∈ i.takeWhile isWs, isWs c = true := by
  have := List.all_takeWhile (p := isWs) (l := i)
  rwa [List.all_eq_true] at this

theorem Eats.ws {p : Parser α} (hp : Eats p) : Eats (pWs p) := by
  intro i rest a h
  unfold pWs at h
  split at h <;> cases h
  rename_i r e
  obtain ⟨u, hi, hu⟩ := hp _ _ _ e
  refine ⟨i.takeWhile isWs ++ (u ++ r.takeWhile isWs), ?_, (dashes_ws (takeWs i)).append (hu.append (dashes_ws (takeWs r)))⟩
  have h1 := List.takeWhile_append_dropWhile (p := isWs) (l := i)
  have h2 := List.takeWhile_append_dropWhile (p := isWs) (l := r)
  rw [List.append_assoc, List.append_assoc, h2, ← hi, h1]

/-! ## The grammar -/

variable (cfg : ParseCfg)

theorem eats_ident : Eats (pIdent cfg) := eats_takeWhile1 (nonWord_notWord cfg (by decide) (by decide))

theorem eats_param : Eats (pParam cfg) :=
  (eats_ident cfg).bind fun _ => ((eats_tag (dashes_of_not_mem (by decide))).returnError _).ws.bind fun _ =>
    (eats_ident cfg).bind fun _ => eats_pure _

theorem eats_indent (level : Nat) : Eats (pIndent level) := (eats_tag (dashes_of_not_mem (by decide))).count _

theorem eats_pathSegment (level : Nat) : Eats (pPathSegment cfg level) := by
  refine (eats_indent level).preceded fun i rest a h => eats_alt _ (fun p hp => ?_) i rest a (returning_ok h)
  simp only [List.mem_cons, List.not_mem_nil, or_false] at hp
  rcases hp with rfl | rfl
  · exact ((eats_char (by decide)).preceded ((eats_param cfg).ws.terminated
      ((eats_char (by decide)).returnError _))).map _
  · exact (eats_ident cfg).map _

theorem eats_queryParameter (level : Nat) : Eats (pQueryParameter cfg level) :=
  (eats_indent level).preceded ((eats_char (by decide)).preceded ((eats_param cfg).ws.terminated
    ((eats_char (by decide)).returnError _)))

theorem eats_targetPath (b : Bool) : Eats (pTargetPath cfg b) :=
  ((eats_ident cfg).terminated (eats_tag (dashes_of_not_mem (by decide))).ws).many0.bind fun _ =>
    (eats_ident cfg).bind fun _ => eats_pure _

theorem dashes_arrow : Dashes c!"->" := by
  rintro a b h
  match a, h with
  | [], h => cases h; exact ⟨[], rfl⟩
  | [_], h => simp at h
  | _ :: _ :: _, h => simp at h

theorem eats_target : Eats (pTarget cfg) := by
  refine eats_alt _ fun p hp => ?_
  simp only [List.mem_cons, List.not_mem_nil, or_false] at hp
  rcases hp with rfl | rfl
  · exact (eats_tag dashes_arrow).ws.preceded (eats_targetPath cfg _)
  · exact eats_targetPath cfg _

theorem eats_method : Eats (pMethod cfg) := by
  refine eats_alt _ fun p hp => ?_
  simp only [List.mem_cons, List.not_mem_nil, or_false] at hp
  rcases hp with rfl | rfl | rfl | rfl <;> exact (eats_tagNoCase (by decide)).map _

theorem eats_requireNewline : Eats pRequireNewline := (eats_lineEnding.many1.map _).returnError _

theorem eats_resource (level : Nat) : Eats (pResource cfg level) :=
  (eats_indent level).preceded <| (eats_method cfg).bind fun _ => (eats_char (by decide)).bind fun _ =>
    (eats_target cfg).bind fun _ => eats_requireNewline.bind fun _ =>
      ((eats_queryParameter cfg _).terminated eats_requireNewline).many0.bind fun _ => eats_pure _

theorem eats_routesWith {nested : Parser NestedRoutes} (hn : Eats nested) (level : Nat) :
    Eats (pRoutesWith cfg nested level) := by
  refine ((eats_queryParameter cfg _).terminated eats_lineEnding.many1).many0.bind fun _ => Eats.bind ?_
    fun _ => eats_pure _
  refine Eats.returnError (eats_alt _ fun p hp => ?_) _
  simp only [List.mem_cons, List.not_mem_nil, or_false] at hp
  rcases hp with rfl | rfl
  · refine (eats_resource cfg level).many1.bind fun _ => (eats_alt _ fun p hp => ?_).bind fun _ => eats_pure _
    simp only [List.mem_cons, List.not_mem_nil, or_false] at hp
    rcases hp with rfl | rfl
    · exact eats_lineEnding.many0.preceded hn.many1
    · exact eats_pure _
  · exact hn.many1.bind fun _ => eats_pure _

theorem eats_nestedRoutes : ∀ fuel level, Eats (pNestedRoutes cfg fuel level)
  | 0, _ => fun i rest a h => by cases h
  | fuel + 1, level =>
    (eats_pathSegment cfg level).bind fun _ => eats_lineEnding.many1.bind fun _ =>
      ((eats_routesWith cfg (eats_nestedRoutes fuel (level + 1)) (level + 1)).returnError _).bind fun _ =>
        eats_pure _

theorem eats_routes (level : Nat) : Eats (pRoutes cfg level) := fun _ _ _ h =>
  eats_routesWith cfg (eats_nestedRoutes cfg _ level) level _ _ _ h

/-! ## Dashes in printed texts -/

theorem infix_flatten {x : List α} : ∀ {l : List (List α)}, x ∈ l → x <:+: l.flatten
  | y :: l, h => by
    rw [List.flatten_cons]
    rcases List.mem_cons.1 h with rfl | h
    · exact (List.prefix_append _ _).isInfix
    · exact (infix_flatten h).trans (List.suffix_append _ _).isInfix

theorem nested_infix {n : NestedRoutes} {ns : List NestedRoutes} (h : n ∈ ns) (level : Nat) :
    n.stringify level <:+: stringifyNested ns level := by
  rw [stringifyNested_eq]
  exact infix_flatten (List.mem_map_of_mem h)

/-- The text of a block is part of the text of the configuration. -/
theorem hasRoute_infix {r node : Routes} {segs : List PathSegment} {q : List Param}
    (h : HasRoute r segs q node) : ∀ level, node.stringify (segs.length + level) <:+: r.stringify level := by
  induction h with
  | here r => intro level; simp
  | @child r node seg sub segs q hm hr ih =>
    intro level
    obtain ⟨rs, ns, qs⟩ := r
    have h1 := ih (level + 1)
    have h2 : sub.stringify (level + 1) <:+: (NestedRoutes.mk seg sub).stringify level := by
      simp only [NestedRoutes.stringify]
      exact (List.suffix_append _ _).isInfix
    have h3 := nested_infix (n := .mk seg sub) (ns := ns) hm level
    have h4 : stringifyNested ns level <:+: (Routes.mk rs ns qs).stringify level := by
      simp only [Routes.stringify]
      exact (List.suffix_append _ _).isInfix
    have : (seg :: segs).length + level = segs.length + (level + 1) := by simp; omega
    rw [this]
    exact h1.trans (h2.trans (h3.trans h4))

theorem indent_deep {level : Nat} (h : 8 ≤ level) : indent level = c!"              --" := by
  match level, h with
  | k + 8, _ => rfl

theorem dash_infix {level : Nat} (h : 8 ≤ level) {u : Str} (hu : indent level <:+: u) : ¬ Dashes u := by
  rw [indent_deep h] at hu
  obtain ⟨a, b, rfl⟩ := hu
  intro hd
  obtain ⟨b', hb⟩ := hd (a ++ c!"              ") ('-' :: b) (by simp)
  cases hb

/-- A block printed too deep has a line with dashes. -/
theorem block_dashes {node : Routes} (hne : node.resources ≠ [] ∨ node.routes ≠ [])
    (level : Nat) : indent level <:+: node.stringify level := by
  obtain ⟨rs, ns, qs⟩ := node
  simp only [Routes.stringify]
  rcases hne with hne | hne
  · cases rs with
    | nil => exact absurd rfl hne
    | cons x rs =>
      refine List.IsInfix.trans ?_ ((List.prefix_append _ _).isInfix)
      refine List.IsInfix.trans ?_ ((List.suffix_append _ _).isInfix)
      simp only [stringifyResources, List.map_cons, List.flatten_cons, Resource.stringify, List.append_assoc]
      exact (List.prefix_append _ _).isInfix
  · cases ns with
    | nil => exact absurd rfl hne
    | cons n ns =>
      obtain ⟨seg, sub⟩ := n
      refine List.IsInfix.trans ?_ ((List.suffix_append _ _).isInfix)
      simp only [stringifyNested, NestedRoutes.stringify, List.append_assoc]
      exact (List.prefix_append _ _).isInfix

theorem resource_dashes {node : Routes} {x : Resource} (hx : x ∈ node.resources) (hq : x.queryParameters ≠ [])
    (level : Nat) : indent (level + 1) <:+: node.stringify level := by
  obtain ⟨rs, ns, qs⟩ := node
  change x ∈ rs at hx
  simp only [Routes.stringify]
  refine List.IsInfix.trans ?_ ((List.prefix_append _ _).isInfix)
  refine List.IsInfix.trans ?_ ((List.suffix_append _ _).isInfix)
  refine List.IsInfix.trans ?_ (infix_flatten (List.mem_map_of_mem (f := fun r => Resource.stringify r level) hx))
  cases hqs : x.queryParameters with
  | nil => exact absurd hqs hq
  | cons q qs =>
    simp only [Resource.stringify, hqs]
    refine List.IsInfix.trans ?_ ((List.prefix_append _ _).isInfix)
    refine List.IsInfix.trans ?_ ((List.suffix_append _ _).isInfix)
    simp only [List.map_cons, List.flatten_cons, List.append_assoc]
    exact ((List.prefix_append _ _).isInfix).trans ((List.suffix_append _ _).isInfix)

end Wayfinder
