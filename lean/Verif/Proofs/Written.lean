import Verif.Proofs.ParseFuel
import Verif.Spec.File
/-!
# What the parsers return
-/

namespace Wayfinder

variable {α β : Type}

/-- Every result of `p` satisfies `P`. -/
def Yields (p : Parser α) (P : α → Prop) : Prop := ∀ i rest a, p i = .ok rest a → P a

theorem yields_pure {a : α} {P : α → Prop} (h : P a) : Yields (pPure a) P := by
  intro i rest b hb; cases hb; exact h

theorem Yields.bind {p : Parser α} {f : α → Parser β} {P : α → Prop} {Q : β → Prop} (hp : Yields p P)
    (hf : ∀ a, P a → Yields (f a) Q) : Yields (pBind p f) Q := by
  intro i rest b h
  unfold pBind at h
  split at h
  · rename_i r a e; exact hf a (hp _ _ _ e) _ _ _ h
  · cases h
  · cases h

theorem yields_true (p : Parser α) : Yields p fun _ => True := fun _ _ _ _ => trivial

theorem Yields.many0 {p : Parser α} {P : α → Prop} (hp : Yields p P) :
    Yields (pMany0 p) fun l => ∀ a ∈ l, P a := by
  have key : ∀ fuel i acc rest l, (∀ a ∈ acc, P a) → many0Loop p fuel i acc = .ok rest l → ∀ a ∈ l, P a := by
    intro fuel
    induction fuel with
    | zero => intro i acc rest l ha h; cases h; exact ha
    | succ fuel ih =>
      intro i acc rest l ha h
      unfold many0Loop at h
      split at h
      · cases h; exact ha
      · cases h
      · rename_i r a e
        split at h
        · cases h; exact ha
        · refine ih _ _ _ _ ?_ h
          intro b hb
          rcases List.mem_append.1 hb with hb | hb
          · exact ha b hb
          · rw [List.mem_singleton.1 hb]; exact hp _ _ _ e
  intro i rest l h
  exact key _ _ _ _ _ (by simp) h

theorem Yields.many1 {p : Parser α} {P : α → Prop} (hp : Yields p P) :
    Yields (pMany1 p) fun l => l ≠ [] ∧ ∀ a ∈ l, P a := by
  intro i rest l h
  rw [many1_eq] at h
  split at h
  · cases h
  · cases h
  · rename_i r a e
    cases hm : pMany0 p r with
    | error c => rw [hm] at h; cases h
    | failure c => rw [hm] at h; cases h
    | ok r' l' =>
      rw [hm] at h
      simp only [Res.prepend, Res.ok.injEq] at h
      rw [← h.2]
      refine ⟨by simp, fun b hb => ?_⟩
      rcases List.mem_append.1 hb with hb | hb
      · rw [List.mem_singleton.1 hb]; exact hp _ _ _ e
      · exact hp.many0 _ _ _ hm b hb

theorem Yields.returnError {p : Parser α} {P : α → Prop} (hp : Yields p P) (k : Kind) :
    Yields (pReturnError k p) P := by
  intro i rest a h
  unfold pReturnError at h
  split at h <;> cases h
  rename_i e; exact hp _ _ _ e

theorem yields_alt (b : Bool) {P : α → Prop} : ∀ {ps : List (Parser α)}, (∀ p ∈ ps, Yields p P) →
    Yields (pAlt b ps) P
  | [], _ => fun i rest a h => by cases h
  | p :: ps, hp => by
    have ih := yields_alt b (ps := ps) fun q hq => hp q (by simp [hq])
    intro i rest a h
    unfold pAlt at h
    split at h
    · cases h; rename_i e; exact hp p (by simp) _ _ _ e
    · exact ih _ _ _ h
    · split at h
      · exact ih _ _ _ h
      · cases h

theorem Yields.ws {p : Parser α} {P : α → Prop} (hp : Yields p P) : Yields (pWs p) P := by
  intro i rest a h
  unfold pWs at h
  split at h <;> cases h
  rename_i e; exact hp _ _ _ e

theorem Yields.terminated {p : Parser α} {q : Parser β} {P : α → Prop} (hp : Yields p P) :
    Yields (pTerminated p q) P :=
  hp.bind fun _ ha => (yields_true q).bind fun _ _ => yields_pure ha

theorem Yields.preceded {p : Parser α} {q : Parser β} {P : β → Prop} (hq : Yields q P) :
    Yields (pPreceded p q) P :=
  (yields_true p).bind fun _ _ => hq

theorem Yields.map {p : Parser α} {f : α → β} {P : β → Prop} (hp : Yields p fun a => P (f a)) :
    Yields (pMap f p) P :=
  hp.bind fun _ ha => yields_pure ha

/-! ## The grammar -/

variable (cfg : ParseCfg)

theorem wordChar_iff (c : Char) : isIdentifierChar cfg c = true ↔ WordChar cfg c := by
  unfold isIdentifierChar WordChar
  simp only [Char.isAlphanum, Char.isAlpha, Char.isUpper, Char.isLower, Char.isDigit, Char.le_def,
    UInt32.le_iff_toNat_le, Char.toNat]
  split
  · simp only [Bool.or_eq_true, Bool.and_eq_true, decide_eq_true_eq, beq_iff_eq, ge_iff_le,
      UInt32.le_iff_toNat_le]
    constructor
    · rintro (((h | h) | h) | h)
      · exact .inr (.inr (.inl h))
      · exact .inr (.inl h)
      · exact .inr (.inr (.inr (.inl h)))
      · exact .inl h
    · rintro (h | h | h | h | h)
      · exact .inr h
      · exact .inl (.inl (.inr h))
      · exact .inl (.inl (.inl h))
      · exact .inl (.inr h)
      · omega
  · rename_i hge
    constructor
    · intro h; exact .inr (.inr (.inr (.inr ⟨by omega, h⟩)))
    · rintro (h | h | h | h | h)
      · subst h; exact absurd (by decide) hge
      · have : ('z' : Char).val.toNat = 122 := rfl
        omega
      · have : ('Z' : Char).val.toNat = 90 := rfl
        omega
      · have : ('9' : Char).val.toNat = 57 := rfl
        omega
      · exact h.2

theorem yields_ident : Yields (pIdent cfg) (Word cfg) := by
  intro i rest a h
  unfold pIdent pTakeWhile1 at h
  split at h
  · cases h
  · rename_i hne
    cases h
    refine ⟨hne, fun c hc => (wordChar_iff cfg c).1 ?_⟩
    have := List.all_takeWhile (p := isIdentifierChar cfg) (l := i)
    rw [List.all_eq_true] at this
    exact this c hc

theorem yields_param : Yields (pParam cfg) (Param.Written cfg) :=
  (yields_ident cfg).bind fun _ h1 => (yields_true _).bind fun _ _ => (yields_ident cfg).bind fun _ h2 =>
    yields_pure ⟨h1, h2⟩

theorem yields_pathSegment (level : Nat) : Yields (pPathSegment cfg level) (PathSegment.Written cfg) := by
  refine Yields.preceded fun i rest a h => yields_alt _ (fun p hp => ?_) i rest a (returning_ok h)
  simp only [List.mem_cons, List.not_mem_nil, or_false] at hp
  rcases hp with rfl | rfl
  · exact Yields.map (Yields.preceded (yields_param cfg).ws.terminated)
  · exact Yields.map (yields_ident cfg)

theorem yields_queryParameter (level : Nat) : Yields (pQueryParameter cfg level) (Param.Written cfg) :=
  Yields.preceded (Yields.preceded (yields_param cfg).ws.terminated)

theorem yields_targetPath (b : Bool) : Yields (pTargetPath cfg b) fun t =>
    (∀ m ∈ t.2.1, Word cfg m) ∧ Word cfg t.2.2 :=
  (yields_ident cfg).terminated.many0.bind fun _ h1 => (yields_ident cfg).bind fun _ h2 => yields_pure ⟨h1, h2⟩

theorem yields_target : Yields (pTarget cfg) fun t => (∀ m ∈ t.2.1, Word cfg m) ∧ Word cfg t.2.2 := by
  refine yields_alt _ fun p hp => ?_
  simp only [List.mem_cons, List.not_mem_nil, or_false] at hp
  rcases hp with rfl | rfl
  · exact Yields.preceded (yields_targetPath cfg _)
  · exact yields_targetPath cfg _

theorem yields_resource (level : Nat) : Yields (pResource cfg level) (Resource.Written cfg) :=
  Yields.preceded <| (yields_true _).bind fun _ _ => (yields_true _).bind fun _ _ =>
    (yields_target cfg).bind fun _ h1 => (yields_true _).bind fun _ _ =>
      (yields_queryParameter cfg _).terminated.many0.bind fun _ h2 => yields_pure ⟨h1.2, h1.1, h2⟩

/-- A block and its parts. -/
theorem written_mk {rs : List Resource} {ns : List NestedRoutes} {qs : List Param} :
    (Routes.mk rs ns qs).Written cfg ↔ (rs ≠ [] ∨ ns ≠ []) ∧ (∀ x ∈ rs, x.Written cfg) ∧
      (∀ q ∈ qs, q.Written cfg) ∧ ∀ n ∈ ns, n.pathSegment.Written cfg ∧ n.routes.Written cfg := by
  constructor
  · intro h
    obtain ⟨_, h1, h2, h3⟩ := h _ _ _ (.here _)
    refine ⟨h1, h2, h3, fun n hn => ?_⟩
    obtain ⟨seg, sub⟩ := n
    refine ⟨(h _ _ _ (.child hn (.here _))).1 seg (by simp), fun segs q node hr => ?_⟩
    obtain ⟨h4, h5⟩ := h _ _ _ (.child hn hr)
    exact ⟨fun s hs => h4 s (by simp [hs]), h5⟩
  · rintro ⟨h1, h2, h3, h4⟩ segs q node hr
    cases hr with
    | here => exact ⟨by simp, h1, h2, h3⟩
    | @child _ _ seg sub segs q hm hr =>
      obtain ⟨h5, h6⟩ := h4 _ hm
      obtain ⟨h7, h8⟩ := h6 _ _ _ hr
      refine ⟨fun s hs => ?_, h8⟩
      rcases List.mem_cons.1 hs with rfl | hs
      · exact h5
      · exact h7 s hs

theorem yields_routesWith {nested : Parser NestedRoutes}
    (hn : Yields nested fun n => n.pathSegment.Written cfg ∧ n.routes.Written cfg) (level : Nat) :
    Yields (pRoutesWith cfg nested level) (Routes.Written cfg) := by
  refine (yields_queryParameter cfg level).terminated.many0.bind fun qs hqs => ?_
  refine Yields.bind (P := fun (rnr : List Resource × List NestedRoutes) => (rnr.1 ≠ [] ∨ rnr.2 ≠ []) ∧
    (∀ x ∈ rnr.1, x.Written cfg) ∧ ∀ n ∈ rnr.2, n.pathSegment.Written cfg ∧ n.routes.Written cfg) ?_ ?_
  · refine Yields.returnError (yields_alt _ fun p hp => ?_) _
    simp only [List.mem_cons, List.not_mem_nil, or_false] at hp
    rcases hp with rfl | rfl
    · refine (yields_resource cfg level).many1.bind fun rs hrs => ?_
      refine Yields.bind (P := fun l => ∀ n ∈ l, n.pathSegment.Written cfg ∧ n.routes.Written cfg)
        (yields_alt _ fun p hp => ?_) fun ns hns => yields_pure ⟨.inl hrs.1, hrs.2, hns⟩
      simp only [List.mem_cons, List.not_mem_nil, or_false] at hp
      rcases hp with rfl | rfl
      · exact Yields.preceded fun i rest l h => (hn.many1 i rest l h).2
      · exact yields_pure (by simp)
    · exact hn.many1.bind fun ns hns => yields_pure ⟨.inr hns.1, by simp, hns.2⟩
  · rintro ⟨rs, ns⟩ ⟨h1, h2, h3⟩
    exact yields_pure ((written_mk cfg).2 ⟨h1, h2, hqs, h3⟩)

theorem yields_nestedRoutes : ∀ fuel level, Yields (pNestedRoutes cfg fuel level) fun n =>
    n.pathSegment.Written cfg ∧ n.routes.Written cfg
  | 0, _ => fun i rest a h => by cases h
  | fuel + 1, level =>
    (yields_pathSegment cfg level).bind fun _ h1 => (yields_true _).bind fun _ _ =>
      ((yields_routesWith cfg (yields_nestedRoutes fuel (level + 1)) (level + 1)).returnError _).bind
        fun _ h2 => yields_pure ⟨h1, h2⟩

theorem yields_routes (level : Nat) : Yields (pRoutes cfg level) (Routes.Written cfg) := fun i rest a h =>
  yields_routesWith cfg (yields_nestedRoutes cfg _ level) level i rest a h

/-- `not_line_ending` and what it consumes. -/
theorem notLineEnding_ok {i rest s : Str} (h : pNotLineEnding i = .ok rest s) :
    rest = i.dropWhile notEol ∧ s = i.takeWhile notEol := by
  unfold pNotLineEnding at h
  split at h <;> cases h <;> rename_i e
  · refine ⟨e.symm, ?_⟩
    have := List.takeWhile_append_dropWhile (p := notEol) (l := i)
    rw [e, List.append_nil] at this
    exact this.symm
  · exact ⟨e.symm, rfl⟩
  · exact ⟨e.symm, rfl⟩

theorem dropWhile_dropWhile (f : Char → Bool) (i : Str) : (i.dropWhile f).dropWhile f = i.dropWhile f := by
  induction i with
  | nil => rfl
  | cons c i ih =>
    rw [List.dropWhile_cons]
    split
    · exact ih
    · rename_i h; rw [List.dropWhile_cons, if_neg h]

/-- `many0!(not_line_ending)` takes the rest of the line, if it ends properly. -/
theorem many0_notLineEnding (i : Str) :
    ∃ l, pMany0 pNotLineEnding i = .ok (match pNotLineEnding i with | .ok rest _ => rest | _ => i) l := by
  rw [many0_eq tidy_notLineEnding]
  cases h : pNotLineEnding i with
  | error c => exact ⟨[], rfl⟩
  | failure c =>
    unfold pNotLineEnding at h
    split at h <;> cases h
  | ok rest s =>
    obtain ⟨h1, h2⟩ := notLineEnding_ok h
    simp only
    split
    · rename_i e; exact ⟨[], by rw [e]⟩
    · rw [many0_eq tidy_notLineEnding]
      cases h' : pNotLineEnding rest with
      | error c => exact ⟨_, rfl⟩
      | failure c =>
        unfold pNotLineEnding at h'
        split at h' <;> cases h'
      | ok rest' s' =>
        have := (notLineEnding_ok h').1
        rw [h1, dropWhile_dropWhile, ← h1] at this
        rw [this]
        simp [Res.prepend]

theorem lineEnding_never_fails (i : Str) (c : Ctx) : pLineEnding i ≠ .failure c := by
  unfold pLineEnding
  split <;> exact fun h => by cases h

theorem many0_never_fails {p : Parser α} (hp : Tidy p) (hf : ∀ i c, p i ≠ .failure c) (i : Str) :
    ∃ rest l, pMany0 p i = .ok rest l := by
  have key : ∀ fuel i acc, ∃ rest l, many0Loop p fuel i acc = .ok rest l := by
    intro fuel
    induction fuel with
    | zero => intro i acc; exact ⟨_, _, rfl⟩
    | succ fuel ih =>
      intro i acc
      unfold many0Loop
      cases h : p i with
      | error c => exact ⟨_, _, rfl⟩
      | failure c => exact absurd h (hf i c)
      | ok rest a =>
        simp only
        split
        · exact ⟨_, _, rfl⟩
        · exact ih _ _
  exact key _ _ _

theorem eols_many0 (i : Str) : ∃ rest l, pMany0 pLineEnding i = .ok rest l :=
  many0_never_fails tidy_lineEnding lineEnding_never_fails i

/-- `many1!(line_ending)` fails exactly if the first one does. -/
theorem eols_many1 (i : Str) : (∃ rest l, pMany1 pLineEnding i = .ok rest l ∧ ∃ r, pLineEnding i = .ok r ()) ∨
    (pMany1 pLineEnding i = .error (.code i .many1) ∧ ∃ c, pLineEnding i = .error c) := by
  rw [many1_eq]
  cases h : pLineEnding i with
  | error c => exact .inr ⟨rfl, _, rfl⟩
  | failure c => exact absurd h (lineEnding_never_fails i c)
  | ok r u =>
    obtain ⟨rest, l, hl⟩ := eols_many0 r
    exact .inl ⟨rest, [u] ++ l, by simp only [hl]; rfl, r, rfl⟩

theorem notLineEnding_error {i : Str} {c : Ctx} (h : pNotLineEnding i = .error c) :
    (∃ e, pLineEnding i = .error e) ∧ ∃ e, pLineEnding (i.dropWhile notEol) = .error e := by
  unfold pNotLineEnding at h
  split at h <;> cases h
  rename_i h1 h2 h3
  have hd : ∃ e, pLineEnding (i.dropWhile notEol) = .error e := by
    unfold pLineEnding
    split
    · rename_i e; exact absurd e (h2 _)
    · rename_i e; exact absurd e (h3 _)
    · exact ⟨_, rfl⟩
  refine ⟨?_, hd⟩
  cases i with
  | nil => exact hd
  | cons a i =>
    by_cases ha : notEol a = true
    · unfold pLineEnding
      split
      · rename_i e; cases e; exact absurd ha (by decide)
      · rename_i e; cases e; exact absurd ha (by decide)
      · exact ⟨_, rfl⟩
    · rw [List.dropWhile_cons, if_neg ha] at hd; exact hd

/-- A header, computed. -/
theorem header_eq (i : Str) : (i.head? ≠ some '/' ∧ ∃ rest l,
      pMany1 pLineEnding (i.dropWhile notEol) = .ok rest l ∧ pHeader i = .ok rest ⟨i.takeWhile notEol⟩) ∨
    ((i.head? = some '/' ∨ ∃ e, pLineEnding (i.dropWhile notEol) = .error e) ∧ ∃ c, pHeader i = .error c) := by
  have hnot : (i.head? = some '/' ∧ ∃ c, pNot (pChar '/') i = .error c) ∨
      (i.head? ≠ some '/' ∧ pNot (pChar '/') i = .ok i ()) := by
    cases i with
    | nil => exact .inr ⟨by simp, rfl⟩
    | cons a i =>
      by_cases ha : a = '/'
      · left; subst ha; exact ⟨rfl, _, rfl⟩
      · right; exact ⟨by simpa using ha, by simp [pNot, pChar, ha]⟩
  rcases hnot with ⟨h1, c, h2⟩ | ⟨h1, h2⟩
  · exact .inr ⟨.inl h1, c, by simp [pHeader, pTerminated, pRecognize, pBind, h2]⟩
  · obtain ⟨l, hl⟩ := many0_notLineEnding i
    cases hn : pNotLineEnding i with
    | failure c =>
      unfold pNotLineEnding at hn
      split at hn <;> cases hn
    | error c =>
      rw [hn] at hl
      obtain ⟨⟨e, h3⟩, h4⟩ := notLineEnding_error hn
      refine .inr ⟨.inr h4, .code i .many1, ?_⟩
      simp [pHeader, pTerminated, pRecognize, pBind, h2, hl, pMany1, h3]
    | ok r s =>
      obtain ⟨h3, h4⟩ := notLineEnding_ok hn
      rw [hn] at hl
      simp only at hl
      have htake : i.take (i.length - r.length) = i.takeWhile notEol := by
        have := List.takeWhile_append_dropWhile (p := notEol) (l := i)
        have hlen := congrArg List.length this
        rw [List.length_append, ← h3] at hlen
        have hk : i.length - r.length = (i.takeWhile notEol).length := by omega
        rw [hk]
        generalize i.takeWhile notEol = x at this
        generalize i.dropWhile notEol = y at this
        rw [← this, List.take_append_of_le_length (Nat.le_refl _), List.take_of_length_le (Nat.le_refl _)]
      rcases eols_many1 r with ⟨rest, l', h5, _⟩ | ⟨h5, h6⟩
      · refine .inl ⟨h1, rest, l', by rw [← h3]; exact h5, ?_⟩
        simp [pHeader, pTerminated, pRecognize, pBind, h2, hl, h5, htake, pPure]
      · refine .inr ⟨.inr (by rw [← h3]; exact h6), .code r .many1, ?_⟩
        simp only [pHeader, pTerminated, pRecognize, pBind, h2, hl, h5]

theorem yields_header : Yields pHeader fun h =>
    (∀ c ∈ h.text, c ≠ '\n' ∧ c ≠ '\r') ∧ h.text.head? ≠ some '/' := by
  intro i rest h e
  rcases header_eq i with ⟨h1, r, l, h2, h3⟩ | ⟨_, c, h3⟩
  · rw [h3] at e
    cases e
    constructor
    · intro c hc
      have := List.all_takeWhile (p := notEol) (l := i)
      rw [List.all_eq_true] at this
      have := this c hc
      simpa [notEol] using this
    · intro hh
      apply h1
      cases i with
      | nil => simp at hh
      | cons a i =>
        simp only [List.takeWhile_cons] at hh
        split at hh
        · simpa using hh
        · simp at hh
  · rw [h3] at e; cases e

theorem yields_routeConfig : Yields (routeConfig cfg) (RouteConfig.Written cfg) := by
  refine yields_header.many0.bind fun hs hhs => (yields_true _).bind fun _ _ => (yields_true _).bind fun _ _ =>
    (yields_true _).bind fun _ _ => (yields_routes cfg 1).bind fun r hr => (yields_true _).bind fun _ _ =>
      yields_pure ⟨fun h hh => ?_, hr⟩
  rw [List.mem_filter] at hh
  refine ⟨?_, hhs h hh.1⟩
  have := hh.2
  intro he
  rw [he] at this
  simp at this

end Wayfinder
