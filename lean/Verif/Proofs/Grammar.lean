import Verif.Props.Lines
/-!
# The parser and the grammar of route files
-/

namespace Wayfinder

variable {α β : Type} (cfg : ParseCfg)

/-! ## What an accepted text looks like -/

theorem bind_ok {p : Parser α} {f : α → Parser β} {i rest : Str} {b : β} (h : pBind p f i = .ok rest b) :
    ∃ r a, p i = .ok r a ∧ f a r = .ok rest b := by
  unfold pBind at h
  split at h
  · rename_i r a e; exact ⟨r, a, e, h⟩
  · cases h
  · cases h

theorem pure_ok {a b : α} {i rest : Str} (h : pPure a i = .ok rest b) : rest = i ∧ b = a := by
  cases h; exact ⟨rfl, rfl⟩

theorem map_ok {p : Parser α} {f : α → β} {i rest : Str} {b : β} (h : pMap f p i = .ok rest b) :
    ∃ a, p i = .ok rest a ∧ b = f a := by
  obtain ⟨r, a, h1, h2⟩ := bind_ok h
  obtain ⟨rfl, rfl⟩ := pure_ok h2
  exact ⟨a, h1, rfl⟩

theorem terminated_inv {p : Parser α} {q : Parser β} {i rest : Str} {a : α}
    (h : pTerminated p q i = .ok rest a) : ∃ r b, p i = .ok r a ∧ q r = .ok rest b := by
  obtain ⟨r, a', h1, h2⟩ := bind_ok h
  obtain ⟨r', b, h3, h4⟩ := bind_ok h2
  obtain ⟨rfl, rfl⟩ := pure_ok h4
  exact ⟨r, b, h1, h3⟩

theorem preceded_inv {p : Parser α} {q : Parser β} {i rest : Str} {b : β}
    (h : pPreceded p q i = .ok rest b) : ∃ r a, p i = .ok r a ∧ q r = .ok rest b := bind_ok h

theorem returnError_inv {k : Kind} {p : Parser α} {i rest : Str} {a : α}
    (h : pReturnError k p i = .ok rest a) : p i = .ok rest a := by
  unfold pReturnError at h
  split at h <;> cases h
  assumption

theorem tag_inv {t i rest a : Str} (h : pTag t i = .ok rest a) : i = t ++ rest := by
  unfold pTag at h
  split at h
  · rename_i hp
    cases h
    obtain ⟨u, rfl⟩ := List.isPrefixOf_iff_prefix.1 hp
    simp
  · cases h

theorem char_inv {c a : Char} {i rest : Str} (h : pChar c i = .ok rest a) : i = c :: rest := by
  unfold pChar at h
  split at h
  · split at h
    · rename_i hc; cases h; rw [hc]
    · cases h
  · cases h

theorem ident_inv {i rest s : Str} (h : pIdent cfg i = .ok rest s) : i = s ++ rest ∧ Word cfg s := by
  unfold pIdent pTakeWhile1 at h
  split at h
  · cases h
  · rename_i hne
    cases h
    refine ⟨(List.takeWhile_append_dropWhile ..).symm, hne, fun c hc => ?_⟩
    have := List.all_takeWhile (p := isIdentifierChar cfg) (l := i)
    rw [List.all_eq_true] at this
    exact (wordChar_iff cfg c).1 (this c hc)

theorem isWs_iff (c : Char) : isWs c = true ↔ c = ' ' ∨ c = '\t' ∨ c = '\r' ∨ c = '\n' := by
  simp [isWs, or_assoc]

theorem dropWs_inv (i : Str) : ∃ a, Blanks a ∧ i = a ++ i.dropWhile isWs := by
  refine ⟨i.takeWhile isWs, fun c hc => ?_, (List.takeWhile_append_dropWhile ..).symm⟩
  have := List.all_takeWhile (p := isWs) (l := i)
  rw [List.all_eq_true] at this
  exact (isWs_iff c).1 (this c hc)

theorem ws_inv {p : Parser α} {i rest : Str} {a : α} (h : pWs p i = .ok rest a) :
    ∃ v w r r', Blanks v ∧ Blanks w ∧ i = v ++ r ∧ p r = .ok r' a ∧ r' = w ++ rest := by
  unfold pWs at h
  split at h <;> cases h
  rename_i r e
  obtain ⟨v, hv, hi⟩ := dropWs_inv i
  obtain ⟨w, hw, hr⟩ := dropWs_inv r
  exact ⟨v, w, _, r, hv, hw, hi, e, hr⟩

theorem indent_inv {level : Nat} {i rest : Str} {l : List Str} (h : pIndent level i = .ok rest l) :
    i = spaces level ++ rest := by
  have key : ∀ level start i acc, countLoop (pTag c!"  ") start level i acc = .ok rest l →
      i = spaces level ++ rest := by
    intro level
    induction level with
    | zero => intro start i acc h; cases h; rfl
    | succ level ih =>
      intro start i acc h
      unfold countLoop at h
      split at h
      · rename_i r a e
        rw [tag_inv e, ih _ _ _ h, spaces_succ]; rfl
      · cases h
      · cases h
  exact key _ _ _ _ h

/-- Induction along a loop. -/
theorem many0_ind {p : Parser α} (hp : Tidy p) {M : Str → List α → Str → Prop} (nil : ∀ i, M i [] i)
    (cons : ∀ {i r rest a l}, p i = .ok r a → M r l rest → M i (a :: l) rest) :
    ∀ (n : Nat) (i : Str), i.length ≤ n → ∀ {rest l}, pMany0 p i = .ok rest l → M i l rest
  | n, i, hn, rest, l, h => by
    rw [many0_eq hp] at h
    split at h
    · cases h; exact nil _
    · cases h
    · rename_i r a e
      split at h
      · cases h; exact nil _
      · rename_i hne
        have hlt := hp.shorter e hne
        cases hm : pMany0 p r with
        | error c => rw [hm] at h; cases h
        | failure c => rw [hm] at h; cases h
        | ok r' l' =>
          rw [hm] at h
          cases h
          cases n with
          | zero => omega
          | succ n => exact cons e (many0_ind hp nil cons n r (by omega) hm)

theorem many0_inv {p : Parser α} (hp : Tidy p) {M : Str → List α → Str → Prop} (nil : ∀ i, M i [] i)
    (cons : ∀ {i r rest a l}, p i = .ok r a → M r l rest → M i (a :: l) rest) {i rest : Str} {l : List α}
    (h : pMany0 p i = .ok rest l) : M i l rest := many0_ind hp nil cons _ i (Nat.le_refl _) h

theorem many1_inv {p : Parser α} {i rest : Str} {l : List α} (h : pMany1 p i = .ok rest l) :
    ∃ r a l', p i = .ok r a ∧ pMany0 p r = .ok rest l' ∧ l = a :: l' := by
  rw [many1_eq] at h
  split at h
  · cases h
  · cases h
  · rename_i r a e
    cases hm : pMany0 p r with
    | error c => rw [hm] at h; cases h
    | failure c => rw [hm] at h; cases h
    | ok r' l' => rw [hm] at h; cases h; exact ⟨r, a, l', e, hm, rfl⟩

theorem lineEnding_inv {i rest : Str} {a : Unit} (h : pLineEnding i = .ok rest a) {e : Str} (he : Eols e)
    {rest' : Str} (hr : rest = e ++ rest') : ∃ e', Eols e' ∧ e' ≠ [] ∧ i = e' ++ rest' := by
  unfold pLineEnding at h
  split at h
  · cases h; exact ⟨'\n' :: e, .lf he, by simp, by rw [hr]; rfl⟩
  · cases h; exact ⟨'\r' :: '\n' :: e, .crlf he, by simp, by rw [hr]; rfl⟩
  · cases h

theorem eols0_inv {i rest : Str} {l : List Unit} (h : pMany0 pLineEnding i = .ok rest l) :
    ∃ e, Eols e ∧ i = e ++ rest :=
  many0_inv tidy_lineEnding (M := fun i _ rest => ∃ e, Eols e ∧ i = e ++ rest) (fun i => ⟨[], .nil, rfl⟩)
    (fun h ⟨_, he, hr⟩ => by obtain ⟨e', h1, _, h2⟩ := lineEnding_inv h he hr; exact ⟨e', h1, h2⟩) h

theorem eols1_inv {i rest : Str} {l : List Unit} (h : pMany1 pLineEnding i = .ok rest l) :
    ∃ e, Eols e ∧ e ≠ [] ∧ i = e ++ rest := by
  obtain ⟨r, a, l', h1, h2, _⟩ := many1_inv h
  obtain ⟨e, he, hr⟩ := eols0_inv h2
  exact lineEnding_inv h1 he hr

theorem requireNewline_inv {i rest : Str} {a : Unit} (h : pRequireNewline i = .ok rest a) :
    ∃ e, Eols e ∧ e ≠ [] ∧ i = e ++ rest := by
  obtain ⟨l, h, _⟩ := map_ok (returnError_inv h)
  exact eols1_inv h

theorem wsParam_inv {i rest : Str} {p : Param} (h : pWs (pParam cfg) i = .ok rest p) :
    ∃ t, ParamText cfg p t ∧ i = t ++ rest := by
  obtain ⟨a, d, r, r', ha, hd, rfl, h, rfl⟩ := ws_inv h
  obtain ⟨r1, name, h1, h⟩ := bind_ok h
  obtain ⟨r2, _, h2, h⟩ := bind_ok h
  obtain ⟨r3, typ, h3, h⟩ := bind_ok h
  obtain ⟨rfl, rfl⟩ := pure_ok h
  obtain ⟨rfl, hn⟩ := ident_inv cfg h1
  obtain ⟨rfl, ht⟩ := ident_inv cfg h3
  obtain ⟨b, c, r4, r5, hb, hc, rfl, h4, rfl⟩ := ws_inv h2
  obtain rfl := tag_inv (returnError_inv h4)
  exact ⟨_, .mk hn ht ha hb hc hd, by simp⟩

theorem bracketed_inv {o c : Char} {k : Kind} {i rest : Str} {p : Param}
    (h : pPreceded (pChar o) (pTerminated (pWs (pParam cfg)) (pReturnError k (pChar c))) i = .ok rest p) :
    ∃ t, ParamText cfg p t ∧ i = o :: (t ++ c :: rest) := by
  obtain ⟨r, _, h1, h⟩ := preceded_inv h
  obtain ⟨r2, _, h2, h3⟩ := terminated_inv h
  obtain rfl := char_inv h1
  obtain ⟨t, ht, rfl⟩ := wsParam_inv cfg h2
  rw [char_inv (returnError_inv h3)]
  exact ⟨t, ht, rfl⟩

theorem segment_inv {level : Nat} {i rest : Str} {seg : PathSegment}
    (h : pPathSegment cfg level i = .ok rest seg) : ∃ s, SegmentText cfg seg s ∧ i = spaces level ++ s ++ rest := by
  obtain ⟨r, l, h1, h2⟩ := preceded_inv h
  obtain rfl := indent_inv h1
  obtain ⟨p, hp, h⟩ := alt_ok (returning_ok h2)
  simp only [List.mem_cons, List.not_mem_nil, or_false] at hp
  rcases hp with rfl | rfl
  · obtain ⟨a, h3, rfl⟩ := map_ok h
    obtain ⟨t, ht, rfl⟩ := bracketed_inv cfg h3
    exact ⟨_, .dynamic ht, by simp⟩
  · obtain ⟨a, h3, rfl⟩ := map_ok h
    obtain ⟨rfl, ht⟩ := ident_inv cfg h3
    exact ⟨_, .static ht, by simp⟩

theorem query_inv {level : Nat} {i rest : Str} {p : Param} (h : pQueryParameter cfg level i = .ok rest p) :
    ∃ t, ParamText cfg p t ∧ i = spaces level ++ c!"[" ++ t ++ c!"]" ++ rest := by
  obtain ⟨r, l, h1, h2⟩ := preceded_inv h
  obtain rfl := indent_inv h1
  obtain ⟨t, ht, rfl⟩ := bracketed_inv cfg h2
  exact ⟨t, ht, by simp⟩

theorem queryLines_inv {level : Nat} {q : Parser β} (hq : Tidy q)
    (he : ∀ {i rest a}, q i = .ok rest a → ∃ e, Eols e ∧ e ≠ [] ∧ i = e ++ rest) {i rest : Str} {ps : List Param}
    (h : pMany0 (pTerminated (pQueryParameter cfg level) q) i = .ok rest ps) :
    ∃ t, QueryLines cfg level ps t ∧ i = t ++ rest := by
  refine many0_inv ((tidy_queryParameter cfg level).terminated hq)
    (M := fun i ps rest => ∃ t, QueryLines cfg level ps t ∧ i = t ++ rest) (fun i => ⟨[], .nil, rfl⟩) ?_ h
  rintro i r rest a l h ⟨u, hu, rfl⟩
  obtain ⟨r1, _, h1, h2⟩ := terminated_inv h
  obtain ⟨e, he1, he2, rfl⟩ := he h2
  obtain ⟨t, ht, rfl⟩ := query_inv cfg h1
  exact ⟨_, .cons ht he1 he2 hu, by simp⟩

theorem targetPath_inv {b : Bool} {i rest : Str} {x : Bool × List Str × Str}
    (h : pTargetPath cfg b i = .ok rest x) : x.1 = b ∧ ∃ t, TargetText cfg x.2.1 x.2.2 t ∧ i = t ++ rest := by
  obtain ⟨r, ms, h1, h⟩ := bind_ok h
  obtain ⟨r2, name, h2, h⟩ := bind_ok h
  obtain ⟨rfl, rfl⟩ := pure_ok h
  obtain ⟨rfl, hn⟩ := ident_inv cfg h2
  refine ⟨rfl, ?_⟩
  have := many0_inv ((tidy_ident cfg).terminated (tidy_tag _).ws)
    (M := fun i ms rest => ∀ t u, TargetText cfg [] name t → rest = t ++ u →
      ∃ t', TargetText cfg ms name t' ∧ i = t' ++ u)
    (fun i t u ht hr => ⟨t, ht, hr⟩) (by
      intro i r rest m l h ih t u ht hr
      obtain ⟨t', ht', rfl⟩ := ih t u ht hr
      obtain ⟨r1, _, h1, h2⟩ := terminated_inv h
      obtain ⟨rfl, hm⟩ := ident_inv cfg h1
      obtain ⟨a, b, r3, r4, ha, hb, rfl, h4, h5⟩ := ws_inv h2
      obtain rfl := tag_inv h4
      subst h5
      exact ⟨_, .module hm ha hb ht', by simp⟩) h1
  exact this _ _ (.name hn) rfl

theorem target_inv {i rest : Str} {x : Bool × List Str × Str} (h : pTarget cfg i = .ok rest x) :
    ∃ a t, ArrowText x.1 a ∧ TargetText cfg x.2.1 x.2.2 t ∧ i = a ++ t ++ rest := by
  obtain ⟨p, hp, h⟩ := alt_ok h
  simp only [List.mem_cons, List.not_mem_nil, or_false] at hp
  rcases hp with rfl | rfl
  · obtain ⟨r, _, h1, h⟩ := preceded_inv h
    obtain ⟨h2, t, ht, rfl⟩ := targetPath_inv cfg h
    obtain ⟨a, b, r3, r4, ha, hb, rfl, h4, h5⟩ := ws_inv h1
    obtain rfl := tag_inv h4
    subst h5
    exact ⟨_, t, by rw [h2]; exact .arrow ha hb, ht, by simp⟩
  · obtain ⟨h2, t, ht, rfl⟩ := targetPath_inv cfg h
    exact ⟨[], t, by rw [h2]; exact .none, ht, by simp⟩

theorem verbText_iff (m : Method) (v : Str) : VerbText m v ↔ SameLetters v m.display := by cases m <;> exact .rfl

theorem resource_inv {level : Nat} {i rest : Str} {x : Resource} (h : pResource cfg level i = .ok rest x) :
    ∃ t, ResourceText cfg level x t ∧ i = t ++ rest := by
  obtain ⟨r, l, h1, h'⟩ := preceded_inv h
  obtain rfl := indent_inv h1
  obtain ⟨r2, m, h2, h⟩ := bind_ok h'
  obtain ⟨r3, _, h3, h⟩ := bind_ok h
  obtain ⟨r4, y, h4, h⟩ := bind_ok h
  obtain ⟨r5, _, h5, h⟩ := bind_ok h
  obtain ⟨r6, qs, h6, h⟩ := bind_ok h
  obtain ⟨rfl, rfl⟩ := pure_ok h
  obtain ⟨v, rfl, hv⟩ := (C34_verbs cfg _ _ _).1 h2
  obtain rfl := char_inv h3
  obtain ⟨a, t, ha, ht, rfl⟩ := target_inv cfg h4
  obtain ⟨e, he1, he2, rfl⟩ := requireNewline_inv h5
  obtain ⟨u, hu, rfl⟩ := queryLines_inv cfg tidy_requireNewline (fun h => requireNewline_inv h) h6
  exact ⟨_, .mk (x := ⟨m, y.2.1, y.2.2, y.1, qs⟩) ((verbText_iff m v).2 hv) ha ht he1 he2 hu, by simp⟩

theorem resources_inv {level : Nat} {i rest : Str} {xs : List Resource}
    (h : pMany0 (pResource cfg level) i = .ok rest xs) : ∃ t, ResourceTexts cfg level xs t ∧ i = t ++ rest := by
  refine many0_inv (tidy_resource cfg level)
    (M := fun i xs rest => ∃ t, ResourceTexts cfg level xs t ∧ i = t ++ rest) (fun i => ⟨[], .nil, rfl⟩) ?_ h
  rintro i r rest a l h ⟨u, hu, rfl⟩
  obtain ⟨t, ht, rfl⟩ := resource_inv cfg h
  exact ⟨_, .cons ht hu, by simp⟩

theorem resources1_inv {level : Nat} {i rest : Str} {xs : List Resource}
    (h : pMany1 (pResource cfg level) i = .ok rest xs) :
    xs ≠ [] ∧ ∃ t, ResourceTexts cfg level xs t ∧ i = t ++ rest := by
  obtain ⟨r, a, l', h1, h2, rfl⟩ := many1_inv h
  obtain ⟨u, hu, rfl⟩ := resources_inv cfg h2
  obtain ⟨t, ht, rfl⟩ := resource_inv cfg h1
  exact ⟨by simp, _, .cons ht hu, by simp⟩

/-- What a parser for children has to deliver. -/
def ReadsChild (level : Nat) (nested : Parser NestedRoutes) : Prop :=
  ∀ {i rest n}, nested i = .ok rest n → ∀ {ns u}, ChildTexts cfg level ns u →
    ∃ t, ChildTexts cfg level (n :: ns) (t ++ u) ∧ i = t ++ rest

theorem children_inv {level : Nat} {nested : Parser NestedRoutes} (ht : Tidy nested)
    (hn : ReadsChild cfg level nested) {i rest : Str} {ns : List NestedRoutes}
    (h : pMany0 nested i = .ok rest ns) : ∃ t, ChildTexts cfg level ns t ∧ i = t ++ rest := by
  refine many0_inv ht (M := fun i ns rest => ∃ t, ChildTexts cfg level ns t ∧ i = t ++ rest)
    (fun i => ⟨[], .nil, rfl⟩) ?_ h
  rintro i r rest a l h ⟨u, hu, rfl⟩
  obtain ⟨t, ht, rfl⟩ := hn h hu
  exact ⟨_, ht, by simp⟩

theorem children1_inv {level : Nat} {nested : Parser NestedRoutes} (ht : Tidy nested)
    (hn : ReadsChild cfg level nested) {i rest : Str} {ns : List NestedRoutes}
    (h : pMany1 nested i = .ok rest ns) : ns ≠ [] ∧ ∃ t, ChildTexts cfg level ns t ∧ i = t ++ rest := by
  obtain ⟨r, a, l', h1, h2, rfl⟩ := many1_inv h
  obtain ⟨u, hu, rfl⟩ := children_inv cfg ht hn h2
  obtain ⟨t, ht, rfl⟩ := hn h1 hu
  exact ⟨by simp, _, ht, by simp⟩

theorem eols_append {a b : Str} (ha : Eols a) (hb : Eols b) : Eols (a ++ b) := by
  induction ha with
  | nil => exact hb
  | lf _ ih => exact .lf ih
  | crlf _ ih => exact .crlf ih

/-- Further line endings behind query parameters. -/
theorem query_eols {level : Nat} {ps : List Param} {t e : Str} (h : QueryLines cfg level ps t) (he : Eols e)
    (hne : ps ≠ []) : ∃ t', QueryLines cfg level ps t' ∧ t ++ e = t' := by
  induction h with
  | nil => exact absurd rfl hne
  | @cons p ps t e1 u ht h1 h2 hu ih =>
    cases hu with
    | nil => exact ⟨_, .cons ht (eols_append h1 he) (by simp [h2]) .nil, by simp⟩
    | cons a b c d =>
      obtain ⟨t', ht', h3⟩ := ih (by simp)
      exact ⟨_, .cons ht h1 h2 ht', by rw [← h3]; simp⟩

/-- Further line endings behind resources. -/
theorem resource_eols {level : Nat} {x : Resource} {t e : Str} (h : ResourceText cfg level x t) (he : Eols e) :
    ResourceText cfg level x (t ++ e) := by
  obtain ⟨hv, ha, ht, he1, he2, hu⟩ := h
  rename_i v a t e1 u
  by_cases hq : x.queryParameters = []
  · rw [hq] at hu
    cases hu
    have := ResourceText.mk (cfg := cfg) (level := level) (x := x) hv ha ht (eols_append he1 he) (by simp [he2])
      (by rw [hq]; exact .nil)
    simpa using this
  · obtain ⟨t', ht', h3⟩ := query_eols cfg hu he hq
    have := ResourceText.mk (cfg := cfg) (level := level) (x := x) hv ha ht he1 he2 ht'
    rw [← h3] at this
    simpa using this

/-- Further line endings behind resources. -/
theorem resources_eols {level : Nat} {xs : List Resource} {t e : Str} (h : ResourceTexts cfg level xs t)
    (he : Eols e) (hne : xs ≠ []) : ∃ t', ResourceTexts cfg level xs t' ∧ t ++ e = t' := by
  induction h with
  | nil => exact absurd rfl hne
  | @cons x xs t u hx hu ih =>
    cases hu with
    | nil => exact ⟨_, .cons (resource_eols cfg hx he) .nil, by simp⟩
    | cons a b =>
      obtain ⟨t', ht', h3⟩ := ih (by simp)
      exact ⟨_, .cons hx ht', by rw [← h3]; simp⟩

/-- What a parser for blocks has to deliver. -/
theorem routesWith_inv {level : Nat} {nested : Parser NestedRoutes} (ht : Tidy nested)
    (hn : ReadsChild cfg level nested) {i rest : Str} {r : Routes}
    (h : pRoutesWith cfg nested level i = .ok rest r) : ∃ t, BlockText cfg level r t ∧ i = t ++ rest := by
  obtain ⟨r1, qs, h1, h⟩ := bind_ok h
  obtain ⟨r2, rnr, h2, h⟩ := bind_ok h
  obtain ⟨h4, rfl⟩ := pure_ok h
  subst h4
  obtain ⟨t, hq, rfl⟩ := queryLines_inv cfg tidy_lineEnding.many1 (fun h => eols1_inv h) h1
  obtain ⟨p, hp, h3⟩ := alt_ok (returnError_inv h2)
  simp only [List.mem_cons, List.not_mem_nil, or_false] at hp
  rcases hp with rfl | rfl
  · obtain ⟨r3, rs, h5, h6⟩ := bind_ok h3
    obtain ⟨r4, ns, h7, h8⟩ := bind_ok h6
    obtain ⟨h9, rfl⟩ := pure_ok h8
    subst h9
    obtain ⟨hne, u, hu, rfl⟩ := resources1_inv cfg h5
    obtain ⟨p, hp, h10⟩ := alt_ok h7
    simp only [List.mem_cons, List.not_mem_nil, or_false] at hp
    rcases hp with rfl | rfl
    · obtain ⟨r5, l, h11, h12⟩ := preceded_inv h10
      obtain ⟨_, v, hv, rfl⟩ := children1_inv cfg ht hn h12
      obtain ⟨e, he, rfl⟩ := eols0_inv h11
      obtain ⟨u', hu', hut⟩ := resources_eols cfg hu he hne
      exact ⟨_, .mk hq hu' hv (.inl hne), by rw [← hut]; simp⟩
    · obtain ⟨h11, rfl⟩ := pure_ok h10
      subst h11
      exact ⟨_, .mk hq hu .nil (.inl hne), by simp⟩
  · obtain ⟨r3, ns, h5, h6⟩ := bind_ok h3
    obtain ⟨h9, rfl⟩ := pure_ok h6
    subst h9
    obtain ⟨hne, v, hv, rfl⟩ := children1_inv cfg ht hn h5
    exact ⟨_, .mk hq .nil hv (.inr hne), by simp⟩

theorem nested_inv : ∀ (fuel level : Nat), ReadsChild cfg level (pNestedRoutes cfg fuel level)
  | 0, _ => fun h => by cases h
  | fuel + 1, level => by
    intro h ns u hu
    obtain ⟨r1, seg, h1, h⟩ := bind_ok h
    obtain ⟨r2, _, h2, h⟩ := bind_ok h
    obtain ⟨r3, r, h3, h⟩ := bind_ok h
    obtain ⟨h4, rfl⟩ := pure_ok h
    subst h4
    obtain ⟨t, ht, rfl⟩ := routesWith_inv cfg (tidy_nestedRoutes cfg fuel (level + 1)) (nested_inv fuel (level + 1))
      (returnError_inv h3)
    obtain ⟨e, he1, he2, rfl⟩ := eols1_inv h2
    obtain ⟨s, hs, rfl⟩ := segment_inv cfg h1
    refine ⟨spaces level ++ s ++ e ++ t, ?_, by simp⟩
    exact .cons hs he1 he2 ht hu

theorem routes_inv {level : Nat} {i rest : Str} {r : Routes} (h : pRoutes cfg level i = .ok rest r) :
    ∃ t, BlockText cfg level r t ∧ i = t ++ rest :=
  routesWith_inv cfg (tidy_nestedRoutes cfg _ level) (nested_inv cfg _ level) h

theorem header_inv {i rest : Str} {h : Header} (hh : pHeader i = .ok rest h) :
    (∀ c ∈ h.text, c ≠ '\n' ∧ c ≠ '\r') ∧ h.text.head? ≠ some '/' ∧
      ∃ e, Eols e ∧ e ≠ [] ∧ i = h.text ++ e ++ rest := by
  rcases header_eq i with ⟨h1, r, l, h2, h3⟩ | ⟨_, c, h3⟩
  · rw [h3] at hh
    cases hh
    obtain ⟨e, he1, he2, hi⟩ := eols1_inv h2
    have hi' := List.takeWhile_append_dropWhile (p := notEol) (l := i)
    refine ⟨fun c hc => ?_, ?_, e, he1, he2, ?_⟩
    · have := List.all_takeWhile (p := notEol) (l := i)
      rw [List.all_eq_true] at this
      simpa [notEol] using this c hc
    · intro hh
      apply h1
      cases i with
      | nil => simp at hh
      | cons c i =>
        rw [List.takeWhile_cons] at hh
        split at hh
        · simpa using hh
        · simp at hh
    · rw [List.append_assoc, ← hi, hi']
  · rw [h3] at hh; cases hh

/-- Blank lines between headers. -/
theorem headers_inv {i rest : Str} {hs : List Header} (h : pMany0 pHeader i = .ok rest hs) :
    ∃ e t, Eols e ∧ HeaderLines (hs.filter fun h => h.text.length != 0) t ∧ i = e ++ t ++ rest := by
  refine many0_inv tidy_header (M := fun i hs rest => ∃ e t, Eols e ∧
    HeaderLines (hs.filter fun h => h.text.length != 0) t ∧ i = e ++ t ++ rest) (fun i => ⟨[], [], .nil, .nil, rfl⟩) ?_ h
  rintro i r rest a l h ⟨e, t, he, ht, rfl⟩
  obtain ⟨h1, h2, e', he1, he2, rfl⟩ := header_inv h
  by_cases ha : a.text = []
  · refine ⟨e' ++ e, t, eols_append he1 he, ?_, by simp [ha]⟩
    rw [List.filter_cons, if_neg (by simp [ha])]
    exact ht
  · refine ⟨[], a.text ++ (e' ++ e) ++ t, .nil, ?_, by simp⟩
    rw [List.filter_cons, if_pos (by simpa using ha)]
    exact .cons ⟨ha, h1, h2⟩ (eols_append he1 he) (by simp [he2]) ht

/-- Blank lines behind headers. -/
theorem headers_eols {hs : List Header} {t e e' : Str} (he : Eols e) (h : HeaderLines hs t) (he' : Eols e') :
    ∃ a t', Eols a ∧ HeaderLines hs t' ∧ e ++ t ++ e' = a ++ t' := by
  induction h generalizing e with
  | nil => exact ⟨e ++ e', [], eols_append he he', .nil, by simp⟩
  | @cons h hs e1 u hw he1 he2 hu ih =>
    cases hu with
    | nil => exact ⟨e, h.text ++ (e1 ++ e') ++ [], he, .cons hw (eols_append he1 he') (by simp [he2]) .nil, by simp⟩
    | @cons h2 hs2 e2 u2 hw2 he3 he4 hu2 =>
      obtain ⟨a, t', ha, ht', hat⟩ := ih he1
      have hhs : HeaderLines (h2 :: hs2) t' := ht'
      by_cases hae : a = []
      · subst hae
        exfalso
        obtain ⟨g1, g2, g3⟩ := hw2
        cases ht' with
        | @cons _ _ e3 u3 hw3 =>
          have := congrArg List.head? hat
          cases he1 with
          | nil => exact he2 rfl
          | lf =>
            cases hx : h2.text with
            | nil => exact g1 hx
            | cons c x =>
              simp [hx] at this
              exact (g2 c (by simp [hx])).1 this.symm
          | crlf =>
            cases hx : h2.text with
            | nil => exact g1 hx
            | cons c x =>
              simp [hx] at this
              exact (g2 c (by simp [hx])).2 this.symm
      · refine ⟨e, h.text ++ a ++ t', he, .cons hw ha hae ht', ?_⟩
        simp only [List.append_assoc] at hat ⊢
        rw [hat]

theorem config_inv {i : Str} {c : RouteConfig} (h : routeConfig cfg i = .ok [] c) : FileText cfg c i := by
  obtain ⟨r1, hs, h1, h⟩ := bind_ok h
  obtain ⟨r2, _, h2, h⟩ := bind_ok h
  obtain ⟨r3, _, h3, h⟩ := bind_ok h
  obtain ⟨r4, _, h4, h⟩ := bind_ok h
  obtain ⟨r5, r, h5, h⟩ := bind_ok h
  obtain ⟨r6, _, h6, h⟩ := bind_ok h
  obtain ⟨h7, rfl⟩ := pure_ok h
  subst h7
  have hr5 : r5 = [] := by
    unfold pEof at h6
    split at h6
    · rfl
    · cases h6
  subst hr5
  obtain ⟨t, ht, rfl⟩ := routes_inv cfg h5
  obtain ⟨e', he1, he2, rfl⟩ := eols1_inv h4
  obtain rfl := char_inv h3
  obtain ⟨e2, he3, rfl⟩ := eols0_inv h2
  obtain ⟨e, u, he, hu, rfl⟩ := headers_inv h1
  obtain ⟨a, u', ha, hu', hau⟩ := headers_eols he hu he3
  have : e ++ u ++ (e2 ++ '/' :: (e' ++ (t ++ []))) = a ++ u' ++ c!"/" ++ e' ++ t := by
    rw [← List.append_assoc (e ++ u), hau]; simp
  rw [this]
  exact .mk ha hu' he1 he2 ht

/-! ## Texts of the grammar are accepted -/

/-- The text does not begin with a blank. -/
def NoWs (r : Str) : Prop := ∀ c, r.head? = some c → isWs c = false

theorem noWs_cons {c : Char} {r : Str} (h : isWs c = false) : NoWs (c :: r) := by
  intro d hd; simp at hd; subst hd; exact h

theorem Plain.noWs {r : Str} (h : Plain r) : NoWs r := fun c hc => (h c hc).1

theorem dropWs_noWs {r : Str} (h : NoWs r) : r.dropWhile isWs = r := by
  cases r with
  | nil => rfl
  | cons c r => rw [List.dropWhile_cons, if_neg]; simpa using h c rfl

theorem dropWs_blanks {a : Str} (ha : Blanks a) (r : Str) : (a ++ r).dropWhile isWs = r.dropWhile isWs :=
  List.dropWhile_append_of_pos fun c hc => (isWs_iff c).2 (ha c hc)

theorem blanks_append {a b : Str} (ha : Blanks a) (hb : Blanks b) : Blanks (a ++ b) := by
  intro c hc
  rcases List.mem_append.1 hc with h | h
  · exact ha c h
  · exact hb c h

theorem Eols.blanks {e : Str} (h : Eols e) : Blanks e := by
  induction h with
  | nil => intro c hc; cases hc
  | lf _ ih =>
    intro c hc
    rcases List.mem_cons.1 hc with rfl | hc
    · simp
    · exact ih c hc
  | crlf _ ih =>
    intro c hc
    rcases List.mem_cons.1 hc with rfl | hc
    · simp
    · rcases List.mem_cons.1 hc with rfl | hc
      · simp
      · exact ih c hc

theorem ws_ok {p : Parser α} {a : Str} (ha : Blanks a) {i : Str} (hi : NoWs i) {r rest b : Str} {x : α}
    (hp : p i = .ok r x) (hb : Blanks b) (hr : r = b ++ rest) (hrest : NoWs rest) :
    pWs p (a ++ i) = .ok rest x := by
  unfold pWs
  rw [dropWs_blanks ha, dropWs_noWs hi, hp]
  simp only
  rw [hr, dropWs_blanks hb, dropWs_noWs hrest]

theorem blanks_notWord {a r : Str} (ha : Blanks a) (hr : NotWord cfg r) : NotWord cfg (a ++ r) := by
  cases a with
  | nil => exact hr
  | cons c a =>
    refine notWord_cons cfg ?_
    rcases ha c (by simp) with rfl | rfl | rfl | rfl <;> exact nonWord_notWord cfg (by decide) (by decide)

theorem eols0_ok {e : Str} (he : Eols e) {r : Str} (hr : NoEol r) : ∃ l, pMany0 pLineEnding (e ++ r) = .ok r l := by
  induction he with
  | nil => exact ⟨[], hr.many0⟩
  | @lf t _ ih =>
    obtain ⟨l, ih⟩ := ih
    refine ⟨() :: l, ?_⟩
    rw [many0_eq tidy_lineEnding]
    simp only [List.cons_append, pLineEnding, ih]
    rw [if_neg (by simp)]
    rfl
  | @crlf t _ ih =>
    obtain ⟨l, ih⟩ := ih
    refine ⟨() :: l, ?_⟩
    rw [many0_eq tidy_lineEnding]
    simp only [List.cons_append, pLineEnding, ih]
    rw [if_neg]
    · rfl
    · intro h; have := congrArg List.length h; simp at this; omega

theorem eols1_ok {e : Str} (he : Eols e) (hne : e ≠ []) {r : Str} (hr : NoEol r) :
    ∃ l, pMany1 pLineEnding (e ++ r) = .ok r l := by
  cases he with
  | nil => exact absurd rfl hne
  | @lf t ht =>
    obtain ⟨l, h⟩ := eols0_ok ht hr
    exact ⟨[()] ++ l, by rw [many1_eq]; simp only [List.cons_append, pLineEnding, h, Res.prepend]⟩
  | @crlf t ht =>
    obtain ⟨l, h⟩ := eols0_ok ht hr
    exact ⟨[()] ++ l, by rw [many1_eq]; simp only [List.cons_append, pLineEnding, h, Res.prepend]⟩

theorem newline_ok {e : Str} (he : Eols e) (hne : e ≠ []) {r : Str} (hr : NoEol r) :
    pRequireNewline (e ++ r) = .ok r () := by
  obtain ⟨l, h⟩ := eols1_ok he hne hr
  simp [pRequireNewline, pReturnError, pMap, pBind, h, pPure]

theorem paramText_ok {p : Param} {t : Str} (ht : ParamText cfg p t) {r : Str} (hr : NotWord cfg r) (hw : NoWs r) :
    pWs (pParam cfg) (t ++ r) = .ok r p := by
  obtain ⟨hn, hty, ha, hb, hc, hd⟩ := ht
  rename_i name typ a b c d
  have hcolon : NotWord cfg (':' :: (c ++ (typ ++ (d ++ r)))) :=
    notWord_cons cfg (nonWord_notWord cfg (by decide) (by decide))
  have h1 : pParam cfg (name ++ (b ++ (':' :: (c ++ (typ ++ (d ++ r)))))) = .ok (d ++ r) ⟨name, typ⟩ := by
    unfold pParam pBind
    rw [ident_ok cfg hn (blanks_notWord cfg hb hcolon)]
    have h2 : pWs pColon (b ++ (':' :: (c ++ (typ ++ (d ++ r))))) = .ok (typ ++ (d ++ r)) c!":" :=
      ws_ok hb (noWs_cons rfl) (p := pColon) (r := c ++ (typ ++ (d ++ r)))
        (by simp [pColon, pReturnError, pTag]) hc rfl (hty.plain cfg).noWs
    simp only [h2]
    rw [ident_ok cfg hty (blanks_notWord cfg hd hr)]
    rfl
  have : a ++ name ++ b ++ c!":" ++ c ++ typ ++ d ++ r = a ++ (name ++ (b ++ (':' :: (c ++ (typ ++ (d ++ r)))))) := by
    simp
  rw [this]
  exact ws_ok ha (hn.plain cfg).noWs h1 hd rfl hw

theorem bracketed_ok {o c : Char} (hc : c = '}' ∨ c = ']') {k : Kind} {p : Param} {t : Str}
    (ht : ParamText cfg p t) (r : Str) :
    pPreceded (pChar o) (pTerminated (pWs (pParam cfg)) (pReturnError k (pChar c))) (o :: (t ++ c :: r)) = .ok r p := by
  have h : pWs (pParam cfg) (t ++ c :: r) = .ok (c :: r) p := by
    refine paramText_ok cfg ht (notWord_cons cfg ?_) (noWs_cons ?_)
    · rcases hc with rfl | rfl <;> exact nonWord_notWord cfg (by decide) (by decide)
    · rcases hc with rfl | rfl <;> rfl
  simp [pPreceded, pTerminated, pBind, pChar, h, pReturnError, pPure]

theorem segmentText_ok {seg : PathSegment} {s : Str} (hs : SegmentText cfg seg s) (level : Nat) {r : Str}
    (hr : NotWord cfg r) : pPathSegment cfg level (spaces level ++ (s ++ r)) = .ok r seg := by
  cases hs with
  | static hw => exact segment_static cfg hw level hr
  | @dynamic p t ht =>
    unfold pPathSegment
    rw [preceded_ok (indent_ok level _)]
    have h := bracketed_ok cfg (o := '{') (c := '}') (k := .custom c!"Expected a \"}\"") (.inl rfl) ht r
    have e : c!"{" ++ t ++ c!"}" ++ r = '{' :: (t ++ '}' :: r) := by simp
    have h : pBraced cfg ('{' :: (t ++ '}' :: r)) = .ok r p := h
    rw [e, returning_eq (by simp [h])]
    unfold pAlt pMap pBind
    rw [h]
    rfl

theorem segmentText_plain {seg : PathSegment} {s : Str} (hs : SegmentText cfg seg s) (r : Str) : Plain (s ++ r) := by
  cases hs with
  | static hw => exact Word.plain cfg hw
  | dynamic ht => intro c hc; simp at hc; subst hc; exact ⟨rfl, by decide⟩

theorem segmentText_head {seg : PathSegment} {s : Str} (hs : SegmentText cfg seg s) (r : Str) :
    (s ++ r).head? ≠ some '[' := by
  cases hs with
  | static hw =>
    obtain ⟨c, t, rfl, hc⟩ := Word.head cfg hw
    have := (wordChar_notWs cfg hc).2.2.2.2.1
    simpa using this
  | dynamic ht => simp

theorem queryText_ok {level : Nat} {p : Param} {t : Str} (ht : ParamText cfg p t) (r : Str) :
    pQueryParameter cfg level (spaces level ++ c!"[" ++ t ++ c!"]" ++ r) = .ok r p := by
  have e : spaces level ++ c!"[" ++ t ++ c!"]" ++ r = spaces level ++ ('[' :: (t ++ ']' :: r)) := by simp
  rw [e]
  unfold pQueryParameter
  rw [preceded_ok (indent_ok level _)]
  exact bracketed_ok cfg (.inr rfl) ht r

/-- Lines of query parameters are read, whatever parser is used for line endings. -/
theorem queryTexts_ok {level : Nat} {ps : List Param} {u : Str} (hu : QueryLines cfg level ps u) {q : Parser β}
    (hq : Tidy q) (heol : ∀ {e r : Str}, Eols e → e ≠ [] → NoEol r → ∃ b, q (e ++ r) = .ok r b) {rest : Str}
    (hrest : NoEol rest) (hstop : ∃ c, pQueryParameter cfg level rest = .error c) :
    NoEol (u ++ rest) ∧ pMany0 (pTerminated (pQueryParameter cfg level) q) (u ++ rest) = .ok rest ps := by
  induction hu with
  | nil =>
    obtain ⟨c, hc⟩ := hstop
    refine ⟨hrest, ?_⟩
    rw [many0_eq ((tidy_queryParameter cfg level).terminated hq)]
    simp [pTerminated, pBind, hc]
  | @cons p ps t e u ht he hne hu ih =>
    obtain ⟨h1, h2⟩ := ih
    constructor
    · simp only [List.append_assoc]
      refine noEol_spaces ?_
      intro c hc; simp at hc; subst hc; rfl
    · obtain ⟨b, hb⟩ := heol he hne h1
      have h3 : pTerminated (pQueryParameter cfg level) q
          (spaces level ++ c!"[" ++ t ++ c!"]" ++ e ++ u ++ rest) = .ok (u ++ rest) p := by
        have e1 : spaces level ++ c!"[" ++ t ++ c!"]" ++ e ++ u ++ rest =
            spaces level ++ c!"[" ++ t ++ c!"]" ++ (e ++ (u ++ rest)) := by simp
        rw [e1]
        unfold pTerminated pBind
        rw [queryText_ok cfg ht]
        simp only [hb, pPure]
      rw [many0_eq ((tidy_queryParameter cfg level).terminated hq), h3]
      simp only
      rw [if_neg, h2]
      · rfl
      · intro h; have := congrArg List.length h; simp at this; omega

theorem TargetText.head {ms : List Str} {x t : Str} (h : TargetText cfg ms x t) :
    ∃ c t', t = c :: t' ∧ isIdentifierChar cfg c = true := by
  cases h with
  | name hw => exact hw.head
  | module hm _ _ _ =>
    obtain ⟨c, t', rfl, hc⟩ := hm.head
    exact ⟨c, _, rfl, hc⟩

theorem targetText_ok {ms : List Str} {x t : Str} (h : TargetText cfg ms x t) (b : Bool) {r : Str}
    (hr : NotWord cfg r) (hc : Plain (r.dropWhile isWs)) : pTargetPath cfg b (t ++ r) = .ok r (b, ms, x) := by
  have hp : Tidy (pTerminated (pIdent cfg) (pWs (pTag c!"::"))) := (tidy_ident cfg).terminated (tidy_tag _).ws
  have key : Word cfg x ∧ pMany0 (pTerminated (pIdent cfg) (pWs (pTag c!"::"))) (t ++ r) = .ok (x ++ r) ms := by
    induction h with
    | @name x hx =>
      refine ⟨hx, ?_⟩
      have h1 : ∃ c, pTerminated (pIdent cfg) (pWs (pTag c!"::")) (x ++ r) = .error c := by
        unfold pTerminated pBind
        rw [ident_ok cfg hx hr]
        have : pTag c!"::" (r.dropWhile isWs) = .error (.code (r.dropWhile isWs) .tag) := by
          cases hd : r.dropWhile isWs with
          | nil => rfl
          | cons c t =>
            have := (hc c (by rw [hd]; rfl)).2
            simp [pTag, Ne.symm this]
        simp [pWs, this]
      obtain ⟨c, h1⟩ := h1
      rw [many0_eq hp, h1]
    | @module m x t a b' ms hm ha hb ht ih =>
      obtain ⟨hx, ih⟩ := ih
      refine ⟨hx, ?_⟩
      obtain ⟨c0, t0, ht0, hc0⟩ := ht.head
      have hnw : NoWs (t ++ r) := by rw [ht0]; exact noWs_cons (wordChar_notWs cfg hc0).1
      have h1 : pTerminated (pIdent cfg) (pWs (pTag c!"::")) (m ++ a ++ c!"::" ++ b' ++ t ++ r) = .ok (t ++ r) m := by
        have e : m ++ a ++ c!"::" ++ b' ++ t ++ r = m ++ (a ++ (c!"::" ++ (b' ++ (t ++ r)))) := by simp
        rw [e]
        unfold pTerminated pBind
        have hcolon : NotWord cfg (c!"::" ++ (b' ++ (t ++ r))) :=
          notWord_cons cfg (nonWord_notWord cfg (by decide) (by decide))
        rw [ident_ok cfg hm (blanks_notWord cfg ha hcolon)]
        have h2 : pWs (pTag c!"::") (a ++ (c!"::" ++ (b' ++ (t ++ r)))) = .ok (t ++ r) c!"::" :=
          ws_ok ha (noWs_cons rfl) (p := pTag c!"::") (r := b' ++ (t ++ r)) (by simp [pTag]) hb rfl hnw
        simp only [h2, pPure]
      rw [many0_eq hp, h1]
      simp only
      rw [if_neg, ih]
      · rfl
      · intro h; have := congrArg List.length h; simp at this; omega
  unfold pTargetPath pBind
  rw [key.2]
  simp only [ident_ok cfg key.1 hr]
  rfl

theorem arrowText_ok {b : Bool} {a : Str} (ha : ArrowText b a) {ms : List Str} {x t : Str}
    (h : TargetText cfg ms x t) {r : Str} (hr : NotWord cfg r) (hc : Plain (r.dropWhile isWs)) :
    pTarget cfg (a ++ t ++ r) = .ok r (b, ms, x) := by
  have h1 := fun b => targetText_ok cfg h b hr hc
  obtain ⟨c0, t0, ht0, hc0⟩ := h.head
  have hnw : NoWs (t ++ r) := by rw [ht0]; exact noWs_cons (wordChar_notWs cfg hc0).1
  cases ha with
  | none =>
    have h2 : pWs (pTag c!"->") (t ++ r) = .error (.code (t ++ r) .tag) := by
      unfold pWs
      rw [dropWs_noWs hnw]
      have := (wordChar_notWs cfg hc0).2.2.2.2.2
      have : pTag c!"->" (t ++ r) = .error (.code (t ++ r) .tag) := by
        rw [ht0]; simp [pTag, Ne.symm this]
      rw [this]
    simp only [List.nil_append]
    simp [pTarget, pAlt, pPreceded, pBind, h2, h1]
  | @arrow a b ha hb =>
    have e : a ++ c!"->" ++ b ++ t ++ r = a ++ (c!"->" ++ (b ++ (t ++ r))) := by simp
    rw [e]
    have h2 : pWs (pTag c!"->") (a ++ (c!"->" ++ (b ++ (t ++ r)))) = .ok (t ++ r) c!"->" :=
      ws_ok ha (noWs_cons rfl) (p := pTag c!"->") (r := b ++ (t ++ r)) (by simp [pTag]) hb rfl hnw
    unfold pTarget pAlt pPreceded pBind
    rw [h2]
    simp only [h1]

theorem verb_chars {m : Method} {v : Str} (h : SameLetters v m.display) :
    v ≠ [] ∧ ∀ c ∈ v, isWs c = false ∧ c ≠ ':' ∧ c ≠ '[' := by
  constructor
  · rintro rfl
    have := congrArg List.length h
    cases m <;> simp [Method.display] at this
  · intro c hc
    have h1 : c.toLower ∈ m.display.map Char.toLower := by rw [← h]; exact List.mem_map_of_mem hc
    have h2 : ∀ d : Char, d.toLower = d → d ∉ m.display.map Char.toLower → c ≠ d := by
      rintro d h2 h3 rfl
      rw [h2] at h1
      exact h3 h1
    have h3 : c ≠ ' ' ∧ c ≠ '\t' ∧ c ≠ '\r' ∧ c ≠ '\n' ∧ c ≠ ':' ∧ c ≠ '[' := by
      refine ⟨h2 _ (by decide) ?_, h2 _ (by decide) ?_, h2 _ (by decide) ?_, h2 _ (by decide) ?_,
        h2 _ (by decide) ?_, h2 _ (by decide) ?_⟩ <;> cases m <;> decide
    simp [isWs, h3]

/-- The line of a child is not taken for a resource. -/
theorem resource_not_child {seg : PathSegment} {s : Str} (hs : SegmentText cfg seg s) {e : Str} (he : Eols e)
    (hne : e ≠ []) (level : Nat) (r : Str) :
    ∃ c, pResource cfg level (spaces level ++ (s ++ (e ++ r))) = .error c := by
  unfold pResource
  rw [preceded_ok (indent_ok level _)]
  unfold pBind
  cases hm : pMethod cfg (s ++ (e ++ r)) with
  | error c => exact ⟨c, rfl⟩
  | failure c => exact absurd hm (method_never_fails cfg _ c)
  | ok rest m =>
    have hh : rest.head? ≠ some ' ' := by
      obtain ⟨v, hv, hl⟩ := (C34_verbs cfg _ _ _).1 hm
      cases hs with
      | static hw =>
        cases rest with
        | nil => simp
        | cons c0 rest =>
          intro hc0
          obtain rfl : c0 = ' ' := by simpa using hc0
          have h1 : (s ++ (e ++ r)).takeWhile (fun c => !isWs c) = s := by
            rw [List.takeWhile_append_of_pos (fun c hc => by
              simp [(wordChar_notWs cfg ((wordChar_iff cfg c).2 (hw.2 c hc))).1])]
            cases he with
            | nil => exact absurd rfl hne
            | lf _ => simp [isWs]
            | crlf _ => simp [isWs]
          have h2 : (v ++ ' ' :: rest).takeWhile (fun c => !isWs c) = v := by
            rw [List.takeWhile_append_of_pos (fun c hc => by simp [((verb_chars hl).2 c hc).1])]
            simp [isWs]
          have hsv : s = v := by rw [← h1, ← h2, hv]
          subst hsv
          have h3 := List.append_cancel_left hv
          cases he with
          | nil => exact hne rfl
          | lf _ => simp at h3
          | crlf _ => simp at h3
      | dynamic ht =>
        exfalso
        have h4 := (verb_chars hl).1
        cases hv0 : v with
        | nil => exact h4 hv0
        | cons c v =>
          have h5 : c = '{' := by
            have := congrArg List.head? hv
            simp [hv0] at this
            exact this.symm
          have h6 : c.toLower ∈ m.display.map Char.toLower := by
            rw [← hl, hv0]; simp
          rw [h5] at h6
          revert h6
          cases m <;> decide
    cases rest with
    | nil => exact ⟨_, rfl⟩
    | cons c rest =>
      have : c ≠ ' ' := by simpa using hh
      simp [pChar, this]

theorem resourceText_ok {level : Nat} {x : Resource} {t : Str} (h : ResourceText cfg level x t) {rest : Str}
    (hr : Dedent (level + 1) rest) : pResource cfg level (t ++ rest) = .ok rest x := by
  obtain ⟨hv, ha, ht, he1, he2, hu⟩ := h
  rename_i v a t e u
  obtain ⟨h1, h2⟩ := queryTexts_ok cfg hu tidy_requireNewline (fun he hne hr => ⟨(), newline_ok he hne hr⟩)
    hr.noEol (queryParameter_end cfg hr)
  have e1 : spaces level ++ v ++ c!" " ++ a ++ t ++ e ++ u ++ rest =
      spaces level ++ (v ++ (' ' :: (a ++ t ++ (e ++ (u ++ rest))))) := by simp
  rw [e1]
  unfold pResource
  rw [preceded_ok (indent_ok level _)]
  have hw : NotWord cfg (e ++ (u ++ rest)) := by
    cases he1 with
    | nil => exact absurd rfl he2
    | lf _ => exact notWord_cons cfg (nonWord_notWord cfg (by decide) (by decide))
    | crlf _ => exact notWord_cons cfg (nonWord_notWord cfg (by decide) (by decide))
  have hc : Plain ((e ++ (u ++ rest)).dropWhile isWs) := by
    rw [dropWs_blanks he1.blanks]
    generalize x.queryParameters = qs at hu
    cases hu with
    | nil => exact hr.dropWs
    | cons =>
      simp only [List.append_assoc]
      rw [dropWs_spaces, dropWs_plain]
      all_goals (intro c hc; simp at hc; subst hc; exact ⟨rfl, by decide⟩)
  unfold pBind
  rw [(C34_verbs cfg (v ++ (' ' :: (a ++ t ++ (e ++ (u ++ rest))))) _ x.method).2 ⟨v, rfl, (verbText_iff _ _).1 hv⟩]
  simp only [pChar, if_true]
  rw [arrowText_ok cfg ha ht hw hc]
  simp only [newline_ok he1 he2 h1, h2, pPure]

/-- The text of a resource starts with its indentation. -/
theorem resourceText_start {level : Nat} {x : Resource} {t : Str} (h : ResourceText cfg level x t) (r : Str) :
    ∃ t', t ++ r = spaces level ++ t' ∧ Plain t' ∧ t'.head? ≠ some '[' := by
  obtain ⟨hv, ha, ht, he1, he2, hu⟩ := h
  rename_i v a t e u
  obtain ⟨h1, h2⟩ := verb_chars ((verbText_iff _ _).1 hv)
  refine ⟨v ++ c!" " ++ a ++ t ++ e ++ u ++ r, by simp, ?_, ?_⟩
  · intro c hc
    cases v with
    | nil => exact absurd rfl h1
    | cons d v =>
      simp at hc; subst hc
      have := h2 d (by simp)
      exact ⟨this.1, this.2.1⟩
  · cases v with
    | nil => exact absurd rfl h1
    | cons d v => simpa using (h2 d (by simp)).2.2

theorem resourceTexts_ok {level : Nat} {xs : List Resource} {t : Str} (h : ResourceTexts cfg level xs t)
    {rest : Str} (hr : Dedent (level + 1) rest) (hstop : ∃ c, pResource cfg level rest = .error c) :
    Dedent (level + 1) (t ++ rest) ∧ pMany0 (pResource cfg level) (t ++ rest) = .ok rest xs := by
  induction h with
  | nil =>
    obtain ⟨c, hc⟩ := hstop
    exact ⟨hr, by rw [List.nil_append, many0_eq (tidy_resource cfg level), hc]⟩
  | @cons x xs t u hx hu ih =>
    obtain ⟨h1, h2⟩ := ih
    obtain ⟨t', h3, h4, _⟩ := resourceText_start cfg hx (u ++ rest)
    rw [List.append_assoc]
    constructor
    · rw [h3]; exact dedent_spaces h4
    · rw [many0_eq (tidy_resource cfg level), resourceText_ok cfg hx h1]
      simp only
      rw [if_neg, h2]
      · rfl
      · intro h
        have := congrArg List.length h
        obtain ⟨_, _, _, _, _, _⟩ := hx
        simp at this
        omega

theorem many1_of_many0 {p : Parser α} (hp : Tidy p) {i rest : Str} {a : α} {l : List α}
    (h : pMany0 p i = .ok rest (a :: l)) : pMany1 p i = .ok rest (a :: l) := by
  rw [many0_eq hp] at h
  rw [many1_eq]
  split at h
  · cases h
  · cases h
  · rename_i r b e
    split at h
    · cases h
    · rw [← h]

/-- A block, given that its children are read. -/
theorem blockText_ok {level : Nat} {qs : List Param} {rs : List Resource} {ns : List NestedRoutes} {t u v : Str}
    (hq : QueryLines cfg level qs t) (hu : ResourceTexts cfg level rs u) (hv : ChildTexts cfg level ns v)
    (hne : rs ≠ [] ∨ ns ≠ []) {rest : Str} (hr : Dedent level rest)
    (ih : Dedent (level + 1) (v ++ rest) ∧ pMany0 (nestedRoutes cfg level) (v ++ rest) = .ok rest ns) :
    pRoutesWith cfg (nestedRoutes cfg level) level (t ++ u ++ v ++ rest) = .ok rest (.mk rs ns qs) := by
  obtain ⟨h1, h2⟩ := ih
  have hstop : ∃ c, pResource cfg level (v ++ rest) = .error c := by
    cases hv with
    | nil => exact resource_error cfg hr
    | @cons _ seg r ns s e t u hs he hne' ht hu =>
      have e1 : spaces level ++ s ++ e ++ t ++ u ++ rest = spaces level ++ (s ++ (e ++ (t ++ u ++ rest))) := by simp
      rw [e1]
      exact resource_not_child cfg hs he hne' level _
  obtain ⟨h3, h4⟩ := resourceTexts_ok cfg hu h1 hstop
  have hrnr : pResourcesAndRoutes cfg (nestedRoutes cfg level) level (u ++ (v ++ rest)) = .ok rest (rs, ns) := by
    unfold pResourcesAndRoutes pReturnError
    obtain ⟨cs, hcs⟩ := hstop
    cases hu with
    | nil =>
      cases ns with
      | nil => exact absurd hne (by simp)
      | cons n ns =>
        have h5 := many1_of_many0 (tidy_nested cfg level) h2
        have h6 : pMany1 (pResource cfg level) (v ++ rest) = .error (.code (v ++ rest) .many1) := by
          rw [many1_eq, hcs]
        simp only [List.nil_append]
        simp [pAlt, pBind, h6, h5, pPure]
    | @cons x xs t u hx hxs =>
      have h5 := many1_of_many0 (tidy_resource cfg level) h4
      have h6 := h1.noEol.many0
      have h7 : pAlt cfg.altFail [pPreceded (pMany0 pLineEnding) (pMany1 (nestedRoutes cfg level)), pPure []]
          (v ++ rest) = .ok rest ns := by
        cases ns with
        | nil =>
          cases hv
          obtain ⟨ce, hce⟩ := nested_error cfg hr
          have h8 : pMany1 (nestedRoutes cfg level) rest = .error (.code rest .many1) := by rw [many1_eq, hce]
          simp only [List.nil_append] at h6 ⊢
          simp [pAlt, pPreceded, pBind, h6, h8, pPure]
        | cons n ns =>
          have h8 := many1_of_many0 (tidy_nested cfg level) h2
          simp [pAlt, pPreceded, pBind, h6, h8]
      simp only [pAlt, pBind, h5]
      simp only [pAlt] at h7
      rw [h7]
      rfl
  have hqstop : ∃ c, pQueryParameter cfg level (u ++ (v ++ rest)) = .error c := by
    cases hu with
    | nil =>
      cases hv with
      | nil => exact absurd hne (by simp)
      | @cons _ seg r ns s e t u hs he hne ht hu =>
        have e1 : [] ++ (spaces level ++ s ++ e ++ t ++ u ++ rest) = spaces level ++ (s ++ (e ++ t ++ u ++ rest)) := by
          simp
        rw [e1]
        exact queryParameter_error cfg (segmentText_head cfg hs _)
    | @cons x xs t u hx hxs =>
      obtain ⟨t', h5, _, h6⟩ := resourceText_start cfg hx (u ++ (v ++ rest))
      rw [List.append_assoc, h5]
      exact queryParameter_error cfg h6
  obtain ⟨_, h5⟩ := queryTexts_ok cfg hq tidy_lineEnding.many1 (fun he hne hr => eols1_ok he hne hr) h3.noEol hqstop
  have e1 : t ++ u ++ v ++ rest = t ++ (u ++ (v ++ rest)) := by simp
  rw [e1]
  unfold pRoutesWith pBind
  rw [h5]
  simp only [hrnr]
  rfl

/-- A block starts with its indentation. -/
theorem blockText_noEol {level : Nat} {r : Routes} {t : Str} (h : BlockText cfg level r t) (hl : 0 < level)
    (rest : Str) : NoEol (t ++ rest) := by
  have key : ∀ x : Str, NoEol (spaces level ++ x) := by
    intro x
    obtain ⟨k, rfl⟩ : ∃ k, level = k + 1 := ⟨level - 1, by omega⟩
    rw [spaces_succ]
    intro c hc; simp at hc; subst hc; rfl
  obtain ⟨hq, hu, hv, hne⟩ := h
  cases hq with
  | cons => simp only [List.append_assoc]; exact key _
  | nil =>
    cases hu with
    | @cons x xs t u hx hxs =>
      rename_i v
      obtain ⟨t', h5, _, _⟩ := resourceText_start cfg hx (u ++ (v ++ rest))
      simp only [List.nil_append, List.append_assoc]
      rw [h5]; exact key _
    | nil =>
      cases hv with
      | nil => exact absurd hne (by simp)
      | cons => simp only [List.nil_append, List.append_assoc]; exact key _

theorem block_accepted {level : Nat} {r : Routes} {t : Str} (h : BlockText cfg level r t) : ∀ {rest : Str},
    Dedent level rest → pRoutesWith cfg (nestedRoutes cfg level) level (t ++ rest) = .ok rest r := by
  refine BlockText.rec (motive_1 := fun level r t _ => ∀ {rest : Str}, Dedent level rest →
      pRoutesWith cfg (nestedRoutes cfg level) level (t ++ rest) = .ok rest r)
    (motive_2 := fun level ns v _ => ∀ {rest : Str}, Dedent level rest → Dedent (level + 1) (v ++ rest) ∧
      pMany0 (nestedRoutes cfg level) (v ++ rest) = .ok rest ns) ?_ ?_ ?_ h
  · intro level qs rs ns t u v hq hu hv hne ih rest hr
    exact blockText_ok cfg hq hu hv hne hr (ih hr)
  · intro level rest hr
    obtain ⟨c, hc⟩ := nested_error cfg hr
    refine ⟨hr.mono (Nat.le_succ _), ?_⟩
    rw [List.nil_append, many0_eq (tidy_nested cfg level), hc]
  · intro level seg r ns s e t u hs he hne ht hu ih1 ih2 rest hr
    obtain ⟨h1, h2⟩ := ih2 hr
    have e1 : spaces level ++ s ++ e ++ t ++ u ++ rest = spaces level ++ (s ++ (e ++ (t ++ (u ++ rest)))) := by simp
    rw [e1]
    constructor
    · exact dedent_spaces (segmentText_plain cfg hs _)
    · have hw : NotWord cfg (e ++ (t ++ (u ++ rest))) := by
        cases he with
        | nil => exact absurd rfl hne
        | lf _ => exact notWord_cons cfg (nonWord_notWord cfg (by decide) (by decide))
        | crlf _ => exact notWord_cons cfg (nonWord_notWord cfg (by decide) (by decide))
      have h3 : nestedRoutes cfg level (spaces level ++ (s ++ (e ++ (t ++ (u ++ rest))))) = .ok (u ++ rest) (.mk seg r) := by
        rw [nestedRoutes_eq]
        obtain ⟨l, hl⟩ := eols1_ok he hne (blockText_noEol cfg ht (Nat.succ_pos _) (u ++ rest))
        unfold pBind
        rw [segmentText_ok cfg hs level hw]
        simp only [hl, pReturnError, ih1 h1]
        rfl
      rw [many0_eq (tidy_nested cfg level), h3]
      simp only
      rw [if_neg, h2]
      · rfl
      · intro h
        have := congrArg List.length h
        have h4 : e.length ≠ 0 := fun h => hne (List.length_eq_zero_iff.1 h)
        simp at this
        omega

theorem header_ok {h : Header} (hall : ∀ c ∈ h.text, c ≠ '\n' ∧ c ≠ '\r') (hs : h.text.head? ≠ some '/') {e : Str}
    (he : Eols e) (hne : e ≠ []) {r : Str} (hr : NoEol r) : pHeader (h.text ++ (e ++ r)) = .ok r h := by
  have hall : ∀ c ∈ h.text, notEol c = true := fun c hc => by simpa [notEol] using hall c hc
  have hd : (e ++ r).dropWhile notEol = e ++ r ∧ (e ++ r).takeWhile notEol = [] := by
    cases he with
    | nil => exact absurd rfl hne
    | lf _ => exact ⟨rfl, rfl⟩
    | crlf _ => exact ⟨rfl, rfl⟩
  obtain ⟨l, hl⟩ := eols1_ok he hne hr
  rcases header_eq (h.text ++ (e ++ r)) with ⟨_, rest, l', h4, h5⟩ | ⟨h4, _⟩
  · rw [List.dropWhile_append_of_pos hall, hd.1, hl] at h4
    cases h4
    rw [h5, List.takeWhile_append_of_pos hall, hd.2, List.append_nil]
  · exfalso
    rcases h4 with h4 | ⟨c, h4⟩
    · cases ht : h.text with
      | nil =>
        rw [ht] at h4
        cases he with
        | nil => exact hne rfl
        | lf _ => simp at h4
        | crlf _ => simp at h4
      | cons c t => rw [ht] at hs h4; exact hs h4
    · rw [List.dropWhile_append_of_pos hall, hd.1] at h4
      cases he with
      | nil => exact hne rfl
      | lf _ => cases h4
      | crlf _ => cases h4

theorem headerLines_ok {hs : List Header} {t : Str} (h : HeaderLines hs t) (r : Str) :
    NoEol (t ++ '/' :: r) ∧ pMany0 pHeader (t ++ '/' :: r) = .ok ('/' :: r) hs := by
  induction h with
  | nil =>
    refine ⟨by intro c hc; simp at hc; subst hc; rfl, ?_⟩
    rcases header_eq ('/' :: r) with ⟨h4, _⟩ | ⟨_, c, h4⟩
    · exact absurd rfl h4
    · rw [List.nil_append, many0_eq tidy_header, h4]
  | @cons h hs e u hw he hne hu ih =>
    obtain ⟨h1, h2⟩ := ih
    obtain ⟨g1, g2, g3⟩ := hw
    have e1 : h.text ++ e ++ u ++ '/' :: r = h.text ++ (e ++ (u ++ '/' :: r)) := by simp
    rw [e1]
    constructor
    · cases ht : h.text with
      | nil => exact absurd ht g1
      | cons c t =>
        intro d hd
        simp at hd
        subst hd
        simpa [notEol] using g2 c (by simp [ht])
    · rw [many0_eq tidy_header, header_ok g2 g3 he hne h1]
      simp only
      rw [if_neg, h2]
      · rfl
      · intro h'
        have := congrArg List.length h'
        have h4 : e.length ≠ 0 := fun h => hne (List.length_eq_zero_iff.1 h)
        simp at this
        omega

theorem headerLines_filter {hs : List Header} {t : Str} (h : HeaderLines hs t) :
    hs.filter (fun h => h.text.length != 0) = hs := by
  refine List.filter_eq_self.2 fun x hx => ?_
  induction h with
  | nil => cases hx
  | cons hw _ _ _ ih =>
    rcases List.mem_cons.1 hx with rfl | hx
    · simpa using hw.1
    · exact ih hx

theorem config_accepted {c : RouteConfig} {i : Str} (h : FileText cfg c i) : routeConfig cfg i = .ok [] c := by
  obtain ⟨he, hh, he1, he2, ht⟩ := h
  rename_i headers routes e t e' b
  have e1 : e ++ t ++ c!"/" ++ e' ++ b = e ++ (t ++ '/' :: (e' ++ b)) := by simp
  rw [e1]
  obtain ⟨h1, h2⟩ := headerLines_ok hh (e' ++ b)
  have h3 : ∃ hs, pMany0 pHeader (e ++ (t ++ '/' :: (e' ++ b))) = .ok ('/' :: (e' ++ b)) hs ∧
      hs.filter (fun h => h.text.length != 0) = headers := by
    by_cases hne : e = []
    · subst hne
      exact ⟨headers, h2, headerLines_filter hh⟩
    · refine ⟨⟨[]⟩ :: headers, ?_, ?_⟩
      · have h4 := header_ok (h := ⟨[]⟩) (by simp) (by simp) he hne h1
        rw [List.nil_append] at h4
        rw [many0_eq tidy_header, h4]
        simp only
        rw [if_neg, h2]
        · rfl
        · intro h'
          exact hne (by simpa using congrArg List.length h')
      · rw [List.filter_cons, if_neg (by simp)]
        exact headerLines_filter hh
  obtain ⟨hs, h3, h4⟩ := h3
  have h5 := block_accepted cfg ht (rest := []) ⟨0, [], by omega, rfl, by intro c hc; cases hc⟩
  rw [List.append_nil, ← routes_eq] at h5
  have h6 := blockText_noEol cfg ht (by omega) []
  rw [List.append_nil] at h6
  obtain ⟨l, h7⟩ := eols1_ok he1 he2 h6
  have h8 : pMany0 pLineEnding ('/' :: (e' ++ b)) = .ok ('/' :: (e' ++ b)) [] :=
    NoEol.many0 (by intro c hc; simp at hc; subst hc; rfl)
  unfold routeConfig pBind
  rw [h3]
  simp only [h8, pChar, if_true, h7, h5, pEof, pPure, h4]

end Wayfinder
