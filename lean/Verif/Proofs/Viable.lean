import Verif.Props.Grammar
import Verif.Spec.Expected
/-!
# Where the parser of route files stops

Everything before a place that an error or failure names can be completed to an accepted text.
-/

namespace Wayfinder

variable {α β : Type} (cfg : ParseCfg)

/-- The entries of an error: remaining inputs and kinds. -/
def Ctx.entries : Ctx → List (Str × Kind)
  | .code j k => [(j, k)]
  | .list v => v

/-- The entries of a result. -/
def Res.entries : Res α → List (Str × Kind)
  | .ok _ _ => []
  | .error c => c.entries
  | .failure c => c.entries

/-- Before each place that an unsuccessful run names, a text with `P` has been read, and its message is right. -/
def Viable (P : Str → Prop) (p : Parser α) : Prop :=
  ∀ i j k, (j, k) ∈ (p i).entries → ∃ pre, i = pre ++ j ∧ P pre ∧ Apt cfg P k pre j

theorem Apt.after {P : Str → Prop} {t pre j : Str} {k : Kind} (h : Apt cfg (fun u => P (t ++ u)) k pre j) :
    Apt cfg P k (t ++ pre) j := by
  intro m hm
  simpa using h m hm

/-- Without a message of its own. -/
def Kind.Dull (k : Kind) : Prop := ∀ m, k ≠ .custom m

theorem Kind.Dull.apt {k : Kind} (h : k.Dull) (P : Str → Prop) (pre j : Str) : Apt cfg P k pre j := fun m hm => absurd hm (h m)

/-- Closed under prefixes. -/
def PrefixClosed (P : Str → Prop) : Prop := ∀ a b, P (a ++ b) → P a

theorem PrefixClosed.after {P : Str → Prop} (h : PrefixClosed P) (t : Str) : PrefixClosed fun u => P (t ++ u) :=
  fun a b hab => h (t ++ a) b (by simpa using hab)

theorem PrefixClosed.nil {P : Str → Prop} (h : PrefixClosed P) {t : Str} (ht : P t) : P [] := h [] t ht

/-- All entries of `p` are at its beginning, without messages. -/
def AtStart (p : Parser α) : Prop := ∀ i j k, (j, k) ∈ (p i).entries → j = i ∧ k.Dull

theorem AtStart.viable {p : Parser α} (h : AtStart p) {P : Str → Prop} (hP : P []) : Viable cfg P p :=
  fun i j k hj => ⟨[], by rw [(h i j k hj).1]; rfl, hP, (h i j k hj).2.apt cfg _ _ _⟩

theorem viable_pure {P : Str → Prop} (a : α) : Viable cfg P (pPure a) := fun _ _ _ hj => by cases hj

theorem viable_bind {P : Str → Prop} {p : Parser α} {f : α → Parser β} (hp : Viable cfg P p)
    (hf : ∀ {i rest a}, p i = .ok rest a → ∃ t, i = t ++ rest ∧ Viable cfg (fun u => P (t ++ u)) (f a)) :
    Viable cfg P (pBind p f) := by
  intro i j k hj
  have hp := hp i j k
  unfold pBind at hj
  cases h : p i with
  | error c => rw [h] at hj hp; exact hp hj
  | failure c => rw [h] at hj hp; exact hp hj
  | ok rest a =>
    rw [h] at hj
    obtain ⟨t, rfl, hv⟩ := hf h
    obtain ⟨pre, rfl, hpre, ha⟩ := hv _ _ _ hj
    exact ⟨t ++ pre, by simp, hpre, ha.after⟩

theorem viable_map {P : Str → Prop} {p : Parser α} {f : α → β} (hp : Viable cfg P p) : Viable cfg P (pMap f p) := by
  intro i j k hj
  have hp := hp i j k
  unfold pMap pBind at hj
  cases h : p i with
  | error c => rw [h] at hj hp; exact hp hj
  | failure c => rw [h] at hj hp; exact hp hj
  | ok rest a => rw [h] at hj; cases hj

theorem viable_terminated {P : Str → Prop} {p : Parser α} {q : Parser β} (hp : Viable cfg P p)
    (hf : ∀ {i rest a}, p i = .ok rest a → ∃ t, i = t ++ rest ∧ Viable cfg (fun u => P (t ++ u)) q) :
    Viable cfg P (pTerminated p q) := by
  refine viable_bind cfg hp fun {i rest a} h => ?_
  obtain ⟨t, ht, hv⟩ := hf h
  exact ⟨t, ht, viable_map cfg (f := fun _ => a) hv⟩

theorem viable_returnError {P : Str → Prop} {k : Kind} {p : Parser α} (hp : Viable cfg P p) (hP : P [])
    (ha : ∀ i, (∀ rest a, p i ≠ .ok rest a) → Apt cfg P k [] i) : Viable cfg P (pReturnError k p) := by
  intro i j k' hj
  have hp := hp i j k'
  have key : ∀ c, p i = .error c ∨ p i = .failure c → (j, k') ∈ c.entries ∨ (j, k') = (i, k) →
      ∃ pre, i = pre ++ j ∧ P pre ∧ Apt cfg P k' pre j := by
    intro c hc h
    rcases h with h | h
    · exact hp (by rcases hc with hc | hc <;> rw [hc] <;> exact h)
    · cases h
      exact ⟨[], rfl, hP, ha i fun rest a he => by rcases hc with hc | hc <;> rw [hc] at he <;> cases he⟩
  unfold pReturnError at hj
  cases h : p i with
  | ok rest a => rw [h] at hj; cases hj
  | error c =>
    rw [h] at hj
    refine key c (.inl h) ?_
    cases c <;> simpa [Res.entries, Ctx.entries] using hj
  | failure c =>
    rw [h] at hj
    refine key c (.inr h) ?_
    cases c <;> simpa [Res.entries, Ctx.entries] using hj

theorem dull_alt : Kind.Dull .alt := fun _ h => by cases h
theorem dull_many1 : Kind.Dull .many1 := fun _ h => by cases h

theorem viable_alt {P : Str → Prop} {b : Bool} (hP : P []) :
    ∀ {ps : List (Parser α)}, (∀ p ∈ ps, Viable cfg P p) → Viable cfg P (pAlt b ps)
  | [], _ => fun i j k hj => by
    simp only [pAlt, Res.entries, Ctx.entries, List.mem_cons, List.not_mem_nil, or_false, Prod.mk.injEq] at hj
    obtain ⟨rfl, rfl⟩ := hj
    exact ⟨[], rfl, hP, dull_alt.apt cfg _ _ _⟩
  | p :: ps, h => by
    have ih := viable_alt (b := b) hP fun q hq => h q (List.mem_cons_of_mem _ hq)
    intro i j k hj
    have hp := h p (List.mem_cons_self ..) i j k
    unfold pAlt at hj
    cases hr : p i with
    | ok rest a => rw [hr] at hj; cases hj
    | error c => rw [hr] at hj; exact ih i j k hj
    | failure c =>
      rw [hr] at hj hp
      cases b with
      | true => exact ih i j k hj
      | false => exact hp hj

theorem viable_returning {P : Str → Prop} {b : Bool} {before : Parser α} {p : Parser β} {alt : Parser γ}
    (hp : Viable cfg P p) (h : Viable cfg P alt) : Viable cfg P (pReturning b before p alt) := by
  intro i j k hj
  rcases returning_cases b before p alt i with e | ⟨c, e1, e⟩
  · exact h i j k (by rwa [e] at hj)
  · refine hp i j k ?_
    rw [e1]
    rwa [e] at hj

theorem viable_ws {P : Str → Prop} {p : Parser α} (h : ∀ a, Blanks a → Viable cfg (fun u => P (a ++ u)) p) :
    Viable cfg P (pWs p) := by
  intro i j k hj
  obtain ⟨a, ha, hi⟩ := dropWs_inv i
  have hp := h a ha (i.dropWhile isWs) j k
  unfold pWs at hj
  have : (j, k) ∈ (p (i.dropWhile isWs)).entries := by
    cases hr : p (i.dropWhile isWs) with
    | ok rest a => rw [hr] at hj; cases hj
    | error c => rw [hr] at hj; exact hj
    | failure c => rw [hr] at hj; exact hj
  obtain ⟨pre, h1, h2, h3⟩ := hp this
  exact ⟨a ++ pre, by rw [hi, h1]; simp, h2, h3.after⟩

/-- A loop: `M` holds for what has been read. -/
theorem viable_many0 {P M : Str → Prop} {p : Parser α} (nil : M [])
    (snoc : ∀ {t i rest a}, M t → p i = .ok rest a → ∃ u, i = u ++ rest ∧ M (t ++ u))
    (hp : ∀ t, M t → Viable cfg (fun u => P (t ++ u)) p) : Viable cfg P (pMany0 p) := by
  have key : ∀ (n : Nat) (t i : Str) (acc : List α), M t → ∀ j k, (j, k) ∈ (many0Loop p n i acc).entries →
      ∃ pre, i = pre ++ j ∧ P (t ++ pre) ∧ Apt cfg P k (t ++ pre) j := by
    intro n
    induction n with
    | zero => intro t i acc _ j k hj; cases hj
    | succ n ih =>
      intro t i acc ht j k hj
      have hv := hp t ht i j k
      unfold many0Loop at hj
      cases hr : p i with
      | error c => rw [hr] at hj; cases hj
      | failure c =>
        rw [hr] at hj hv
        obtain ⟨pre, h1, h2, h3⟩ := hv hj
        exact ⟨pre, h1, h2, h3.after⟩
      | ok rest a =>
        rw [hr] at hj
        simp only at hj
        split at hj
        · cases hj
        · obtain ⟨u, rfl, hu⟩ := snoc ht hr
          obtain ⟨pre, rfl, hpre, ha⟩ := ih (t ++ u) rest _ hu j k hj
          exact ⟨u ++ pre, by simp, by simpa using hpre, by simpa using ha⟩
  intro i j k hj
  exact key _ [] i [] nil j k hj

theorem prepend_entries (l : List α) (r : Res (List α)) : (r.prepend l).entries = r.entries := by cases r <;> rfl

theorem viable_many1 {P M : Str → Prop} {p : Parser α} (nil : M [])
    (snoc : ∀ {t i rest a}, M t → p i = .ok rest a → ∃ u, i = u ++ rest ∧ M (t ++ u))
    (hp : ∀ t, M t → Viable cfg (fun u => P (t ++ u)) p) (hP : P []) : Viable cfg P (pMany1 p) := by
  intro i j k hj
  rw [many1_eq] at hj
  cases hr : p i with
  | error c =>
    rw [hr] at hj
    simp only [Res.entries, Ctx.entries, List.mem_cons, List.not_mem_nil, or_false, Prod.mk.injEq] at hj
    obtain ⟨rfl, rfl⟩ := hj
    exact ⟨[], rfl, hP, dull_many1.apt cfg _ _ _⟩
  | failure c =>
    rw [hr] at hj
    simp only [Res.entries, Ctx.entries, List.mem_cons, List.not_mem_nil, or_false, Prod.mk.injEq] at hj
    obtain ⟨rfl, rfl⟩ := hj
    exact ⟨[], rfl, hP, dull_many1.apt cfg _ _ _⟩
  | ok rest a =>
    rw [hr] at hj
    obtain ⟨u, rfl, hu⟩ := snoc nil hr
    have hv : Viable cfg (fun v => P (u ++ v)) (pMany0 p) :=
      viable_many0 cfg (M := fun t => M (u ++ t)) (by simpa using hu)
        (fun {t i rest a} ht h => by
          obtain ⟨w, h1, h2⟩ := snoc ht h
          exact ⟨w, h1, by simpa using h2⟩)
        fun t ht => by simpa using hp _ ht
    simp only [prepend_entries] at hj
    obtain ⟨pre, rfl, hpre, ha⟩ := hv _ _ _ hj
    exact ⟨u ++ pre, by simp, hpre, ha.after⟩

/-! ## Parsers that name their beginning only -/

theorem atStart_of {p : Parser α} (h : ∀ i, (p i).entries = [] ∨ ∃ k, (p i).entries = [(i, k)] ∧ k.Dull) : AtStart p := by
  intro i j k hj
  rcases h i with h | ⟨k', h, hk⟩
  · rw [h] at hj; cases hj
  · rw [h] at hj
    simp only [List.mem_cons, List.not_mem_nil, or_false, Prod.mk.injEq] at hj
    obtain ⟨rfl, rfl⟩ := hj
    exact ⟨rfl, hk⟩

theorem atStart_tag (t : Str) : AtStart (pTag t) := atStart_of fun i => by
  unfold pTag
  split
  · exact .inl rfl
  · exact .inr ⟨_, rfl, fun _ h => by cases h⟩

theorem atStart_tagNoCase (t : Str) : AtStart (pTagNoCase t) := atStart_of fun i => by
  unfold pTagNoCase
  split
  · exact .inl rfl
  · exact .inr ⟨_, rfl, fun _ h => by cases h⟩

theorem atStart_char (c : Char) : AtStart (pChar c) := atStart_of fun i => by
  unfold pChar
  split
  · split
    · exact .inl rfl
    · exact .inr ⟨_, rfl, fun _ h => by cases h⟩
  · exact .inr ⟨_, rfl, fun _ h => by cases h⟩

theorem atStart_ident : AtStart (pIdent cfg) := atStart_of fun i => by
  unfold pIdent pTakeWhile1
  split
  · exact .inr ⟨_, rfl, fun _ h => by cases h⟩
  · exact .inl rfl

theorem atStart_eof : AtStart pEof := atStart_of fun i => by
  unfold pEof
  split
  · exact .inl rfl
  · exact .inr ⟨_, rfl, fun _ h => by cases h⟩

theorem atStart_indent (level : Nat) : AtStart (pIndent level) := by
  have key : ∀ (n : Nat) (start i : Str) (acc : List Str), (countLoop (pTag c!"  ") start n i acc).entries = [] ∨
      ∃ k, (countLoop (pTag c!"  ") start n i acc).entries = [(start, k)] ∧ k.Dull := by
    intro n
    induction n with
    | zero => intro start i acc; exact .inl rfl
    | succ n ih =>
      intro start i acc
      unfold countLoop
      cases hr : pTag c!"  " i with
      | ok rest a => exact ih _ _ _
      | error c => exact .inr ⟨_, rfl, fun _ h => by cases h⟩
      | failure c => unfold pTag at hr; split at hr <;> cases hr
  exact atStart_of fun i => key _ _ _ _

theorem many0_lineEnding_ok (i : Str) : ∃ r l, pMany0 pLineEnding i = .ok r l := by
  have key : ∀ (n : Nat) (i : Str) (acc : List Unit), ∃ r l, many0Loop pLineEnding n i acc = .ok r l := by
    intro n
    induction n with
    | zero => intro i acc; exact ⟨_, _, rfl⟩
    | succ n ih =>
      intro i acc
      unfold many0Loop
      cases hr : pLineEnding i with
      | ok rest a =>
        simp only
        split
        · exact ⟨_, _, rfl⟩
        · exact ih _ _
      | error c => exact ⟨_, _, rfl⟩
      | failure c => unfold pLineEnding at hr; split at hr <;> cases hr
  exact key _ _ _

theorem many0_lineEnding_entries (i : Str) : (pMany0 pLineEnding i).entries = [] := by
  obtain ⟨r, l, h⟩ := many0_lineEnding_ok i
  rw [h]; rfl

theorem viable_eols0 {P : Str → Prop} : Viable cfg P (pMany0 pLineEnding) := by
  intro i j k hj; rw [many0_lineEnding_entries] at hj; cases hj

theorem atStart_eols1 : AtStart (pMany1 pLineEnding) := atStart_of fun i => by
  rw [many1_eq]
  cases hr : pLineEnding i with
  | error c => exact .inr ⟨_, rfl, dull_many1⟩
  | failure c => exact .inr ⟨_, rfl, dull_many1⟩
  | ok rest a =>
    simp only [prepend_entries, many0_lineEnding_entries]
    exact .inl trivial

/-- The message asks for `s` alone. -/
theorem apt_token {P : Str → Prop} {m i : Str} (h : ∀ s, AsksFor m s → P s ∧ ¬ s <+: i)
    (h1 : m ≠ c!"Expected resources or child routes") (h2 : m ≠ c!"In routes starting here") : Apt cfg P (.custom m) [] i := by
  intro m' hm
  cases hm
  exact ⟨h, fun h => absurd h h1, fun h => absurd h h2⟩

theorem viable_newline {P : Str → Prop} (hP : P []) (h1 : P c!"\n") (h2 : P c!"\r\n") : Viable cfg P pRequireNewline := by
  refine viable_returnError cfg (viable_map cfg (atStart_eols1.viable cfg hP)) hP fun i hi =>
    apt_token cfg (fun s hs => ?_) (by decide) (by decide)
  have key : ∀ rest, pLineEnding i ≠ .ok rest () := by
    intro rest hr
    unfold pMap pBind at hi
    rw [many1_eq, hr] at hi
    obtain ⟨r, l, hm⟩ := many0_lineEnding_ok rest
    simp only [hm, Res.prepend] at hi
    exact hi _ _ rfl
  cases hs with
  | lf => exact ⟨h1, fun ⟨r, hr⟩ => key r (by rw [← hr]; rfl)⟩
  | crlf => exact ⟨h2, fun ⟨r, hr⟩ => key r (by rw [← hr]; rfl)⟩

theorem viable_method {P : Str → Prop} (hP : P []) : Viable cfg P (pMethod cfg) := by
  refine viable_alt cfg hP fun p hp => ?_
  simp only [List.mem_cons, List.not_mem_nil, or_false] at hp
  rcases hp with rfl | rfl | rfl | rfl <;> exact viable_map cfg ((atStart_tagNoCase _).viable cfg hP)

/-! ## The grammar -/

/-- A word. -/
theorem word_x : Word cfg c!"x" := ⟨by simp, by
  intro c hc
  simp only [List.mem_cons, List.not_mem_nil, or_false] at hc
  subst hc
  exact .inr (.inl (by decide))⟩

theorem blanks_nil : Blanks [] := fun _ h => by cases h

theorem eols_one : Eols c!"\n" := .lf .nil

/-- Blanks, name, blanks, colon, blanks, name, blanks. -/
theorem viable_param {P : Str → Prop} (hc : PrefixClosed P) (h : ∀ p t, ParamText cfg p t → P t) : Viable cfg P (pWs (pParam cfg)) := by
  refine viable_ws cfg fun a ha => ?_
  refine viable_bind cfg ((atStart_ident cfg).viable cfg ?_) fun {i rest name} h1 => ?_
  · exact hc _ _ (by simpa using h _ _ (.mk (word_x cfg) (word_x cfg) ha blanks_nil blanks_nil blanks_nil))
  obtain ⟨rfl, hn⟩ := ident_inv cfg h1
  refine ⟨name, rfl, ?_⟩
  refine viable_bind cfg (viable_ws cfg fun b hb => ?_) fun {i rest _} h2 => ?_
  · have : P (a ++ name ++ b) := hc _ _ (by
      simpa using h _ _ (.mk hn (word_x cfg) ha hb blanks_nil blanks_nil))
    refine viable_returnError cfg (P := fun u => P (a ++ (name ++ (b ++ u)))) ((atStart_tag _).viable cfg (by simpa using this))
      (by simpa using this) fun i hi => apt_token cfg (fun s hs => ?_) (by decide) (by decide)
    cases hs
    refine ⟨hc _ c!"x" (by simpa using h _ _ (.mk hn (word_x cfg) ha hb blanks_nil blanks_nil)), fun ⟨r, hr⟩ => ?_⟩
    subst hr
    exact hi r c!":" rfl
  obtain ⟨b, c, r, r', hb, hcc, rfl, h3, rfl⟩ := ws_inv h2
  obtain rfl := tag_inv (returnError_inv h3)
  refine ⟨b ++ c!":" ++ c, by simp, ?_⟩
  refine viable_bind cfg ((atStart_ident cfg).viable cfg ?_) fun {i rest typ} h4 => ?_
  · exact hc _ _ (by simpa using h _ _ (.mk hn (word_x cfg) ha hb hcc blanks_nil))
  · obtain ⟨rfl, _⟩ := ident_inv cfg h4
    exact ⟨typ, rfl, viable_pure cfg _⟩

/-- A parameter between brackets. -/
theorem viable_bracketed {P : Str → Prop} (hc : PrefixClosed P) {o c : Char} {m : Str} (hm : ∀ s, AsksFor m s → s = [c])
    (hm1 : m ≠ c!"Expected resources or child routes") (hm2 : m ≠ c!"In routes starting here")
    (h : ∀ p t, ParamText cfg p t → P (o :: (t ++ [c]))) :
    Viable cfg P (pPreceded (pChar o) (pTerminated (pWs (pParam cfg)) (pReturnError (.custom m) (pChar c)))) := by
  have hx : ParamText cfg ⟨c!"x", c!"x"⟩ _ := .mk (word_x cfg) (word_x cfg) blanks_nil blanks_nil blanks_nil blanks_nil
  refine viable_bind cfg ((atStart_char _).viable cfg (hc.nil (h _ _ hx))) fun {i rest _} h1 => ?_
  obtain rfl := char_inv h1
  refine ⟨[o], rfl, ?_⟩
  refine viable_terminated cfg (viable_param cfg (hc.after _) fun p t ht => ?_) fun {i rest p} h2 => ?_
  · exact hc _ [c] (by simpa using h p t ht)
  · obtain ⟨t, ht, rfl⟩ := wsParam_inv cfg h2
    have : P ([o] ++ t) := hc _ [c] (by simpa using h p t ht)
    refine ⟨t, rfl, viable_returnError cfg (P := fun u => P ([o] ++ (t ++ u))) ((atStart_char _).viable cfg (by simpa using this))
      (by simpa using this) fun i hi => apt_token cfg (fun s hs => ?_) hm1 hm2⟩
    rw [hm s hs]
    refine ⟨by simpa using h p t ht, fun ⟨r, hr⟩ => ?_⟩
    subst hr
    exact hi r c (by simp [pChar])

theorem viable_segment {P : Str → Prop} (hc : PrefixClosed P) {level : Nat}
    (h : ∀ seg s, SegmentText cfg seg s → P (spaces level ++ s)) : Viable cfg P (pPathSegment cfg level) := by
  have hs := h _ _ (.static (word_x cfg))
  refine viable_bind cfg ((atStart_indent level).viable cfg (hc.nil hs)) fun {i rest _} h1 => ?_
  obtain rfl := indent_inv h1
  refine ⟨_, rfl, ?_⟩
  have hs : P (spaces level ++ []) := hc _ c!"x" (by simpa using hs)
  have hb : Viable cfg (fun u => P (spaces level ++ u)) (pBraced cfg) :=
    viable_bracketed cfg (hc.after _) (fun s hs => by cases hs; rfl) (by decide) (by decide) fun p t ht => by
      simpa using h _ _ (.dynamic ht)
  refine viable_returning cfg hb (viable_alt cfg (P := fun u => P (spaces level ++ u)) hs fun p hp => ?_)
  simp only [List.mem_cons, List.not_mem_nil, or_false] at hp
  rcases hp with rfl | rfl
  · exact viable_map cfg hb
  · exact viable_map cfg ((atStart_ident cfg).viable cfg hs)

theorem viable_query {P : Str → Prop} (hc : PrefixClosed P) {level : Nat}
    (h : ∀ p t, ParamText cfg p t → P (spaces level ++ c!"[" ++ t ++ c!"]")) : Viable cfg P (pQueryParameter cfg level) := by
  have hx : ParamText cfg ⟨c!"x", c!"x"⟩ _ := .mk (word_x cfg) (word_x cfg) blanks_nil blanks_nil blanks_nil blanks_nil
  refine viable_bind cfg ((atStart_indent level).viable cfg (hc.nil (h _ _ hx))) fun {i rest _} h1 => ?_
  obtain rfl := indent_inv h1
  exact ⟨_, rfl, viable_bracketed cfg (hc.after _) (fun s hs => by cases hs; rfl) (by decide) (by decide) fun p t ht => by simpa using h p t ht⟩

theorem queryLines_snoc {level : Nat} {ps : List Param} {t : Str} (h : QueryLines cfg level ps t) {p : Param} {u e : Str}
    (hp : ParamText cfg p u) (he : Eols e) (hne : e ≠ []) :
    QueryLines cfg level (ps ++ [p]) (t ++ (spaces level ++ c!"[" ++ u ++ c!"]" ++ e)) := by
  induction h with
  | nil => simpa using QueryLines.cons hp he hne .nil
  | cons h1 h2 h3 _ ih => simpa using QueryLines.cons h1 h2 h3 ih

/-- Lines with query parameters, with whatever reads the line endings. -/
theorem viable_queryLines {P : Str → Prop} (hc : PrefixClosed P) {level : Nat} {q : Parser β}
    (hq : ∀ {P : Str → Prop}, P [] → P c!"\n" → P c!"\r\n" → Viable cfg P q)
    (he : ∀ {i rest a}, q i = .ok rest a → ∃ e, Eols e ∧ e ≠ [] ∧ i = e ++ rest)
    (h : ∀ ps t, QueryLines cfg level ps t → P t) :
    Viable cfg P (pMany0 (pTerminated (pQueryParameter cfg level) q)) := by
  refine viable_many0 cfg (M := fun t => ∃ ps, QueryLines cfg level ps t) ⟨[], .nil⟩ ?_ ?_
  · rintro t i rest p ⟨ps, ht⟩ h1
    obtain ⟨r, _, h2, h3⟩ := terminated_inv h1
    obtain ⟨e, he1, he2, rfl⟩ := he h3
    obtain ⟨u, hu, rfl⟩ := query_inv cfg h2
    exact ⟨_, by simp, _, queryLines_snoc cfg ht hu he1 he2⟩
  · rintro t ⟨ps, ht⟩
    have key : ∀ p u, ParamText cfg p u → P (t ++ (spaces level ++ c!"[" ++ u ++ c!"]")) := fun p u hu =>
      hc _ c!"\n" (by simpa using h _ _ (queryLines_snoc cfg ht hu eols_one (by simp)))
    refine viable_terminated cfg (viable_query cfg (hc.after _) key) fun {i rest p} h1 => ?_
    obtain ⟨u, hu, rfl⟩ := query_inv cfg h1
    refine ⟨_, rfl, hq (by simpa using key p u hu) ?_ ?_⟩
    · simpa using h _ _ (queryLines_snoc cfg ht hu eols_one (by simp))
    · simpa using h _ _ (queryLines_snoc cfg ht hu (.crlf .nil) (by simp))

/-- Names of modules, as far as they have been read. -/
inductive Modules : Str → Prop where
  | nil : Modules []
  | snoc {t m a b : Str} : Modules t → Word cfg m → Blanks a → Blanks b → Modules (t ++ (m ++ a ++ c!"::" ++ b))

theorem Modules.target {t : Str} (h : Modules cfg t) : ∀ {ms : List Str} {x u : Str}, TargetText cfg ms x u →
    ∃ ms', TargetText cfg ms' x (t ++ u) := by
  induction h with
  | nil => intro ms x u hu; exact ⟨_, hu⟩
  | snoc _ h1 h2 h3 ih =>
    intro ms x u hu
    obtain ⟨ms', h⟩ := ih (.module h1 h2 h3 hu)
    exact ⟨ms', by simpa using h⟩

theorem viable_targetPath {P : Str → Prop} (hc : PrefixClosed P) {b : Bool} (h : ∀ ms x t, TargetText cfg ms x t → P t) :
    Viable cfg P (pTargetPath cfg b) := by
  have hm : ∀ t, Modules cfg t → P (t ++ []) := fun t ht => by
    obtain ⟨ms, h1⟩ := ht.target cfg (.name (word_x cfg))
    exact hc _ c!"x" (by simpa using h _ _ _ h1)
  have snoc : ∀ {t i rest : Str} {a : Str}, Modules cfg t →
      pTerminated (pIdent cfg) (pWs (pTag c!"::")) i = .ok rest a → ∃ u, i = u ++ rest ∧ Modules cfg (t ++ u) := by
    intro t i rest m ht h1
    obtain ⟨r1, _, h1, h2⟩ := terminated_inv h1
    obtain ⟨rfl, hw⟩ := ident_inv cfg h1
    obtain ⟨a, b, r3, r4, ha, hb, rfl, h4, h5⟩ := ws_inv h2
    obtain rfl := tag_inv h4
    subst h5
    exact ⟨_, by simp, .snoc ht hw ha hb⟩
  refine viable_bind cfg (viable_many0 cfg (M := Modules cfg) .nil snoc fun t ht => ?_) fun {i rest ms} h1 => ?_
  · refine viable_terminated cfg ((atStart_ident cfg).viable cfg (hm t ht)) fun {i rest m} h2 => ?_
    obtain ⟨rfl, hw⟩ := ident_inv cfg h2
    refine ⟨m, rfl, viable_ws cfg fun a ha => (atStart_tag _).viable cfg ?_⟩
    exact hc _ c!"::" (by simpa using hm _ (.snoc ht hw ha blanks_nil))
  · have := many0_inv ((tidy_ident cfg).terminated (tidy_tag c!"::").ws)
      (M := fun i _ rest => ∀ t, Modules cfg t → ∃ u, i = u ++ rest ∧ Modules cfg (t ++ u))
      (fun i t ht => ⟨[], rfl, by simpa using ht⟩) (by
        intro i r rest m l h1 ih t ht
        obtain ⟨u, rfl, hu⟩ := snoc ht h1
        obtain ⟨v, rfl, hv⟩ := ih _ hu
        exact ⟨u ++ v, by simp, by simpa using hv⟩) h1
    obtain ⟨u, rfl, hu⟩ := this [] .nil
    refine ⟨u, rfl, viable_bind cfg ((atStart_ident cfg).viable cfg (hm u hu)) fun {i rest x} h3 => ?_⟩
    obtain ⟨rfl, _⟩ := ident_inv cfg h3
    exact ⟨x, rfl, viable_pure cfg _⟩

theorem viable_target {P : Str → Prop} (hc : PrefixClosed P)
    (h : ∀ b a ms x t, ArrowText b a → TargetText cfg ms x t → P (a ++ t)) : Viable cfg P (pTarget cfg) := by
  have hx := h _ _ _ _ _ .none (.name (word_x cfg))
  refine viable_alt cfg (hc.nil hx) fun p hp => ?_
  simp only [List.mem_cons, List.not_mem_nil, or_false] at hp
  rcases hp with rfl | rfl
  · refine viable_bind cfg (viable_ws cfg fun a ha => (atStart_tag _).viable cfg ?_) fun {i rest _} h1 => ?_
    · exact hc _ _ (by simpa using h _ _ _ _ _ (.arrow ha blanks_nil) (.name (word_x cfg)))
    · obtain ⟨a, b, r3, r4, ha, hb, rfl, h4, h5⟩ := ws_inv h1
      obtain rfl := tag_inv h4
      subst h5
      exact ⟨a ++ c!"->" ++ b, by simp, viable_targetPath cfg (hc.after _) fun ms x t ht => h _ _ _ _ _ (.arrow ha hb) ht⟩
  · exact viable_targetPath cfg hc fun ms x t ht => h _ _ _ _ _ .none ht

theorem viable_resource {P : Str → Prop} (hc : PrefixClosed P) {level : Nat}
    (h : ∀ x t, ResourceText cfg level x t → P t) : Viable cfg P (pResource cfg level) := by
  have hx : ∀ {m v b a ms x t e qs u}, VerbText m v → ArrowText b a → TargetText cfg ms x t → Eols e → e ≠ [] →
      QueryLines cfg (level + 1) qs u → P (spaces level ++ v ++ c!" " ++ a ++ t ++ e ++ u) :=
    fun {m v b a ms x t e qs u} h1 h2 h3 h4 h5 h6 => h _ _ (.mk (x := ⟨m, ms, x, b, qs⟩) h1 h2 h3 h4 h5 h6)
  have hget : VerbText .get c!"GET" := rfl
  have h0 := hx hget .none (.name (word_x cfg)) eols_one (by simp) .nil
  refine viable_bind cfg ((atStart_indent level).viable cfg (hc.nil h0)) fun {i rest _} h1 => ?_
  obtain rfl := indent_inv h1
  refine ⟨_, rfl, ?_⟩
  refine viable_bind cfg (viable_method cfg (hc _ _ (by simpa using h0))) fun {i rest m} h2 => ?_
  obtain ⟨v, rfl, hv⟩ := (C34_verbs cfg _ _ _).1 h2
  have hv := (verbText_iff m v).2 hv
  refine ⟨v, rfl, ?_⟩
  refine viable_bind cfg ((atStart_char _).viable cfg (hc _ _ (by simpa using hx hv .none (.name (word_x cfg)) eols_one (by simp) .nil)))
    fun {i rest _} h3 => ?_
  obtain rfl := char_inv h3
  refine ⟨c!" ", rfl, ?_⟩
  refine viable_bind cfg (viable_target cfg (((hc.after _).after _).after _) fun b a ms x t ha ht => ?_) fun {i rest y} h4 => ?_
  · exact hc _ c!"\n" (by simpa using hx hv ha ht eols_one (by simp) .nil)
  obtain ⟨a, t, ha, ht, rfl⟩ := target_inv cfg h4
  refine ⟨a ++ t, rfl, ?_⟩
  refine viable_bind cfg (viable_newline cfg (hc _ c!"\n" ?_) ?_ ?_) fun {i rest _} h5 => ?_
  · simpa using hx hv ha ht eols_one (by simp) .nil
  · simpa using hx hv ha ht eols_one (by simp) .nil
  · simpa using hx hv ha ht (.crlf .nil) (by simp) .nil
  obtain ⟨e, he1, he2, rfl⟩ := requireNewline_inv h5
  refine ⟨e, rfl, ?_⟩
  refine viable_bind cfg (viable_queryLines cfg (((((hc.after _).after _).after _).after _).after _) (viable_newline cfg)
    (fun h => requireNewline_inv h) fun ps u hu => ?_) fun {i rest qs} h6 => ?_
  · simpa using hx hv ha ht he1 he2 hu
  obtain ⟨u, _, rfl⟩ := queryLines_inv cfg tidy_requireNewline (fun h => requireNewline_inv h) h6
  exact ⟨u, rfl, viable_pure cfg _⟩

theorem resourceTexts_snoc {level : Nat} {xs : List Resource} {t : Str} (h : ResourceTexts cfg level xs t) {x : Resource}
    {u : Str} (hx : ResourceText cfg level x u) : ResourceTexts cfg level (xs ++ [x]) (t ++ u) := by
  induction h with
  | nil => simpa using ResourceTexts.cons hx .nil
  | cons h1 _ ih => simpa using ResourceTexts.cons h1 ih

theorem childTexts_append {level : Nat} : ∀ {ns ms : List NestedRoutes} {t u : Str}, ChildTexts cfg level ns t →
    ChildTexts cfg level ms u → ChildTexts cfg level (ns ++ ms) (t ++ u)
  | [], _, _, _, h, hu => by cases h; exact hu
  | _ :: ns, _, _, _, h, hu => by
    cases h with
    | cons h1 h2 h3 h4 h5 => simpa using ChildTexts.cons h1 h2 h3 h4 (childTexts_append h5 hu)

/-- What a parser for children has to deliver when it fails. -/
def StopsWell (level : Nat) (nested : Parser NestedRoutes) : Prop :=
  ∀ P : Str → Prop, PrefixClosed P → (∀ n t, ChildTexts cfg level [n] t → P t) → Viable cfg P nested

theorem resource_exists (level : Nat) : ∃ x t, ResourceText cfg level x t :=
  ⟨⟨.get, [], c!"x", false, []⟩, _, .mk (v := c!"GET") (e := c!"\n") rfl .none (.name (word_x cfg)) eols_one (by simp) .nil⟩

theorem block_exists (level : Nat) : ∃ r t, BlockText cfg level r t := by
  obtain ⟨x, t, h⟩ := resource_exists cfg level
  exact ⟨_, _, .mk .nil (.cons h .nil) .nil (.inl (by simp))⟩

theorem child_exists (level : Nat) : ∃ n t, ChildTexts cfg level [n] t := by
  obtain ⟨r, t, h⟩ := block_exists cfg (level + 1)
  exact ⟨_, _, .cons (.static (word_x cfg)) eols_one (by simp) h .nil⟩

theorem viable_children {P : Str → Prop} (hc : PrefixClosed P) {level : Nat} {nested : Parser NestedRoutes}
    (hr : ReadsChild cfg level nested) (hs : StopsWell cfg level nested)
    (h : ∀ ns t, ns ≠ [] → ChildTexts cfg level ns t → P t) : Viable cfg P (pMany1 nested) := by
  refine viable_many1 cfg (M := fun t => ∃ ns, ChildTexts cfg level ns t) ⟨[], .nil⟩ ?_ ?_ ?_
  · rintro t i rest n ⟨ns, ht⟩ h1
    obtain ⟨u, hu, rfl⟩ := hr h1 .nil
    exact ⟨u, rfl, _, childTexts_append cfg ht (by simpa using hu)⟩
  · rintro t ⟨ns, ht⟩
    exact hs _ (hc.after _) fun n u hu => h _ _ (by simp) (childTexts_append cfg ht hu)
  · obtain ⟨n, t, ht⟩ := child_exists cfg level
    exact hc.nil (h _ _ (by simp) ht)

theorem viable_routesWith {P : Str → Prop} (hc : PrefixClosed P) {level : Nat} {nested : Parser NestedRoutes}
    (ht : Tidy nested) (hr : ReadsChild cfg level nested) (hs : StopsWell cfg level nested)
    (h : ∀ r t, BlockText cfg level r t → P t) : Viable cfg P (pRoutesWith cfg nested level) := by
  obtain ⟨x, tx, hx⟩ := resource_exists cfg level
  refine viable_bind cfg (viable_queryLines cfg hc (fun hP _ _ => atStart_eols1.viable cfg hP) (fun h => eols1_inv h)
    fun ps t hq => ?_) fun {i rest qs} h1 => ?_
  · exact hc _ _ (by simpa using h _ _ (.mk hq (.cons hx .nil) .nil (.inl (by simp))))
  obtain ⟨t, hq, rfl⟩ := queryLines_inv cfg tidy_lineEnding.many1 (fun h => eols1_inv h) h1
  refine ⟨t, rfl, ?_⟩
  have hP0 : P (t ++ []) := hc _ (tx ++ []) (by simpa using h _ _ (.mk hq (.cons hx .nil) .nil (.inl (by simp))))
  have hmain : Viable cfg (fun u => P (t ++ u)) (pResourcesAndRoutes cfg nested level) := by
    refine viable_returnError cfg (P := fun u => P (t ++ u)) (viable_alt cfg hP0 fun p hp => ?_) hP0 fun i _ m hm => ?_
    rotate_left
    · cases hm
      refine ⟨fun s hs => (by cases hs), fun _ => ⟨level, fun y u hu => ?_, fun n u hu => ?_⟩, fun h => absurd h (by decide)⟩
      · simpa using h _ _ (.mk hq (.cons hu .nil) .nil (.inl (by simp)))
      · simpa using h _ _ (.mk hq .nil hu (.inr (by simp)))
    simp only [List.mem_cons, List.not_mem_nil, or_false] at hp
    rcases hp with rfl | rfl
    · refine viable_bind cfg (viable_many1 cfg (M := fun t => ∃ xs, ResourceTexts cfg level xs t) ⟨[], .nil⟩ ?_ ?_ hP0)
        fun {i rest rs} h2 => ?_
      · rintro t i rest y ⟨xs, hxs⟩ h3
        obtain ⟨u, hu, rfl⟩ := resource_inv cfg h3
        exact ⟨u, rfl, _, resourceTexts_snoc cfg hxs hu⟩
      · rintro u ⟨xs, hxs⟩
        refine viable_resource cfg ((hc.after _).after _) fun y v hv => ?_
        simpa using h _ _ (.mk hq (resourceTexts_snoc cfg hxs hv) .nil (.inl (by simp)))
      · obtain ⟨hne, u, hu, rfl⟩ := resources1_inv cfg h2
        refine ⟨u, rfl, ?_⟩
        have hPu : P (t ++ (u ++ [])) := by simpa using h _ _ (.mk hq hu .nil (.inl hne))
        refine viable_bind cfg (viable_alt cfg hPu fun p hp => ?_) fun {i rest ns} h3 => ?_
        · simp only [List.mem_cons, List.not_mem_nil, or_false] at hp
          rcases hp with rfl | rfl
          · refine viable_bind cfg (viable_eols0 cfg) fun {i rest _} h4 => ?_
            obtain ⟨e, he, rfl⟩ := eols0_inv h4
            refine ⟨e, rfl, viable_children cfg (((hc.after _).after _).after _) hr hs fun ns v _ hv => ?_⟩
            obtain ⟨u', hu', hue⟩ := resources_eols cfg hu he hne
            have := h _ _ (.mk hq hu' hv (.inl hne))
            rw [← hue] at this
            simpa using this
          · exact viable_pure cfg _
        · obtain ⟨p, hp, h10⟩ := alt_ok h3
          simp only [List.mem_cons, List.not_mem_nil, or_false] at hp
          rcases hp with rfl | rfl
          · obtain ⟨r5, l, h11, h12⟩ := preceded_inv h10
            obtain ⟨_, v, hv, rfl⟩ := children1_inv cfg ht hr h12
            obtain ⟨e, he, rfl⟩ := eols0_inv h11
            exact ⟨e ++ v, by simp, viable_pure cfg _⟩
          · obtain ⟨h11, rfl⟩ := pure_ok h10
            subst h11
            exact ⟨[], rfl, viable_pure cfg _⟩
    · refine viable_bind cfg (viable_children cfg (hc.after _) hr hs fun ns v hne hv => ?_) fun {i rest ns} h2 => ?_
      · simpa using h _ _ (.mk hq .nil hv (.inr hne))
      · obtain ⟨_, v, hv, rfl⟩ := children1_inv cfg ht hr h2
        exact ⟨v, rfl, viable_pure cfg _⟩
  exact viable_map cfg (f := fun rnr => Routes.mk rnr.1 rnr.2 qs) hmain

theorem stopsWell : ∀ (fuel level : Nat), StopsWell cfg level (pNestedRoutes cfg fuel level)
  | 0, level => by
    intro P hc h i j k hj
    obtain ⟨n, t, ht⟩ := child_exists cfg level
    simp only [pNestedRoutes, Res.entries, Ctx.entries, List.mem_cons, List.not_mem_nil, or_false, Prod.mk.injEq] at hj
    obtain ⟨rfl, rfl⟩ := hj
    exact ⟨[], rfl, hc.nil (h _ _ ht), dull_alt.apt cfg _ _ _⟩
  | fuel + 1, level => by
    intro P hc h
    obtain ⟨r0, t0, h0⟩ := block_exists cfg (level + 1)
    have hP : ∀ {seg s e r t}, SegmentText cfg seg s → Eols e → e ≠ [] → BlockText cfg (level + 1) r t →
        P (spaces level ++ s ++ e ++ t) := fun h1 h2 h3 h4 => by simpa using h _ _ (.cons h1 h2 h3 h4 .nil)
    refine viable_bind cfg (viable_segment cfg hc fun seg s hs => ?_) fun {i rest seg} h1 => ?_
    · exact hc _ (c!"\n" ++ t0) (by simpa using hP hs eols_one (by simp) h0)
    obtain ⟨s, hs, rfl⟩ := segment_inv cfg h1
    refine ⟨_, rfl, ?_⟩
    refine viable_bind cfg (atStart_eols1.viable cfg ?_) fun {i rest _} h2 => ?_
    · exact hc _ (c!"\n" ++ t0) (by simpa using hP hs eols_one (by simp) h0)
    obtain ⟨e, he1, he2, rfl⟩ := eols1_inv h2
    refine ⟨e, rfl, viable_map cfg (f := fun r => NestedRoutes.mk seg r) (viable_returnError cfg ?_ ?_ fun i _ m hm => ?_)⟩
    · refine viable_routesWith cfg ((hc.after _).after _) (tidy_nestedRoutes cfg fuel (level + 1)) (nested_inv cfg fuel (level + 1))
        (stopsWell fuel (level + 1)) fun r t ht => ?_
      simpa using hP hs he1 he2 ht
    · exact hc _ t0 (by simpa using hP hs he1 he2 h0)
    · cases hm
      exact ⟨fun s hs => (by cases hs), fun h => absurd h (by decide), fun _ => ⟨level + 1, fun r t ht => by
        simpa using hP hs he1 he2 ht⟩⟩

theorem completable_closed : PrefixClosed (Completable cfg) := by
  rintro a b ⟨u, c, h⟩
  exact ⟨b ++ u, c, by simpa using h⟩

theorem viable_file : Viable cfg (Completable cfg) (routeConfig cfg) := by
  have hc := completable_closed cfg
  obtain ⟨r0, t0, h0⟩ := block_exists cfg 1
  have hheaders : ∀ i, (pMany0 pHeader i).entries = [] := by
    have key : ∀ (n : Nat) (i : Str) (acc : List Header), (many0Loop pHeader n i acc).entries = [] := by
      intro n
      induction n with
      | zero => intro i acc; rfl
      | succ n ih =>
        intro i acc
        unfold many0Loop
        rcases header_eq i with ⟨_, _, _, _, h4⟩ | ⟨_, _, h4⟩ <;> rw [h4]
        · simp only
          split
          · rfl
          · exact ih _ _
        · rfl
    exact fun i => key _ _ _
  refine viable_bind cfg (fun i j k hj => by rw [hheaders] at hj; cases hj) fun {i rest hs} h1 => ?_
  obtain ⟨e, u, he, hu, rfl⟩ := headers_inv h1
  refine ⟨_, rfl, ?_⟩
  refine viable_bind cfg (viable_eols0 cfg) fun {i rest _} h2 => ?_
  obtain ⟨e2, he2, rfl⟩ := eols0_inv h2
  obtain ⟨a, u', ha, hu', hau⟩ := headers_eols he hu he2
  have hP : ∀ {e' r t}, Eols e' → e' ≠ [] → BlockText cfg 1 r t → Completable cfg (e ++ u ++ (e2 ++ (c!"/" ++ (e' ++ t)))) := by
    intro e' r t h1 h2 h3
    have := FileText.mk ha hu' h1 h2 h3
    rw [← hau] at this
    exact ⟨[], _, by simpa using this⟩
  refine ⟨e2, rfl, ?_⟩
  refine viable_bind cfg ((atStart_char _).viable cfg ?_) fun {i rest _} h3 => ?_
  · exact hc _ (c!"/" ++ (c!"\n" ++ t0)) (by simpa using hP eols_one (by simp) h0)
  obtain rfl := char_inv h3
  refine ⟨c!"/", rfl, ?_⟩
  refine viable_bind cfg (atStart_eols1.viable cfg ?_) fun {i rest _} h4 => ?_
  · exact hc _ (c!"\n" ++ t0) (by simpa using hP eols_one (by simp) h0)
  obtain ⟨e', he1, he3, rfl⟩ := eols1_inv h4
  refine ⟨e', rfl, ?_⟩
  refine viable_bind cfg (fun i => viable_routesWith cfg ((((hc.after _).after _).after _).after _) (tidy_nestedRoutes cfg _ 1)
    (nested_inv cfg _ 1) (stopsWell cfg _ 1) (fun r t ht => by simpa using hP he1 he3 ht) i) fun {i rest r} h5 => ?_
  obtain ⟨t, ht, rfl⟩ := routes_inv cfg h5
  refine ⟨t, rfl, ?_⟩
  exact viable_map cfg (f := fun _ => RouteConfig.mk _ r) (atStart_eof.viable cfg (by simpa using hP he1 he3 ht))

end Wayfinder
