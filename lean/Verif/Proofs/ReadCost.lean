import Verif.Proofs.ParseCost
/-!
# Reading a route file takes time linear in its length
-/

namespace Wayfinder

variable {α β γ : Type} (cfg : ParseCfg)

/-! ### Loops -/

/-- What one turn of a loop costs: `K` steps for every character taken; a turn that returns nothing costs at most `s`
steps, unless `X` holds where it is tried; a turn that costs more than what it takes leaves a text with `D`, on which
the next turn fails at once. -/
structure Turns (K s : Nat) (D X Z : Str → Prop) (p : Timed α) : Prop where
  ok : ∀ {i rest a}, p.run i = .ok rest a →
    (p.cost i + 1 + K * rest.length ≤ K * i.length ∨ (p.cost i + 1 ≤ K * i.length ∧ D rest)) ∧ Z i
  error : ∀ {i e}, p.run i = .error e → p.cost i + 1 ≤ s ∨ (p.cost i + 1 ≤ K * i.length + s ∧ X i)
  failure : ∀ {i e}, p.run i = .failure e → p.cost i + 1 ≤ K * i.length + s ∧ Z i
  dead : ∀ {i}, D i → (∃ e, p.run i = .error e) ∧ p.cost i + 1 ≤ s

/-- What is left by a loop, and what it cost. -/
def LoopBound (K s : Nat) (D X : Str → Prop) (c : Nat) (i : Str) (r : Res (List α)) : Prop :=
  match r with
  | .ok rest _ => c + K * rest.length ≤ K * i.length + s ∨ (c ≤ K * i.length + s ∧ (D rest ∨ X rest))
  | .error _ => False
  | .failure _ => c ≤ K * i.length + s

theorem Turns.loop {K s : Nat} {D X Z : Str → Prop} {p : Timed α} (h : Turns K s D X Z p) : ∀ f i acc,
    LoopBound K s D X (loopCost p f i) i (many0Loop p.run f i acc)
  | 0, i, acc => .inl (by simp only [loopCost]; omega)
  | f + 1, i, acc => by
    simp only [many0Loop, loopCost, Res.next]
    cases e : p.run i with
    | error c =>
      simp only [LoopBound]
      rcases h.error e with h1 | ⟨h1, h2⟩
      · left; omega
      · right; exact ⟨by omega, .inr h2⟩
    | failure c =>
      simp only [LoopBound]
      have := (h.failure e).1
      omega
    | ok rest a =>
      simp only
      by_cases hr : rest = i
      · simp only [if_pos hr, LoopBound]
        rcases (h.ok e).1 with h1 | ⟨h1, h2⟩
        · rw [hr] at h1; left; omega
        · right; exact ⟨by omega, .inl (hr ▸ h2)⟩
      · simp only [if_neg hr]
        rcases (h.ok e).1 with h1 | ⟨h1, h2⟩
        · have ih := Turns.loop h f rest (acc ++ [a])
          cases e2 : many0Loop p.run f rest (acc ++ [a]) with
          | ok r l =>
            rw [e2] at ih
            simp only [LoopBound] at ih ⊢
            rcases ih with ih | ⟨ih, ih'⟩
            · left; omega
            · right; exact ⟨by omega, ih'⟩
          | error c => rw [e2] at ih; exact ih
          | failure c =>
            rw [e2] at ih
            simp only [LoopBound] at ih ⊢
            omega
        · obtain ⟨⟨c, h3⟩, h4⟩ := h.dead h2
          cases f with
          | zero => simp only [many0Loop, loopCost, LoopBound]; right; exact ⟨by omega, .inl h2⟩
          | succ f =>
            simp only [many0Loop, loopCost, LoopBound, h3, Res.next]
            right; exact ⟨by omega, .inl h2⟩

theorem Turns.many0 {K s : Nat} {D X Z : Str → Prop} {p : Timed α} (h : Turns K s D X Z p) (i : Str) :
    LoopBound K s D X ((tMany0 p).cost i) i ((tMany0 p).run i) := h.loop _ i []

/-- What is left by a loop that has to turn at least once. -/
theorem Turns.many1 {K s : Nat} {D X Z : Str → Prop} {p : Timed α} (h : Turns K s D X Z p) (i : Str) :
    match (tMany1 p).run i with
    | .ok rest _ => ((tMany1 p).cost i + K * rest.length ≤ K * i.length + s ∨
        ((tMany1 p).cost i ≤ K * i.length + s ∧ (D rest ∨ X rest))) ∧ Z i
    | .error _ => (tMany1 p).cost i ≤ s ∨ ((tMany1 p).cost i ≤ K * i.length + s ∧ X i)
    | .failure _ => (tMany1 p).cost i ≤ K * i.length + s ∧ Z i := by
  simp only [tMany1, pMany1, Res.next]
  cases e : p.run i with
  | error c =>
    simp only
    rcases h.error e with h1 | ⟨h1, h2⟩
    · left; omega
    · right; exact ⟨by omega, h2⟩
  | failure c =>
    simp only
    have := h.failure e
    exact ⟨by omega, this.2⟩
  | ok rest a =>
    simp only
    have hz := (h.ok e).2
    rcases (h.ok e).1 with h1 | ⟨h1, h2⟩
    · have ih := h.loop (rest.length + 1) rest [a]
      cases e2 : many0Loop p.run (rest.length + 1) rest [a] with
      | ok r l =>
        rw [e2] at ih
        simp only [LoopBound] at ih ⊢
        rcases ih with ih | ⟨ih, ih'⟩
        · exact ⟨.inl (by omega), hz⟩
        · exact ⟨.inr ⟨by omega, ih'⟩, hz⟩
      | error c => rw [e2] at ih; exact ih.elim
      | failure c =>
        rw [e2] at ih
        simp only [LoopBound] at ih ⊢
        exact ⟨by omega, hz⟩
    · obtain ⟨⟨c, h3⟩, h4⟩ := h.dead h2
      simp only [many0Loop, loopCost, h3, Res.next]
      exact ⟨.inr ⟨by omega, .inl h2⟩, hz⟩

/-! ### One after the other -/

theorem bind_run_ok {p : Timed α} {f : α → Timed β} {i r : Str} {a : α} (h : p.run i = .ok r a) :
    (tBind p f).run i = (f a).run r ∧ (tBind p f).cost i = p.cost i + (f a).cost r :=
  ⟨by simp only [tBind, pBind, h], by simp only [tBind, h, Res.next]⟩

theorem bind_run_error {p : Timed α} {f : α → Timed β} {i : Str} {e : Ctx} (h : p.run i = .error e) :
    (tBind p f).run i = .error e ∧ (tBind p f).cost i = p.cost i :=
  ⟨by simp only [tBind, pBind, h], by simp only [tBind, h, Res.next, Nat.add_zero]⟩

theorem bind_run_failure {p : Timed α} {f : α → Timed β} {i : Str} {e : Ctx} (h : p.run i = .failure e) :
    (tBind p f).run i = .failure e ∧ (tBind p f).cost i = p.cost i :=
  ⟨by simp only [tBind, pBind, h], by simp only [tBind, h, Res.next, Nat.add_zero]⟩

/-- Nothing is added by what is returned. -/
theorem bind_pure_run {p : Timed α} {f : α → β} {i : Str} :
    (tBind p fun a => tPure (f a)).run i = pMap f p.run i ∧ (tBind p fun a => tPure (f a)).cost i = p.cost i :=
  ⟨rfl, map_cost f p i⟩

theorem terminated_run_ok {p : Timed α} {q : Timed β} {i r r' : Str} {a : α} {b : β} (h : p.run i = .ok r a)
    (h' : q.run r = .ok r' b) :
    (tTerminated p q).run i = .ok r' a ∧ (tTerminated p q).cost i = p.cost i + q.cost r := by
  obtain ⟨h1, h2⟩ := bind_run_ok (f := fun a => tBind q fun _ => tPure a) h
  obtain ⟨h3, h4⟩ := bind_run_ok (f := fun _ => tPure a) h'
  exact ⟨h1.trans h3, h2.trans (by rw [h4]; rfl)⟩

theorem terminated_run_error {p : Timed α} {q : Timed β} {i r : Str} {a : α} {e : Ctx} (h : p.run i = .ok r a)
    (h' : q.run r = .error e) :
    (tTerminated p q).run i = .error e ∧ (tTerminated p q).cost i = p.cost i + q.cost r := by
  obtain ⟨h1, h2⟩ := bind_run_ok (f := fun a => tBind q fun _ => tPure a) h
  obtain ⟨h3, h4⟩ := bind_run_error (f := fun _ => tPure a) h'
  exact ⟨h1.trans h3, h2.trans (by rw [h4])⟩

theorem terminated_run_failure {p : Timed α} {q : Timed β} {i r : Str} {a : α} {e : Ctx} (h : p.run i = .ok r a)
    (h' : q.run r = .failure e) :
    (tTerminated p q).run i = .failure e ∧ (tTerminated p q).cost i = p.cost i + q.cost r := by
  obtain ⟨h1, h2⟩ := bind_run_ok (f := fun a => tBind q fun _ => tPure a) h
  obtain ⟨h3, h4⟩ := bind_run_failure (f := fun _ => tPure a) h'
  exact ⟨h1.trans h3, h2.trans (by rw [h4])⟩

theorem terminated_error {p : Timed α} {q : Timed β} {i : Str} {e : Ctx} (h : p.run i = .error e) :
    (tTerminated p q).run i = .error e ∧ (tTerminated p q).cost i = p.cost i := bind_run_error h

theorem terminated_failure {p : Timed α} {q : Timed β} {i : Str} {e : Ctx} (h : p.run i = .failure e) :
    (tTerminated p q).run i = .failure e ∧ (tTerminated p q).cost i = p.cost i := bind_run_failure h

theorem alt_run_ok {b : Bool} {p : Timed α} {ps : List (Timed α)} {i r : Str} {a : α} (h : p.run i = .ok r a) :
    (tAlt b (p :: ps)).run i = .ok r a ∧ (tAlt b (p :: ps)).cost i = 1 + p.cost i :=
  ⟨by simp only [tAlt, List.map_cons, pAlt, h], by simp only [tAlt, altCost, h, Nat.add_zero]⟩

theorem alt_run_error {b : Bool} {p : Timed α} {ps : List (Timed α)} {i : Str} {e : Ctx} (h : p.run i = .error e) :
    (tAlt b (p :: ps)).run i = (tAlt b ps).run i ∧ (tAlt b (p :: ps)).cost i = 1 + p.cost i + (tAlt b ps).cost i :=
  ⟨by simp only [tAlt, List.map_cons, pAlt, h], by simp only [tAlt, altCost, h]⟩

theorem alt_run_failure {b : Bool} {p : Timed α} {ps : List (Timed α)} {i : Str} {e : Ctx} (h : p.run i = .failure e) :
    (b = true ∧ (tAlt b (p :: ps)).run i = (tAlt b ps).run i ∧
      (tAlt b (p :: ps)).cost i = 1 + p.cost i + (tAlt b ps).cost i) ∨
    (b = false ∧ (tAlt b (p :: ps)).run i = .failure e ∧ (tAlt b (p :: ps)).cost i = 1 + p.cost i) := by
  cases b
  · exact .inr ⟨rfl, by simp [tAlt, pAlt, h], by simp [tAlt, altCost, h]⟩
  · exact .inl ⟨rfl, by simp [tAlt, pAlt, h], by simp [tAlt, altCost, h]⟩

theorem alt_nil {b : Bool} {i : Str} : (tAlt b ([] : List (Timed α))).run i = .error (.code i .alt) ∧
    (tAlt b ([] : List (Timed α))).cost i = 0 := ⟨rfl, rfl⟩

/-! ### Query parameters -/

/-- A line with a bracket behind the indentation. -/
def BracketLine (l : Nat) (i : Str) : Prop := ∃ r, i = spaces l ++ '[' :: r

/-- A query parameter behind the indentation. -/
def tBracketed : Timed Param :=
  tPreceded (tChar '[') (tTerminated (tWs (tParam cfg)) (tReturnError (.custom c!"Expected a \"]\"") (tChar ']')))

theorem query_cases (l : Nat) (i : Str) :
    (∃ r, i = spaces l ++ r ∧ (tQueryParameter cfg l).run i = (tBracketed cfg).run r ∧
      (tQueryParameter cfg l).cost i = 4 * l + (tBracketed cfg).cost r) ∨
    (∃ e, (tQueryParameter cfg l).run i = .error e ∧ (tQueryParameter cfg l).cost i ≤ 4 * l) :=
  indented_cases l (tBracketed cfg) i

/-- The loops over query parameters. -/
theorem query_turns (l : Nat) {q : Timed γ} (hq : Lin 4 5 q)
    (hs : ∀ {i rest a}, q.run i = .ok rest a → rest.length < i.length) :
    Turns 20 (4 * l + 2) (fun _ => False) (BracketLine l) (fun _ => True) (tTerminated (tQueryParameter cfg l) q) := by
  have hb : Lin 1 10 (tBracketed cfg) := lin_bracketed cfg _ _ _
  have key : ∀ i, match (tTerminated (tQueryParameter cfg l) q).run i with
      | .ok rest _ => (tTerminated (tQueryParameter cfg l) q).cost i + 1 + 20 * rest.length ≤ 20 * i.length
      | .error _ => (tTerminated (tQueryParameter cfg l) q).cost i ≤ 4 * l + 1 ∨
        ((tTerminated (tQueryParameter cfg l) q).cost i + 1 ≤ 20 * i.length + (4 * l + 2) ∧ BracketLine l i)
      | .failure _ => (tTerminated (tQueryParameter cfg l) q).cost i + 1 ≤ 20 * i.length + (4 * l + 2) := by
    intro i
    rcases query_cases cfg l i with ⟨r, rfl, h1, h2⟩ | ⟨e, h1, h2⟩
    · have hlen : (spaces l ++ r).length = 2 * l + r.length := by simp [spaces]
      by_cases hbr : r.head? = some '['
      · obtain ⟨r', rfl⟩ : ∃ r', r = '[' :: r' := by
          cases r with
          | nil => cases hbr
          | cons c r' => cases hbr; exact ⟨r', rfl⟩
        have h3 := hb.2 ('[' :: r')
        have hcons : ('[' :: r').length = r'.length + 1 := rfl
        cases e : (tBracketed cfg).run ('[' :: r') with
        | ok r2 x =>
          rw [e] at h3 h1
          simp only at h3
          have h5 := hb.1.length e
          have h4 := hq.2 r2
          cases e2 : q.run r2 with
          | ok r3 y =>
            rw [e2] at h4
            have := hs e2
            obtain ⟨h6, h7⟩ := terminated_run_ok h1 e2
            rw [h6, h7]
            simp only at h4 ⊢
            -- a bracket, a name, a colon, a name and a bracket at least
            have : 2 * l + 1 + r3.length ≤ (spaces l ++ '[' :: r').length := by omega
            omega
          | error c =>
            rw [e2] at h4
            obtain ⟨h6, h7⟩ := terminated_run_error h1 e2
            rw [h6, h7]
            simp only at h4 ⊢
            right
            exact ⟨by omega, r', rfl⟩
          | failure c =>
            rw [e2] at h4
            obtain ⟨h6, h7⟩ := terminated_run_failure h1 e2
            rw [h6, h7]
            simp only at h4 ⊢
            omega
        | error c =>
          rw [e] at h3 h1
          obtain ⟨h6, h7⟩ := terminated_error (q := q) h1
          simp only at h3
          rw [h6]
          simp only
          right
          refine ⟨?_, r', rfl⟩
          rw [h7]
          omega
        | failure c =>
          rw [e] at h3 h1
          obtain ⟨h6, h7⟩ := terminated_failure (q := q) h1
          simp only at h3
          rw [h6]
          simp only
          rw [h7]
          omega
      · obtain ⟨⟨e, h3⟩, h4⟩ := bracketed_cost cfg (o := '[') (c := ']') (k := .custom c!"Expected a \"]\"") hbr
        rw [show (tBracketed cfg).run r = _ from h3] at h1
        rw [show (tBracketed cfg).cost r = _ from h4] at h2
        obtain ⟨h6, h7⟩ := terminated_error (q := q) h1
        rw [h6]
        left
        omega
    · obtain ⟨h6, h7⟩ := terminated_error (q := q) h1
      rw [h6]
      left
      omega
  refine ⟨?_, ?_, ?_, ?_⟩
  · intro i rest a e
    have := key i
    rw [e] at this
    exact ⟨.inl this, trivial⟩
  · intro i c e
    have := key i
    rw [e] at this
    rcases this with this | this
    · left; omega
    · exact .inr this
  · intro i c e
    have := key i
    rw [e] at this
    exact ⟨this, trivial⟩
  · intro i h; exact h.elim

/-- Where nothing can begin, no query parameter does. -/
theorem query_dead (l : Nat) (q : Timed γ) {i : Str} (h : TooDeep (l + 1) i) :
    (∃ e, (tTerminated (tQueryParameter cfg l) q).run i = .error e) ∧
      (tTerminated (tQueryParameter cfg l) q).cost i ≤ 4 * l + 1 := by
  rcases query_cases cfg l i with ⟨r, rfl, h1, h2⟩ | ⟨e, h1, h2⟩
  · obtain ⟨c, r', rfl, hc⟩ := h.head
    have hbr : (c :: r').head? ≠ some '[' := by
      intro hh; cases hh; revert hc; decide
    obtain ⟨⟨e, h3⟩, h4⟩ := bracketed_cost cfg (o := '[') (c := ']') (k := .custom c!"Expected a \"]\"") hbr
    rw [show (tBracketed cfg).run _ = _ from h3] at h1
    rw [show (tBracketed cfg).cost _ = _ from h4] at h2
    obtain ⟨h6, h7⟩ := terminated_error (q := q) h1
    exact ⟨⟨e, h6⟩, by omega⟩
  · obtain ⟨h6, h7⟩ := terminated_error (q := q) h1
    exact ⟨⟨e, h6⟩, by omega⟩

/-! ### Targets -/

theorem ident_cases (i : Str) :
    (∃ r s, (tIdent cfg).run i = .ok r s ∧ r.length < i.length ∧ (tIdent cfg).cost i + r.length = i.length + 1) ∨
    (∃ e, (tIdent cfg).run i = .error e ∧ (tIdent cfg).cost i = 1) := by
  have := takeDrop (isIdentifierChar cfg) i
  simp only [tIdent, tTakeWhile1, pTakeWhile1]
  cases e : i.takeWhile (isIdentifierChar cfg) with
  | nil => exact .inr ⟨_, rfl, by simp⟩
  | cons c s =>
    rw [e] at this
    simp only [List.length_cons] at this ⊢
    exact .inl ⟨_, _, rfl, by omega, by omega⟩

theorem wsTag_cases (t i : Str) :
    (∃ r x, (tWs (tTag t)).run i = .ok r x ∧ r.length + t.length ≤ i.length) ∨
    (∃ e, (tWs (tTag t)).run i = .error e ∧ (tWs (tTag t)).cost i = 2 + t.length + wsLen i) := by
  simp only [tWs, pWs, tTag, pTag, Res.next]
  by_cases h : t.isPrefixOf (i.dropWhile isWs) = true
  · left
    simp only [if_pos h]
    refine ⟨_, _, rfl, ?_⟩
    have h1 := takeDrop isWs i
    have h2 := takeDrop isWs ((i.dropWhile isWs).drop t.length)
    have h3 := (List.isPrefixOf_iff_prefix.1 h).length_le
    simp only [List.length_drop] at h2
    omega
  · right
    simp only [if_neg h]
    exact ⟨_, rfl, by simp only [wsLen]; omega⟩

/-- The modules before an action; the last turn of the loop looks at the action and at the blanks behind it. -/
theorem modules_loop : ∀ f i acc, ∃ rest l,
    many0Loop (tTerminated (tIdent cfg) (tWs (tTag c!"::"))).run f i acc = .ok rest l ∧ rest.length ≤ i.length ∧
    ((∃ r s, (tIdent cfg).run rest = .ok r s ∧ r.length < rest.length ∧
        loopCost (tTerminated (tIdent cfg) (tWs (tTag c!"::"))) f i + 3 * rest.length + r.length ≤
          3 * i.length + 6 + rest.length + wsLen r) ∨
     (∃ e, (tIdent cfg).run rest = .error e ∧
        loopCost (tTerminated (tIdent cfg) (tWs (tTag c!"::"))) f i + 3 * rest.length ≤ 3 * i.length + 2))
  | 0, i, acc => by
    refine ⟨i, acc, rfl, Nat.le_refl _, ?_⟩
    simp only [loopCost]
    rcases ident_cases cfg i with ⟨r, s, h1, h2, _⟩ | ⟨e, h1, _⟩
    · exact .inl ⟨r, s, h1, h2, by omega⟩
    · exact .inr ⟨e, h1, by omega⟩
  | f + 1, i, acc => by
    simp only [many0Loop, loopCost]
    rcases ident_cases cfg i with ⟨r, s, h1, h2, h3⟩ | ⟨e, h1, h3⟩
    · rcases wsTag_cases c!"::" r with ⟨r2, x, h4, h5⟩ | ⟨e, h4, h5⟩
      · obtain ⟨h6, h7⟩ := terminated_run_ok h1 h4
        have h8 := ((lin_tag 1 c!"::").ws).ok h4
        have hlen : c!"::".length = 2 := rfl
        have hne : r2 ≠ i := by rintro rfl; omega
        obtain ⟨rest, l, h9, h10, h11⟩ := modules_loop f r2 (acc ++ [s])
        refine ⟨rest, l, ?_, by omega, ?_⟩
        · simp only [h6, if_neg hne]; exact h9
        · simp only [h6, h7, Res.next, if_neg hne]
          rcases h11 with ⟨r', s', h12, h13, h14⟩ | ⟨e, h12, h13⟩
          · exact .inl ⟨r', s', h12, h13, by omega⟩
          · exact .inr ⟨e, h12, by omega⟩
      · obtain ⟨h6, h7⟩ := terminated_run_error h1 h4
        have hlen : c!"::".length = 2 := rfl
        refine ⟨i, acc, by simp only [h6], Nat.le_refl _, .inl ⟨r, s, h1, h2, ?_⟩⟩
        simp only [h6, h7, Res.next]
        omega
    · obtain ⟨h6, h7⟩ := terminated_error (q := tWs (tTag c!"::")) h1
      refine ⟨i, acc, by simp only [h6], Nat.le_refl _, .inr ⟨e, h1, ?_⟩⟩
      simp only [h6, h7, Res.next]
      omega

/-- Modules and action. -/
theorem targetPath_cases (b : Bool) (i : Str) :
    (∃ r x, (tTargetPath cfg b).run i = .ok r x ∧ r.length < i.length ∧
      (tTargetPath cfg b).cost i + 3 * r.length ≤ 3 * i.length + 8 + wsLen r ∧ ¬ NotWord cfg i) ∨
    (∃ e, (tTargetPath cfg b).run i = .error e ∧ (tTargetPath cfg b).cost i ≤ 3 * i.length + 8) := by
  obtain ⟨rest, l, h1, h2, h3⟩ := modules_loop cfg (i.length + 1) i []
  have h1' : (tMany0 (tTerminated (tIdent cfg) (tWs (tTag c!"::")))).run i = .ok rest l := h1
  obtain ⟨h4, h5⟩ := bind_run_ok (f := fun modules => tBind (tIdent cfg) fun action => tPure (b, modules, action)) h1'
  have hcost : (tMany0 (tTerminated (tIdent cfg) (tWs (tTag c!"::")))).cost i =
    loopCost (tTerminated (tIdent cfg) (tWs (tTag c!"::"))) (i.length + 1) i := rfl
  rcases h3 with ⟨r, s, h6, h7, h8⟩ | ⟨e, h6, h7⟩
  · obtain ⟨h9, h10⟩ := bind_run_ok (f := fun action => tPure (b, l, action)) h6
    rcases ident_cases cfg rest with ⟨r', s', h11, h12, h13⟩ | ⟨e, h11, _⟩
    · obtain rfl : r = r' := by rw [h6] at h11; cases h11; rfl
      refine .inl ⟨r, (b, l, s), h4.trans h9, by omega, ?_, ?_⟩
      · have : (tTargetPath cfg b).cost i = _ := h5
        rw [this, h10, hcost]
        simp only [tPure]
        omega
      · intro hw
        obtain ⟨h14, _⟩ := ident_error cfg hw
        obtain ⟨h15, _⟩ := terminated_error (q := tWs (tTag c!"::")) h14
        have : many0Loop (tTerminated (tIdent cfg) (tWs (tTag c!"::"))).run (i.length + 1) i [] = .ok i [] := by
          simp only [many0Loop, h15]
        rw [this] at h1
        cases h1
        rw [h14] at h6
        cases h6
    · rw [h6] at h11; cases h11
  · obtain ⟨h9, h10⟩ := bind_run_error (f := fun action => tPure (b, l, action)) h6
    rcases ident_cases cfg rest with ⟨r', s', h11, h12, h13⟩ | ⟨e', h11, h12⟩
    · rw [h6] at h11; cases h11
    · refine .inr ⟨e, h4.trans h9, ?_⟩
      have : (tTargetPath cfg b).cost i = _ := h5
      rw [this, h10, hcost, h12]
      omega

/-- A target. -/
theorem target_cases (i : Str) :
    (∃ r x, (tTarget cfg).run i = .ok r x ∧ r.length < i.length ∧
      (tTarget cfg).cost i + 6 * r.length ≤ 6 * i.length + 14 + wsLen r) ∨
    (∃ e, (tTarget cfg).run i = .error e ∧ (tTarget cfg).cost i ≤ 6 * i.length + 24) := by
  have hlen : c!"->".length = 2 := rfl
  have hsecond : ∀ {e}, (tPreceded (tWs (tTag c!"->")) (tTargetPath cfg true)).run i = .error e →
      (tPreceded (tWs (tTag c!"->")) (tTargetPath cfg true)).cost i ≤ 3 * i.length + 12 →
      (¬ NotWord cfg i → (tPreceded (tWs (tTag c!"->")) (tTargetPath cfg true)).cost i ≤ 4) →
      (∃ r x, (tTarget cfg).run i = .ok r x ∧ r.length < i.length ∧
        (tTarget cfg).cost i + 6 * r.length ≤ 6 * i.length + 14 + wsLen r) ∨
      (∃ e, (tTarget cfg).run i = .error e ∧ (tTarget cfg).cost i ≤ 6 * i.length + 24) := by
    intro e h hc hw
    have h1 : (tTarget cfg).run i = _ := (alt_run_error h).1
    have h2 : (tTarget cfg).cost i = _ := (alt_run_error h).2
    rcases targetPath_cases cfg false i with ⟨r, x, h3, h4, h5, h6⟩ | ⟨e, h3, h4⟩
    · refine .inl ⟨r, x, h1.trans (alt_run_ok h3).1, h4, ?_⟩
      rw [h2, (alt_run_ok h3).2]
      have := hw h6
      omega
    · refine .inr ⟨_, h1.trans ((alt_run_error h3).1.trans alt_nil.1), ?_⟩
      rw [h2, (alt_run_error h3).2, alt_nil.2]
      omega
  rcases wsTag_cases c!"->" i with ⟨r, x, h1, h2⟩ | ⟨e, h1, h2⟩
  · have h3 := ((lin_tag 1 c!"->").ws).ok h1
    obtain ⟨h4, h5⟩ := bind_run_ok (f := fun _ => tTargetPath cfg true) h1
    have h4' : (tPreceded (tWs (tTag c!"->")) (tTargetPath cfg true)).run i = _ := h4
    have h5' : (tPreceded (tWs (tTag c!"->")) (tTargetPath cfg true)).cost i = _ := h5
    rcases targetPath_cases cfg true r with ⟨r', y, h6, h7, h8, _⟩ | ⟨e, h6, h7⟩
    · have h9 := alt_run_ok (b := cfg.altFail) (ps := [tTargetPath cfg false]) (h4'.trans h6)
      refine .inl ⟨r', y, h9.1, by omega, ?_⟩
      rw [show (tTarget cfg).cost i = _ from h9.2, h5']
      omega
    · refine hsecond (h4'.trans h6) (by rw [h5']; omega) ?_
      intro hw
      exfalso
      refine hw ?_
      -- the text begins with a blank or with the arrow
      have : ∃ c i', i = c :: i' ∧ (isWs c = true ∨ c = '-') := by
        have hp : c!"->".isPrefixOf (i.dropWhile isWs) = true := by
          by_cases hp : c!"->".isPrefixOf (i.dropWhile isWs) = true
          · exact hp
          · simp [tWs, pWs, tTag, pTag, hp] at h1
        cases i with
        | nil => simp at hp
        | cons c i =>
          refine ⟨c, i, rfl, ?_⟩
          by_cases hc : isWs c = true
          · exact .inl hc
          · right
            simp [hc] at hp
            exact hp.1.symm
      obtain ⟨c, i', rfl, hc⟩ := this
      refine notWord_cons cfg ?_
      rcases hc with hc | rfl
      · rcases (isWs_iff c).1 hc with rfl | rfl | rfl | rfl <;> exact nonWord_notWord cfg (by decide) (by decide)
      · exact nonWord_notWord cfg (by decide) (by decide)
  · obtain ⟨h4, h5⟩ := bind_run_error (f := fun _ => tTargetPath cfg true) h1
    have h4' : (tPreceded (tWs (tTag c!"->")) (tTargetPath cfg true)).run i = _ := h4
    have h5' : (tPreceded (tWs (tTag c!"->")) (tTargetPath cfg true)).cost i = _ := h5
    have hwl : wsLen i ≤ i.length := by have := takeDrop isWs i; simp only [wsLen]; omega
    refine hsecond h4' (by omega) ?_
    intro hw
    have : wsLen i = 0 := by
      cases i with
      | nil => rfl
      | cons c i =>
        by_cases hc : isWs c = true
        · exfalso
          refine hw (notWord_cons cfg ?_)
          rcases (isWs_iff c).1 hc with rfl | rfl | rfl | rfl <;> exact nonWord_notWord cfg (by decide) (by decide)
        · simp [wsLen, hc]
    omega

/-! ### Resources -/

/-- A line with a verb and a blank behind the indentation. -/
def MethodLine (l : Nat) (i : Str) : Prop := ∃ (v : Str) (m : Method) (r : Str), i = spaces l ++ (v ++ ' ' :: r) ∧ SameLetters v m.display

theorem verb_length {v : Str} {m : Method} (h : SameLetters v m.display) : 3 ≤ v.length ∧ v.length ≤ 6 := by
  have h1 : v.length = m.display.length := by
    have := congrArg List.length h
    simpa using this
  rw [h1]
  cases m <;> decide

theorem verb_head {v : Str} {m : Method} (h : SameLetters v m.display) {d : Char} (hd : d.toLower = d)
    (hm : ∀ m : Method, d ∉ m.display.map Char.toLower) (r : Str) : (v ++ r).head? ≠ some d := by
  cases v with
  | nil => have := (verb_length h).1; simp at this
  | cons c v =>
    intro hc
    simp only [List.cons_append, List.head?_cons, Option.some.injEq] at hc
    have : c.toLower ∈ m.display.map Char.toLower := by rw [← h]; simp
    rw [hc, hd] at this
    exact hm m this

theorem MethodLine.deep {l : Nat} {i : Str} (h : MethodLine l i) : TooDeep l i := by
  obtain ⟨v, m, r, rfl, _⟩ := h
  exact deep_spaces l _

theorem method_cost (i : Str) : (tMethod cfg).cost i ≤ 24 := by
  have h : ∀ (b : Bool) (m : Method) (t : Str) (ps : List (Timed Method)) (k : Nat), altCost b ps i ≤ k →
      altCost b (tMap (fun _ => m) (tTagNoCase t) :: ps) i ≤ 2 + t.length + k := by
    intro b m t ps k hk
    rw [altCost, map_cost]
    have : (tTagNoCase t).cost i = 1 + t.length := rfl
    rw [this]
    split
    · omega
    · omega
    · split <;> omega
  have h0 : ∀ b : Bool, altCost b ([] : List (Timed Method)) i ≤ 0 := fun _ => Nat.le_refl 0
  exact h _ _ c!"get" _ _ (h _ _ c!"post" _ _ (h _ _ c!"put" _ _ (h _ _ c!"delete" _ _ (h0 _))))

/-- The query parameters of a resource. -/
def tQueries (l : Nat) (m : Method) (target : Bool × List Str × Str) : Timed Resource :=
  tBind (tMany0 (tTerminated (tQueryParameter cfg (l + 1)) tRequireNewline)) fun qs =>
    tPure { method := m, modules := target.2.1, name := target.2.2, isRedirect := target.1, queryParameters := qs }

/-- The end of the line and the query parameters of a resource. -/
def tAfterTarget (l : Nat) (m : Method) (target : Bool × List Str × Str) : Timed Resource :=
  tBind tRequireNewline fun _ => tQueries cfg l m target

/-- What comes behind the verb. -/
def tRest (l : Nat) (m : Method) : Timed Resource :=
  tBind (tChar ' ') fun _ => tBind (tTarget cfg) (tAfterTarget cfg l m)

theorem resource_parts (l : Nat) : tResource cfg l =
    tPreceded (tIndent l) (tBind (tMethod cfg) (tRest cfg l)) := rfl

theorem newline_strict {i rest : Str} {a : Unit} (h : tRequireNewline.run i = .ok rest a) : rest.length < i.length := by
  obtain ⟨e, _, hne, rfl⟩ := requireNewline_inv (show pRequireNewline i = _ from h)
  have := List.length_pos_iff.2 hne
  simp only [List.length_append]
  omega

theorem wsLen_eols {e : Str} (he : Eols e) (r : Str) : wsLen (e ++ r) = e.length + wsLen r := by
  unfold wsLen
  rw [List.takeWhile_append_of_pos fun c hc => (isWs_iff c).2 (he.blanks c hc)]
  simp

theorem wsLen_le (i : Str) : wsLen i ≤ i.length := by
  have := takeDrop isWs i
  simp only [wsLen]
  omega

/-- The target, the line end and the query parameters. -/
theorem rest_cases (l : Nat) (m : Method) (i : Str) :
    (∃ r x, (tRest cfg l m).run (' ' :: i) = .ok r x ∧
      ((tRest cfg l m).cost (' ' :: i) + 20 * r.length ≤ 20 * i.length + 6 * l + 10 ∨
        ((tRest cfg l m).cost (' ' :: i) ≤ 20 * i.length + 6 * l + 10 ∧ TooDeep (l + 1) r))) ∨
    (∃ e, (tRest cfg l m).run (' ' :: i) = .error e ∧ (tRest cfg l m).cost (' ' :: i) ≤ 20 * i.length + 6 * l + 32) ∨
    (∃ e, (tRest cfg l m).run (' ' :: i) = .failure e ∧ (tRest cfg l m).cost (' ' :: i) ≤ 20 * i.length + 6 * l + 32) := by
  have h0 : (tChar ' ').run (' ' :: i) = .ok i ' ' := by simp [tChar, pChar]
  obtain ⟨h1, h2⟩ := bind_run_ok (f := fun _ => tBind (tTarget cfg) (tAfterTarget cfg l m)) h0
  have hc : (tChar ' ').cost (' ' :: i) = 1 := rfl
  rw [hc] at h2
  simp only [tRest, h1, h2]
  rcases target_cases cfg i with ⟨r3, t, h3, h4, h5⟩ | ⟨e, h3, h4⟩
  rotate_left
  · obtain ⟨h6, h7⟩ := bind_run_error (f := tAfterTarget cfg l m) h3
    exact .inr (.inl ⟨e, h6, by rw [h7]; omega⟩)
  obtain ⟨h6, h7⟩ := bind_run_ok (f := tAfterTarget cfg l m) h3
  simp only [h6, h7, tAfterTarget]
  have hn := lin_requireNewline.2 r3
  have hw3 := wsLen_le r3
  cases e4 : tRequireNewline.run r3 with
  | error e =>
    rw [e4] at hn
    simp only at hn
    obtain ⟨h6, h7⟩ := bind_run_error (f := fun _ => tQueries cfg l m t) e4
    exact .inr (.inl ⟨e, h6, by rw [h7]; omega⟩)
  | failure e =>
    rw [e4] at hn
    simp only at hn
    obtain ⟨h6, h7⟩ := bind_run_failure (f := fun _ => tQueries cfg l m t) e4
    exact .inr (.inr ⟨e, h6, by rw [h7]; omega⟩)
  | ok r4 u =>
    rw [e4] at hn
    simp only at hn
    obtain ⟨ends, hends, hne, hr3⟩ := requireNewline_inv (show pRequireNewline r3 = _ from e4)
    have hlen3 : r3.length = ends.length + r4.length := by rw [hr3]; simp
    have hws : wsLen r3 = ends.length + wsLen r4 := by rw [hr3]; exact wsLen_eols hends r4
    have hpos := List.length_pos_iff.2 hne
    obtain ⟨h6, h7⟩ := bind_run_ok (f := fun _ => tQueries cfg l m t) e4
    simp only [h6, h7]
    have h8 : (tQueries cfg l m t).cost r4 = (tMany0 (tTerminated (tQueryParameter cfg (l + 1)) tRequireNewline)).cost r4 :=
      bind_pure_run.2
    rw [h8]
    clear h6 h7
    by_cases hd : TooDeep (l + 2) r4
    · obtain ⟨⟨e, h10⟩, h11⟩ := query_dead cfg (l + 1) tRequireNewline hd
      have h12 : (tMany0 (tTerminated (tQueryParameter cfg (l + 1)) tRequireNewline)).run r4 = .ok r4 [] := by
        show many0Loop _ _ _ _ = _
        simp only [many0Loop, h10]
      have h13 : (tMany0 (tTerminated (tQueryParameter cfg (l + 1)) tRequireNewline)).cost r4 =
          1 + (tTerminated (tQueryParameter cfg (l + 1)) tRequireNewline).cost r4 := by
        show loopCost _ _ _ = _
        simp only [loopCost, h10, Res.next, Nat.add_zero]
      have hw4 := wsLen_le r4
      refine .inl ⟨r4, _, (bind_run_ok h12).1, .inr ⟨?_, hd.mono (by omega)⟩⟩
      omega
    · have hw4 := wsLen_of_not_deep hd
      have hq := (query_turns cfg (l + 1) lin_requireNewline newline_strict).many0 r4
      cases e5 : (tMany0 (tTerminated (tQueryParameter cfg (l + 1)) tRequireNewline)).run r4 with
      | error e => rw [e5] at hq; exact hq.elim
      | failure e =>
        rw [e5] at hq
        simp only [LoopBound] at hq
        exact .inr (.inr ⟨e, (bind_run_failure e5).1, by omega⟩)
      | ok r5 qs =>
        rw [e5] at hq
        simp only [LoopBound] at hq
        refine .inl ⟨r5, _, (bind_run_ok e5).1, ?_⟩
        rcases hq with hq | ⟨hq, hx⟩
        · left; omega
        · right
          refine ⟨by omega, ?_⟩
          rcases hx with hx | ⟨r, rfl⟩
          · exact hx.elim
          · exact deep_spaces _ _

theorem resource_cases (l : Nat) (i : Str) :
    (∃ v m r, i = spaces l ++ (v ++ ' ' :: r) ∧ SameLetters v m.display ∧
      (tResource cfg l).run i = (tRest cfg l m).run (' ' :: r) ∧
      (tResource cfg l).cost i ≤ 4 * l + 24 + (tRest cfg l m).cost (' ' :: r)) ∨
    (∃ e, (tResource cfg l).run i = .error e ∧ (tResource cfg l).cost i ≤ 4 * l + 25) := by
  rw [resource_parts]
  rcases indented_cases l (tBind (tMethod cfg) (tRest cfg l)) i with ⟨r, rfl, h1, h2⟩ | ⟨e, h1, h2⟩
  rotate_left
  · exact .inr ⟨e, h1, by omega⟩
  rw [h1, h2]
  have hm := method_cost cfg r
  cases e : (tMethod cfg).run r with
  | failure c => exact absurd e (by rw [tMethod_run]; exact method_never_fails cfg r c)
  | error c =>
    obtain ⟨h3, h4⟩ := bind_run_error (f := tRest cfg l) e
    exact .inr ⟨c, h3, by omega⟩
  | ok r2 m =>
    obtain ⟨h3, h4⟩ := bind_run_ok (f := tRest cfg l) e
    rw [tMethod_run] at e
    obtain ⟨v, rfl, hv⟩ := (C34_verbs cfg _ _ _).1 e
    rw [h3, h4]
    have hc : ∀ r2, r2.head? ≠ some ' ' → (∃ e, (tRest cfg l m).run r2 = .error e) ∧ (tRest cfg l m).cost r2 = 1 := by
      intro r2 h
      have h5 : ∃ e, (tChar ' ').run r2 = .error e := by
        cases r2 with
        | nil => exact ⟨_, rfl⟩
        | cons c r2 =>
          have : c ≠ ' ' := fun hh => h (by rw [hh]; rfl)
          exact ⟨_, by simp only [tChar, pChar, if_neg this]; rfl⟩
      obtain ⟨e, h5⟩ := h5
      obtain ⟨h6, h7⟩ := bind_run_error (f := fun _ => tBind (tTarget cfg) (tAfterTarget cfg l m)) h5
      exact ⟨⟨e, h6⟩, h7⟩
    by_cases hh : r2.head? = some ' '
    · cases r2 with
      | nil => cases hh
      | cons c r2 =>
        cases hh
        exact .inl ⟨v, m, r2, rfl, hv, rfl, by omega⟩
    · obtain ⟨⟨e, h5⟩, h6⟩ := hc r2 hh
      exact .inr ⟨e, h5, by omega⟩

/-- Where the line is too deep, or begins with a bracket, there is no resource. -/
theorem resource_refuses (l : Nat) {i : Str} (h : TooDeep (l + 1) i ∨ BracketLine l i) :
    (∃ e, (tResource cfg l).run i = .error e) ∧ (tResource cfg l).cost i ≤ 4 * l + 25 := by
  rcases resource_cases cfg l i with ⟨v, m, r, rfl, hv, _, _⟩ | ⟨e, h1, h2⟩
  · exfalso
    obtain ⟨hne, hch⟩ := verb_chars hv
    have hhead : ∃ c r', v ++ ' ' :: r = c :: r' ∧ (isWs c = true ∨ c = '[') := by
      rcases h with h | ⟨r', h⟩
      · obtain ⟨c, r', h1, h2⟩ := h.head
        exact ⟨c, r', h1, .inl h2⟩
      · exact ⟨_, r', List.append_cancel_left h, .inr rfl⟩
    obtain ⟨c, r', h1, h2⟩ := hhead
    cases v with
    | nil => exact hne rfl
    | cons d v =>
      simp only [List.cons_append, List.cons.injEq] at h1
      obtain ⟨h3, _, h4⟩ := hch d List.mem_cons_self
      rw [h1.1] at h3 h4
      rcases h2 with h2 | h2
      · rw [h2] at h3; cases h3
      · exact h4 h2
  · exact ⟨⟨e, h1⟩, h2⟩

theorem resource_turns (l : Nat) :
    Turns 20 (4 * l + 30) (TooDeep (l + 1)) (MethodLine l) (MethodLine l) (tResource cfg l) := by
  refine ⟨?_, ?_, ?_, ?_⟩
  · intro i rest a e
    rcases resource_cases cfg l i with ⟨v, m, r, rfl, hv, h1, h2⟩ | ⟨e', h1, h2⟩
    · have hlen : (spaces l ++ (v ++ ' ' :: r)).length = 2 * l + v.length + 1 + r.length := by simp [spaces]; omega
      have hv' := verb_length hv
      refine ⟨?_, v, m, r, rfl, hv⟩
      rw [h1] at e
      rcases rest_cases cfg l m r with ⟨r', x, h3, h4⟩ | ⟨c, h3, _⟩ | ⟨c, h3, _⟩
      · rw [h3] at e
        cases e
        rcases h4 with h4 | ⟨h4, h5⟩
        · left; omega
        · right; exact ⟨by omega, h5⟩
      · rw [h3] at e; cases e
      · rw [h3] at e; cases e
    · rw [h1] at e; cases e
  · intro i c e
    rcases resource_cases cfg l i with ⟨v, m, r, rfl, hv, h1, h2⟩ | ⟨e', h1, h2⟩
    · have hlen : (spaces l ++ (v ++ ' ' :: r)).length = 2 * l + v.length + 1 + r.length := by simp [spaces]; omega
      have hv' := verb_length hv
      rw [h1] at e
      rcases rest_cases cfg l m r with ⟨r', x, h3, h4⟩ | ⟨c', h3, h4⟩ | ⟨c', h3, _⟩
      · rw [h3] at e; cases e
      · right; exact ⟨by omega, v, m, r, rfl, hv⟩
      · rw [h3] at e; cases e
    · left; omega
  · intro i c e
    rcases resource_cases cfg l i with ⟨v, m, r, rfl, hv, h1, h2⟩ | ⟨e', h1, h2⟩
    · have hlen : (spaces l ++ (v ++ ' ' :: r)).length = 2 * l + v.length + 1 + r.length := by simp [spaces]; omega
      have hv' := verb_length hv
      rw [h1] at e
      rcases rest_cases cfg l m r with ⟨r', x, h3, h4⟩ | ⟨c', h3, _⟩ | ⟨c', h3, h4⟩
      · rw [h3] at e; cases e
      · rw [h3] at e; cases e
      · exact ⟨by omega, v, m, r, rfl, hv⟩
    · rw [h1] at e; cases e
  · intro i h
    obtain ⟨h1, h2⟩ := resource_refuses cfg l (.inl h)
    exact ⟨h1, by omega⟩

theorem Turns.more {K d s : Nat} {D X Z : Str → Prop} {p : Timed α} (h : Turns K s D X Z p) (ht : Tidy p.run) :
    Turns (K + d) s D X Z p := by
  have hm : ∀ i : Str, (K + d) * i.length = K * i.length + d * i.length := fun i => Nat.add_mul _ _ _
  refine ⟨?_, ?_, ?_, h.dead⟩
  · intro i rest a e
    obtain ⟨h1, h2⟩ := h.ok e
    refine ⟨?_, h2⟩
    have := Nat.mul_le_mul_left d (ht.length e)
    rw [hm, hm]
    rcases h1 with h1 | ⟨h1, h3⟩
    · left; omega
    · right; exact ⟨by omega, h3⟩
  · intro i c e
    rw [hm]
    rcases h.error e with h1 | ⟨h1, h3⟩
    · left; omega
    · right; exact ⟨by omega, h3⟩
  · intro i c e
    rw [hm]
    have := h.failure e
    exact ⟨by omega, this.2⟩

/-- Behind resources no line ends are left. -/
theorem resources_noEnd {l : Nat} {i rest : Str} {xs : List Resource}
    (h : pMany1 (pResource cfg l) i = .ok rest xs) : NoEnd rest := by
  have key : ∀ {i rest x}, pResource cfg l i = .ok rest x → NoEnd rest := by
    intro i rest x h
    obtain ⟨r, _, h1, h'⟩ := preceded_inv h
    obtain ⟨r2, m, h2, h⟩ := bind_ok h'
    obtain ⟨r3, _, h3, h⟩ := bind_ok h
    obtain ⟨r4, y, h4, h⟩ := bind_ok h
    obtain ⟨r5, _, h5, h⟩ := bind_ok h
    obtain ⟨r6, qs, h6, h⟩ := bind_ok h
    cases h
    refine many0_inv (M := fun i _ rest => NoEnd i → NoEnd rest) ((tidy_queryParameter cfg _).terminated tidy_requireNewline)
      (fun i h => h) ?_ h6 (noEnd_newline h5)
    intro i r rest a l h ih _
    obtain ⟨r', _, _, h9⟩ := terminated_inv h
    exact ih (noEnd_newline h9)
  obtain ⟨r, a, l', h1, h2, _⟩ := many1_inv h
  exact many0_inv (M := fun i _ rest => NoEnd i → NoEnd rest) (tidy_resource cfg l) (fun i h => h)
    (fun h ih _ => ih (key h)) h2 (key h1)

end Wayfinder
