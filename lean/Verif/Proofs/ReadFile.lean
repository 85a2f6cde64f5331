import Verif.Proofs.ReadRoutes
/-!
# A route file is read in linear time
-/

namespace Wayfinder

variable {α β γ : Type} (cfg : ParseCfg)

/-! ### Headers -/

/-- The rest of a line. -/
theorem line_cost (i : Str) : (tMany0 tNotLineEnding).cost i ≤ (i.takeWhile notEol).length + 8 := by
  show loopCost tNotLineEnding (i.length + 1) i ≤ _
  have hc : ∀ i, tNotLineEnding.cost i = 3 + (i.takeWhile notEol).length := fun _ => rfl
  rw [loopCost]
  cases h : tNotLineEnding.run i with
  | error c => simp only [Res.next, hc]; omega
  | failure c => simp only [Res.next, hc]; omega
  | ok rest s =>
    simp only [Res.next]
    split
    · rw [hc]; omega
    · have h1 := (notLineEnding_ok (show pNotLineEnding i = _ from h)).1
      have h2 : rest.takeWhile notEol = [] := by
        have := List.takeWhile_append_dropWhile (p := notEol) (l := rest)
        rw [h1, dropWhile_dropWhile] at this
        exact List.append_left_eq_self.1 (h1 ▸ this)
      cases hn : i.length with
      | zero => simp only [loopCost, hc]; omega
      | succ n =>
        rw [loopCost, hc, hc, h2]
        cases h' : tNotLineEnding.run rest with
        | error c => simp only [Res.next, List.length_nil]; omega
        | failure c => simp only [Res.next, List.length_nil]; omega
        | ok rest' s' =>
          have h3 := (notLineEnding_ok (show pNotLineEnding rest = _ from h')).1
          rw [h1, dropWhile_dropWhile, ← h1] at h3
          simp only [Res.next, h3, if_true, List.length_nil]
          omega

/-- A header line up to its end. -/
def tHeaderText : Timed Str := tRecognize (tBind (tNot (tChar '/')) fun _ => tMany0 tNotLineEnding)

theorem headerText_cases (i : Str) :
    (∃ r s, tHeaderText.run i = .ok r s ∧ tHeaderText.cost i ≤ (i.takeWhile notEol).length + 11 ∧
      (r = i.dropWhile notEol ∨ (r = i ∧ NoEnd i))) ∨
    (∃ e, tHeaderText.run i = .error e ∧ tHeaderText.cost i ≤ 11) := by
  cases h : (tNot (tChar '/')).run i with
  | failure c =>
    exfalso
    have : pNot (pChar '/') i = .failure c := h
    unfold pNot pChar at this
    split at this <;> rename_i h2 <;> cases this
    split at h2
    · split at h2 <;> cases h2
    · cases h2
  | error c =>
    right
    obtain ⟨h1, h2⟩ := bind_run_error (f := fun _ => tMany0 tNotLineEnding) h
    refine ⟨c, by simp only [tHeaderText, tRecognize, pRecognize, h1], ?_⟩
    show 1 + (tBind (tNot (tChar '/')) fun _ => tMany0 tNotLineEnding).cost i ≤ 11
    rw [h2]
    have : (tNot (tChar '/')).cost i = 2 := rfl
    omega
  | ok r u =>
    left
    have hr : r = i := by
      have : pNot (pChar '/') i = .ok r u := h
      unfold pNot at this
      split at this <;> cases this
      rfl
    subst hr
    obtain ⟨h1, h2⟩ := bind_run_ok (f := fun _ => tMany0 tNotLineEnding) h
    obtain ⟨l, h3⟩ := many0_notLineEnding r
    rw [show (tMany0 tNotLineEnding).run r = _ from h3] at h1
    refine ⟨_, _, by simp only [tHeaderText, tRecognize, pRecognize, h1]; rfl, ?_, ?_⟩
    · show 1 + (tBind (tNot (tChar '/')) fun _ => tMany0 tNotLineEnding).cost r ≤ _
      rw [h2]
      have : (tNot (tChar '/')).cost r = 2 := rfl
      have := line_cost r
      omega
    · cases h4 : pNotLineEnding r with
      | ok r' s => exact .inl (notLineEnding_ok h4).1
      | error c => exact .inr ⟨rfl, (notLineEnding_error h4).1⟩
      | failure c =>
        exfalso
        unfold pNotLineEnding at h4
        split at h4 <;> cases h4

theorem header_turns : Turns 20 20 (fun _ => False) (fun _ => True) (fun _ => True) tHeader := by
  have key : ∀ i, match tHeader.run i with
      | .ok rest _ => tHeader.cost i + 1 + 20 * rest.length ≤ 20 * i.length
      | _ => tHeader.cost i + 1 ≤ 20 * i.length + 20 := by
    intro i
    have hc : tHeader.cost i = (tTerminated tHeaderText (tMany1 tLineEnding)).cost i := bind_pure_run.2
    rw [hc]
    have htd := takeDrop notEol i
    rcases headerText_cases i with ⟨r, s, h1, h2, h3⟩ | ⟨e, h1, h2⟩
    · have hl := lin_eols1.2 r
      have hrle : r.length ≤ i.length := by
        rcases h3 with rfl | ⟨rfl, _⟩ <;> omega
      cases e : (tMany1 tLineEnding).run r with
      | ok r2 x =>
        rw [e] at hl
        obtain ⟨h4, h5⟩ := terminated_run_ok h1 e
        have hr : r = i.dropWhile notEol := by
          rcases h3 with h3 | ⟨rfl, e', h6⟩
          · exact h3
          · exfalso
            rcases eols_many1 r with ⟨_, _, _, r', h7⟩ | ⟨h7, _⟩
            · rw [h6] at h7; cases h7
            · rw [show (tMany1 tLineEnding).run r = _ from h7] at e; cases e
        have hs : r2.length < r.length := by
          obtain ⟨e, _, hne, rfl⟩ := eols1_inv (show pMany1 pLineEnding _ = _ from e)
          have := List.length_pos_iff.2 hne
          simp only [List.length_append]
          omega
        have : tHeader.run i = .ok r2 ⟨s⟩ := (bind_run_ok h4).1
        rw [this, h5]
        simp only at hl ⊢
        rw [← hr] at htd
        omega
      | error c =>
        rw [e] at hl
        obtain ⟨h4, h5⟩ := terminated_run_error h1 e
        have : tHeader.run i = .error c := (bind_run_error h4).1
        rw [this, h5]
        simp only at hl ⊢
        omega
      | failure c =>
        rw [e] at hl
        obtain ⟨h4, h5⟩ := terminated_run_failure h1 e
        have : tHeader.run i = .failure c := (bind_run_failure h4).1
        rw [this, h5]
        simp only at hl ⊢
        omega
    · obtain ⟨h4, h5⟩ := terminated_error (q := tMany1 tLineEnding) h1
      have : tHeader.run i = .error e := (bind_run_error h4).1
      rw [this, h5]
      simp only
      omega
  refine ⟨?_, ?_, ?_, ?_⟩
  · intro i rest a e
    have := key i
    rw [e] at this
    exact ⟨.inl this, trivial⟩
  · intro i c e
    have := key i
    rw [e] at this
    exact .inr ⟨this, trivial⟩
  · intro i c e
    have := key i
    rw [e] at this
    exact ⟨this, trivial⟩
  · intro i h; exact h.elim

/-! ### The file -/

/-- At most `a` steps for every character and `b` more, whatever comes of it. -/
def Within (a b : Nat) (p : Timed α) : Prop := ∀ i, p.cost i ≤ a * i.length + b

theorem Within.after {a b c : Nat} {p : Timed α} {f : α → Timed β} (hp : Lin a b p) (hf : ∀ x, Within a c (f x)) :
    Within a (b + c) (tBind p f) := by
  intro i
  have h1 := hp.2 i
  cases e : p.run i with
  | ok rest x =>
    rw [e] at h1
    rw [(bind_run_ok e).2]
    have := hf x rest
    simp only at h1
    omega
  | error c => rw [e] at h1; rw [(bind_run_error e).2]; simp only at h1; omega
  | failure c => rw [e] at h1; rw [(bind_run_failure e).2]; simp only at h1; omega

theorem Lin.raise {a b d : Nat} {p : Timed α} (h : Lin a b p) : Lin (a + d) b p := by
  have hm : ∀ i : Str, (a + d) * i.length = a * i.length + d * i.length := fun i => Nat.add_mul _ _ _
  refine ⟨h.1, fun i => ?_⟩
  have := h.2 i
  cases e : p.run i with
  | ok rest x =>
    rw [e] at this
    have h2 := Nat.mul_le_mul_left d (h.1.length e)
    simp only [hm] at this ⊢
    omega
  | error c => rw [e] at this; simp only [hm] at this ⊢; omega
  | failure c => rw [e] at this; simp only [hm] at this ⊢; omega

theorem routes_within : Within 100 156 (tRoutes cfg 1) := by
  intro i
  have := routes_bound cfg (nested_turns cfg (i.length + 1) 1) (fun j h => nested_refuses cfg (i.length + 1) 1 (.inr h)) i
  show (tRoutesWith cfg (tNestedRoutes cfg (i.length + 1) 1) 1).cost i ≤ _
  unfold BlockBound at this
  split at this
  · rcases this with this | ⟨this, _⟩ <;> omega
  · exact this.elim
  · omega

theorem config_within (i : Str) : (tRouteConfig cfg).cost i ≤ 120 * i.length + 200 := by
  have hrest : ∀ headers : List Header, Within 100 170 (tBind (tMany0 tLineEnding) fun _ =>
      tBind (tChar '/') fun _ =>
      tBind (tMany1 tLineEnding) fun _ =>
      tBind (tRoutes cfg 1) fun routes =>
      tBind tEof fun _ =>
        tPure (RouteConfig.mk (headers.filter (fun h => h.text.length != 0)) routes)) := by
    intro headers
    have h1 : Lin 100 4 (tMany0 tLineEnding) := lin_eols0.raise (d := 96)
    have h2 : Lin 100 1 (tChar '/') := lin_of_const (tidy_char _) fun _ => Nat.le_refl _
    have h3 : Lin 100 4 (tMany1 tLineEnding) := lin_eols1.raise (d := 96)
    have h4 : Within 100 157 (tBind (tRoutes cfg 1) fun routes =>
      tBind tEof fun _ => tPure (RouteConfig.mk (headers.filter (fun h => h.text.length != 0)) routes)) := by
      intro i
      have hr := routes_within cfg i
      cases e : (tRoutes cfg 1).run i with
      | ok r x =>
        rw [(bind_run_ok e).2]
        have : (tBind tEof fun _ => tPure (RouteConfig.mk (headers.filter (fun h => h.text.length != 0)) x)).cost r = 1 :=
          bind_pure_run.2
        omega
      | error c => rw [(bind_run_error e).2]; omega
      | failure c => rw [(bind_run_failure e).2]; omega
    have h5 := Within.after h1 fun _ => Within.after h2 fun _ => Within.after h3 fun _ => h4
    intro i
    have := h5 i
    omega
  have hh := header_turns.many0 i
  cases e : (tMany0 tHeader).run i with
  | error c => rw [e] at hh; exact hh.elim
  | failure c =>
    rw [e] at hh
    have h1 : (tRouteConfig cfg).cost i = _ := (bind_run_failure e).2
    simp only [LoopBound] at hh
    omega
  | ok r hs =>
    rw [e] at hh
    have h1 : (tRouteConfig cfg).cost i = _ := (bind_run_ok e).2
    have h2 := hrest hs r
    have h3 : r.length ≤ i.length := tidy_header.many0.length (show pMany0 pHeader i = _ from e)
    simp only [LoopBound] at hh
    rcases hh with hh | ⟨hh, _⟩ <;> omega

/-! ### Every character is paid for -/

/-- At least one step for every character taken. -/
def Pays (p : Timed α) : Prop := ∀ i rest a, p.run i = .ok rest a → i.length ≤ p.cost i + rest.length

theorem Pays.bind {p : Timed α} {f : α → Timed β} (hp : Pays p) (hf : ∀ x, Pays (f x)) : Pays (tBind p f) := by
  intro i rest b h
  cases e : p.run i with
  | ok r x =>
    obtain ⟨h1, h2⟩ := bind_run_ok (f := f) e
    rw [h1] at h
    have := hp _ _ _ e
    have := hf x _ _ _ h
    omega
  | error c => rw [(bind_run_error e).1] at h; cases h
  | failure c => rw [(bind_run_failure e).1] at h; cases h

theorem pays_pure (a : α) : Pays (tPure a) := by
  intro i rest b h; cases h; simp [tPure]

theorem pays_tag (t : Str) : Pays (tTag t) := by
  intro i rest a h
  simp only [tTag, pTag] at h ⊢
  split at h <;> cases h
  simp only [List.length_drop]
  omega

theorem pays_tagNoCase (t : Str) : Pays (tTagNoCase t) := by
  intro i rest a h
  simp only [tTagNoCase, pTagNoCase] at h ⊢
  split at h <;> cases h
  simp only [List.length_drop]
  omega

theorem pays_char (c : Char) : Pays (tChar c) := by
  intro i rest a h
  simp only [tChar, pChar] at h ⊢
  split at h
  · split at h <;> cases h
    simp only [List.length_cons]
    omega
  · cases h

theorem pays_eof : Pays tEof := by
  intro i rest a h
  simp only [tEof, pEof] at h ⊢
  split at h <;> cases h
  omega

theorem pays_ident : Pays (tIdent cfg) := by
  intro i rest a h
  rcases ident_cases cfg i with ⟨r, s, h1, _, h2⟩ | ⟨e, h1, _⟩
  · rw [h1] at h; cases h; omega
  · rw [h1] at h; cases h

theorem pays_lineEnding : Pays tLineEnding := by
  intro i rest a h
  simp only [tLineEnding, pLineEnding] at h ⊢
  split at h <;> cases h <;> simp only [List.length_cons] <;> omega

theorem pays_notLineEnding : Pays tNotLineEnding := by
  intro i rest a h
  have h1 := (notLineEnding_ok (show pNotLineEnding i = _ from h)).1
  have := takeDrop notEol i
  rw [← h1] at this
  show i.length ≤ 3 + (i.takeWhile notEol).length + rest.length
  omega

theorem pays_not (p : Timed α) : Pays (tNot p) := by
  intro i rest a h
  have : pNot p.run i = .ok rest a := h
  unfold pNot at this
  split at this <;> cases this
  omega

theorem Pays.recognize {p : Timed α} (h : Pays p) : Pays (tRecognize p) := by
  intro i rest a e
  have : pRecognize p.run i = .ok rest a := e
  unfold pRecognize at this
  cases e2 : p.run i with
  | error c => rw [e2] at this; cases this
  | failure c => rw [e2] at this; cases this
  | ok r x =>
  rw [e2] at this
  cases this
  have := h _ _ _ e2
  show i.length ≤ 1 + p.cost i + rest.length
  omega

theorem Pays.loop {p : Timed α} (h : Pays p) : ∀ f i acc {rest l}, many0Loop p.run f i acc = .ok rest l →
    i.length ≤ loopCost p f i + rest.length
  | 0, i, acc, rest, l, e => by cases e; omega
  | f + 1, i, acc, rest, l, e => by
    simp only [many0Loop] at e
    simp only [loopCost]
    cases e2 : p.run i with
    | error c => rw [e2] at e; cases e; omega
    | failure c => rw [e2] at e; cases e
    | ok r a =>
      rw [e2] at e
      simp only [Res.next] at e ⊢
      split at e
      · cases e; omega
      · rename_i hr
        rw [if_neg hr]
        have := h _ _ _ e2
        have := Pays.loop h f r _ e
        omega

theorem Pays.many0 {p : Timed α} (h : Pays p) : Pays (tMany0 p) := fun _ _ _ e => h.loop _ _ _ e

theorem Pays.many1 {p : Timed α} (h : Pays p) : Pays (tMany1 p) := by
  intro i rest l e
  have e' : pMany1 p.run i = .ok rest l := e
  unfold pMany1 at e'
  split at e'
  · cases e'
  · cases e'
  · rename_i r a e2
    have := h _ _ _ e2
    have := h.loop _ _ _ e'
    simp only [tMany1, e2, Res.next]
    omega

theorem Pays.count {p : Timed α} (h : Pays p) (n : Nat) : Pays (tCount p n) := by
  have key : ∀ n i start acc {rest l}, countLoop p.run start n i acc = .ok rest l → i.length ≤ countCost p n i + rest.length := by
    intro n
    induction n with
    | zero => intro i start acc rest l e; cases e; omega
    | succ n ih =>
      intro i start acc rest l e
      simp only [countLoop] at e
      simp only [countCost]
      cases e2 : p.run i with
      | error c => rw [e2] at e; cases e
      | failure c => rw [e2] at e; cases e
      | ok r a =>
        rw [e2] at e
        have := h _ _ _ e2
        have := ih _ _ _ e
        simp only [Res.next]
        omega
  intro i rest l e
  exact key _ _ _ _ e

theorem Pays.returnError {p : Timed α} (h : Pays p) (k : Kind) : Pays (tReturnError k p) := by
  intro i rest a e
  have e' : pReturnError k p.run i = .ok rest a := e
  have := h _ _ _ (returnError_inv e')
  show i.length ≤ 1 + p.cost i + rest.length
  omega

theorem pays_alt (b : Bool) : ∀ {ps : List (Timed α)}, (∀ p ∈ ps, Pays p) → Pays (tAlt b ps)
  | [], _, i, rest, a, h => by cases h
  | p :: ps, h, i, rest, a, e => by
    have ih : Pays (tAlt b ps) := pays_alt b (ps := ps) fun q hq => h q (List.mem_cons_of_mem _ hq)
    have hp := h p List.mem_cons_self
    cases e2 : p.run i with
    | ok r x =>
      obtain ⟨h1, h2⟩ := alt_run_ok (b := b) (ps := ps) e2
      rw [h1] at e
      cases e
      have := hp _ _ _ e2
      omega
    | error c =>
      obtain ⟨h1, h2⟩ := alt_run_error (b := b) (ps := ps) e2
      rw [h1] at e
      have := ih _ _ _ e
      omega
    | failure c =>
      rcases alt_run_failure (b := b) (ps := ps) e2 with ⟨_, h1, h2⟩ | ⟨_, h1, h2⟩
      · rw [h1] at e
        have := ih _ _ _ e
        omega
      · rw [h1] at e; cases e

theorem Pays.ws {p : Timed α} (h : Pays p) : Pays (tWs p) := by
  intro i rest a e
  simp only [tWs, pWs] at e ⊢
  have h1 := takeDrop isWs i
  cases e2 : p.run (i.dropWhile isWs) with
  | ok r x =>
    rw [e2] at e
    cases e
    have := h _ _ _ e2
    have h2 := takeDrop isWs r
    simp only [Res.next]
    omega
  | error c => rw [e2] at e; cases e
  | failure c => rw [e2] at e; cases e

theorem pays_returning (b : Bool) (before : Parser α) (p : Timed β) {alt : Timed γ} (h : Pays alt) :
    Pays (tReturning b before p alt) := by
  intro i rest a e
  rcases returning_timed b before p alt i with ⟨h1, h2⟩ | ⟨c, _, h1, _⟩
  · rw [h1] at e; rw [h2]; exact h _ _ _ e
  · rw [h1] at e; cases e

theorem Pays.map {p : Timed α} (h : Pays p) (f : α → β) : Pays (tMap f p) := h.bind fun _ => pays_pure _
theorem Pays.preceded {p : Timed α} {q : Timed β} (hp : Pays p) (hq : Pays q) : Pays (tPreceded p q) := hp.bind fun _ => hq
theorem Pays.terminated {p : Timed α} {q : Timed β} (hp : Pays p) (hq : Pays q) : Pays (tTerminated p q) :=
  hp.bind fun _ => hq.bind fun _ => pays_pure _

theorem pays_method : Pays (tMethod cfg) := by
  refine pays_alt _ fun p hp => ?_
  simp only [List.mem_cons, List.not_mem_nil, or_false] at hp
  rcases hp with rfl | rfl | rfl | rfl <;> exact (pays_tagNoCase _).map _

theorem pays_param : Pays (tParam cfg) :=
  (pays_ident cfg).bind fun _ => (((pays_tag _).returnError _).ws).bind fun _ => (pays_ident cfg).bind fun _ => pays_pure _

theorem pays_indent (l : Nat) : Pays (tIndent l) := (pays_tag _).count l

theorem pays_braced : Pays (tBraced cfg) :=
  (pays_char _).preceded ((pays_param cfg).ws.terminated ((pays_char _).returnError _))

theorem pays_segment (l : Nat) : Pays (tPathSegment cfg l) := by
  refine (pays_indent l).preceded (pays_returning _ _ _ (pays_alt _ fun p hp => ?_))
  simp only [List.mem_cons, List.not_mem_nil, or_false] at hp
  rcases hp with rfl | rfl
  · exact (pays_braced cfg).map _
  · exact (pays_ident cfg).map _

theorem pays_query (l : Nat) : Pays (tQueryParameter cfg l) :=
  (pays_indent l).preceded ((pays_char _).preceded ((pays_param cfg).ws.terminated ((pays_char _).returnError _)))

theorem pays_targetPath (b : Bool) : Pays (tTargetPath cfg b) :=
  ((pays_ident cfg).terminated (pays_tag _).ws).many0.bind fun _ => (pays_ident cfg).bind fun _ => pays_pure _

theorem pays_target : Pays (tTarget cfg) := by
  refine pays_alt _ fun p hp => ?_
  simp only [List.mem_cons, List.not_mem_nil, or_false] at hp
  rcases hp with rfl | rfl
  · exact (pays_tag _).ws.preceded (pays_targetPath cfg _)
  · exact pays_targetPath cfg _

theorem pays_newline : Pays tRequireNewline := (pays_lineEnding.many1.map _).returnError _

theorem pays_resource (l : Nat) : Pays (tResource cfg l) :=
  (pays_indent l).preceded ((pays_method cfg).bind fun _ => (pays_char _).bind fun _ => (pays_target cfg).bind fun _ =>
    pays_newline.bind fun _ => ((pays_query cfg _).terminated pays_newline).many0.bind fun _ => pays_pure _)

theorem pays_routesWith {N : Timed NestedRoutes} (hN : Pays N) (l : Nat) : Pays (tRoutesWith cfg N l) := by
  refine ((pays_query cfg _).terminated pays_lineEnding.many1).many0.bind fun _ => Pays.bind ?_ fun _ => pays_pure _
  refine (pays_alt _ fun p hp => ?_ : Pays _).returnError _
  simp only [List.mem_cons, List.not_mem_nil, or_false] at hp
  rcases hp with rfl | rfl
  · refine (pays_resource cfg l).many1.bind fun _ => Pays.bind (pays_alt _ fun p hp => ?_) fun _ => pays_pure _
    simp only [List.mem_cons, List.not_mem_nil, or_false] at hp
    rcases hp with rfl | rfl
    · exact pays_lineEnding.many0.preceded hN.many1
    · exact pays_pure _
  · exact hN.many1.bind fun _ => pays_pure _

theorem pays_nested : ∀ f l, Pays (tNestedRoutes cfg f l)
  | 0, _, _, _, _, h => by cases h
  | f + 1, l, _, _, _, h =>
    ((pays_segment cfg l).bind fun _ => pays_lineEnding.many1.bind fun _ =>
      ((pays_routesWith cfg (pays_nested f (l + 1)) (l + 1)).returnError _).bind fun _ => pays_pure _ :
      Pays (tNestedRoutes cfg (f + 1) l)) _ _ _ h

theorem pays_routes (l : Nat) : Pays (tRoutes cfg l) := by
  intro i rest a h
  have h1 := pays_routesWith cfg (pays_nested cfg (i.length + 1) l) l i rest a
  simp only [tRoutes] at h ⊢
  exact h1 h

theorem pays_header : Pays tHeader :=
  (((pays_not _).bind fun _ => pays_notLineEnding.many0).recognize.terminated pays_lineEnding.many1).bind fun _ => pays_pure _

theorem pays_config : Pays (tRouteConfig cfg) :=
  pays_header.many0.bind fun _ => pays_lineEnding.many0.bind fun _ => (pays_char _).bind fun _ =>
    pays_lineEnding.many1.bind fun _ => (pays_routes cfg 1).bind fun _ => pays_eof.bind fun _ => pays_pure _

/-- What is accepted is accepted whole. -/
theorem config_whole {i rest : Str} {x : RouteConfig} (h : (tRouteConfig cfg).run i = .ok rest x) : rest = [] := by
  rw [tRouteConfig_run] at h
  unfold routeConfig at h
  obtain ⟨r1, _, _, h⟩ := bind_ok h
  obtain ⟨r2, _, _, h⟩ := bind_ok h
  obtain ⟨r3, _, _, h⟩ := bind_ok h
  obtain ⟨r4, _, _, h⟩ := bind_ok h
  obtain ⟨r5, _, _, h⟩ := bind_ok h
  obtain ⟨r6, _, h6, h⟩ := bind_ok h
  cases h
  unfold pEof at h6
  split at h6 <;> cases h6
  rfl

end Wayfinder
