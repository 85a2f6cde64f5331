import Verif.Spec.Parse
/-!
# Basic facts about the combinators: positions and fuel
-/

namespace Wayfinder

variable {α β : Type}

/-- Results and errors of `p` stay inside its input. -/
def Tidy (p : Parser α) : Prop := ∀ i, (p i).Within i

theorem Ctx.Within.trans {i j : Str} (hij : i <:+ j) : ∀ {c : Ctx}, c.Within i → c.Within j
  | .code _ _, h => List.IsSuffix.trans h hij
  | .list _, h => fun x hx => List.IsSuffix.trans (h x hx) hij

theorem Res.Within.trans {i j : Str} (hij : i <:+ j) : ∀ {r : Res α}, r.Within i → r.Within j
  | .ok _ _, h => List.IsSuffix.trans h hij
  | .error _, h => Ctx.Within.trans hij h
  | .failure _, h => Ctx.Within.trans hij h

theorem Tidy.ok {p : Parser α} (h : Tidy p) {i rest : Str} {a : α} (e : p i = .ok rest a) : rest <:+ i := by
  have := h i; rw [e] at this; exact this

theorem Tidy.length {p : Parser α} (h : Tidy p) {i rest : Str} {a : α} (e : p i = .ok rest a) :
    rest.length ≤ i.length := (h.ok e).length_le

theorem Tidy.shorter {p : Parser α} (h : Tidy p) {i rest : Str} {a : α} (e : p i = .ok rest a)
    (hne : rest ≠ i) : rest.length < i.length := by
  rcases Nat.lt_or_eq_of_le (h.length e) with hl | hl
  · exact hl
  · exact absurd ((h.ok e).eq_of_length hl) hne

theorem tidy_pure (a : α) : Tidy (pPure a) := fun i => List.suffix_refl i

theorem Tidy.bind {p : Parser α} {f : α → Parser β} (hp : Tidy p) (hf : ∀ a, Tidy (f a)) :
    Tidy (pBind p f) := by
  intro i
  have := hp i
  unfold pBind
  cases he : p i with
  | ok rest a => rw [he] at this; exact (hf a rest).trans this
  | error c => rw [he] at this; exact this
  | failure c => rw [he] at this; exact this

theorem Tidy.map {p : Parser α} (hp : Tidy p) (f : α → β) : Tidy (pMap f p) :=
  hp.bind fun _ => tidy_pure _

theorem Tidy.preceded {p : Parser α} {q : Parser β} (hp : Tidy p) (hq : Tidy q) : Tidy (pPreceded p q) :=
  hp.bind fun _ => hq

theorem Tidy.terminated {p : Parser α} {q : Parser β} (hp : Tidy p) (hq : Tidy q) : Tidy (pTerminated p q) :=
  hp.bind fun _ => hq.bind fun _ => tidy_pure _

theorem tidy_tag (t : Str) : Tidy (pTag t) := by
  intro i; unfold pTag; split
  · exact List.drop_suffix _ _
  · exact List.suffix_refl i

theorem tidy_tagNoCase (t : Str) : Tidy (pTagNoCase t) := by
  intro i; unfold pTagNoCase; split
  · exact List.drop_suffix _ _
  · exact List.suffix_refl i

theorem tidy_char (c : Char) : Tidy (pChar c) := by
  intro i; unfold pChar; split
  · split
    · exact List.suffix_cons _ _
    · exact List.suffix_refl _
  · exact List.suffix_refl _

theorem tidy_eof : Tidy pEof := by
  intro i; unfold pEof; split
  · exact List.suffix_refl _
  · exact List.suffix_refl _

theorem tidy_takeWhile1 (f : Char → Bool) : Tidy (pTakeWhile1 f) := by
  intro i; unfold pTakeWhile1; split
  · exact List.suffix_refl _
  · exact List.dropWhile_suffix _

theorem tidy_lineEnding : Tidy pLineEnding := by
  intro i; unfold pLineEnding; split
  · exact List.suffix_cons _ _
  · exact (List.suffix_cons _ _).trans (List.suffix_cons _ _)
  · exact List.suffix_refl _

theorem tidy_notLineEnding : Tidy pNotLineEnding := by
  intro i; unfold pNotLineEnding
  have := List.dropWhile_suffix (l := i) notEol
  split
  · exact List.nil_suffix
  · rename_i h; rw [h] at this; exact this
  · rename_i h; rw [h] at this; exact this
  · exact List.suffix_refl _

theorem Tidy.not {p : Parser α} (hp : Tidy p) : Tidy (pNot p) := by
  intro i; have := hp i; unfold pNot; split
  · exact List.suffix_refl _
  · exact List.suffix_refl _
  · rename_i h; rw [h] at this; exact this

theorem Tidy.recognize {p : Parser α} (hp : Tidy p) : Tidy (pRecognize p) := by
  intro i; have := hp i; unfold pRecognize
  split <;> rename_i h <;> rw [h] at this <;> exact this

theorem Tidy.many0Loop {p : Parser α} (hp : Tidy p) : ∀ fuel i acc, (many0Loop p fuel i acc).Within i
  | 0, i, acc => List.suffix_refl i
  | fuel + 1, i, acc => by
    have := hp i
    unfold Wayfinder.many0Loop
    split
    · exact List.suffix_refl i
    · rename_i h; rw [h] at this; exact this
    · rename_i rest a h
      rw [h] at this
      split
      · exact List.suffix_refl i
      · exact (Tidy.many0Loop hp fuel rest _).trans this

theorem Tidy.many0 {p : Parser α} (hp : Tidy p) : Tidy (pMany0 p) := fun i => hp.many0Loop _ i _

theorem Tidy.many1 {p : Parser α} (hp : Tidy p) : Tidy (pMany1 p) := by
  intro i; have := hp i; unfold pMany1; split
  · exact List.suffix_refl i
  · exact List.suffix_refl i
  · rename_i h; rw [h] at this; exact (hp.many0Loop _ _ _).trans this

theorem Tidy.count {p : Parser α} (hp : Tidy p) (n : Nat) : Tidy (pCount p n) := by
  intro i
  have key : ∀ n j acc, j <:+ i → (countLoop p i n j acc).Within i := by
    intro n
    induction n with
    | zero => intro j acc hj; exact hj
    | succ n ih =>
      intro j acc hj
      have := hp j
      unfold countLoop
      split
      · rename_i h; rw [h] at this; exact ih _ _ (List.IsSuffix.trans this hj)
      · exact List.suffix_refl i
      · rename_i h; rw [h] at this; exact Ctx.Within.trans hj this
  exact key n i [] (List.suffix_refl i)

theorem Tidy.returnError {p : Parser α} (hp : Tidy p) (k : Kind) : Tidy (pReturnError k p) := by
  intro i; have := hp i; unfold pReturnError
  split <;> rename_i h <;> rw [h] at this
  · exact this
  · intro x hx
    rcases List.mem_cons.1 hx with rfl | hx
    · exact this
    · rw [List.mem_singleton.1 hx]; exact List.suffix_refl _
  · intro x hx
    rcases List.mem_append.1 hx with hx | hx
    · exact this x hx
    · rw [List.mem_singleton.1 hx]; exact List.suffix_refl _
  · intro x hx
    rcases List.mem_cons.1 hx with rfl | hx
    · exact this
    · rw [List.mem_singleton.1 hx]; exact List.suffix_refl _
  · intro x hx
    rcases List.mem_append.1 hx with hx | hx
    · exact this x hx
    · rw [List.mem_singleton.1 hx]; exact List.suffix_refl _

theorem tidy_alt (b : Bool) : ∀ {ps : List (Parser α)}, (∀ p ∈ ps, Tidy p) → Tidy (pAlt b ps)
  | [], _ => fun i => List.suffix_refl i
  | p :: ps, h => by
    have ih := tidy_alt b (ps := ps) fun q hq => h q (by simp [hq])
    intro i
    have := h p (by simp) i
    unfold pAlt
    split
    · rename_i e; rw [e] at this; exact this
    · exact ih i
    · rename_i e; rw [e] at this
      split
      · exact ih i
      · exact this

theorem returning_cases (b : Bool) (before : Parser α) (p : Parser β) (alt : Parser γ) (i : Str) :
    pReturning b before p alt i = alt i ∨ ∃ c, p i = .failure c ∧ pReturning b before p alt i = .failure c := by
  unfold pReturning
  split
  · split
    · rename_i e; exact .inr ⟨_, e, rfl⟩
    · exact .inl rfl
  · exact .inl rfl

theorem returning_ok {b : Bool} {before : Parser α} {p : Parser β} {alt : Parser γ} {i rest : Str} {a : γ}
    (h : pReturning b before p alt i = .ok rest a) : alt i = .ok rest a := by
  rcases returning_cases b before p alt i with e | ⟨c, _, e⟩
  · rwa [← e]
  · rw [e] at h; cases h

theorem returning_eq {b : Bool} {before : Parser α} {p : Parser β} {alt : Parser γ} {i : Str}
    (h : ∀ c, p i ≠ .failure c) : pReturning b before p alt i = alt i := by
  rcases returning_cases b before p alt i with e | ⟨c, e, _⟩
  · exact e
  · exact absurd e (h c)

theorem tidy_returning {b : Bool} {before : Parser α} {p : Parser β} {alt : Parser γ} (hp : Tidy p) (h : Tidy alt) :
    Tidy (pReturning b before p alt) := by
  intro i
  rcases returning_cases b before p alt i with e | ⟨c, e1, e⟩
  · rw [e]; exact h i
  · have := hp i
    rw [e1] at this
    rw [e]; exact this

theorem Tidy.ws {p : Parser α} (hp : Tidy p) : Tidy (pWs p) := by
  intro i
  have h1 := hp (i.dropWhile isWs)
  have h2 := List.dropWhile_suffix (l := i) isWs
  unfold pWs
  split <;> rename_i h <;> rw [h] at h1
  · exact (List.dropWhile_suffix _).trans (List.IsSuffix.trans h1 h2)
  · exact Ctx.Within.trans h2 h1
  · exact Ctx.Within.trans h2 h1

/-! ## Loops without fuel -/

/-- Put elements in front of a list result. -/
def Res.prepend (acc : List α) : Res (List α) → Res (List α)
  | .ok rest l => .ok rest (acc ++ l)
  | .error c => .error c
  | .failure c => .failure c

theorem Res.prepend_prepend (a b : List α) (r : Res (List α)) :
    (r.prepend b).prepend a = r.prepend (a ++ b) := by
  cases r <;> simp [Res.prepend]

theorem Res.prepend_nil (r : Res (List α)) : r.prepend [] = r := by cases r <;> rfl

theorem many0Loop_acc (p : Parser α) : ∀ fuel i acc,
    many0Loop p fuel i acc = (many0Loop p fuel i []).prepend acc
  | 0, i, acc => by simp [many0Loop, Res.prepend]
  | fuel + 1, i, acc => by
    unfold many0Loop
    cases p i with
    | error c => simp [Res.prepend]
    | failure c => simp [Res.prepend]
    | ok rest a =>
      simp only
      split
      · simp [Res.prepend]
      · rw [many0Loop_acc p fuel rest (acc ++ [a]), many0Loop_acc p fuel rest ([] ++ [a]),
          Res.prepend_prepend]
        simp

/-- More fuel than characters makes no difference. -/
theorem many0Loop_fuel {p : Parser α} (hp : Tidy p) : ∀ f g i, i.length < f → i.length < g → ∀ acc,
    many0Loop p f i acc = many0Loop p g i acc
  | 0, _, _, hf, _, _ => absurd hf (Nat.not_lt_zero _)
  | _ + 1, 0, _, _, hg, _ => absurd hg (Nat.not_lt_zero _)
  | f + 1, g + 1, i, hf, hg, acc => by
    unfold many0Loop
    cases he : p i with
    | error c => rfl
    | failure c => rfl
    | ok rest a =>
      simp only
      split
      · rfl
      · rename_i hne
        have := hp.shorter he hne
        exact many0Loop_fuel hp f g rest (by omega) (by omega) _

/-- `many0!` as a loop without a bound. -/
theorem many0_eq {p : Parser α} (hp : Tidy p) (i : Str) : pMany0 p i =
    match p i with
    | .error _ => .ok i []
    | .failure c => .failure c
    | .ok rest a => if rest = i then .ok i [] else (pMany0 p rest).prepend [a] := by
  conv => lhs; unfold pMany0 many0Loop
  cases he : p i with
  | error c => rfl
  | failure c => rfl
  | ok rest a =>
    simp only
    split
    · rfl
    · rename_i hne
      have := hp.shorter he hne
      rw [many0Loop_acc, List.nil_append, pMany0,
        many0Loop_fuel hp _ (rest.length + 1) rest (by omega) (by omega)]

/-- `many1!` in terms of `many0!`. -/
theorem many1_eq (p : Parser α) (i : Str) : pMany1 p i =
    match p i with
    | .error _ => .error (.code i .many1)
    | .failure _ => .failure (.code i .many1)
    | .ok rest a => (pMany0 p rest).prepend [a] := by
  unfold pMany1
  cases p i with
  | error c => rfl
  | failure c => rfl
  | ok rest a => simp only [pMany0]; rw [many0Loop_acc]

/-! ## The grammar -/

section
variable (cfg : ParseCfg)

theorem tidy_method : Tidy (pMethod cfg) := by
  refine tidy_alt _ fun p hp => ?_
  simp only [List.mem_cons, List.not_mem_nil, or_false] at hp
  rcases hp with rfl | rfl | rfl | rfl <;> exact (tidy_tagNoCase _).map _

theorem tidy_ident : Tidy (pIdent cfg) := tidy_takeWhile1 _

theorem tidy_colon : Tidy pColon := (tidy_tag _).returnError _

theorem tidy_param : Tidy (pParam cfg) :=
  (tidy_ident cfg).bind fun _ => tidy_colon.ws.bind fun _ => (tidy_ident cfg).bind fun _ => tidy_pure _

theorem tidy_indent (level : Nat) : Tidy (pIndent level) := (tidy_tag _).count _

theorem tidy_braced : Tidy (pBraced cfg) :=
  (tidy_char _).preceded ((tidy_param cfg).ws.terminated ((tidy_char _).returnError _))

theorem tidy_pathSegment (level : Nat) : Tidy (pPathSegment cfg level) := by
  refine (tidy_indent level).preceded (tidy_returning (tidy_braced cfg) (tidy_alt _ fun p hp => ?_))
  simp only [List.mem_cons, List.not_mem_nil, or_false] at hp
  rcases hp with rfl | rfl
  · exact (tidy_braced cfg).map _
  · exact (tidy_ident cfg).map _

theorem tidy_queryParameter (level : Nat) : Tidy (pQueryParameter cfg level) :=
  (tidy_indent level).preceded
    ((tidy_char _).preceded ((tidy_param cfg).ws.terminated ((tidy_char _).returnError _)))

theorem tidy_targetPath (b : Bool) : Tidy (pTargetPath cfg b) :=
  ((tidy_ident cfg).terminated (tidy_tag _).ws).many0.bind fun _ => (tidy_ident cfg).bind fun _ => tidy_pure _

theorem tidy_target : Tidy (pTarget cfg) := by
  refine tidy_alt _ fun p hp => ?_
  simp only [List.mem_cons, List.not_mem_nil, or_false] at hp
  rcases hp with rfl | rfl
  · exact (tidy_tag _).ws.preceded (tidy_targetPath cfg _)
  · exact tidy_targetPath cfg _

theorem tidy_requireNewline : Tidy pRequireNewline := (tidy_lineEnding.many1.map _).returnError _

theorem tidy_resource (level : Nat) : Tidy (pResource cfg level) :=
  (tidy_indent level).preceded <| (tidy_method cfg).bind fun _ => (tidy_char _).bind fun _ =>
    (tidy_target cfg).bind fun _ => tidy_requireNewline.bind fun _ =>
      ((tidy_queryParameter cfg _).terminated tidy_requireNewline).many0.bind fun _ => tidy_pure _

theorem tidy_resourcesAndRoutes {nested : Parser NestedRoutes} (hn : Tidy nested) (level : Nat) :
    Tidy (pResourcesAndRoutes cfg nested level) := by
  refine Tidy.returnError (tidy_alt _ fun p hp => ?_) _
  simp only [List.mem_cons, List.not_mem_nil, or_false] at hp
  rcases hp with rfl | rfl
  · refine (tidy_resource cfg level).many1.bind fun _ => (tidy_alt _ fun p hp => ?_).bind fun _ => tidy_pure _
    simp only [List.mem_cons, List.not_mem_nil, or_false] at hp
    rcases hp with rfl | rfl
    · exact tidy_lineEnding.many0.preceded hn.many1
    · exact tidy_pure _
  · exact hn.many1.bind fun _ => tidy_pure _

theorem tidy_routesWith {nested : Parser NestedRoutes} (hn : Tidy nested) (level : Nat) :
    Tidy (pRoutesWith cfg nested level) :=
  ((tidy_queryParameter cfg _).terminated tidy_lineEnding.many1).many0.bind fun _ =>
    (tidy_resourcesAndRoutes cfg hn level).bind fun _ => tidy_pure _

theorem tidy_nestedRoutes : ∀ fuel level, Tidy (pNestedRoutes cfg fuel level)
  | 0, _ => fun i => List.suffix_refl i
  | fuel + 1, level =>
    (tidy_pathSegment cfg level).bind fun _ => tidy_lineEnding.many1.bind fun _ =>
      ((tidy_routesWith cfg (tidy_nestedRoutes fuel (level + 1)) (level + 1)).returnError _).bind fun _ =>
        tidy_pure _

theorem tidy_routes (level : Nat) : Tidy (pRoutes cfg level) := fun i =>
  tidy_routesWith cfg (tidy_nestedRoutes cfg _ level) level i

theorem tidy_header : Tidy pHeader :=
  Tidy.bind (((tidy_char _).not.bind fun _ => tidy_notLineEnding.many0).recognize.terminated
    tidy_lineEnding.many1) fun _ => tidy_pure _

theorem tidy_routeConfig : Tidy (routeConfig cfg) :=
  tidy_header.many0.bind fun _ => tidy_lineEnding.many0.bind fun _ => (tidy_char _).bind fun _ =>
    tidy_lineEnding.many1.bind fun _ => (tidy_routes cfg 1).bind fun _ => tidy_eof.bind fun _ => tidy_pure _

end

end Wayfinder
