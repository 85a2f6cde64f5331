import Verif.Model.Errors
import Verif.Spec.Errors
import Verif.Proofs.Lines
/-!
# Lemmas about error reports
-/

namespace Wayfinder

theorem utf8Size_pos (c : Char) : 0 < c.utf8Size := Char.utf8Size_pos c

theorem utf8Len_nil : utf8Len [] = 0 := rfl

theorem utf8Len_cons (c : Char) (s : Str) : utf8Len (c :: s) = c.utf8Size + utf8Len s := by
  simp [utf8Len]

theorem utf8Len_append (a b : Str) : utf8Len (a ++ b) = utf8Len a + utf8Len b := by
  simp [utf8Len]

theorem takeBytes_append : ∀ a b : Str, takeBytes (utf8Len a) (a ++ b) = some a
  | [], b => by simp [utf8Len_nil, takeBytes]
  | c :: a, b => by
    have hc := utf8Size_pos c
    rw [utf8Len_cons]
    obtain ⟨n, hn⟩ : ∃ n, c.utf8Size + utf8Len a = n + 1 := ⟨c.utf8Size + utf8Len a - 1, by omega⟩
    rw [hn, List.cons_append, takeBytes, if_pos (by omega), show n + 1 - c.utf8Size = utf8Len a by omega,
      takeBytes_append a b]
    rfl

theorem dropBytes_append : ∀ a b : Str, dropBytes (utf8Len a) (a ++ b) = some b
  | [], b => by simp [utf8Len_nil, dropBytes]
  | c :: a, b => by
    have hc := utf8Size_pos c
    rw [utf8Len_cons]
    obtain ⟨n, hn⟩ : ∃ n, c.utf8Size + utf8Len a = n + 1 := ⟨c.utf8Size + utf8Len a - 1, by omega⟩
    rw [hn, List.cons_append, dropBytes, if_pos (by omega), show n + 1 - c.utf8Size = utf8Len a by omega,
      dropBytes_append a b]

theorem sliceBytes_append (a b c : Str) : sliceBytes (utf8Len a) (utf8Len (a ++ b)) (a ++ (b ++ c)) = some b := by
  unfold sliceBytes
  rw [if_pos (by rw [utf8Len_append]; omega), dropBytes_append]
  simp only [Option.bind_some]
  rw [show utf8Len (a ++ b) - utf8Len a = utf8Len b by rw [utf8Len_append]; omega, takeBytes_append]

theorem dropWhile_all {f : Char → Bool} : ∀ {l : Str}, (∀ c ∈ l, f c = true) → l.dropWhile f = []
  | [], _ => rfl
  | c :: l, h => by
    rw [List.dropWhile_cons, if_pos (h c (List.mem_cons_self ..))]
    exact dropWhile_all fun d hd => h d (List.mem_cons_of_mem _ hd)

theorem beforeLast_none {l : Str} (h : '\n' ∉ l) : beforeLastNewline l = none := by
  unfold beforeLastNewline
  have : l.reverse.dropWhile (fun c => c != '\n') = [] := by
    refine dropWhile_all fun c hc => ?_
    have : c ≠ '\n' := fun e => h (by rw [← e]; simpa using hc)
    simpa using this
  rw [this]

theorem beforeLast_some {l : Str} (h : '\n' ∉ l) (s : Str) : beforeLastNewline (s ++ '\n' :: l) = some s := by
  unfold beforeLastNewline
  have : (s ++ '\n' :: l).reverse.dropWhile (fun c => c != '\n') = '\n' :: s.reverse := by
    rw [List.reverse_append, List.reverse_cons, List.append_assoc, List.dropWhile_append]
    have h' : l.reverse.dropWhile (fun c => c != '\n') = [] := by
      refine dropWhile_all fun c hc => ?_
      have : c ≠ '\n' := fun e => h (by rw [← e]; simpa using hc)
      simpa using this
    rw [h']
    simp
  rw [this]
  simp

theorem firstLine_eq {l t : Str} (h : '\n' ∉ l) (ht : t = [] ∨ ∃ s, t = '\n' :: s) : firstLine (l ++ t) = l := by
  unfold firstLine
  rw [List.takeWhile_append_of_pos]
  · rcases ht with rfl | ⟨s, rfl⟩ <;> simp
  · intro c hc
    have : c ≠ '\n' := fun e => h (by rw [← e]; exact hc)
    simpa using this

theorem lineLabel_eq (n : Nat) : lineLabel n = padLeft 4 (natText n) := by
  unfold lineLabel padLeft natText
  rw [Nat.toString_eq_ofList_toDigits, String.toList_ofList]

theorem filter_count (s : Str) : (s.filter fun c => c == '\n').length = s.count '\n' := by
  rw [List.count_eq_length_filter]

theorem padCaret (n : Nat) : padLeft (n + 1) c!"^" = List.replicate n ' ' ++ c!"^" := by simp [padLeft]

theorem showError_eq {p : Place} (hp : p.Sound) (msg pre : Str) :
    showError p.text (utf8Len (p.above ++ p.left)) msg pre = some (p.report msg pre) := by
  have htext : p.text = (p.above ++ p.left) ++ (p.right ++ p.below) := by simp [Place.text]
  have htext2 : p.text = p.above ++ (p.left ++ (p.right ++ p.below)) := by simp [Place.text]
  have hstart : ((beforeLastNewline (p.above ++ p.left)).map fun s => utf8Len s + 1).getD 0 = utf8Len p.above := by
    rcases hp.above with h | ⟨s, h⟩
    · rw [h, List.nil_append, beforeLast_none hp.left]; rfl
    · rw [h, List.append_assoc, List.singleton_append, beforeLast_some hp.left, utf8Len_append]
      simp [utf8Len, Char.utf8Size]
  have hline : firstLine (p.left ++ (p.right ++ p.below)) = p.left ++ p.right := by
    rw [← List.append_assoc]
    refine firstLine_eq ?_ hp.below
    intro h
    rcases List.mem_append.1 h with h | h
    · exact hp.left h
    · exact hp.right h
  unfold showError
  rw [htext, takeBytes_append, ← htext, htext2]
  simp only [Option.bind_eq_bind, Option.bind_some, hstart, dropBytes_append, hline, whatLine, takeBytes_append,
    Option.map_some, sliceBytes_append, filter_count, padCaret, Option.pure_def]
  rw [show 1 + p.above.count '\n' = p.line by unfold Place.line; omega, ← lineLabel_eq]
  simp [Place.report]

/-- Every position is a place. -/
theorem place_exists (a b : Str) : ∃ p : Place, p.Sound ∧ p.above ++ p.left = a ∧ p.rest = b := by
  have hsplitB : ∃ r y : Str, b = r ++ y ∧ '\n' ∉ r ∧ (y = [] ∨ ∃ s, y = '\n' :: s) := by
    clear a
    induction b with
    | nil => exact ⟨[], [], rfl, by simp, .inl rfl⟩
    | cons c b ih =>
      by_cases hc : c = '\n'
      · subst hc; exact ⟨[], _, rfl, by simp, .inr ⟨b, rfl⟩⟩
      · obtain ⟨r, y, rfl, h1, h2⟩ := ih
        exact ⟨c :: r, y, rfl, by simp [Ne.symm hc, h1], h2⟩
  have hsplitA : ∃ x l : Str, a = x ++ l ∧ '\n' ∉ l ∧ (x = [] ∨ ∃ s, x = s ++ c!"\n") := by
    clear hsplitB
    induction a with
    | nil => exact ⟨[], [], rfl, by simp, .inl rfl⟩
    | cons c a ih =>
      obtain ⟨x, l, rfl, h1, h2⟩ := ih
      rcases h2 with rfl | ⟨s, rfl⟩
      · by_cases hc : c = '\n'
        · subst hc; exact ⟨c!"\n", l, rfl, h1, .inr ⟨[], rfl⟩⟩
        · exact ⟨[], c :: l, rfl, by simp [Ne.symm hc, h1], .inl rfl⟩
      · exact ⟨c :: (s ++ c!"\n"), l, rfl, h1, .inr ⟨c :: s, rfl⟩⟩
  obtain ⟨x, l, rfl, hl, hx⟩ := hsplitA
  obtain ⟨r, y, rfl, hr, hy⟩ := hsplitB
  exact ⟨⟨x, l, r, y⟩, ⟨hx, hl, hr, hy⟩, rfl, rfl⟩

/-! ## The shapes of failures -/

section
variable {α β : Type}

/-- Failures carry a non-empty list of positions. -/
def FailsList (p : Parser α) : Prop := ∀ i c, p i = .failure c → ∃ v, c = .list v ∧ v ≠ []

theorem failsList_of_never {p : Parser α} (h : ∀ i c, p i ≠ .failure c) : FailsList p :=
  fun i c e => absurd e (h i c)

theorem failsList_pure (a : α) : FailsList (pPure a) := failsList_of_never fun _ _ h => by cases h

theorem FailsList.bind {p : Parser α} {f : α → Parser β} (hp : FailsList p) (hf : ∀ a, FailsList (f a)) :
    FailsList (pBind p f) := by
  intro i c h
  unfold pBind at h
  cases he : p i with
  | ok r a => rw [he] at h; exact hf a _ _ h
  | error d => rw [he] at h; cases h
  | failure d => rw [he] at h; cases h; exact hp _ _ he

theorem failsList_tag (t : Str) : FailsList (pTag t) := failsList_of_never fun i c h => by
  unfold pTag at h; split at h <;> cases h

theorem failsList_char (c : Char) : FailsList (pChar c) := failsList_of_never fun i d h => by
  unfold pChar at h
  split at h
  · split at h <;> cases h
  · cases h

theorem failsList_takeWhile1 (f : Char → Bool) : FailsList (pTakeWhile1 f) := failsList_of_never fun i d h => by
  unfold pTakeWhile1 at h
  split at h <;> cases h

theorem FailsList.ws {p : Parser α} (hp : FailsList p) : FailsList (pWs p) := by
  intro i c h
  unfold pWs at h
  split at h
  · cases h
  · cases h
  · rename_i he; cases h; exact hp _ _ he

theorem failsList_returnError (k : Kind) (p : Parser α) : FailsList (pReturnError k p) := by
  intro i c h
  unfold pReturnError at h
  split at h <;> cases h <;> exact ⟨_, rfl, by simp⟩

theorem returnError_no_error (k : Kind) (p : Parser α) (i : Str) (c : Ctx) : pReturnError k p i ≠ .error c := by
  intro h
  unfold pReturnError at h
  split at h <;> cases h

theorem FailsList.count {p : Parser α} (hp : FailsList p) (n : Nat) : FailsList (pCount p n) := by
  have key : ∀ n start i acc c, countLoop p start n i acc = .failure c → ∃ v, c = .list v ∧ v ≠ [] := by
    intro n
    induction n with
    | zero => intro start i acc c h; cases h
    | succ n ih =>
      intro start i acc c h
      unfold countLoop at h
      split at h
      · exact ih _ _ _ _ h
      · cases h
      · rename_i he; cases h; exact hp _ _ he
  exact fun i c h => key n i i [] c h

theorem FailsList.many0 {p : Parser α} (hp : FailsList p) : FailsList (pMany0 p) := by
  have key : ∀ n i acc c, many0Loop p n i acc = .failure c → ∃ v, c = .list v ∧ v ≠ [] := by
    intro n
    induction n with
    | zero => intro i acc c h; cases h
    | succ n ih =>
      intro i acc c h
      unfold many0Loop at h
      split at h
      · cases h
      · rename_i he; cases h; exact hp _ _ he
      · split at h
        · cases h
        · exact ih _ _ _ h
  exact fun i c h => key _ i [] c h

theorem many0_no_error (p : Parser α) (i : Str) (c : Ctx) : pMany0 p i ≠ .error c := by
  have key : ∀ n i acc c, many0Loop p n i acc ≠ .error c := by
    intro n
    induction n with
    | zero => intro i acc c h; cases h
    | succ n ih =>
      intro i acc c h
      unfold many0Loop at h
      split at h
      · cases h
      · cases h
      · split at h
        · cases h
        · exact ih _ _ _ h
  exact key _ i [] c

end

theorem eols1_never_fails (i : Str) (c : Ctx) : pMany1 pLineEnding i ≠ .failure c := by
  rcases eols_many1 i with ⟨r, l, h, _⟩ | ⟨h, _⟩ <;> rw [h] <;> exact fun h => by cases h

theorem failsList_queryParameter (cfg : ParseCfg) (level : Nat) : FailsList (pQueryParameter cfg level) :=
  ((failsList_tag _).count _).bind fun _ => (failsList_char _).bind fun _ =>
    FailsList.bind (FailsList.ws ((failsList_takeWhile1 _).bind fun _ => (failsList_returnError _ _).ws.bind fun _ =>
      (failsList_takeWhile1 _).bind fun _ => failsList_pure _)) fun _ =>
    (failsList_returnError _ _).bind fun _ => failsList_pure _

theorem failsList_routes (cfg : ParseCfg) (level : Nat) : FailsList (pRoutes cfg level) := by
  rw [routes_eq]
  exact (FailsList.many0 ((failsList_queryParameter cfg level).bind fun _ =>
    (failsList_of_never eols1_never_fails).bind fun _ => failsList_pure _)).bind fun _ =>
    (failsList_returnError _ _).bind fun _ => failsList_pure _

theorem routes_no_error (cfg : ParseCfg) (level : Nat) (i : Str) (c : Ctx) : pRoutes cfg level i ≠ .error c := by
  rw [routes_eq]
  intro h
  unfold pRoutesWith at h
  conv at h => lhs; unfold pBind
  cases he : pMany0 (pTerminated (pQueryParameter cfg level) (pMany1 pLineEnding)) i with
  | error d => exact many0_no_error _ _ _ he
  | failure d => rw [he] at h; cases h
  | ok r a =>
    rw [he] at h
    simp only at h
    conv at h => lhs; unfold pBind
    cases hr : pResourcesAndRoutes cfg (nestedRoutes cfg level) level r with
    | error d => exact returnError_no_error _ _ _ _ hr
    | failure d => rw [hr] at h; cases h
    | ok r a => rw [hr] at h; cases h

/-- A rejected file is either an error at one place, outside the route table, or a failure with a list of
places. -/
theorem routeConfig_shape (cfg : ParseCfg) (i : Str) :
    (∀ c, routeConfig cfg i = .error c → ∃ j k, c = .code j k ∧ (k = .char ∨ k = .many1 ∨ k = .eof)) ∧
    (∀ c, routeConfig cfg i = .failure c → ∃ v, c = .list v ∧ v ≠ []) := by
  have hhead : ∀ i c, pHeader i ≠ .failure c := by
    intro i c h
    rcases header_eq i with ⟨_, _, _, _, h4⟩ | ⟨_, _, h4⟩ <;> rw [h4] at h <;> cases h
  constructor
  · intro c h
    unfold routeConfig at h
    conv at h => lhs; unfold pBind
    cases h1 : pMany0 pHeader i with
    | error d => exact absurd h1 (many0_no_error _ _ _)
    | failure d => rw [h1] at h; cases h
    | ok r1 a1 =>
      rw [h1] at h; simp only at h
      conv at h => lhs; unfold pBind
      cases h2 : pMany0 pLineEnding r1 with
      | error d => exact absurd h2 (many0_no_error _ _ _)
      | failure d => rw [h2] at h; cases h
      | ok r2 a2 =>
        rw [h2] at h; simp only at h
        conv at h => lhs; unfold pBind
        cases h3 : pChar '/' r2 with
        | error d =>
          rw [h3] at h; cases h
          unfold pChar at h3
          split at h3
          · split at h3
            · cases h3
            · cases h3; exact ⟨_, _, rfl, .inl rfl⟩
          · cases h3; exact ⟨_, _, rfl, .inl rfl⟩
        | failure d => rw [h3] at h; cases h
        | ok r3 a3 =>
          rw [h3] at h; simp only at h
          conv at h => lhs; unfold pBind
          cases h4 : pMany1 pLineEnding r3 with
          | error d =>
            rw [h4] at h; cases h
            rcases eols_many1 r3 with ⟨r, l, h', _⟩ | ⟨h', _⟩
            · rw [h'] at h4; cases h4
            · rw [h'] at h4; cases h4; exact ⟨_, _, rfl, .inr (.inl rfl)⟩
          | failure d => rw [h4] at h; cases h
          | ok r4 a4 =>
            rw [h4] at h; simp only at h
            conv at h => lhs; unfold pBind
            cases h5 : pRoutes cfg 1 r4 with
            | error d => exact absurd h5 (routes_no_error cfg 1 _ _)
            | failure d => rw [h5] at h; cases h
            | ok r5 a5 =>
              rw [h5] at h; simp only at h
              conv at h => lhs; unfold pBind
              cases h6 : pEof r5 with
              | error d =>
                rw [h6] at h; cases h
                unfold pEof at h6
                split at h6
                · cases h6
                · cases h6; exact ⟨_, _, rfl, .inr (.inr rfl)⟩
              | failure d => rw [h6] at h; cases h
              | ok r6 a6 => rw [h6] at h; cases h
  · exact (failsList_of_never hhead).many0.bind (fun _ =>
      (failsList_of_never lineEnding_never_fails).many0.bind fun _ => (failsList_char _).bind fun _ =>
      (failsList_of_never eols1_never_fails).bind fun _ => (failsList_routes cfg 1).bind fun _ =>
      (failsList_of_never fun i c h => by unfold pEof at h; split at h <;> cases h).bind fun _ =>
      failsList_pure _) i

end Wayfinder
