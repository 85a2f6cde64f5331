import Verif.Model.Names
import Verif.Model.Core
import Verif.Proofs.Ascii
/-!
# C35 and C40: names and handlers
-/

namespace Wayfinder

/-! ## C35: `to_snake_case` -/

theorem snakeLoop_eq (s : Str) :
    snakeLoop s = s.flatMap fun c => if AsciiUpper c then ['_', c.toLower] else [c] := by
  induction s with
  | nil => rfl
  | cons c s ih =>
    simp only [snakeLoop, List.flatMap_cons, ih, isUpper_iff]
    split <;> simp

/-- **C35, snake case.** The result contains no ASCII upper-case letter. -/
theorem C35_snake (s : Str) : ∀ c ∈ toSnakeCase s, ¬ AsciiUpper c := by
  have key : ∀ s : Str, ∀ c ∈ snakeLoop s, ¬ AsciiUpper c := by
    intro s c hc
    rw [snakeLoop_eq, List.mem_flatMap] at hc
    obtain ⟨d, _, hd⟩ := hc
    split at hd
    · simp only [List.mem_cons, List.not_mem_nil, or_false] at hd
      rcases hd with rfl | rfl
      · decide
      · exact toLower_not_upper d
    · simp only [List.mem_singleton] at hd
      rwa [hd]
  cases s with
  | nil => simp [toSnakeCase]
  | cons c s => exact key _

/-- **C35, snake case.** A name is left unchanged exactly if it contains no ASCII upper-case letter; in
particular the conversion is idempotent. -/
theorem C35_snake_fixed (s : Str) : toSnakeCase s = s ↔ ∀ c ∈ s, ¬ AsciiUpper c := by
  constructor
  · intro h; rw [← h]; exact C35_snake s
  · intro h
    have key : ∀ s : Str, (∀ c ∈ s, ¬ AsciiUpper c) → snakeLoop s = s := by
      intro s hs
      induction s with
      | nil => rfl
      | cons c s ih =>
        have : c.isUpper = false := by
          rw [Bool.eq_false_iff, ne_eq, isUpper_iff]; exact hs c (by simp)
        simp [snakeLoop, this, ih fun d hd => hs d (by simp [hd])]
    cases s with
    | nil => rfl
    | cons c s =>
      simp only [toSnakeCase]
      rw [toLower_of_not (h c (by simp))]
      exact key _ h

theorem C35_snake_idempotent (s : Str) : toSnakeCase (toSnakeCase s) = toSnakeCase s :=
  (C35_snake_fixed _).2 (C35_snake s)

example : toSnakeCase c!"BlogPosts" = c!"blog_posts" ∧ toSnakeCase c!"HTTPApi" = c!"h_t_t_p_api" ∧
    toSnakeCase c!"Blog_Posts" = c!"blog__posts" := by decide

/-! ## C35: `to_caps_case` -/

/-- **C35, caps case.** The result does not start with an ASCII lower-case letter. -/
theorem C35_caps (s : Str) {c : Char} (h : (toCapsCase s).head? = some c) : ¬ AsciiLower c := by
  cases s with
  | nil => simp [toCapsCase] at h
  | cons d s =>
    simp only [toCapsCase] at h
    by_cases hd : d.toUpper = '_'
    · rw [hd] at h
      cases s with
      | nil => simp [capsLoop] at h
      | cons e s => simp only [capsLoop, List.head?_cons, Option.some.injEq] at h
                    rw [← h]; exact toUpper_not_lower e
    · have : capsLoop (d.toUpper :: s) = d.toUpper :: capsLoop s := by
        rw [capsLoop]
        · intro e; exact absurd e hd
        · intro c r e; exact absurd e hd
      rw [this] at h
      simp only [List.head?_cons, Option.some.injEq] at h
      rw [← h]; exact toUpper_not_lower d

theorem capsLoop_length : ∀ s : Str, (capsLoop s).length ≤ s.length ∧
    ((capsLoop s).length = s.length → '_' ∉ s)
  | [] => by simp [capsLoop]
  | [c] => by
    by_cases hc : c = '_'
    · subst hc; simp [capsLoop]
    · have : capsLoop [c] = [c] := by
        rw [capsLoop]
        · rfl
        · intro e; exact absurd e hc
        · intro c r e; exact absurd e hc
      simp [this, Ne.symm hc]
  | c :: d :: s => by
    by_cases hc : c = '_'
    · subst hc
      have := (capsLoop_length s).1
      simp only [capsLoop, List.length_cons]
      exact ⟨by omega, by omega⟩
    · have h1 : capsLoop (c :: d :: s) = c :: capsLoop (d :: s) := by
        rw [capsLoop]
        · intro e; exact absurd e hc
        · intro c r e; exact absurd e hc
      have := capsLoop_length (d :: s)
      rw [h1]
      simp only [List.length_cons] at this ⊢
      refine ⟨by omega, fun h => ?_⟩
      have := this.2 (by omega)
      simp only [List.mem_cons] at this ⊢
      rintro (h | h)
      · exact hc h.symm
      · exact this h

theorem capsLoop_plain : ∀ s : Str, '_' ∉ s → capsLoop s = s
  | [], _ => rfl
  | c :: s, h => by
    have hc : c ≠ '_' := fun e => h (by simp [e])
    rw [capsLoop, capsLoop_plain s fun hs => h (by simp [hs])]
    · intro e; exact absurd e hc
    · intro c r e; exact absurd e hc

/-- **C35, caps case.** A name is left unchanged exactly if it contains no underscore and does not start
with an ASCII lower-case letter. -/
theorem C35_caps_fixed (s : Str) : toCapsCase s = s ↔
    '_' ∉ s ∧ ∀ c, s.head? = some c → ¬ AsciiLower c := by
  cases s with
  | nil => simp [toCapsCase]
  | cons c s =>
    constructor
    · intro h
      refine ⟨?_, fun d hd => ?_⟩
      · have := (capsLoop_length (c.toUpper :: s)).2 (by
          simp only [toCapsCase] at h; rw [h]; simp)
        simp only [List.mem_cons, not_or] at this ⊢
        exact ⟨fun e => this.1 (toUpper_eq_underscore.2 e.symm).symm, this.2⟩
      · exact C35_caps (c :: s) (by rw [h]; exact hd)
    · rintro ⟨h1, h2⟩
      simp only [toCapsCase]
      rw [toUpper_of_not (h2 c rfl)]
      exact capsLoop_plain _ h1

/-- No two underscores in a row. -/
def NoDoubleUnderscore (s : Str) : Prop := ∀ a b, s ≠ a ++ '_' :: '_' :: b

theorem capsLoop_no_underscore : ∀ s : Str, NoDoubleUnderscore s → '_' ∉ capsLoop s
  | [], _ => by simp [capsLoop]
  | [c], _ => by
    by_cases hc : c = '_'
    · subst hc; simp [capsLoop]
    · rw [capsLoop_plain [c] (by simp [Ne.symm hc])]
      simp [Ne.symm hc]
  | c :: d :: s, h => by
    by_cases hc : c = '_'
    · subst hc
      have hd : d ≠ '_' := fun e => h [] s (by simp [e])
      have := capsLoop_no_underscore s fun a b e => h ('_' :: d :: a) b (by simp [e])
      simp only [capsLoop, List.mem_cons, not_or]
      exact ⟨fun e => hd (toUpper_eq_underscore.1 e.symm), this⟩
    · have h1 : capsLoop (c :: d :: s) = c :: capsLoop (d :: s) := by
        rw [capsLoop]
        · intro e; exact absurd e hc
        · intro c r e; exact absurd e hc
      have := capsLoop_no_underscore (d :: s) fun a b e => h (c :: a) b (by simp [e])
      rw [h1]
      simp only [List.mem_cons, not_or]
      exact ⟨Ne.symm hc, this⟩

/-- **C35, caps case (partial).** Converting twice is converting once for names without two underscores in
a row.  Missing: names with `__`, see `C35_caps_idempotent_false`. -/
theorem C35_caps_idempotent_partial {s : Str} (h : NoDoubleUnderscore s) :
    toCapsCase (toCapsCase s) = toCapsCase s := by
  refine (C35_caps_fixed _).2 ⟨?_, fun c hc => C35_caps s hc⟩
  cases s with
  | nil => simp [toCapsCase]
  | cons c s =>
    refine capsLoop_no_underscore _ fun a b e => ?_
    cases a with
    | nil =>
      simp only [List.nil_append, List.cons.injEq] at e
      exact h [] b (by rw [toUpper_eq_underscore.1 e.1, e.2]; rfl)
    | cons x a =>
      simp only [List.cons_append, List.cons.injEq] at e
      exact h (c :: a) b (by rw [e.2]; rfl)

theorem noDouble_of_capsLoop : ∀ s : Str, '_' ∉ capsLoop s → NoDoubleUnderscore s
  | [], _ => fun a b e => by cases a <;> simp at e
  | [c], _ => fun a b e => by
    have := congrArg List.length e
    simp at this
    omega
  | c :: d :: s, h => by
    by_cases hc : c = '_'
    · subst hc
      simp only [capsLoop, List.mem_cons, not_or] at h
      have hd : d ≠ '_' := fun e => h.1 (toUpper_eq_underscore.2 e).symm
      intro a b e
      match a, e with
      | [], e => simp at e; exact hd e.1
      | [x], e => simp at e; exact hd e.2.1
      | x :: y :: a, e =>
        simp at e
        exact noDouble_of_capsLoop s h.2 a b e.2.2
    · have h1 : capsLoop (c :: d :: s) = c :: capsLoop (d :: s) := by
        rw [capsLoop]
        · intro e; exact absurd e hc
        · intro c r e; exact absurd e hc
      rw [h1] at h
      simp only [List.mem_cons, not_or] at h
      intro a b e
      match a, e with
      | [], e => simp at e; exact hc e.1
      | x :: a, e =>
        simp at e
        exact noDouble_of_capsLoop (d :: s) h.2 a b e.2

/-- **C35, caps case, exact.** Converting twice is converting once exactly for names without two underscores
in a row. -/
theorem C35_caps_idempotent_exact (s : Str) : toCapsCase (toCapsCase s) = toCapsCase s ↔ NoDoubleUnderscore s := by
  refine ⟨fun h => ?_, C35_caps_idempotent_partial⟩
  have hu := ((C35_caps_fixed _).1 h).1
  cases s with
  | nil => intro a b e; cases a <;> simp at e
  | cons c s =>
    have := noDouble_of_capsLoop _ hu
    intro a b e
    cases a with
    | nil =>
      simp only [List.nil_append, List.cons.injEq] at e
      exact this [] b (by rw [toUpper_eq_underscore.2 e.1, e.2]; rfl)
    | cons x a =>
      simp only [List.cons_append, List.cons.injEq] at e
      exact this (c.toUpper :: a) b (by rw [e.2]; rfl)

/-- **C35 (refuted).** `show__all` becomes `Show_all`, which becomes `ShowAll`. -/
theorem C35_caps_idempotent_false : toCapsCase c!"show__all" = c!"Show_all" ∧
    toCapsCase (toCapsCase c!"show__all") ≠ toCapsCase c!"show__all" := by decide

example : NoDoubleUnderscore c!"show_all" ∧ toCapsCase c!"show_all" = c!"ShowAll" := by
  refine ⟨fun a b e => ?_, by decide⟩
  have h1 : ['_', '_'] <:+: c!"show_all" := ⟨a, b, by rw [e]; simp⟩
  revert h1; decide

/-! ## C35: identifiers -/

/-- ASCII letters, digits and the underscore. -/
def IdentChar (c : Char) : Prop := AsciiUpper c ∨ AsciiLower c ∨ (48 ≤ c.toNat ∧ c.toNat ≤ 57) ∨ c = '_'

/-- An ASCII Rust identifier (keywords included). -/
def Ident (s : Str) : Prop :=
  ∃ c rest, s = c :: rest ∧ (AsciiUpper c ∨ AsciiLower c ∨ c = '_') ∧ ∀ d ∈ rest, IdentChar d

instance (c : Char) : Decidable (IdentChar c) := inferInstanceAs (Decidable (_ ∨ _ ∨ _ ∨ _))

theorem IdentChar.toLower {c : Char} (h : IdentChar c) : IdentChar c.toLower := by
  by_cases hu : AsciiUpper c
  · right; left
    have := toNat_toLower c
    rw [if_pos hu] at this
    unfold AsciiLower AsciiUpper at *
    omega
  · rwa [toLower_of_not hu]

theorem IdentChar.toUpper {c : Char} (h : IdentChar c) : IdentChar c.toUpper := by
  by_cases hu : AsciiLower c
  · left
    have := toNat_toUpper c
    rw [if_pos hu] at this
    unfold AsciiLower AsciiUpper at *
    omega
  · rwa [toUpper_of_not hu]

theorem snakeLoop_chars {s : Str} (h : ∀ d ∈ s, IdentChar d) : ∀ d ∈ snakeLoop s, IdentChar d := by
  intro d hd
  rw [snakeLoop_eq, List.mem_flatMap] at hd
  obtain ⟨e, he, hd⟩ := hd
  split at hd
  · simp only [List.mem_cons, List.not_mem_nil, or_false] at hd
    rcases hd with rfl | rfl
    · exact .inr (.inr (.inr rfl))
    · exact (h e he).toLower
  · simp only [List.mem_singleton] at hd
    rw [hd]; exact h e he

theorem capsLoop_chars : ∀ {s : Str}, (∀ d ∈ s, IdentChar d) → ∀ d ∈ capsLoop s, IdentChar d
  | [], _ => by simp [capsLoop]
  | [c], h => by
    by_cases hc : c = '_'
    · subst hc; simp [capsLoop]
    · rw [capsLoop_plain [c] (by simp [Ne.symm hc])]; exact h
  | c :: d :: s, h => by
    by_cases hc : c = '_'
    · subst hc
      have := capsLoop_chars (s := s) fun e he => h e (by simp [he])
      intro e he
      simp only [capsLoop, List.mem_cons] at he
      rcases he with rfl | he
      · exact (h d (by simp)).toUpper
      · exact this e he
    · have h1 : capsLoop (c :: d :: s) = c :: capsLoop (d :: s) := by
        rw [capsLoop]
        · intro e; exact absurd e hc
        · intro c r e; exact absurd e hc
      have := capsLoop_chars (s := d :: s) fun e he => h e (List.mem_cons_of_mem _ he)
      rw [h1]
      intro e he
      rcases List.mem_cons.1 he with rfl | he
      · exact h _ (by simp)
      · exact this e he

/-- **C35, identifiers.** The snake case of an identifier is an identifier. -/
theorem C35_snake_ident {s : Str} (h : Ident s) : Ident (toSnakeCase s) := by
  obtain ⟨c, rest, rfl, hc, hr⟩ := h
  have hcl : ¬ c.toLower.isUpper = true := by rw [isUpper_iff]; exact toLower_not_upper c
  refine ⟨c.toLower, snakeLoop rest, by simp [toSnakeCase, snakeLoop, hcl], ?_, snakeLoop_chars hr⟩
  by_cases hu : AsciiUpper c
  · right; left
    have := toNat_toLower c
    rw [if_pos hu] at this
    unfold AsciiLower AsciiUpper at *
    omega
  · rw [toLower_of_not hu]; exact hc

/-- **C35, identifiers (partial).** The caps case of an identifier that begins with a letter is an
identifier that begins with a capital.  Missing: names that begin with an underscore, see
`C35_caps_ident_false`. -/
theorem C35_caps_ident_partial {s : Str} (h : Ident s) (hl : ∀ c, s.head? = some c → c ≠ '_') :
    Ident (toCapsCase s) ∧ ∃ c, (toCapsCase s).head? = some c ∧ AsciiUpper c := by
  obtain ⟨c, rest, rfl, hc, hr⟩ := h
  have hne : c ≠ '_' := hl c rfl
  have hu : AsciiUpper c.toUpper := by
    by_cases hlow : AsciiLower c
    · have := toNat_toUpper c
      rw [if_pos hlow] at this
      unfold AsciiLower AsciiUpper at *
      omega
    · rw [toUpper_of_not hlow]
      rcases hc with h | h | h
      · exact h
      · exact absurd h hlow
      · exact absurd h hne
  have hcu : c.toUpper ≠ '_' := fun e => hne (toUpper_eq_underscore.1 e)
  have h1 : toCapsCase (c :: rest) = c.toUpper :: capsLoop rest := by
    simp only [toCapsCase]
    rw [capsLoop]
    · intro e; exact absurd e hcu
    · intro c r e; exact absurd e hcu
  rw [h1]
  exact ⟨⟨_, _, rfl, .inl hu, capsLoop_chars hr⟩, _, rfl, hu⟩

/-- **C35, identifiers, exact.** The caps case of an identifier is an identifier exactly if it is not the single
underscore and has no digit after an underscore at the start. -/
theorem C35_caps_ident_exact {s : Str} (h : Ident s) : Ident (toCapsCase s) ↔
    s ≠ c!"_" ∧ ∀ c rest, s = '_' :: c :: rest → ¬ (48 ≤ c.toNat ∧ c.toNat ≤ 57) := by
  obtain ⟨c, rest, rfl, hc, hr⟩ := h
  by_cases hu : c = '_'
  · subst hu
    cases rest with
    | nil =>
      have : toCapsCase c!"_" = [] := by decide
      rw [this]
      constructor
      · rintro ⟨_, _, e, _⟩; cases e
      · intro h; exact absurd rfl h.1
    | cons d rest =>
      have h1 : toCapsCase ('_' :: d :: rest) = d.toUpper :: capsLoop rest := by
        simp only [toCapsCase, show ('_' : Char).toUpper = '_' by decide, capsLoop]
      rw [h1]
      have hd := hr d (by simp)
      constructor
      · rintro ⟨x, xs, e, hx, -⟩
        cases e
        refine ⟨by simp, ?_⟩
        rintro c' rest' e hn
        simp only [List.cons.injEq, true_and] at e
        obtain ⟨rfl, rfl⟩ := e
        have hnl : ¬ AsciiLower d := by unfold AsciiLower; omega
        rw [toUpper_of_not hnl] at hx
        rcases hx with h | h | h
        · unfold AsciiUpper at h; omega
        · exact hnl h
        · subst h; revert hn; decide
      · rintro ⟨-, hn⟩
        refine ⟨_, _, rfl, ?_, capsLoop_chars fun e he => hr e (by simp [he])⟩
        have hn := hn d rest rfl
        by_cases hl : AsciiLower d
        · left
          have := toNat_toUpper d
          rw [if_pos hl] at this
          unfold AsciiLower AsciiUpper at *
          omega
        · rw [toUpper_of_not hl]
          rcases hd with h | h | h | h
          · exact .inl h
          · exact .inr (.inl h)
          · exact absurd h hn
          · exact .inr (.inr h)
  · refine ⟨fun _ => ⟨fun e => hu (by cases e; rfl), fun c' rest' e => ?_⟩, fun _ =>
      (C35_caps_ident_partial ⟨c, rest, rfl, hc, hr⟩ fun x hx => by simp at hx; rw [← hx]; exact hu).1⟩
    simp only [List.cons.injEq] at e
    exact absurd e.1 hu

example : Ident (toCapsCase c!"_hidden_404") ∧ toCapsCase c!"_hidden_404" = c!"Hidden404" := by
  refine ⟨(C35_caps_ident_exact ⟨_, _, rfl, by decide, by decide⟩).2 ⟨by decide, fun c rest e => ?_⟩, by decide⟩
  cases e
  decide

/-- **C35 (refuted).** The identifiers `_404` and `_` become `404` and the empty name, and two names can
collide. -/
theorem C35_caps_ident_false : Ident c!"_404" ∧ ¬ Ident (toCapsCase c!"_404") ∧
    Ident c!"_" ∧ ¬ Ident (toCapsCase c!"_") ∧
    toCapsCase c!"show_all" = toCapsCase c!"ShowAll" ∧ toSnakeCase c!"BlogPosts" = toSnakeCase c!"blogPosts" := by
  refine ⟨⟨_, _, rfl, by decide, by decide⟩, ?_, ⟨_, _, rfl, by decide, by decide⟩, ?_, by decide, by decide⟩
  · rintro ⟨c, rest, h, hc, _⟩
    have h2 : toCapsCase c!"_404" = c!"404" := by decide
    rw [h2] at h
    simp only [List.cons.injEq] at h
    rw [← h.1] at hc
    revert hc; decide
  · rintro ⟨c, rest, h, hc, _⟩
    have h2 : toCapsCase c!"_" = [] := by decide
    rw [h2] at h
    cases h

example : Ident c!"blogPosts" ∧ toSnakeCase c!"blogPosts" = c!"blog_posts" ∧
    toCapsCase c!"blogPosts" = c!"BlogPosts" :=
  ⟨⟨_, _, rfl, by decide, by decide⟩, by decide, by decide⟩

/-! ## C40 -/

/-- **C40.** `Resource::make` panics exactly on an empty handler; otherwise the handler is the module path
followed by the name, and the other arguments are stored as given. -/
theorem C40_make (method : Method) (handler : List Str) (isRedirect : Bool) (qs : List Param) :
    (Resource.make method handler isRedirect qs = none ↔ handler = []) ∧
    ∀ r, Resource.make method handler isRedirect qs = some r ↔
      (handler = r.modules ++ [r.name] ∧ r.method = method ∧ r.isRedirect = isRedirect ∧
        r.queryParameters = qs) := by
  rcases List.eq_nil_or_concat handler with rfl | ⟨ms, n, rfl⟩
  · simp [Resource.make]
  · have hg : (ms ++ [n])[(ms ++ [n]).length - 1]? = some n := by simp
    have he : (ms ++ [n]).eraseIdx ((ms ++ [n]).length - 1) = ms := by
      simp [List.eraseIdx_append_of_length_le]
    have hm : Resource.make method (ms ++ [n]) isRedirect qs =
        some ⟨method, ms, n, isRedirect, qs⟩ := by
      simp only [Resource.make, vecRemove, hg, he]
      rw [if_neg (by simp)]
    rw [List.concat_eq_append, hm]
    refine ⟨by simp, fun r => ?_⟩
    obtain ⟨a, b, c, d, e⟩ := r
    simp only [Option.some.injEq, Resource.mk.injEq]
    constructor
    · rintro ⟨rfl, rfl, rfl, rfl, rfl⟩; simp
    · rintro ⟨h, rfl, rfl, rfl⟩
      obtain ⟨h1, h2⟩ := List.append_inj' h rfl
      simp only [List.cons.injEq, and_true] at h2
      exact ⟨rfl, h1, h2, rfl, rfl⟩

example : Resource.make .get [c!"admin", c!"people", c!"Show"] true [⟨c!"tab", c!"String"⟩] =
    some ⟨.get, [c!"admin", c!"people"], c!"Show", true, [⟨c!"tab", c!"String"⟩]⟩ := by decide

end Wayfinder
