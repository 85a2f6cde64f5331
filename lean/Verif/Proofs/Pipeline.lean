import Verif.Proofs.Accept
import Verif.Props.File
import Verif.Props.Names
import Verif.Spec.Follow
import Verif.Spec.Path
/-!
# What is known about the words of a configuration that was read from a file
-/

namespace Wayfinder
open Rust

theorem capsLoop_all {P : Char → Prop} (hu : ∀ c, P c → P c.toUpper) (s : Str) (h : ∀ c ∈ s, P c) :
    ∀ c ∈ capsLoop s, P c := by
  induction s using capsLoop.induct with
  | case1 => simp [capsLoop]
  | case2 => simp [capsLoop]
  | case3 c rest ih =>
    intro d hd
    simp only [capsLoop, List.mem_cons] at hd
    rcases hd with rfl | hd
    · exact hu _ (h c (by simp))
    · exact ih (fun e he => h e (by simp [he])) d hd
  | case4 c rest h1 h2 ih =>
    intro d hd
    rw [capsLoop.eq_4 _ _ h1 h2, List.mem_cons] at hd
    rcases hd with rfl | hd
    · exact h _ (by simp)
    · exact ih (fun e he => h e (by simp [he])) d hd

theorem toCapsCase_all {P : Char → Prop} (hu : ∀ c, P c → P c.toUpper) {s : Str} (h : ∀ c ∈ s, P c) :
    ∀ c ∈ toCapsCase s, P c := by
  cases s with
  | nil => simp [toCapsCase]
  | cons c s =>
    refine capsLoop_all hu _ fun d hd => ?_
    rcases List.mem_cons.1 hd with rfl | hd
    · exact hu _ (h c (by simp))
    · exact h d (by simp [hd])

theorem snakeLoop_all {P : Char → Prop} (hl : ∀ c, P c → P c.toLower) (h_ : P '_') {s : Str} (h : ∀ c ∈ s, P c) :
    ∀ c ∈ snakeLoop s, P c := by
  intro d hd
  rw [snakeLoop_eq, List.mem_flatMap] at hd
  obtain ⟨e, he, hd⟩ := hd
  split at hd
  · simp only [List.mem_cons, List.not_mem_nil, or_false] at hd
    rcases hd with rfl | rfl
    · exact h_
    · exact hl _ (h e he)
  · simp only [List.mem_singleton] at hd
    rw [hd]; exact h e he

theorem toSnakeCase_all {P : Char → Prop} (hl : ∀ c, P c → P c.toLower) (h_ : P '_') {s : Str} (h : ∀ c ∈ s, P c) :
    ∀ c ∈ toSnakeCase s, P c := by
  cases s with
  | nil => simp [toSnakeCase]
  | cons c s =>
    refine snakeLoop_all hl h_ fun d hd => ?_
    rcases List.mem_cons.1 hd with rfl | hd
    · exact hl _ (h c (by simp))
    · exact h d (by simp [hd])

theorem isWordChar_iff (c : Char) : isWordChar c = true ↔ IdentChar c ∨ 128 ≤ c.toNat := by
  have hd : c.isDigit = true ↔ 48 ≤ c.toNat ∧ c.toNat ≤ 57 := by
    simp only [Char.isDigit, Bool.and_eq_true, decide_eq_true_eq, Char.toNat, ge_iff_le, UInt32.le_iff_toNat_le]
    exact Iff.rfl
  have hl : c.isLower = true ↔ AsciiLower c := by
    simp only [Char.isLower, Bool.and_eq_true, decide_eq_true_eq, AsciiLower, Char.toNat, ge_iff_le, UInt32.le_iff_toNat_le]
    exact Iff.rfl
  simp only [isWordChar, IdentChar, Char.isAlphanum, Char.isAlpha, Bool.or_eq_true, decide_eq_true_eq, beq_iff_eq, hd, hl,
    isUpper_iff]
  tauto

theorem isWordChar_toUpper (c : Char) (h : isWordChar c = true) : isWordChar c.toUpper = true := by
  rw [isWordChar_iff] at *
  rcases h with h | h
  · exact .inl h.toUpper
  · rw [toUpper_of_not (by unfold AsciiLower; omega)]; exact .inr h

theorem isWordChar_toLower (c : Char) (h : isWordChar c = true) : isWordChar c.toLower = true := by
  rw [isWordChar_iff] at *
  rcases h with h | h
  · exact .inl h.toLower
  · rw [toLower_of_not (by unfold AsciiUpper; omega)]; exact .inr h

variable {cfg : ParseCfg}

theorem WordChar.isWordChar {c : Char} (h : WordChar cfg c) : isWordChar c = true := by
  rw [isWordChar_iff]
  rcases h with h | h | h | h | h
  · exact .inl (.inr (.inr (.inr h)))
  · exact .inl (.inr (.inl h))
  · exact .inl (.inl h)
  · exact .inl (.inr (.inr (.inl h)))
  · exact .inr h.1

theorem Word.chars {s : Str} (h : Word cfg s) : ∀ c ∈ s, Rust.isWordChar c = true := fun c hc => (h.2 c hc).isWordChar

/-- A word that passes as a name is a name. -/
theorem Word.name {s : Str} (h : Word cfg s) (hn : isName s = true) : Name s := ⟨h.chars, hn⟩
theorem Word.snake {s : Str} (h : Word cfg s) (hn : isName (toSnakeCase s) = true) : Name (toSnakeCase s) :=
  ⟨toSnakeCase_all isWordChar_toLower (by decide) h.chars, hn⟩
theorem Word.caps {s : Str} (h : Word cfg s) (hn : isName (toCapsCase s) = true) : Name (toCapsCase s) :=
  ⟨toCapsCase_all isWordChar_toUpper h.chars, hn⟩

/-- The words that become names are names in Rust: they are not numbers or keywords, and have no
characters beyond ASCII. -/
structure RustNames (r : Routes) : Prop where
  /-- parameters of routes -/
  segs : ∀ {segs query node}, HasRoute r segs query node → ∀ p, .dynamic p ∈ segs → isName p.name = true ∧ isName p.typ = true
  /-- query parameters of blocks -/
  query : ∀ {segs query node}, HasRoute r segs query node → ∀ p ∈ node.queryParameters,
    isName p.name = true ∧ isName p.typ = true
  /-- resources -/
  resources : ∀ {segs query node}, HasRoute r segs query node → ∀ x ∈ node.resources,
    (∀ m ∈ x.modules, isName (toSnakeCase m) = true ∧ isName (toCapsCase m) = true) ∧
    isName (toCapsCase x.name) = true ∧
    ∀ p ∈ x.queryParameters, isName p.name = true ∧ isName p.typ = true

/-- The characters of words are none of these. -/
theorem isWordChar_ne {c d : Char} (h : isWordChar c = true) (hd : isWordChar d = false) : c ≠ d := by
  rintro rfl; rw [h] at hd; cases hd

theorem isWordChar_text {c : Char} (h : isWordChar c = true) : textChar c = true ∧ c ≠ '\n' := by
  refine ⟨?_, isWordChar_ne h (by decide)⟩
  have a1 := isWordChar_ne h (d := '"') (by decide)
  have a2 := isWordChar_ne h (d := '\\') (by decide)
  have a3 := isWordChar_ne h (d := '\r') (by decide)
  simp [textChar, a1, a2, a3]

/-- For a configuration that was read from a file the other conditions on words hold. -/
theorem Routes.Written.words {r : Routes} (h : r.Written cfg) (hn : RustNames r) : Words r where
  segs hr s hs := by
    have h1 := (h _ _ _ hr).1 s hs
    cases s with
    | static s => exact fun c hc => isWordChar_text (h1.chars c hc)
    | dynamic p => exact h1.1.name (hn.segs hr p hs).1
  types hr p hp := (((h _ _ _ hr).1 _ hp).2).name (hn.segs hr _ hp).2
  query hr p hp :=
    have h1 := (h _ _ _ hr).2.2.2 p hp
    have h2 := hn.query hr p hp
    ⟨h1.1.name h2.1, h1.2.name h2.2⟩
  resources hr x hx :=
    have h1 := (h _ _ _ hr).2.2.1 x hx
    have h2 := hn.resources hr x hx
    ⟨fun m hm => ⟨(h1.2.1 m hm).snake (h2.1 m hm).1, .inl ((h1.2.1 m hm).caps (h2.1 m hm).2)⟩, .inl (h1.1.caps h2.2.1),
      fun p hp => ⟨(h1.2.2 p hp).1.name (h2.2.2 p hp).1, (h1.2.2 p hp).2.name (h2.2.2 p hp).2⟩⟩

theorem Word.notMem {s : Str} (h : Word cfg s) {d : Char} (hd : isWordChar d = false) : d ∉ s :=
  fun hm => isWordChar_ne (h.chars d hm) hd rfl

theorem Routes.Written.noBraces {r : Routes} (h : r.Written cfg) : NoBraces r := fun _ _ _ hr s hs =>
  have hw : Word cfg s := (h _ _ _ hr).1 _ hs
  ⟨hw.notMem (by decide), hw.notMem (by decide), hw.notMem (by decide), hw.notMem (by decide)⟩

theorem Routes.Written.plain {r : Routes} (h : r.Written cfg) : PlainTexts r := fun _ _ _ hr s hs =>
  have hw : Word cfg s := (h _ _ _ hr).1 _ hs
  ⟨hw.1, hw.notMem (by decide)⟩

end Wayfinder
