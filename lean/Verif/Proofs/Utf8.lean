import Verif.Model.Rust
import Verif.Spec.Router
/-!
# UTF-8
-/

namespace Wayfinder

/-- The UTF-8 encoding of a text. -/
def utf8 (s : Str) : Bytes := s.flatMap String.utf8EncodeChar

@[simp] theorem utf8_nil : utf8 [] = [] := rfl
@[simp] theorem utf8_cons (c : Char) (s : Str) : utf8 (c :: s) = String.utf8EncodeChar c ++ utf8 s := by
  simp [utf8]
theorem utf8_append (a b : Str) : utf8 (a ++ b) = utf8 a ++ utf8 b := by simp [utf8]

theorem toByteArray_eq (bs : Bytes) : (⟨bs.toArray⟩ : ByteArray) = bs.toByteArray := by
  apply ByteArray.ext; simp

theorem utf8_encode (s : Str) : (⟨(utf8 s).toArray⟩ : ByteArray) = s.utf8Encode := by
  rw [toByteArray_eq]
  simp [utf8, List.utf8Encode]

theorem fromUtf8_utf8 (s : Str) : fromUtf8 (utf8 s) = some s := by
  simp only [fromUtf8, utf8_encode, List.utf8Decode?_utf8Encode, Option.map_some]

theorem utf8_of_fromUtf8 {bs : Bytes} {s : Str} (h : fromUtf8 bs = some s) : bs = utf8 s := by
  simp only [fromUtf8] at h
  cases hd : ByteArray.utf8Decode? ⟨bs.toArray⟩ with
  | none => simp [hd] at h
  | some a =>
    simp only [hd, Option.map_some, Option.some.injEq] at h
    have hs : (ByteArray.utf8Decode? ⟨bs.toArray⟩).isSome := by simp [hd]
    have h1 := ByteArray.utf8Encode_get_utf8Decode? (h := hs)
    have h2 : (ByteArray.utf8Decode? ⟨bs.toArray⟩).get hs = a := by
      simp [hd]
    rw [h2, h, ← utf8_encode] at h1
    have := congrArg ByteArray.data h1
    have := congrArg Array.toList this
    simpa using this.symm

/-- Decoding succeeds exactly on encodings of texts. -/
theorem fromUtf8_eq_some {bs : Bytes} {s : Str} : fromUtf8 bs = some s ↔ bs = utf8 s :=
  ⟨utf8_of_fromUtf8, fun h => by rw [h, fromUtf8_utf8]⟩

theorem utf8_inj {a b : Str} (h : utf8 a = utf8 b) : a = b := by
  have := fromUtf8_utf8 a
  rw [h, fromUtf8_utf8] at this
  exact (Option.some.inj this).symm

theorem encode_inj {c d : Char} {x y : Bytes}
    (h : String.utf8EncodeChar c ++ x = String.utf8EncodeChar d ++ y) : c = d := by
  have h1 := ByteArray.utf8DecodeChar?_utf8EncodeChar_append (b := x.toByteArray) (c := c)
  have h2 := ByteArray.utf8DecodeChar?_utf8EncodeChar_append (b := y.toByteArray) (c := d)
  rw [← List.toByteArray_append] at h1 h2
  rw [h, h2] at h1
  exact (Option.some.inj h1).symm

/-- A one-byte character. -/
theorem encode_ascii {c : Char} (h : c.toNat < 128) : String.utf8EncodeChar c = [asciiByte c] := by
  have hle : c.val ≤ 0x7f := by
    have : c.val.toNat < 128 := h
    exact UInt32.le_iff_toNat_le.2 (by simpa using Nat.le_of_lt_succ this)
  rw [String.utf8EncodeChar_eq_singleton (by simp [Char.utf8Size, hle])]
  simp only [asciiByte]
  rfl

theorem utf8_ascii {s : Str} (h : ∀ c ∈ s, c.toNat < 128) : utf8 s = bytesOf s := by
  induction s with
  | nil => rfl
  | cons c s ih =>
    rw [utf8_cons, encode_ascii (h c (by simp)), ih fun d hd => h d (by simp [hd])]
    simp [bytesOf]

/-- A one-byte character in an encoding is a character of the text. -/
theorem utf8_split {d : Char} (hd : d.toNat < 128) : ∀ {s : Str} {a b : Bytes},
    utf8 s = a ++ asciiByte d :: b → ∃ s1 s2, s = s1 ++ d :: s2 ∧ a = utf8 s1 ∧ b = utf8 s2
  | [], a, b, h => by simp at h
  | c :: s, a, b, h => by
    rw [utf8_cons] at h
    rw [List.append_eq_append_iff] at h
    rcases h with ⟨x, h1, h2⟩ | ⟨x, h1, h2⟩
    · obtain ⟨s1, s2, h3, h4, h5⟩ := utf8_split hd h2
      exact ⟨c :: s1, s2, by simp [h3], by simp [h1, h4], h5⟩
    · cases x with
      | nil =>
        simp only [List.nil_append] at h2
        obtain ⟨s1, s2, h3, h4, h5⟩ := utf8_split (a := []) hd h2.symm
        refine ⟨c :: s1, s2, by simp [h3], ?_, h5⟩
        simp only [List.append_nil] at h1
        rw [utf8_cons, h1, ← h4]; simp
      | cons y x =>
        simp only [List.cons_append, List.cons.injEq] at h2
        obtain ⟨rfl, rfl⟩ := h2
        have hget : (String.utf8EncodeChar c)[a.length]'(by rw [h1]; simp) = asciiByte d := by
          simp [h1]
        have hfirst : (asciiByte d).IsUTF8FirstByte := by
          rw [← encode_ascii hd |> fun h => (by simp [h] : (String.utf8EncodeChar d)[0]'(by simp [h]) = asciiByte d)]
          exact UInt8.isUTF8FirstByte_getElem_zero_utf8EncodeChar
        rw [← hget, UInt8.isUTF8FirstByte_getElem_utf8EncodeChar] at hfirst
        have ha : a = [] := List.length_eq_zero_iff.1 hfirst
        subst ha
        simp only [List.nil_append] at h1
        have hcd : c = d := encode_inj (x := []) (y := x) (by rw [h1, encode_ascii hd]; simp)
        subst hcd
        rw [encode_ascii hd] at h1
        simp only [List.cons.injEq, true_and] at h1
        subst h1
        exact ⟨[], s, by simp, by simp, by simp⟩

end Wayfinder
