import Verif.Model.Basic
/-!
# ASCII case conversion by code point
-/

namespace Wayfinder

/-- An ASCII upper-case letter. -/
def AsciiUpper (c : Char) : Prop := 65 ≤ c.toNat ∧ c.toNat ≤ 90
/-- An ASCII lower-case letter. -/
def AsciiLower (c : Char) : Prop := 97 ≤ c.toNat ∧ c.toNat ≤ 122

instance (c : Char) : Decidable (AsciiUpper c) := inferInstanceAs (Decidable (_ ∧ _))
instance (c : Char) : Decidable (AsciiLower c) := inferInstanceAs (Decidable (_ ∧ _))

theorem isUpper_iff (c : Char) : c.isUpper = true ↔ AsciiUpper c := by
  unfold Char.isUpper
  rw [decide_eq_true_iff]
  rfl

theorem toNat_toLower (c : Char) : c.toLower.toNat = if AsciiUpper c then c.toNat + 32 else c.toNat := by
  unfold Char.toLower
  by_cases h : c.val ≥ 'A'.val ∧ c.val ≤ 'Z'.val
  · rw [dif_pos h, if_pos (show AsciiUpper c from h)]
    have h2 : c.toNat ≤ 90 := h.2
    change (c.val + ('a'.val - 'A'.val)).toNat = c.val.toNat + 32
    rw [UInt32.toNat_add, show ('a'.val - 'A'.val).toNat = 32 from by decide]
    change c.val.toNat ≤ 90 at h2
    omega
  · rw [dif_neg h, if_neg (show ¬ AsciiUpper c from h)]

theorem toNat_toUpper (c : Char) : c.toUpper.toNat = if AsciiLower c then c.toNat - 32 else c.toNat := by
  unfold Char.toUpper
  by_cases h : 'a'.val ≤ c.val ∧ c.val ≤ 'z'.val
  · rw [dif_pos h, if_pos (show AsciiLower c from h)]
    have h2 : c.toNat ≤ 122 := h.2
    have h1 : 97 ≤ c.toNat := h.1
    change (c.val + ('A'.val - 'a'.val)).toNat = c.val.toNat - 32
    rw [UInt32.toNat_add, show ('A'.val - 'a'.val).toNat = 4294967264 from by decide]
    change c.val.toNat ≤ 122 at h2
    change 97 ≤ c.val.toNat at h1
    omega
  · rw [dif_neg h, if_neg (show ¬ AsciiLower c from h)]

theorem toLower_of_not {c : Char} (h : ¬ AsciiUpper c) : c.toLower = c :=
  Char.toNat_inj.1 (by rw [toNat_toLower, if_neg h])

theorem toUpper_of_not {c : Char} (h : ¬ AsciiLower c) : c.toUpper = c :=
  Char.toNat_inj.1 (by rw [toNat_toUpper, if_neg h])

theorem toLower_not_upper (c : Char) : ¬ AsciiUpper c.toLower := by
  have := toNat_toLower c
  split at this <;> (unfold AsciiUpper at *; omega)

theorem toUpper_not_lower (c : Char) : ¬ AsciiLower c.toUpper := by
  have := toNat_toUpper c
  split at this <;> (unfold AsciiLower at *; omega)

theorem toUpper_eq_underscore {c : Char} : c.toUpper = '_' ↔ c = '_' := by
  have := toNat_toUpper c
  constructor
  · intro h
    rw [h] at this
    change 95 = _ at this
    apply Char.toNat_inj.1
    change _ = 95
    split at this <;> (unfold AsciiLower at *; omega)
  · rintro rfl; decide

end Wayfinder
