/-! # ASCII case lemmas for `Char`, in terms of code points -/

namespace Verif.Chars

theorem toNat_inj {c d : Char} : c = d ↔ c.toNat = d.toNat := by
  constructor
  · intro h; rw [h]
  · intro h; exact Char.ext (UInt32.toNat_inj.1 h)

theorem toNat_lower (c : Char) :
    c.toLower.toNat = if 65 ≤ c.toNat ∧ c.toNat ≤ 90 then c.toNat + 32 else c.toNat := by
  unfold Char.toLower
  split
  · rename_i h
    have h1 : 65 ≤ c.toNat := UInt32.le_iff_toNat_le.1 h.1
    have h2 : c.toNat ≤ 90 := UInt32.le_iff_toNat_le.1 h.2
    rw [if_pos ⟨h1, h2⟩]
    show (c.val + 32).toNat = _
    rw [UInt32.toNat_add]
    show (c.toNat + 32) % 2 ^ 32 = _
    omega
  · rename_i h
    rw [if_neg]
    intro ⟨h1, h2⟩
    exact h ⟨UInt32.le_iff_toNat_le.2 h1, UInt32.le_iff_toNat_le.2 h2⟩

theorem toNat_upper (c : Char) :
    c.toUpper.toNat = if 97 ≤ c.toNat ∧ c.toNat ≤ 122 then c.toNat - 32 else c.toNat := by
  unfold Char.toUpper
  split
  · rename_i h
    have h1 : 97 ≤ c.toNat := UInt32.le_iff_toNat_le.1 h.1
    have h2 : c.toNat ≤ 122 := UInt32.le_iff_toNat_le.1 h.2
    rw [if_pos ⟨h1, h2⟩]
    show (c.val + (65 - 97)).toNat = _
    rw [UInt32.toNat_add]
    show (c.toNat + 4294967264) % 2 ^ 32 = _
    omega
  · rename_i h
    rw [if_neg]
    intro ⟨h1, h2⟩
    exact h ⟨UInt32.le_iff_toNat_le.2 h1, UInt32.le_iff_toNat_le.2 h2⟩

theorem isUpper_iff (c : Char) : c.isUpper = true ↔ 65 ≤ c.toNat ∧ c.toNat ≤ 90 := by
  unfold Char.isUpper
  rw [decide_eq_true_eq]
  exact and_congr UInt32.le_iff_toNat_le UInt32.le_iff_toNat_le

theorem isLower_iff (c : Char) : c.isLower = true ↔ 97 ≤ c.toNat ∧ c.toNat ≤ 122 := by
  unfold Char.isLower
  rw [Bool.and_eq_true, decide_eq_true_eq, decide_eq_true_eq]
  exact and_congr UInt32.le_iff_toNat_le UInt32.le_iff_toNat_le

theorem isDigit_iff (c : Char) : c.isDigit = true ↔ 48 ≤ c.toNat ∧ c.toNat ≤ 57 := by
  unfold Char.isDigit
  rw [Bool.and_eq_true, decide_eq_true_eq, decide_eq_true_eq]
  exact and_congr UInt32.le_iff_toNat_le UInt32.le_iff_toNat_le

theorem not_isUpper_iff (c : Char) : c.isUpper = false ↔ ¬(65 ≤ c.toNat ∧ c.toNat ≤ 90) := by
  rw [← isUpper_iff]; simp

theorem not_isLower_iff (c : Char) : c.isLower = false ↔ ¬(97 ≤ c.toNat ∧ c.toNat ≤ 122) := by
  rw [← isLower_iff]; simp

theorem utf8Size_one_iff (c : Char) : c.utf8Size = 1 ↔ c.toNat < 128 := by
  have hm : c.toNat < 1114112 := by
    have := c.valid; unfold UInt32.isValidChar Nat.isValidChar at this
    show c.val.toNat < _; omega
  unfold Char.utf8Size
  have e : ∀ k : UInt32, c.val ≤ k ↔ c.toNat ≤ k.toNat := fun k => UInt32.le_iff_toNat_le
  simp only [e]
  show (if c.toNat ≤ 127 then 1 else if c.toNat ≤ 2047 then 2 else if c.toNat ≤ 65535 then 3 else 4) = 1 ↔ _
  split
  · simp; omega
  · split
    · simp; omega
    · split <;> simp <;> omega

theorem lower_eq_underscore {c : Char} : c.toLower = '_' ↔ c = '_' := by
  rw [toNat_inj, toNat_inj, toNat_lower]
  show _ = 95 ↔ _ = 95
  split <;> omega

theorem upper_eq_underscore {c : Char} : c.toUpper = '_' ↔ c = '_' := by
  rw [toNat_inj, toNat_inj, toNat_upper]
  show _ = 95 ↔ _ = 95
  split <;> omega

theorem lower_eq_dash {c : Char} : c.toLower = '-' ↔ c = '-' := by
  rw [toNat_inj, toNat_inj, toNat_lower]
  show _ = 45 ↔ _ = 45
  split <;> omega

theorem upper_eq_dash {c : Char} : c.toUpper = '-' ↔ c = '-' := by
  rw [toNat_inj, toNat_inj, toNat_upper]
  show _ = 45 ↔ _ = 45
  split <;> omega

/-- On characters that are not ASCII upper case, `toUpper` is injective. -/
theorem upper_inj {c d : Char} (hc : c.isUpper = false) (hd : d.isUpper = false)
    (h : c.toUpper = d.toUpper) : c = d := by
  rw [not_isUpper_iff] at hc hd
  rw [toNat_inj, toNat_upper, toNat_upper] at h
  rw [toNat_inj]
  split at h <;> split at h <;> omega

/-- On characters that are not ASCII lower case, `toLower` is injective. -/
theorem lower_inj {c d : Char} (hc : c.isLower = false) (hd : d.isLower = false)
    (h : c.toLower = d.toLower) : c = d := by
  rw [not_isLower_iff] at hc hd
  rw [toNat_inj, toNat_lower, toNat_lower] at h
  rw [toNat_inj]
  split at h <;> split at h <;> omega

theorem lower_of_not_upper {c : Char} (h : c.isUpper = false) : c.toLower = c := by
  rw [not_isUpper_iff] at h
  rw [toNat_inj, toNat_lower, if_neg h]

theorem upper_of_not_lower {c : Char} (h : c.isLower = false) : c.toUpper = c := by
  rw [not_isLower_iff] at h
  rw [toNat_inj, toNat_upper, if_neg h]

theorem upper_lower (c : Char) : c.toLower.toUpper = c.toUpper := by
  rw [toNat_inj, toNat_upper, toNat_lower, toNat_upper]
  split <;> split <;> (try split) <;> omega

end Verif.Chars
