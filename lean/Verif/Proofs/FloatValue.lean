import Verif.Proofs.Float
import Verif.Spec.Float
import Mathlib.Tactic.FieldSimp
import Mathlib.Tactic.NormNum

/-! The `f32` model against the standard's definition of values. -/

namespace Ozz.F32

theorem isNaN_iff (x : F32) : x.isNaN = true ↔ Ieee.IsNaN 8 23 x.bits.toNat := by
  have h := x.bits.isLt
  unfold isNaN low Ieee.IsNaN Ieee.expo
  rw [decide_eq_true_iff]
  unfold Ieee.mant
  omega

theorem isInf_iff (x : F32) : x.isInf = true ↔ Ieee.IsInf 8 23 x.bits.toNat := by
  have h := x.bits.isLt
  unfold isInf low Ieee.IsInf Ieee.expo
  rw [decide_eq_true_iff]
  unfold Ieee.mant
  omega

theorem isFinite_iff (x : F32) : x.isFinite = true ↔ Ieee.IsFinite 8 23 x.bits.toNat := by
  have h := x.bits.isLt
  unfold isFinite low Ieee.IsFinite Ieee.expo
  rw [decide_eq_true_iff]
  omega

theorem negative_iff (x : F32) : x.negative = true ↔ Ieee.sign 8 23 x.bits.toNat = 1 := by
  have h := x.bits.isLt
  simp only [negative, decide_eq_true_eq, Ieee.sign]
  omega

/-- A finite float is its signed magnitude times 2^-149. -/
theorem value_eq (x : F32) : Ieee.value32 x.bits = (x.signedMag : ℚ) / 2 ^ 149 := by
  have h := x.bits.isLt
  have hs : (-1 : ℚ) ^ Ieee.sign 8 23 x.bits.toNat * (x.mag : ℚ) = (x.signedMag : ℚ) := by
    unfold signedMag
    cases hn : x.negative
    · have : Ieee.sign 8 23 x.bits.toNat = 0 := by
        have := negative_iff x
        rw [hn] at this
        have h2 : Ieee.sign 8 23 x.bits.toNat < 2 := Nat.mod_lt _ (by norm_num)
        simp at this; omega
      simp [this]
    · have : Ieee.sign 8 23 x.bits.toNat = 1 := (negative_iff x).mp hn
      simp [this]
  rw [← hs]
  simp only [Ieee.value32, Ieee.value]
  rw [mul_div_assoc]
  congr 1
  have he : Ieee.expo 8 23 x.bits.toNat = x.low / 2 ^ 23 := by
    simp only [Ieee.expo, low]; omega
  have hm : Ieee.mant 23 x.bits.toNat = x.low % 2 ^ 23 := by
    simp only [Ieee.mant, low]; omega
  rw [he, hm]
  unfold mag magOf
  have hb : Ieee.bias 8 = 127 := by norm_num [Ieee.bias]
  rw [hb]
  split
  · next h0 =>
    have h1 : x.low < 2 ^ 23 := by omega
    rw [if_pos h1]
    have : x.low % 2 ^ 23 = x.low := Nat.mod_eq_of_lt h1
    rw [this]
    norm_num
    ring
  · next h0 =>
    have h1 : ¬ x.low < 2 ^ 23 := by omega
    rw [if_neg h1]
    obtain ⟨k, hk⟩ : ∃ k, x.low / 2 ^ 23 = k + 1 := ⟨x.low / 2 ^ 23 - 1, by omega⟩
    rw [hk]
    have : (((k + 1 : ℕ) : ℤ) - 127) = (k : ℤ) - 126 := by push_cast; ring
    rw [this, zpow_sub₀ (by norm_num : (2:ℚ) ≠ 0)]
    push_cast
    simp only [Nat.add_sub_cancel, zpow_natCast]
    norm_num
    ring

end Ozz.F32
