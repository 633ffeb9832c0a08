import Verif.Proofs.Keys
import Verif.Spec.Keys

/-! Helper lemmas relating bits of half and single floats to the numbers they denote. -/

namespace Ozz.F32

/-- Comparison of finite floats is comparison of their values. -/
theorem rank_le_iff (x y : F32) : x.rank ≤ y.rank ↔ x.signedMag ≤ y.signedMag := by
  have hm : ∀ a b : Nat, magOf a ≤ magOf b ↔ a ≤ b := fun a b => magOf_strictMono.le_iff_le
  have hz : ∀ a : Nat, magOf a = 0 ↔ a = 0 := fun a => by
    have := hm a 0; rw [magOf_zero] at this; omega
  have h := hm x.low y.low
  have h' := hm y.low x.low
  have hx := hz x.low
  have hy := hz y.low
  unfold rank signedMag mag
  cases x.negative <;> cases y.negative <;> simp only [if_true, if_false, Bool.false_eq_true] <;> omega

theorem value_le_iff (x y : F32) : Ieee.value32 x.bits ≤ Ieee.value32 y.bits ↔ x.rank ≤ y.rank := by
  rw [rank_le_iff, value_eq, value_eq, div_le_div_iff_of_pos_right (by positivity)]
  exact_mod_cast Iff.rfl

theorem le_iff_rank {x y : F32} (hx : x.isNaN = false) (hy : y.isNaN = false) :
    F32.le x y = true ↔ x.rank ≤ y.rank := by
  unfold F32.le; rw [hx, hy]; simp

theorem lt_iff_rank {x y : F32} (hx : x.isNaN = false) (hy : y.isNaN = false) :
    F32.lt x y = true ↔ x.rank < y.rank := by
  unfold F32.lt; rw [hx, hy]; simp

theorem one_low : F32.one.low = 127 * 2 ^ 23 := pack_low false (by norm_num)
theorem one_negative : F32.one.negative = false := pack_negative false (by norm_num)
theorem one_isNaN : F32.one.isNaN = false := by unfold isNaN; rw [one_low]; decide
theorem one_rank : F32.one.rank = 127 * 2 ^ 23 := by
  unfold rank; rw [one_low, one_negative]; norm_num

theorem value_zero : Ieee.value32 F32.zero.bits = 0 := by decide +kernel
theorem value_one : Ieee.value32 F32.one.bits = 1 := by decide +kernel

theorem isFinite_of_rank {x : F32} (h0 : 0 ≤ x.rank) (h1 : x.rank ≤ 127 * 2 ^ 23) : x.isFinite = true := by
  unfold isFinite; rw [decide_eq_true_iff]
  unfold rank at h0 h1
  split at h0 <;> rename_i hn
  · rw [if_pos hn] at h1; omega
  · rw [if_neg hn] at h1; omega

theorem value_eq_of_rank {x y : F32} (h : x.rank = y.rank) : Ieee.value32 x.bits = Ieee.value32 y.bits :=
  le_antisymm ((value_le_iff x y).mpr h.le) ((value_le_iff y x).mpr h.ge)

theorem isNaN_of_finite {x : F32} (h : x.isFinite = true) : x.isNaN = false := by
  unfold isFinite at h; unfold isNaN
  rw [decide_eq_true_iff] at h; rw [decide_eq_false_iff_not]; omega

end Ozz.F32

namespace Ozz.Keys

open Ozz F32

theorem half_sign (n : BitVec 16) : Ieee.sign 5 10 n.toNat = if 2 ^ 15 ≤ n.toNat then 1 else 0 := by
  have h := n.isLt
  simp only [Ieee.sign]; split <;> omega

theorem value16_eq (n : BitVec 16) : Ieee.value16 n =
    (if 2 ^ 15 ≤ n.toNat then -1 else 1) * (halfMag (n.toNat % 2 ^ 15) : ℚ) / 2 ^ 24 := by
  have h := n.isLt
  simp only [Ieee.value16, Ieee.value]
  have hsg : (-1 : ℚ) ^ Ieee.sign 5 10 n.toNat = if 2 ^ 15 ≤ n.toNat then -1 else 1 := by
    rw [half_sign]; split <;> simp
  rw [hsg, mul_div_assoc]
  congr 1
  have he : Ieee.expo 5 10 n.toNat = n.toNat % 2 ^ 15 / 2 ^ 10 := by
    simp only [Ieee.expo]; omega
  have hm : Ieee.mant 10 n.toNat = n.toNat % 2 ^ 15 % 2 ^ 10 := by
    simp only [Ieee.mant]; omega
  rw [he, hm]
  have hb : Ieee.bias 5 = 15 := by norm_num [Ieee.bias]
  rw [hb]
  generalize n.toNat % 2 ^ 15 = e
  unfold halfMag
  split
  · next h0 =>
    have h1 : e < 2 ^ 10 := by omega
    rw [if_pos h1]
    have : e % 2 ^ 10 = e := Nat.mod_eq_of_lt h1
    rw [this]
    norm_num
    ring
  · next h0 =>
    have h1 : ¬ e < 2 ^ 10 := by omega
    rw [if_neg h1]
    obtain ⟨k, hk⟩ : ∃ k, e / 2 ^ 10 = k + 1 := ⟨e / 2 ^ 10 - 1, by omega⟩
    rw [hk]
    have : (((k + 1 : ℕ) : ℤ) - 15) = (k : ℤ) - 14 := by push_cast; ring
    rw [this, zpow_sub₀ (by norm_num : (2:ℚ) ≠ 0)]
    push_cast
    simp only [Nat.add_sub_cancel, zpow_natCast]
    norm_num
    ring

/-- A packed float with the magnitude of a half float denotes the half float's value. -/
theorem value_of_half (n : BitVec 16) {c : Nat} (hc : c < 255 * 2 ^ 23)
    (hm : magOf c = 2 ^ 125 * halfMag (n.toNat % 2 ^ 15)) :
    Ieee.IsFinite 8 23 (pack (decide (2 ^ 15 ≤ n.toNat)) c).bits.toNat ∧
    Ieee.sign 8 23 (pack (decide (2 ^ 15 ≤ n.toNat)) c).bits.toNat = Ieee.sign 5 10 n.toNat ∧
    Ieee.value32 (pack (decide (2 ^ 15 ≤ n.toNat)) c).bits = Ieee.value16 n := by
  have hc' : c < 2 ^ 31 := by omega
  refine ⟨?_, ?_, ?_⟩
  · rw [← isFinite_iff]; unfold isFinite; rw [pack_low _ hc', decide_eq_true_iff]; exact hc
  · have := negative_iff (pack (decide (2 ^ 15 ≤ n.toNat)) c)
    rw [pack_negative _ hc', decide_eq_true_iff] at this
    have h2 : Ieee.sign 8 23 (pack (decide (2 ^ 15 ≤ n.toNat)) c).bits.toNat < 2 := Nat.mod_lt _ (by norm_num)
    rw [half_sign]
    split
    · next h => exact this.mp h
    · next h =>
      have : ¬ _ := fun e => h (this.mpr e)
      omega
  · rw [value_eq, value16_eq]
    unfold signedMag mag
    rw [pack_low _ hc', pack_negative _ hc', hm]
    by_cases h : 2 ^ 15 ≤ n.toNat
    · simp only [h, decide_true, if_true]; push_cast; field_simp; norm_num; ring
    · simp only [h, decide_false, Bool.false_eq_true, if_false]; push_cast; field_simp; norm_num; ring

theorem special_bits (b : Bool) {m : Nat} (hm : m < 2 ^ 23) :
    (Ieee.IsNaN 8 23 (pack b (255 * 2 ^ 23 + m)).bits.toNat ↔ m ≠ 0) ∧
    (Ieee.IsInf 8 23 (pack b (255 * 2 ^ 23 + m)).bits.toNat ↔ m = 0) ∧
    Ieee.sign 8 23 (pack b (255 * 2 ^ 23 + m)).bits.toNat = if b then 1 else 0 := by
  have hl : 255 * 2 ^ 23 + m < 2 ^ 31 := by omega
  refine ⟨?_, ?_, ?_⟩
  · rw [← isNaN_iff]; unfold isNaN; rw [pack_low _ hl, decide_eq_true_iff]; omega
  · rw [← isInf_iff]; unfold isInf; rw [pack_low _ hl, decide_eq_true_iff]; omega
  · have := negative_iff (pack b (255 * 2 ^ 23 + m))
    rw [pack_negative _ hl] at this
    have h2 : Ieee.sign 8 23 (pack b (255 * 2 ^ 23 + m)).bits.toNat < 2 := Nat.mod_lt _ (by norm_num)
    cases b
    · simp only [Bool.false_eq_true, false_iff] at this
      simp only [Bool.false_eq_true, if_false]; omega
    · simp only [true_iff] at this
      rw [this]; rfl

theorem half_special_iff (n : BitVec 16) :
    (Ieee.IsFinite 5 10 n.toNat ↔ n.toNat / 2 ^ 10 % 2 ^ 5 ≠ 31) ∧
    (Ieee.IsInf 5 10 n.toNat ↔ n.toNat / 2 ^ 10 % 2 ^ 5 = 31 ∧ n.toNat % 2 ^ 10 = 0) ∧
    (Ieee.IsNaN 5 10 n.toNat ↔ n.toNat / 2 ^ 10 % 2 ^ 5 = 31 ∧ n.toNat % 2 ^ 10 ≠ 0) := by
  simp only [Ieee.IsFinite, Ieee.IsInf, Ieee.IsNaN, Ieee.expo, Ieee.mant]
  refine ⟨?_, ?_, ?_⟩ <;> omega

/-! ### Clamping -/

theorem isMin_fmin : IsMin F32.fmin where
  left_nan := fun x y hx hy => by unfold F32.fmin; rw [hx, if_pos rfl]
  right_nan := fun x y hx hy => by
    unfold F32.fmin; rw [hx, if_neg Bool.false_ne_true, hy, if_pos rfl]
  mem := fun x y hx hy => by
    unfold F32.fmin; rw [hx, if_neg Bool.false_ne_true, hy, if_neg Bool.false_ne_true]
    split <;> simp
  le := fun x y hx hy => by
    unfold F32.fmin; rw [hx, if_neg Bool.false_ne_true, hy, if_neg Bool.false_ne_true]
    have := lt_iff_rank hy hx
    split
    · next h => exact ⟨(le_iff_rank hy hx).mpr (this.mp h).le, (le_iff_rank hy hy).mpr le_rfl⟩
    · next h =>
      exact ⟨(le_iff_rank hx hx).mpr le_rfl, (le_iff_rank hx hy).mpr (not_lt.mp fun e => h (this.mpr e))⟩

theorem isMax_fmax : IsMax F32.fmax where
  left_nan := fun x y hx hy => by unfold F32.fmax; rw [hx, if_pos rfl]
  right_nan := fun x y hx hy => by
    unfold F32.fmax; rw [hx, if_neg Bool.false_ne_true, hy, if_pos rfl]
  mem := fun x y hx hy => by
    unfold F32.fmax; rw [hx, if_neg Bool.false_ne_true, hy, if_neg Bool.false_ne_true]
    split <;> simp
  le := fun x y hx hy => by
    unfold F32.fmax; rw [hx, if_neg Bool.false_ne_true, hy, if_neg Bool.false_ne_true]
    have := lt_iff_rank hx hy
    split
    · next h => exact ⟨(le_iff_rank hx hy).mpr (this.mp h).le, (le_iff_rank hy hy).mpr le_rfl⟩
    · next h =>
      exact ⟨(le_iff_rank hx hx).mpr le_rfl, (le_iff_rank hy hx).mpr (not_lt.mp fun e => h (this.mpr e))⟩

theorem IsMin.rank {f : F32 → F32 → F32} (h : IsMin f) {x y : F32} (hx : x.isNaN = false)
    (hy : y.isNaN = false) : (f x y).isNaN = false ∧ (f x y).rank = min x.rank y.rank := by
  obtain ⟨a, b⟩ := h.le x y hx hy
  rcases h.mem x y hx hy with e | e <;> rw [e] at a b ⊢
  · exact ⟨hx, (min_eq_left ((le_iff_rank hx hy).mp b)).symm⟩
  · exact ⟨hy, (min_eq_right ((le_iff_rank hy hx).mp a)).symm⟩

theorem IsMax.rank {f : F32 → F32 → F32} (h : IsMax f) {x y : F32} (hx : x.isNaN = false)
    (hy : y.isNaN = false) : (f x y).isNaN = false ∧ (f x y).rank = max x.rank y.rank := by
  obtain ⟨a, b⟩ := h.le x y hx hy
  rcases h.mem x y hx hy with e | e <;> rw [e] at a b ⊢
  · exact ⟨hx, (max_eq_left ((le_iff_rank hy hx).mp b)).symm⟩
  · exact ⟨hy, (max_eq_right ((le_iff_rank hx hy).mp a)).symm⟩

theorem setRatio_nan {fmin fmax : F32 → F32 → F32} (h1 : IsMin fmin) (h2 : IsMax fmax) {x : F32}
    (hx : x.isNaN = true) : setRatio fmin fmax x = F32.one := by
  unfold setRatio clampOrMax
  rw [h1.left_nan _ _ hx one_isNaN]
  have h := (h2.le F32.one F32.zero one_isNaN zero_isNaN).1
  rcases h2.mem F32.one F32.zero one_isNaN zero_isNaN with e | e
  · exact e
  · rw [e] at h
    have := (le_iff_rank one_isNaN zero_isNaN).mp h
    rw [one_rank, zero_rank] at this
    norm_num at this

theorem setRatio_rank {fmin fmax : F32 → F32 → F32} (h1 : IsMin fmin) (h2 : IsMax fmax) {x : F32}
    (hx : x.isNaN = false) : (setRatio fmin fmax x).isNaN = false ∧
    (setRatio fmin fmax x).rank = max (min x.rank (127 * 2 ^ 23)) 0 := by
  unfold setRatio clampOrMax
  obtain ⟨a, b⟩ := h1.rank hx one_isNaN
  obtain ⟨c, d⟩ := h2.rank a zero_isNaN
  refine ⟨c, ?_⟩
  rw [d, b, zero_rank, one_rank]

end Ozz.Keys
