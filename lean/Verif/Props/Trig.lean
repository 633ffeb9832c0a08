import Verif.Proofs.TrigQuat

/-!
C66–C68: the crate's own sine, cosine, arcsine and arccosine, computed in single precision, are the functions
of the same names up to a stated number of units of `2^-24`; the rotations built from them are rotations.
-/

namespace Ozz.Props

open Ozz F32 Ieee Spec Trig

/-- C66: for every finite angle up to 2048 the results are finite, and within `6 / 2^24` of the sine and cosine. -/
theorem C66_sin_cos (v : F32) (hv : Finite32 v.bits) (hV : |val v| ≤ 2048) :
    Finite32 (sinCos v).1.bits ∧ |val (sinCos v).1 - Real.sin (val v)| ≤ 6 / 2 ^ 24 ∧
    Finite32 (sinCos v).2.bits ∧ |val (sinCos v).2 - Real.cos (val v)| ≤ 6 / 2 ^ 24 :=
  have h := sinCos_near hv hV
  ⟨h.1.1, h.1.2, h.2.1, h.2.2⟩

/-- An angle of 1000.5. -/
example : Finite32 0x447a2000 ∧ value32 0x447a2000 = 2001 / 2 ∧
    value32 (sinCos (⟨0x447a2000⟩ : F32)).1.bits < 996 / 1000 := by decide +kernel

/-- C66: for every finite angle up to `2^31` the unchecked conversion to an integer is defined. -/
theorem C66_conversion (v : F32) (hv : Finite32 v.bits) (hV : |val v| ≤ 2 ^ 31) :
    Finite32 (quadrant v).bits ∧ ∃ n : ℤ, val (quadrant v) = n ∧ -2 ^ 31 ≤ n ∧ n < 2 ^ 31 := by
  obtain ⟨f, n, hn, hlt⟩ := quadrant_fits hv hV
  exact ⟨f, n, by rw [hn]; simp, by omega, by exact_mod_cast hlt⟩

/-- C66: beyond, it is not: `2^32` gives a number that does not fit, an infinity and a NaN give no number. -/
theorem C66_conversion_undefined :
    (∃ v : F32, Finite32 v.bits ∧ val v = 2 ^ 32 ∧ 2 ^ 31 < val (quadrant v)) ∧
    Inf32 (quadrant (F32.inf false)).bits ∧ NaN32 (quadrant F32.nan).bits := by
  refine ⟨⟨⟨0x4f800000⟩, by decide +kernel, ?_, ?_⟩, by decide +kernel, by decide +kernel⟩
  · have : value32 0x4f800000 = 2 ^ 32 := by decide +kernel
    rw [val, real, this]; norm_num
  · have : 2 ^ 31 < value32 (quadrant (⟨0x4f800000⟩ : F32)).bits := by decide +kernel
    rw [val, real]; exact_mod_cast this

/-- C66: a limit on the angle is needed: at `2^28` the "sine" is below −26 and the "cosine" above 18. -/
theorem C66_large : ∃ v : F32, Finite32 v.bits ∧ val v = 2 ^ 28 ∧ val (sinCos v).1 < -26 ∧ 18 < val (sinCos v).2 := by
  refine ⟨⟨0x4d800000⟩, by decide +kernel, ?_, ?_, ?_⟩
  · have : value32 0x4d800000 = 2 ^ 28 := by decide +kernel
    rw [val, real, this]; norm_num
  · have : value32 (sinCos (⟨0x4d800000⟩ : F32)).1.bits < -26 := by decide +kernel
    rw [val, real]; exact_mod_cast this
  · have : 18 < value32 (sinCos (⟨0x4d800000⟩ : F32)).2.bits := by decide +kernel
    rw [val, real]; exact_mod_cast this

/-- C67: for every finite argument the arcsine is within `7 / 2^24` and the arccosine within `11 / 2^24`
of the exact one, arguments beyond ±1 counting as ±1. -/
theorem C67_asin_acos (v : F32) (hv : Finite32 v.bits) :
    Finite32 (asin v).bits ∧ |val (asin v) - Real.arcsin (max (-1) (min 1 (val v)))| ≤ 7 / 2 ^ 24 ∧
    Finite32 (acos v).bits ∧ |val (acos v) - Real.arccos (max (-1) (min 1 (val v)))| ≤ 11 / 2 ^ 24 := by
  have hc : Real.arcsin (max (-1) (min 1 (val v))) = Real.arcsin (val v) := by
    rcases le_total (val v) 1 with h | h
    · rw [min_eq_right h]
      rcases le_total (-1) (val v) with h' | h'
      · rw [max_eq_right h']
      · rw [max_eq_left h', Real.arcsin_neg_one, Real.arcsin_of_le_neg_one h']
    · rw [min_eq_left h, max_eq_right (by norm_num), Real.arcsin_one, Real.arcsin_of_one_le h]
  have h1 := asin_near hv
  have h2 := acos_near hv
  unfold Real.arccos at h2 ⊢
  rw [hc]
  exact ⟨h1.1, h1.2, h2.1, h2.2⟩

/-- The arcsine of 0.75 (0.84806…), and of 3. -/
example : Finite32 0x3f400000 ∧ value32 0x3f400000 = 3 / 4 ∧
    84806 / 100000 < value32 (asin (⟨0x3f400000⟩ : F32)).bits ∧ value32 (asin (⟨0x3f400000⟩ : F32)).bits < 84807 / 100000 ∧
    Finite32 0x40400000 ∧ asin (⟨0x40400000⟩ : F32) = ⟨0x3fc90fdb⟩ := by decide +kernel

/-- C67: no bit pattern at all gives anything but a finite number; infinities count as ±1, NaNs of either sign as 1. -/
theorem C67_total (v : F32) :
    Finite32 (asin v).bits ∧ Finite32 (acos v).bits ∧
    (¬ Finite32 v.bits → (asin v).bits = if Inf32 v.bits ∧ Minus v.bits then 0xbfc90fdb else 0x3fc90fdb) := by
  by_cases hv : Finite32 v.bits
  · exact ⟨(asin_near hv).1, (acos_near hv).1, fun h => absurd hv h⟩
  · have h := asin_nonfinite hv
    have hz := lt_zero_nonfinite hv
    have c1 : Finite32 (0xbfc90fdb : BitVec 32) ∧ Finite32 (fracPi2 - (⟨0xbfc90fdb⟩ : F32) : F32).bits ∧
      Finite32 (0x3fc90fdb : BitVec 32) ∧ Finite32 (fracPi2 - (⟨0x3fc90fdb⟩ : F32) : F32).bits ∧
      (-⟨0x3fc90fdb⟩ : F32) = ⟨0xbfc90fdb⟩ := by decide +kernel
    unfold acos
    rw [h]
    by_cases hi : Inf32 v.bits ∧ Minus v.bits
    · rw [hz.mpr hi, if_pos hi]
      have e : flip true (⟨0x3fc90fdb⟩ : F32) = ⟨0xbfc90fdb⟩ := c1.2.2.2.2
      rw [e]
      exact ⟨c1.1, c1.2.1, fun _ => rfl⟩
    · rw [Bool.eq_false_iff.mpr (fun h' => hi (hz.mp h')), if_neg hi]
      exact ⟨c1.2.2.1, c1.2.2.2.1, fun _ => rfl⟩

/-- C68: from a nearly unit axis and an angle up to 4095, the rotation about the axis by the angle, each component
within `8 / 2^24`, and nearly unit again. -/
theorem C68_axis_angle (axis angle : F4 F32) (hax : ∀ i, i ≠ 3 → Finite32 (axis i).bits) (ε : ℝ) (hε : ε ≤ 0.01)
    (hn : |val (axis 0) ^ 2 + val (axis 1) ^ 2 + val (axis 2) ^ 2 - 1| ≤ ε)
    (hang : Finite32 (angle 0).bits) (hA : |val (angle 0)| ≤ 4095) :
    let q := quatFromAxisAngle (polyTrig (α := F32)).sinCos axis angle
    (∀ i, Finite32 (q i).bits) ∧
    |val (q 0) - val (axis 0) * Real.sin (val (angle 0) / 2)| ≤ 8 / 2 ^ 24 ∧
    |val (q 1) - val (axis 1) * Real.sin (val (angle 0) / 2)| ≤ 8 / 2 ^ 24 ∧
    |val (q 2) - val (axis 2) * Real.sin (val (angle 0) / 2)| ≤ 8 / 2 ^ 24 ∧
    |val (q 3) - Real.cos (val (angle 0) / 2)| ≤ 8 / 2 ^ 24 ∧
    |val (q 0) ^ 2 + val (q 1) ^ 2 + val (q 2) ^ 2 + val (q 3) ^ 2 - 1| ≤ ε + 33 / 2 ^ 24 := by
  intro q
  obtain ⟨h1, h2⟩ := fromAxisAngle_near hax hε hn hang hA
  refine ⟨fun i => ?_, (h1 0 (by decide)).2, (h1 1 (by decide)).2, (h1 2 (by decide)).2, h2.2, fromAxisAngle_unit hax hε hn hang hA⟩
  by_cases hi : i = 3
  · rw [hi]; exact h2.1
  · exact (h1 i hi).1

/-- C68: from a nearly unit axis and the cosine of an angle, a nearly unit rotation along the axis by an angle of that
cosine, at most half a turn: `cos α = 2 w² − 1` with `w ≥ 0`. -/
theorem C68_cos_angle (axis cos : F4 F32) (hax : ∀ i, i ≠ 3 → Finite32 (axis i).bits) (ε : ℝ) (hε : ε ≤ 0.001)
    (hn : |val (axis 0) ^ 2 + val (axis 1) ^ 2 + val (axis 2) ^ 2 - 1| ≤ ε)
    (hc : Finite32 (cos 0).bits) (hc1 : |val (cos 0)| ≤ 1) :
    let q := quatFromCosAngle axis cos
    (∀ i, Finite32 (q i).bits) ∧ 0 ≤ val (q 3) ∧ |(2 * val (q 3) ^ 2 - 1) - val (cos 0)| ≤ 7 / 2 ^ 24 ∧
    (∃ s : ℝ, 0 ≤ s ∧ ∀ i, i ≠ 3 → |val (q i) - val (axis i) * s| ≤ 2 / 2 ^ 24) ∧
    |val (q 0) ^ 2 + val (q 1) ^ 2 + val (q 2) ^ 2 + val (q 3) ^ 2 - 1| ≤ 1.01 * ε + 14 / 2 ^ 24 :=
  fromCosAngle_near hax hε hn hc hc1

/-- Half a radian about (0.6, 0, 0.8), and a cosine of 0.5: the axis in single precision. -/
example : (∀ i : Fin 4, i ≠ 3 → Finite32 (f4 (⟨0x3f19999a⟩ : F32) ⟨0⟩ ⟨0x3f4ccccd⟩ ⟨0⟩ i).bits) ∧
    |val ⟨0x3f19999a⟩ ^ 2 + val ⟨0⟩ ^ 2 + val ⟨0x3f4ccccd⟩ ^ 2 - 1| ≤ (1 : ℝ) / 10 ^ 6 ∧
    Finite32 0x3f000000 ∧ val ⟨0x3f000000⟩ = 1 / 2 := by
  have a : value32 0x3f19999a = 10066330 / 2 ^ 24 := by decide +kernel
  have b : value32 0 = 0 := by decide +kernel
  have c : value32 0x3f4ccccd = 13421773 / 2 ^ 24 := by decide +kernel
  have d : value32 0x3f000000 = 1 / 2 := by decide +kernel
  refine ⟨by decide +kernel, ?_, by decide +kernel, ?_⟩
  · simp only [val, real]
    rw [a, b, c, abs_le]
    constructor <;> norm_num
  · simp only [val, real]
    rw [d]; norm_num

end Ozz.Props
