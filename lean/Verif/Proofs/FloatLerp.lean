import Verif.Proofs.FloatRound
import Mathlib.Tactic.Linarith
import Mathlib.Tactic.Positivity
import Mathlib.Tactic.LinearCombination

/-! Consequences of correct rounding: error bounds, monotonicity, interpolation in single precision. -/

namespace Ozz.F32

open Ozz Ieee

theorem overflowAt_pos : (0 : ℝ) < overflowAt := by unfold overflowAt; norm_num

theorem finite_of_not {z : BitVec 32} (h1 : ¬ NaN32 z) (h2 : ¬ Inf32 z) : Finite32 z := by
  rw [← F32_of_bits z, nan32_iff] at h1
  rw [← F32_of_bits z, inf32_iff] at h2
  rw [← F32_of_bits z, finite32_iff]; omega

theorem finite_of_rounds {r : ℝ} {s : Prop} {z : BitVec 32} (h : RoundsTo r s z) (hr : |r| < overflowAt) : Finite32 z :=
  finite_of_not h.number fun hi => absurd (h.overflow.mp hi) (not_le.mpr hr)

theorem rounds_exact {r : ℝ} {s : Prop} {z w : BitVec 32} (h : RoundsTo r s z) (hz : Finite32 z) (hw : Finite32 w)
    (hr : r = real w) : real z = real w := by
  have := h.nearest hz w hw
  rw [hr, sub_self, abs_zero] at this
  exact sub_eq_zero.mp (abs_eq_zero.mp (le_antisymm this (abs_nonneg _)))

theorem rounds_le {r : ℝ} {s : Prop} {z w : BitVec 32} (h : RoundsTo r s z) (hz : Finite32 z) (hw : Finite32 w)
    (hr : r ≤ real w) : real z ≤ real w := by
  by_contra hc
  rw [not_le] at hc
  have := h.nearest hz w hw
  rw [abs_of_pos (show 0 < real z - r by linarith), abs_of_nonneg (show 0 ≤ real w - r by linarith)] at this
  linarith

theorem rounds_ge {r : ℝ} {s : Prop} {z w : BitVec 32} (h : RoundsTo r s z) (hz : Finite32 z) (hw : Finite32 w)
    (hr : real w ≤ r) : real w ≤ real z := by
  by_contra hc
  rw [not_le] at hc
  have := h.nearest hz w hw
  rw [abs_of_neg (show real z - r < 0 by linarith), abs_of_nonpos (show real w - r ≤ 0 by linarith)] at this
  linarith

theorem ext_finite {z : BitVec 32} (h : Finite32 z) : ext z = (real z : EReal) := by
  have : ¬ Inf32 z := by
    rw [← F32_of_bits z, inf32_iff]; rw [← F32_of_bits z, finite32_iff] at h; omega
  unfold ext; rw [if_neg this]

theorem not_nan_of_finite {z : BitVec 32} (h : Finite32 z) : ¬ NaN32 z := by
  rw [← F32_of_bits z, nan32_iff]; rw [← F32_of_bits z, finite32_iff] at h; omega

theorem rounds_mono_real {r r' : ℝ} {s s' : Prop} {z w : BitVec 32} (hz : RoundsTo r s z) (hw : RoundsTo r' s' w)
    (fz : Finite32 z) (fw : Finite32 w) (h : r ≤ r') : real z ≤ real w := by
  have := rounds_mono hz hw h
  rwa [ext_finite fz, ext_finite fw, EReal.coe_le_coe_iff] at this

/-- The gap above a magnitude: one unit, or at most one part in 2^23. -/
theorem magOf_gap (c : Nat) : magOf (c + 1) = magOf c + 1 ∨ (magOf (c + 1) - magOf c) * 2 ^ 23 ≤ magOf c := by
  obtain ⟨e, t, rfl, ht, hn, hm⟩ := magOf_split c
  have h := magOf_mk (e := e) (t := t + 1) (by omega) (by omega)
  rw [hm, show e * 2 ^ 23 + t + 1 = e * 2 ^ 23 + (t + 1) from by ring, h]
  rcases hn with rfl | hn
  · left; ring
  · right
    have : (t + 1) * 2 ^ e - t * 2 ^ e = 2 ^ e := by rw [Nat.succ_mul, Nat.add_sub_cancel_left]
    rw [this, Nat.mul_comm]
    exact Nat.mul_le_mul_right _ hn

theorem rounds_mid {r : ℝ} {s : Prop} {x : F32} (h : RoundsTo r s x.bits) (hf : Finite32 x.bits) :
    2 * (|r| * 2 ^ 149) ≤ magOf x.low + magOf (x.low + 1) ∧
    (0 < x.low → (magOf (x.low - 1) : ℝ) + magOf x.low ≤ 2 * (|r| * 2 ^ 149)) ∧
    |real x.bits - r| = |(magOf x.low : ℝ) - |r| * 2 ^ 149| / 2 ^ 149 := by
  have hp : (0 : ℝ) < 2 ^ 149 := by positivity
  have hs := h.sign
  rw [minus_iff] at hs
  have hlow : x.low < 255 * 2 ^ 23 := (finite32_iff x).mp hf
  -- everything with the sign of `r`
  obtain ⟨σ, hσ, hr, hx⟩ : ∃ σ : ℝ, |σ| = 1 ∧ r = σ * |r| ∧
      (if x.negative then (-1 : ℝ) else 1) = σ := by
    cases hn : x.negative
    · refine ⟨1, by simp, ?_, by simp⟩
      have : ¬ r < 0 := fun hlt => by
        have := hs.mpr (Or.inl hlt); rw [hn] at this; simp at this
      rw [abs_of_nonneg (not_lt.mp this), one_mul]
    · refine ⟨-1, by simp, ?_, by simp⟩
      have : r ≤ 0 := by rcases hs.mp hn with h | ⟨h, -⟩ <;> linarith
      rw [abs_of_nonpos this]; ring
  have hdist : ∀ b, b < 2 ^ 31 → |real (pack x.negative b).bits - r| = |(magOf b : ℝ) - |r| * 2 ^ 149| / 2 ^ 149 := by
    intro b hb
    rw [real_eq_signed, pack_negative _ hb, hx, mag, pack_low _ hb]
    have : σ * (magOf b : ℝ) / 2 ^ 149 - r = σ * ((magOf b : ℝ) - |r| * 2 ^ 149) / 2 ^ 149 := by
      nth_rewrite 1 [hr]; field_simp
    rw [this, abs_div, abs_mul, hσ, one_mul, abs_of_pos hp]
  have hself := hdist x.low (low_lt x)
  rw [pack_self] at hself
  refine ⟨?_, ?_, hself⟩
  · rcases Nat.lt_or_ge (x.low + 1) (255 * 2 ^ 23) with hb | hb
    · have hw : Finite32 (pack x.negative (x.low + 1)).bits := by
        rw [finite32_iff, pack_low _ (by omega)]; exact hb
      have h1 := h.nearest hf _ hw
      rw [hself, hdist _ (by omega), div_le_div_iff_of_pos_right hp] at h1
      have hm : (magOf x.low : ℝ) < magOf (x.low + 1) := by exact_mod_cast magOf_succ_lt _
      by_contra hc
      rw [not_le] at hc
      rw [abs_of_neg (show (magOf x.low : ℝ) - |r| * 2 ^ 149 < 0 by linarith)] at h1
      have := abs_lt.mpr (show -(|r| * 2 ^ 149 - magOf x.low) < (magOf (x.low + 1) : ℝ) - |r| * 2 ^ 149 ∧
        (magOf (x.low + 1) : ℝ) - |r| * 2 ^ 149 < |r| * 2 ^ 149 - magOf x.low from ⟨by linarith, by linarith⟩)
      linarith
    · have hc : x.low = 255 * 2 ^ 23 - 1 := by omega
      have hov : ¬ Inf32 x.bits := by rw [inf32_iff]; omega
      have : ¬ overflowAt ≤ |r| := fun hc => hov (h.overflow.mpr hc)
      rw [not_le] at this
      have e : 2 * (overflowAt * 2 ^ 149) = (magOf (255 * 2 ^ 23 - 1) : ℝ) + magOf (255 * 2 ^ 23) := by
        rw [magOf_max, magOf_inf]; unfold overflowAt; norm_num
      rw [hc, show 255 * 2 ^ 23 - 1 + 1 = 255 * 2 ^ 23 from by norm_num, ← e]
      have := mul_lt_mul_of_pos_right this hp
      linarith
  · intro h0
    have hw : Finite32 (pack x.negative (x.low - 1)).bits := by
      rw [finite32_iff, pack_low _ (by omega)]; omega
    have h1 := h.nearest hf _ hw
    rw [hself, hdist _ (by omega), div_le_div_iff_of_pos_right hp] at h1
    have hm : (magOf (x.low - 1) : ℝ) < magOf x.low := by
      exact_mod_cast magOf_strictMono (show x.low - 1 < x.low by omega)
    by_contra hc
    rw [not_le] at hc
    rw [abs_of_pos (show 0 < (magOf x.low : ℝ) - |r| * 2 ^ 149 by linarith)] at h1
    have := abs_lt.mpr (show -((magOf x.low : ℝ) - |r| * 2 ^ 149) < (magOf (x.low - 1) : ℝ) - |r| * 2 ^ 149 ∧
      (magOf (x.low - 1) : ℝ) - |r| * 2 ^ 149 < (magOf x.low : ℝ) - |r| * 2 ^ 149 from ⟨by linarith, by linarith⟩)
    linarith

/-- Error of a rounding, in units of 2^-149: half a unit, or one part in 2^24. -/
theorem rounds_units {r : ℝ} {s : Prop} {x : F32} (h : RoundsTo r s x.bits) (hf : Finite32 x.bits) :
    |(magOf x.low : ℝ) - |r| * 2 ^ 149| ≤ 1 / 2 ∨
    |(magOf x.low : ℝ) - |r| * 2 ^ 149| ≤ |r| * 2 ^ 149 / 2 ^ 24 := by
  obtain ⟨h1, h2, -⟩ := rounds_mid h hf
  set q := |r| * 2 ^ 149
  have gap : ∀ c : Nat, (magOf (c + 1) : ℝ) - magOf c ≤ 1 ∨ (magOf (c + 1) : ℝ) - magOf c ≤ magOf c / 2 ^ 23 := by
    intro c
    have hlt := magOf_succ_lt c
    rcases magOf_gap c with h | h
    · left; rw [h]; push_cast; linarith
    · right
      rw [le_div_iff₀ (by positivity)]
      have : (((magOf (c + 1) - magOf c) * 2 ^ 23 : ℕ) : ℝ) ≤ magOf c := by exact_mod_cast h
      rw [Nat.cast_mul, Nat.cast_sub hlt.le] at this
      push_cast at this
      norm_num
      exact this
  rcases le_total (magOf x.low : ℝ) q with hq | hq
  · rw [abs_of_nonpos (by linarith)]
    rcases gap x.low with g | g
    · left; linarith
    · right
      have : (magOf x.low : ℝ) / 2 ^ 23 ≤ q / 2 ^ 23 := by gcongr
      have e : q / 2 ^ 24 = q / 2 ^ 23 / 2 := by ring
      rw [e]; linarith
  · rw [abs_of_nonneg (by linarith)]
    rcases Nat.eq_zero_or_pos x.low with h0 | h0
    · left
      rw [h0, magOf_zero] at hq ⊢
      have : 0 ≤ q := by positivity
      simp only [Nat.cast_zero] at hq ⊢
      linarith
    · have h3 := h2 h0
      have hm : (magOf (x.low - 1) : ℝ) < magOf x.low := by
        exact_mod_cast magOf_strictMono (show x.low - 1 < x.low by omega)
      have g := gap (x.low - 1)
      rw [show x.low - 1 + 1 = x.low from by omega] at g
      rcases g with g | g
      · left; linarith
      · right
        have : (magOf (x.low - 1) : ℝ) / 2 ^ 23 ≤ q / 2 ^ 23 := by gcongr; linarith
        have e : q / 2 ^ 24 = q / 2 ^ 23 / 2 := by ring
        rw [e]; linarith

/-- Error of a rounding. -/
theorem rounds_error {r : ℝ} {s : Prop} {x : F32} (h : RoundsTo r s x.bits) (hf : Finite32 x.bits) :
    |real x.bits - r| ≤ |r| / 2 ^ 24 + 1 / 2 ^ 150 := by
  have hp : (0 : ℝ) < 2 ^ 149 := by positivity
  rw [(rounds_mid h hf).2.2, div_le_iff₀ hp]
  have e : (|r| / 2 ^ 24 + 1 / 2 ^ 150) * 2 ^ 149 = |r| * 2 ^ 149 / 2 ^ 24 + 1 / 2 := by
    rw [add_mul, div_mul_eq_mul_div]; congr 1; norm_num
  rw [e]
  have : 0 ≤ |r| * 2 ^ 149 / 2 ^ 24 := by positivity
  rcases rounds_units h hf with h | h <;> linarith

/-- Whole multiples of 2^-149, such as sums of floats, are rounded without an absolute error term. -/
theorem rounds_error_units {r : ℝ} {s : Prop} {x : F32} (h : RoundsTo r s x.bits) (hf : Finite32 x.bits)
    (hr : ∃ k : ℤ, r = k / 2 ^ 149) : |real x.bits - r| ≤ |r| / 2 ^ 24 := by
  have hp : (0 : ℝ) < 2 ^ 149 := by positivity
  obtain ⟨k, hk⟩ := hr
  have hq : |r| * 2 ^ 149 = (k.natAbs : ℝ) := by
    rw [hk, abs_div, abs_of_pos hp, div_mul_cancel₀ _ hp.ne']
    rw [← Int.cast_abs, Int.abs_eq_natAbs, Int.cast_natCast]
  rw [(rounds_mid h hf).2.2, div_le_iff₀ hp, div_mul_eq_mul_div]
  rcases rounds_units h hf with h | h
  · rw [hq] at h ⊢
    have : (magOf x.low : ℤ) = k.natAbs := by
      have h1 : |(((magOf x.low : ℤ) - (k.natAbs : ℤ) : ℤ) : ℝ)| ≤ 1 / 2 := by
        rw [Int.cast_sub, Int.cast_natCast, Int.cast_natCast]; exact h
      have h2 : |(((magOf x.low : ℤ) - (k.natAbs : ℤ) : ℤ) : ℝ)| < 1 := by linarith
      rw [← Int.cast_abs] at h2
      have h3 : |(magOf x.low : ℤ) - (k.natAbs : ℤ)| < 1 := by exact_mod_cast h2
      have := Int.abs_lt_one_iff.mp h3
      omega
    have : (magOf x.low : ℝ) = (k.natAbs : ℝ) := by exact_mod_cast this
    rw [this, sub_self, abs_zero]; positivity
  · exact h

theorem real_units (x : F32) : ∃ k : ℤ, real x.bits = k / 2 ^ 149 := ⟨x.signedMag, real_signedMag x⟩

theorem add_units (x y : F32) : ∃ k : ℤ, real x.bits + real y.bits = k / 2 ^ 149 :=
  ⟨x.signedMag + y.signedMag, by rw [real_signedMag, real_signedMag]; push_cast; ring⟩

theorem sub_units (x y : F32) : ∃ k : ℤ, real x.bits - real y.bits = k / 2 ^ 149 :=
  ⟨x.signedMag - y.signedMag, by rw [real_signedMag, real_signedMag]; push_cast; ring⟩

/-! ### Interpolation -/

theorem zero_real : real F32.zero.bits = 0 := by
  unfold real; rw [value_zero]; norm_num

theorem one_real : real F32.one.bits = 1 := by
  unfold real; rw [value_one]; norm_num

theorem zero_finite : Finite32 F32.zero.bits := by decide +kernel
theorem one_finite : Finite32 F32.one.bits := by decide +kernel

/-- What is needed of the two values: finite, and small enough not to overflow. -/
structure Moderate (x : F32) : Prop where
  finite : Finite32 x.bits
  small : |real x.bits| ≤ 2 ^ 126

/-- The steps of `(b - a) * t + a`. -/
structure LerpSteps (a b t : F32) : Prop where
  aF : Finite32 a.bits
  bF : Finite32 b.bits
  dR : RoundsTo (real b.bits - real a.bits) (Minus b.bits ∧ ¬ Minus a.bits) (b - a).bits
  dF : Finite32 (b - a).bits
  dE : |real (b - a).bits - (real b.bits - real a.bits)| ≤ |real b.bits - real a.bits| / 2 ^ 24
  pR : RoundsTo (real (b - a).bits * real t.bits) (¬ (Minus (b - a).bits ↔ Minus t.bits)) ((b - a) * t).bits
  pF : Finite32 ((b - a) * t).bits
  pE : |real ((b - a) * t).bits - real (b - a).bits * real t.bits| ≤ |real (b - a).bits * real t.bits| / 2 ^ 24 + 1 / 2 ^ 150
  pB : |real ((b - a) * t).bits| ≤ |real (b - a).bits|
  lR : RoundsTo (real ((b - a) * t).bits + real a.bits) (Minus ((b - a) * t).bits ∧ Minus a.bits) ((b - a) * t + a).bits
  lF : Finite32 ((b - a) * t + a).bits
  lE : |real ((b - a) * t + a).bits - (real ((b - a) * t).bits + real a.bits)| ≤ |real ((b - a) * t).bits + real a.bits| / 2 ^ 24

theorem lerp_steps {a b t : F32} (ha : Moderate a) (hb : Moderate b) (ht : Finite32 t.bits) (t0 : 0 ≤ real t.bits)
    (t1 : real t.bits ≤ 1) : LerpSteps a b t := by
  have dR := sub_roundsTo hb.finite ha.finite
  have hd : |real b.bits - real a.bits| ≤ 2 ^ 127 := by
    have := abs_sub (real b.bits) (real a.bits)
    have h1 := ha.small
    have h2 := hb.small
    have e : (2 : ℝ) ^ 127 = 2 ^ 126 + 2 ^ 126 := by norm_num
    rw [e]; linarith
  have dF : Finite32 (b - a).bits := finite_of_rounds dR (lt_of_le_of_lt hd (by unfold overflowAt; norm_num))
  have dE := rounds_error_units dR dF (sub_units b a)
  have hdB : |real (b - a).bits| ≤ 2 ^ 127 + 2 ^ 103 := by
    have h1 : |real (b - a).bits| ≤ |real (b - a).bits - (real b.bits - real a.bits)| + |real b.bits - real a.bits| := by
      have := abs_add_le (real (b - a).bits - (real b.bits - real a.bits)) (real b.bits - real a.bits)
      rwa [sub_add_cancel] at this
    have h2 : |real b.bits - real a.bits| / 2 ^ 24 ≤ 2 ^ 127 / 2 ^ 24 := by gcongr
    have e : (2 : ℝ) ^ 127 / 2 ^ 24 = 2 ^ 103 := by norm_num
    rw [e] at h2
    linarith
  have pR := mul_roundsTo dF ht
  have hpb : |real (b - a).bits * real t.bits| ≤ |real (b - a).bits| := by
    rw [abs_mul, abs_of_nonneg t0]
    exact mul_le_of_le_one_right (abs_nonneg _) t1
  have pF : Finite32 ((b - a) * t).bits := finite_of_rounds pR
    (lt_of_le_of_lt (hpb.trans hdB) (by unfold overflowAt; norm_num))
  have pE := rounds_error pR pF
  have pB : |real ((b - a) * t).bits| ≤ |real (b - a).bits| := by
    rw [abs_le] at hpb ⊢
    rcases le_total 0 (real (b - a).bits) with h0 | h0
    · rw [abs_of_nonneg h0] at hpb ⊢
      have h1 := rounds_le pR pF dF hpb.2
      have h2 := rounds_ge pR pF (neg_finite.mpr dF) (by rw [neg_real]; exact hpb.1)
      rw [neg_real] at h2
      exact ⟨h2, h1⟩
    · rw [abs_of_nonpos h0] at hpb ⊢
      rw [neg_neg] at hpb ⊢
      have h1 := rounds_ge pR pF dF hpb.1
      have h2 := rounds_le pR pF (neg_finite.mpr dF) (by rw [neg_real]; exact hpb.2)
      rw [neg_real] at h2
      exact ⟨h1, h2⟩
  have lR := add_roundsTo pF ha.finite
  have hlB : |real ((b - a) * t).bits + real a.bits| < overflowAt := by
    have h1 := abs_add_le (real ((b - a) * t).bits) (real a.bits)
    have h2 := ha.small
    have e : (2 : ℝ) ^ 127 + 2 ^ 103 + 2 ^ 126 < overflowAt := by unfold overflowAt; norm_num
    linarith
  have lF := finite_of_rounds lR hlB
  exact ⟨ha.finite, hb.finite, dR, dF, dE, pR, pF, pE, pB, lR, lF, rounds_error_units lR lF (add_units _ _)⟩

theorem lerp_sign {a b t : F32} (h : LerpSteps a b t) :
    (real a.bits ≤ real b.bits → 0 ≤ real (b - a).bits) ∧ (real b.bits ≤ real a.bits → real (b - a).bits ≤ 0) := by
  constructor <;> intro hab
  · have := rounds_ge h.dR h.dF zero_finite (by rw [zero_real]; linarith)
    rwa [zero_real] at this
  · have := rounds_le h.dR h.dF zero_finite (by rw [zero_real]; linarith)
    rwa [zero_real] at this

/-- Rising keys: the interpolated value starts at the first key, never falls and never passes the second
by more than one part in 2^23 of their difference. -/
theorem lerp_up {a b t t' : F32} (h : LerpSteps a b t) (h' : LerpSteps a b t') (t0 : 0 ≤ real t.bits)
    (htt : real t.bits ≤ real t'.bits) (hab : real a.bits ≤ real b.bits) :
    real a.bits ≤ real ((b - a) * t + a).bits ∧ real ((b - a) * t + a).bits ≤ real ((b - a) * t' + a).bits ∧
    real ((b - a) * t + a).bits ≤ real b.bits + (real b.bits - real a.bits) / 2 ^ 23 := by
  have hd := (lerp_sign h).1 hab
  have hp : real ((b - a) * t).bits ≤ real ((b - a) * t').bits :=
    rounds_mono_real h.pR h'.pR h.pF h'.pF (mul_le_mul_of_nonneg_left htt hd)
  have hp0 : 0 ≤ real ((b - a) * t).bits := by
    have := rounds_ge h.pR h.pF zero_finite (by rw [zero_real]; exact mul_nonneg hd t0)
    rwa [zero_real] at this
  refine ⟨rounds_ge h.lR h.lF h.aF (by linarith), rounds_mono_real h.lR h'.lR h.lF h'.lF (by linarith), ?_⟩
  have hpd := (abs_le.mp h.pB).2
  rw [abs_of_nonneg hd] at hpd
  have hE := (abs_le.mp h.dE).2
  rw [abs_of_nonneg (show 0 ≤ real b.bits - real a.bits by linarith)] at hE
  have e : (real b.bits - real a.bits) / 2 ^ 23 = 2 * ((real b.bits - real a.bits) / 2 ^ 24) := by ring
  have hpos : 0 ≤ (real b.bits - real a.bits) / 2 ^ 24 := div_nonneg (by linarith) (by positivity)
  rw [e]
  rcases le_total (real ((b - a) * t).bits + real a.bits) (real b.bits) with hx | hx
  · have := rounds_le h.lR h.lF h.bF hx
    linarith
  · have h1 := h.lR.nearest h.lF _ h.bF
    rw [abs_of_nonpos (show real b.bits - (real ((b - a) * t).bits + real a.bits) ≤ 0 by linarith)] at h1
    have h2 := (abs_le.mp h1).2
    linarith

/-- Falling keys. -/
theorem lerp_down {a b t t' : F32} (h : LerpSteps a b t) (h' : LerpSteps a b t') (t0 : 0 ≤ real t.bits)
    (htt : real t.bits ≤ real t'.bits) (hab : real b.bits ≤ real a.bits) :
    real ((b - a) * t + a).bits ≤ real a.bits ∧ real ((b - a) * t' + a).bits ≤ real ((b - a) * t + a).bits ∧
    real b.bits - (real a.bits - real b.bits) / 2 ^ 23 ≤ real ((b - a) * t + a).bits := by
  have hd := (lerp_sign h).2 hab
  have hp : real ((b - a) * t').bits ≤ real ((b - a) * t).bits :=
    rounds_mono_real h'.pR h.pR h'.pF h.pF (mul_le_mul_of_nonpos_left htt hd)
  have hp0 : real ((b - a) * t).bits ≤ 0 := by
    have := rounds_le h.pR h.pF zero_finite (by rw [zero_real]; exact mul_nonpos_of_nonpos_of_nonneg hd t0)
    rwa [zero_real] at this
  refine ⟨rounds_le h.lR h.lF h.aF (by linarith), rounds_mono_real h'.lR h.lR h'.lF h.lF (by linarith), ?_⟩
  have hpd := (abs_le.mp h.pB).1
  rw [abs_of_nonpos hd, neg_neg] at hpd
  have hE := (abs_le.mp h.dE).1
  rw [abs_of_nonpos (show real b.bits - real a.bits ≤ 0 by linarith)] at hE
  have e : (real a.bits - real b.bits) / 2 ^ 23 = 2 * (-(real b.bits - real a.bits) / 2 ^ 24) := by ring
  have hpos : 0 ≤ -(real b.bits - real a.bits) / 2 ^ 24 := div_nonneg (by linarith) (by positivity)
  rw [e]
  rcases le_total (real b.bits) (real ((b - a) * t).bits + real a.bits) with hx | hx
  · have := rounds_ge h.lR h.lF h.bF hx
    linarith
  · have h1 := h.lR.nearest h.lF _ h.bF
    rw [abs_of_nonneg (show 0 ≤ real b.bits - (real ((b - a) * t).bits + real a.bits) by linarith)] at h1
    have h2 := (abs_le.mp h1).1
    linarith

/-- At the keys: exact at the first, one part in 2^23 of the difference off at the second. -/
theorem lerp_ends {a b t : F32} (h : LerpSteps a b t) :
    (real t.bits = 0 → real ((b - a) * t + a).bits = real a.bits) ∧
    (real t.bits = 1 → |real ((b - a) * t + a).bits - real b.bits| ≤ |real b.bits - real a.bits| / 2 ^ 23) ∧
    (real t.bits = 1 → real (b - a).bits = real b.bits - real a.bits → real ((b - a) * t + a).bits = real b.bits) := by
  have key : real t.bits = 1 → real ((b - a) * t).bits = real (b - a).bits := fun ht =>
    rounds_exact h.pR h.pF h.dF (by rw [ht, mul_one])
  refine ⟨fun ht => ?_, fun ht => ?_, fun ht hd => ?_⟩
  · have : real ((b - a) * t).bits = 0 := by
      have := rounds_exact h.pR h.pF zero_finite (by rw [ht, mul_zero, zero_real])
      rwa [zero_real] at this
    exact rounds_exact h.lR h.lF h.aF (by rw [this, zero_add])
  · have h1 := h.lR.nearest h.lF _ h.bF
    rw [key ht] at h1
    have h2 := h.dE
    have e : |real b.bits - real a.bits| / 2 ^ 23 = 2 * (|real b.bits - real a.bits| / 2 ^ 24) := by ring
    have h3 : |real b.bits - (real (b - a).bits + real a.bits)| = |real (b - a).bits - (real b.bits - real a.bits)| := by
      rw [← abs_neg]; congr 1; ring
    rw [h3] at h1
    have h4 := abs_add_le (real ((b - a) * t + a).bits - (real (b - a).bits + real a.bits))
      (real (b - a).bits - (real b.bits - real a.bits))
    rw [show real ((b - a) * t + a).bits - (real (b - a).bits + real a.bits) + (real (b - a).bits - (real b.bits - real a.bits))
      = real ((b - a) * t + a).bits - real b.bits from by ring] at h4
    rw [e]; linarith
  · exact rounds_exact h.lR h.lF h.bF (by rw [key ht, hd]; ring)

/-- Distance from the exact value. -/
theorem lerp_error {a b t : F32} (h : LerpSteps a b t) (t0 : 0 ≤ real t.bits) (t1 : real t.bits ≤ 1) {M : ℝ}
    (ha : |real a.bits| ≤ M) (hb : |real b.bits| ≤ M) :
    |real ((b - a) * t + a).bits - ((real b.bits - real a.bits) * real t.bits + real a.bits)| ≤ M / 2 ^ 21 + 1 / 2 ^ 150 := by
  have hM : 0 ≤ M := (abs_nonneg _).trans ha
  obtain ⟨-, -, -, -, dE, -, -, pE, pB, -, -, lE⟩ := h
  have hD : |real b.bits - real a.bits| ≤ 2 * M := by
    have := abs_sub (real b.bits) (real a.bits); linarith
  generalize real ((b - a) * t + a).bits = L at *
  generalize real ((b - a) * t).bits = P at *
  generalize real (b - a).bits = D at *
  generalize real a.bits = A at *
  generalize real b.bits = B at *
  generalize real t.bits = T at *
  have d1 : |D - (B - A)| ≤ 2 * M / 2 ^ 24 := dE.trans (by gcongr)
  have d2 : |D| ≤ 2 * M + 2 * M / 2 ^ 24 := by
    have := abs_add_le (D - (B - A)) (B - A)
    rw [sub_add_cancel] at this; linarith
  have dT : |D * T| ≤ 2 * M + 2 * M / 2 ^ 24 := by
    rw [abs_mul, abs_of_nonneg t0]
    exact (mul_le_of_le_one_right (abs_nonneg _) t1).trans d2
  have p1 : |P - D * T| ≤ (2 * M + 2 * M / 2 ^ 24) / 2 ^ 24 + 1 / 2 ^ 150 := pE.trans (by gcongr)
  have l1 : |P + A| ≤ 3 * M + 2 * M / 2 ^ 24 := by
    have := abs_add_le P A; linarith
  have l2 : |L - (P + A)| ≤ (3 * M + 2 * M / 2 ^ 24) / 2 ^ 24 := lE.trans (by gcongr)
  have dT2 : |(D - (B - A)) * T| ≤ 2 * M / 2 ^ 24 := by
    rw [abs_mul, abs_of_nonneg t0]
    exact (mul_le_of_le_one_right (abs_nonneg _) t1).trans d1
  have e : L - ((B - A) * T + A) = (L - (P + A)) + (P - D * T) + (D - (B - A)) * T := by ring
  rw [e]
  refine (abs_add_three _ _ _).trans ?_
  have : (3 * M + 2 * M / 2 ^ 24) / 2 ^ 24 + ((2 * M + 2 * M / 2 ^ 24) / 2 ^ 24 + 1 / 2 ^ 150) + 2 * M / 2 ^ 24 ≤
      M / 2 ^ 21 + 1 / 2 ^ 150 := by
    have : M / 2 ^ 21 - (3 * M + 2 * M / 2 ^ 24) / 2 ^ 24 - (2 * M + 2 * M / 2 ^ 24) / 2 ^ 24 - 2 * M / 2 ^ 24 =
      M * (1 / 2 ^ 24 - 4 / 2 ^ 48) := by ring
    have h2 : (0 : ℝ) ≤ M * (1 / 2 ^ 24 - 4 / 2 ^ 48) := mul_nonneg hM (by norm_num)
    linarith
  linarith

/-! ### The fraction between two keys -/

/-- The steps of `(r - t0) / (t1 - t0)`. -/
theorem fraction_steps {t0 t1 r : F32} (h0 : Finite32 t0.bits) (h1 : Finite32 t1.bits) (hr : Finite32 r.bits)
    (l0 : 0 ≤ real t0.bits) (l1 : real t1.bits ≤ 1) (hlt : real t0.bits < real t1.bits)
    (hr0 : real t0.bits ≤ real r.bits) (hr1 : real r.bits ≤ real t1.bits) :
    Finite32 (r - t0).bits ∧ Finite32 (t1 - t0).bits ∧ Finite32 ((r - t0) / (t1 - t0)).bits ∧
    0 < real (t1 - t0).bits ∧ 0 ≤ real (r - t0).bits ∧ real (r - t0).bits ≤ real (t1 - t0).bits ∧
    RoundsTo (real (r - t0).bits / real (t1 - t0).bits) (¬ (Minus (r - t0).bits ↔ Minus (t1 - t0).bits))
      ((r - t0) / (t1 - t0)).bits ∧
    0 ≤ real ((r - t0) / (t1 - t0)).bits ∧ real ((r - t0) / (t1 - t0)).bits ≤ 1 ∧
    |real (r - t0).bits - (real r.bits - real t0.bits)| ≤ (real r.bits - real t0.bits) / 2 ^ 24 ∧
    |real (t1 - t0).bits - (real t1.bits - real t0.bits)| ≤ (real t1.bits - real t0.bits) / 2 ^ 24 := by
  have hov : (1 : ℝ) < overflowAt := by unfold overflowAt; norm_num
  have nR := sub_roundsTo hr h0
  have dR := sub_roundsTo h1 h0
  have nF := finite_of_rounds nR (by rw [abs_of_nonneg (by linarith)]; linarith)
  have dF := finite_of_rounds dR (by rw [abs_of_nonneg (by linarith)]; linarith)
  have nE := rounds_error_units nR nF (sub_units _ _)
  have dE := rounds_error_units dR dF (sub_units _ _)
  rw [abs_of_nonneg (show 0 ≤ real r.bits - real t0.bits by linarith)] at nE
  rw [abs_of_nonneg (show 0 ≤ real t1.bits - real t0.bits by linarith)] at dE
  have dpos : 0 < real (t1 - t0).bits := by
    have := (abs_le.mp dE).1
    have h2 : (real t1.bits - real t0.bits) / 2 ^ 24 < real t1.bits - real t0.bits :=
      div_lt_self (by linarith) (by norm_num)
    linarith
  have n0 : 0 ≤ real (r - t0).bits := by
    have := rounds_ge nR nF zero_finite (by rw [zero_real]; linarith)
    rwa [zero_real] at this
  have nd : real (r - t0).bits ≤ real (t1 - t0).bits := rounds_mono_real nR dR nF dF (by linarith)
  have fR := div_roundsTo nF dF dpos.ne'
  have q0 : 0 ≤ real (r - t0).bits / real (t1 - t0).bits := div_nonneg n0 dpos.le
  have q1 : real (r - t0).bits / real (t1 - t0).bits ≤ 1 := (div_le_one dpos).mpr nd
  have fF := finite_of_rounds fR (by rw [abs_of_nonneg q0]; linarith)
  have f0 := rounds_ge fR fF zero_finite (by rw [zero_real]; exact q0)
  have f1 := rounds_le fR fF one_finite (by rw [one_real]; exact q1)
  rw [zero_real] at f0
  rw [one_real] at f1
  exact ⟨nF, dF, fF, dpos, n0, nd, fR, f0, f1, nE, dE⟩

theorem fraction_mono {t0 t1 r r' : F32} (h0 : Finite32 t0.bits) (h1 : Finite32 t1.bits) (hr : Finite32 r.bits)
    (hr' : Finite32 r'.bits) (l0 : 0 ≤ real t0.bits) (l1 : real t1.bits ≤ 1) (hlt : real t0.bits < real t1.bits)
    (hr0 : real t0.bits ≤ real r.bits) (hrr : real r.bits ≤ real r'.bits) (hr1 : real r'.bits ≤ real t1.bits) :
    real ((r - t0) / (t1 - t0)).bits ≤ real ((r' - t0) / (t1 - t0)).bits := by
  obtain ⟨nF, -, fF, dpos, -, -, fR, -⟩ := fraction_steps h0 h1 hr l0 l1 hlt hr0 (hrr.trans hr1)
  obtain ⟨nF', -, fF', -, -, -, fR', -⟩ := fraction_steps h0 h1 hr' l0 l1 hlt (hr0.trans hrr) hr1
  refine rounds_mono_real fR fR' fF fF' ?_
  have := rounds_mono_real (sub_roundsTo hr h0) (sub_roundsTo hr' h0) nF nF' (by linarith)
  exact div_le_div_of_nonneg_right this dpos.le

theorem fraction_ends {t0 t1 r : F32} (h0 : Finite32 t0.bits) (h1 : Finite32 t1.bits) (hr : Finite32 r.bits)
    (l0 : 0 ≤ real t0.bits) (l1 : real t1.bits ≤ 1) (hlt : real t0.bits < real t1.bits) :
    (real r.bits = real t0.bits → real ((r - t0) / (t1 - t0)).bits = 0) ∧
    (real r.bits = real t1.bits → real ((r - t0) / (t1 - t0)).bits = 1) := by
  constructor <;> intro he
  · obtain ⟨nF, -, fF, dpos, -, -, fR, -⟩ := fraction_steps h0 h1 hr l0 l1 hlt he.ge (by linarith)
    have : real (r - t0).bits = 0 := by
      have := rounds_exact (sub_roundsTo hr h0) nF zero_finite (by rw [zero_real]; linarith)
      rwa [zero_real] at this
    have := rounds_exact fR fF zero_finite (by rw [this, zero_div, zero_real])
    rwa [zero_real] at this
  · obtain ⟨nF, dF, fF, dpos, -, nd, fR, -⟩ := fraction_steps h0 h1 hr l0 l1 hlt (by linarith) he.le
    have h2 := rounds_mono_real (sub_roundsTo h1 h0) (sub_roundsTo hr h0) dF nF (by linarith)
    have : real (r - t0).bits = real (t1 - t0).bits := le_antisymm nd h2
    have := rounds_exact fR fF one_finite (by rw [this, div_self dpos.ne', one_real])
    rwa [one_real] at this

theorem fraction_error {t0 t1 r : F32} (h0 : Finite32 t0.bits) (h1 : Finite32 t1.bits) (hr : Finite32 r.bits)
    (l0 : 0 ≤ real t0.bits) (l1 : real t1.bits ≤ 1) (hlt : real t0.bits < real t1.bits)
    (hr0 : real t0.bits ≤ real r.bits) (hr1 : real r.bits ≤ real t1.bits) :
    |real ((r - t0) / (t1 - t0)).bits - (real r.bits - real t0.bits) / (real t1.bits - real t0.bits)| ≤ 1 / 2 ^ 22 := by
  obtain ⟨-, -, fF, dpos, n0, nd, fR, f0, f1, nE, dE⟩ := fraction_steps h0 h1 hr l0 l1 hlt hr0 hr1
  have fE := rounds_error fR fF
  have q0 : 0 ≤ real (r - t0).bits / real (t1 - t0).bits := div_nonneg n0 dpos.le
  have q1 : real (r - t0).bits / real (t1 - t0).bits ≤ 1 := (div_le_one dpos).mpr nd
  rw [abs_of_nonneg q0] at fE
  have hN : 0 ≤ real r.bits - real t0.bits := by linarith
  have hD : 0 < real t1.bits - real t0.bits := by linarith
  have hND : real r.bits - real t0.bits ≤ real t1.bits - real t0.bits := by linarith
  generalize real ((r - t0) / (t1 - t0)).bits = f at *
  generalize real (r - t0).bits = n at *
  generalize real (t1 - t0).bits = d at *
  generalize real r.bits - real t0.bits = N at *
  generalize real t1.bits - real t0.bits = D at *
  have e : n / d - N / D = ((n - N) * D - N * (d - D)) / (d * D) := by field_simp; ring
  have hmain : |n / d - N / D| ≤ 3 / 2 ^ 24 - 2 / 2 ^ 48 := by
    rw [e, abs_div, abs_of_pos (mul_pos dpos hD), div_le_iff₀ (mul_pos dpos hD)]
    have a1 : |(n - N) * D| ≤ D / 2 ^ 24 * D := by
      rw [abs_mul, abs_of_pos hD]
      exact mul_le_mul_of_nonneg_right (nE.trans (by gcongr)) hD.le
    have a2 : |N * (d - D)| ≤ D * (D / 2 ^ 24) := by
      rw [abs_mul, abs_of_nonneg hN]
      exact mul_le_mul hND dE (abs_nonneg _) hD.le
    have a3 := abs_sub ((n - N) * D) (N * (d - D))
    have a4 : D - D / 2 ^ 24 ≤ d := by have := (abs_le.mp dE).1; linarith
    have a5 : (D - D / 2 ^ 24) * D ≤ d * D := mul_le_mul_of_nonneg_right a4 hD.le
    have a6 : (3 / 2 ^ 24 - 2 / 2 ^ 48) * ((D - D / 2 ^ 24) * D) ≤ (3 / 2 ^ 24 - 2 / 2 ^ 48) * (d * D) :=
      mul_le_mul_of_nonneg_left a5 (by norm_num)
    have a7 : D / 2 ^ 24 * D + D * (D / 2 ^ 24) ≤ (3 / 2 ^ 24 - 2 / 2 ^ 48) * ((D - D / 2 ^ 24) * D) := by
      have hDD : 0 ≤ D * D := by positivity
      have : (3 / 2 ^ 24 - 2 / 2 ^ 48) * ((D - D / 2 ^ 24) * D) - (D / 2 ^ 24 * D + D * (D / 2 ^ 24)) =
        D * D * (1 / 2 ^ 24 - 5 / 2 ^ 48 + 2 / 2 ^ 72) := by ring
      have h3 : 0 ≤ D * D * (1 / 2 ^ 24 - 5 / 2 ^ 48 + 2 / 2 ^ 72) := mul_nonneg hDD (by norm_num)
      linarith
    linarith
  have hf : |f - n / d| ≤ 1 / 2 ^ 24 + 1 / 2 ^ 150 := fE.trans (by gcongr)
  have := abs_add_le (f - n / d) (n / d - N / D)
  rw [sub_add_sub_cancel] at this
  have e2 : (1 : ℝ) / 2 ^ 24 + 1 / 2 ^ 150 + (3 / 2 ^ 24 - 2 / 2 ^ 48) ≤ 1 / 2 ^ 22 := by norm_num
  linarith

end Ozz.F32
