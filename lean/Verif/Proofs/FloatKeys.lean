import Verif.Proofs.FloatNorm
import Verif.Proofs.KeysExact
import Mathlib.Tactic.IntervalCases

/-! Quaternion decompression in single precision. -/

namespace Ozz.F32

open Ieee Spec

/-- Whole numbers below 2^24 are floats. -/
theorem exists_nat32 {n : Nat} (hn : n < 2 ^ 24) : ∃ x : F32, Finite32 x.bits ∧ val x = n := by
  rcases Nat.eq_zero_or_pos n with rfl | hpos
  · exact ⟨F32.zero, zero_finite, by rw [val, zero_real]; simp⟩
  · set k := Nat.log2 n with hk
    have h1 : 2 ^ k ≤ n := Nat.log2_self_le hpos.ne'
    have h2 : n < 2 ^ (k + 1) := Nat.lt_log2_self
    have h3 : k ≤ 23 := by
      by_contra h
      have : 2 ^ 24 ≤ 2 ^ k := Nat.pow_le_pow_right (by norm_num) (by omega)
      omega
    have hsplit : 2 ^ k * 2 ^ (23 - k) = 2 ^ 23 := by rw [← Nat.pow_add]; congr 1; omega
    have hm1 : 2 ^ 23 ≤ n * 2 ^ (23 - k) := by
      rw [← hsplit]; exact Nat.mul_le_mul_right _ h1
    have hm2 : n * 2 ^ (23 - k) < 2 ^ 24 := by
      have : n * 2 ^ (23 - k) < 2 ^ (k + 1) * 2 ^ (23 - k) := Nat.mul_lt_mul_of_pos_right h2 (by positivity)
      rw [Nat.pow_succ, Nat.mul_right_comm, hsplit] at this
      omega
    have hmul : n * 2 ^ (23 - k) * 2 ^ (k + 126) = n * 2 ^ 149 := by
      rw [Nat.mul_assoc, ← Nat.pow_add]; congr 2; omega
    generalize n * 2 ^ (23 - k) = m at hm1 hm2 hmul
    have hlow : (k + 126) * 2 ^ 23 + m < 2 ^ 31 := by omega
    refine ⟨pack false ((k + 126) * 2 ^ 23 + m), ?_, ?_⟩
    · rw [finite32_iff, pack_low _ hlow]; omega
    · rw [val, real_eq_signed, pack_negative _ hlow]
      unfold mag
      rw [pack_low _ hlow]
      have : magOf ((k + 126) * 2 ^ 23 + m) = n * 2 ^ 149 := by
        unfold magOf
        rw [if_neg (by omega), ← hmul]
        have e1 : ((k + 126) * 2 ^ 23 + m) / 2 ^ 23 = k + 127 := by omega
        have e2 : 2 ^ 23 + ((k + 126) * 2 ^ 23 + m) % 2 ^ 23 = m := by omega
        rw [e1, e2]
        rfl
      rw [this, Nat.cast_mul, Nat.cast_pow, Nat.cast_ofNat]
      simp only [Bool.false_eq_true, if_false, one_mul]
      rw [mul_div_assoc, div_self (by positivity), mul_one]

theorem ofNat_ok {n : Nat} (hn : n < 2 ^ 24) : Finite32 (ofNat n).bits ∧ val (ofNat n) = n := by
  have h := ofNat_roundsTo n
  obtain ⟨x, hx, hv⟩ := exists_nat32 hn
  have hf := finite_of_rounds h (by
    refine small_finite ?_
    rw [abs_of_nonneg (by positivity)]
    have : (n : ℝ) < 2 ^ 24 := by exact_mod_cast hn
    linarith [show (2 : ℝ) ^ 24 ≤ 2 ^ 127 by norm_num])
  have := rounds_exact h hf hx hv.symm
  exact ⟨hf, this.trans hv⟩

end Ozz.F32

namespace Ozz.Keys

open Ieee Spec F32

theorem scale_val : Finite32 (KeyOps.scale : F32).bits ∧ val (KeyOps.scale : F32) = 11863645 / 2 ^ 38 := by
  have e : (KeyOps.scale : F32) = ⟨0x3835065d#32⟩ := by decide +kernel
  rw [e]
  refine ⟨by decide +kernel, ?_⟩
  unfold val real
  have : value32 (0x3835065d#32) = 11863645 / 2 ^ 38 := by decide +kernel
  rw [this]; norm_num

theorem offset_val : Finite32 (KeyOps.offset : F32).bits ∧ val (KeyOps.offset : F32) = -11863283 / 2 ^ 24 := by
  have e : (KeyOps.offset : F32) = ⟨0xbf3504f3#32⟩ := by decide +kernel
  rw [e]
  refine ⟨by decide +kernel, ?_⟩
  unfold val real
  have : value32 (0xbf3504f3#32) = -11863283 / 2 ^ 24 := by decide +kernel
  rw [this]; norm_num

theorem sqrt2_bounds : 1.41421356237 ≤ √2 ∧ √2 ≤ 1.41421356238 := by
  constructor
  · apply Real.le_sqrt_of_sq_le; norm_num
  · rw [Real.sqrt_le_left (by norm_num)]; norm_num

/-- One stored component. -/
theorem component_ok {v : Nat} (hv : v ≤ 32767) :
    Finite32 ((KeyOps.scale : F32) * F32.ofNat v + KeyOps.offset).bits ∧
    |val ((KeyOps.scale : F32) * F32.ofNat v + KeyOps.offset) - dequantised v| ≤ 3 / 2 ^ 24 := by
  obtain ⟨sF, sV⟩ := scale_val
  obtain ⟨oF, oV⟩ := offset_val
  obtain ⟨nF, nV⟩ := ofNat_ok (n := v) (by omega)
  have hv0 : (0 : ℝ) ≤ v := by positivity
  have hv1 : (v : ℝ) ≤ 32767 := by exact_mod_cast hv
  have hp0 : 0 ≤ val (KeyOps.scale : F32) * val (F32.ofNat v) := by rw [sV, nV]; positivity
  have hp1 : val (KeyOps.scale : F32) * val (F32.ofNat v) ≤ 1.4142136 := by
    rw [sV, nV]
    have : (11863645 : ℝ) / 2 ^ 38 * v ≤ 11863645 / 2 ^ 38 * 32767 := by gcongr
    refine this.trans (by norm_num)
  obtain ⟨pF, pE⟩ := mul_ok sF nF (by
    rw [abs_of_nonneg hp0]; exact hp1.trans (by norm_num))
  rw [abs_of_nonneg hp0, abs_le] at pE
  have heta : (1 : ℝ) / 2 ^ 150 ≤ 1 / 2 ^ 100 := by norm_num
  have hsum : |val ((KeyOps.scale : F32) * F32.ofNat v) + val (KeyOps.offset : F32)| ≤ 0.7072 := by
    rw [abs_le, oV]
    generalize (1 : ℝ) / 2 ^ 150 = η at *
    constructor <;> norm_num at * <;> linarith
  obtain ⟨cF, cE⟩ := add_ok pF oF (hsum.trans (by norm_num))
  refine ⟨cF, ?_⟩
  have cE' := cE.trans (div_le_div_of_nonneg_right hsum (by positivity))
  rw [abs_le] at cE' ⊢
  have hs : |val (KeyOps.scale : F32) * val (F32.ofNat v) - √2 / 32767 * v| ≤ 0.51 / 2 ^ 24 := by
    rw [sV, nV, ← sub_mul, abs_mul, abs_of_nonneg hv0]
    have h1 : |(11863645 : ℝ) / 2 ^ 38 - √2 / 32767| ≤ 0.51 / 2 ^ 24 / 32767 := by
      obtain ⟨b1, b2⟩ := sqrt2_bounds
      rw [abs_le]
      constructor <;> norm_num at * <;> linarith
    calc _ ≤ 0.51 / 2 ^ 24 / 32767 * (32767 : ℝ) := mul_le_mul h1 hv1 hv0 (by positivity)
      _ = 0.51 / 2 ^ 24 := by norm_num
  rw [abs_le] at hs
  have ho : |val (KeyOps.offset : F32) + √2 / 2| ≤ 0.21 / 2 ^ 24 := by
    obtain ⟨b1, b2⟩ := sqrt2_bounds
    rw [oV, abs_le]
    constructor <;> norm_num at * <;> linarith
  rw [abs_le] at ho
  have hd : dequantised v = √2 / 32767 * v - √2 / 2 := by unfold dequantised; ring
  rw [hd]
  generalize val ((KeyOps.scale : F32) * F32.ofNat v + KeyOps.offset) = C at *
  generalize val ((KeyOps.scale : F32) * F32.ofNat v) = P at *
  generalize val (KeyOps.scale : F32) * val (F32.ofNat v) = Q at *
  generalize val (KeyOps.offset : F32) = O at *
  generalize (1 : ℝ) / 2 ^ 150 = η at *
  constructor <;> norm_num at * <;> linarith

theorem dequantised_abs {v : Nat} (hv : v ≤ 32767) : |dequantised v| ≤ 0.70710679 := by
  have hv0 : (0 : ℝ) ≤ v := by positivity
  have hv1 : (v : ℝ) ≤ 32767 := by exact_mod_cast hv
  have h : |(v : ℝ) / 32767 - 1 / 2| ≤ 1 / 2 := by
    rw [abs_le]; constructor <;> linarith
  unfold dequantised
  rw [abs_mul, abs_of_nonneg (Real.sqrt_nonneg 2)]
  calc _ ≤ 1.41421356238 * (1 / 2 : ℝ) := mul_le_mul sqrt2_bounds.2 h (abs_nonneg _) (by norm_num)
    _ ≤ 0.70710679 := by norm_num

theorem fmax_zero_ok {x : F32} (hx : Finite32 x.bits) :
    Finite32 (F32.fmax F32.zero x).bits ∧ val (F32.fmax F32.zero x) = max 0 (val x) := by
  have hz : F32.zero.isNaN = false := (finite_cases zero_finite).1
  have hn := (finite_cases hx).1
  have hlt : F32.lt F32.zero x = true ↔ 0 < val x := by
    rw [lt_iff_rank hz hn, ← ext_lt_iff (not_nan_of_finite zero_finite) (not_nan_of_finite hx), ext_finite zero_finite,
      ext_finite hx, EReal.coe_lt_coe_iff, zero_real]
  unfold F32.fmax
  rw [hz, hn]
  simp only [Bool.false_eq_true, if_false]
  split
  · next h => exact ⟨hx, by rw [max_eq_right (hlt.mp h).le]⟩
  · next h =>
    refine ⟨zero_finite, ?_⟩
    rw [max_eq_left (not_lt.mp fun h' => h (hlt.mpr h')), val, zero_real]

theorem value_le (k : QuatKey) (j : Fin 3) : (k.unpack.value j).toNat ≤ 32767 := by
  obtain ⟨a1, a2, a3, a4, a5⟩ := unpack_toNat k
  fin_cases j
  · show k.unpack.v0.toNat ≤ _; rw [a3]; omega
  · show k.unpack.v1.toNat ≤ _; rw [a4]; omega
  · show k.unpack.v2.toNat ≤ _
    have h0 := k.w0.isLt
    have h1 := k.w1.isLt
    have h2 := k.w2.isLt
    rw [a5]; unfold QuatKey.num; omega

/-- The quaternion of a key in single precision: the stored components are within three units of 2^-24, and the norm is
within 2^-20 of one if the stored components leave room for a fourth. -/
theorem decompress32_ok (k : QuatKey) :
    (∀ x, Finite32 (k.decompress x : F32).bits) ∧
    (∀ j : Fin 3, |val (k.decompress (k.unpack.largest.succAbove j) : F32) - dequantised (k.unpack.value j).toNat| ≤ 3 / 2 ^ 24) ∧
    (k.unpack.sign = 0#16 → 0 ≤ val (k.decompress k.unpack.largest : F32)) ∧
    (k.unpack.sign ≠ 0#16 → val (k.decompress k.unpack.largest : F32) ≤ 0) ∧
    (storedNorm k.unpack ≤ 1 → |val (k.decompress 0 : F32) ^ 2 + val (k.decompress 1 : F32) ^ 2 + val (k.decompress 2 : F32) ^ 2 +
      val (k.decompress 3 : F32) ^ 2 - 1| ≤ 1 / 2 ^ 20) := by
  have hne : ∀ j : Fin 3, k.unpack.largest.succAbove j ≠ k.unpack.largest := fun j => Fin.succAbove_ne _ _
  -- the stored components
  set c : Fin 4 → F32 := setAt (fun i => KeyOps.scale * KeyOps.ofU32 (k.unpack.value (mapping k.unpack.largest i)) + KeyOps.offset)
    k.unpack.largest KeyOps.zero with hc
  have cL : c k.unpack.largest = F32.zero := by simp only [hc, setAt, if_true]; rfl
  have cJ : ∀ j : Fin 3, Finite32 (c (k.unpack.largest.succAbove j)).bits ∧
      |val (c (k.unpack.largest.succAbove j)) - dequantised (k.unpack.value j).toNat| ≤ 3 / 2 ^ 24 := by
    intro j
    have e : c (k.unpack.largest.succAbove j) = KeyOps.scale * F32.ofNat (k.unpack.value j).toNat + KeyOps.offset := by
      simp only [hc, setAt, if_neg (hne j), mapping_succAbove]
      rfl
    rw [e]
    exact component_ok (value_le k j)
  have cF : ∀ x, Finite32 (c x).bits := by
    intro x
    rcases eq_or_succAbove k.unpack.largest x with rfl | ⟨j, rfl⟩
    · rw [cL]; exact zero_finite
    · exact (cJ j).1
  set D := val (c 0) ^ 2 + val (c 1) ^ 2 + val (c 2) ^ 2 + val (c 3) ^ 2 with hD
  have cD : D = val (c (k.unpack.largest.succAbove 0)) ^ 2 + val (c (k.unpack.largest.succAbove 1)) ^ 2 +
      val (c (k.unpack.largest.succAbove 2)) ^ 2 := by
    have := sum_split (fun i => val (c i) ^ 2) k.unpack.largest
    simp only [cL] at this
    rw [hD, this, val, zero_real]
    ring
  have hsq : ∀ j : Fin 3, |val (c (k.unpack.largest.succAbove j)) ^ 2 - dequantised (k.unpack.value j).toNat ^ 2| ≤ 4.3 / 2 ^ 24 := by
    intro j
    have h1 := (cJ j).2
    have h2 := dequantised_abs (value_le k j)
    rw [show val (c (k.unpack.largest.succAbove j)) ^ 2 - dequantised (k.unpack.value j).toNat ^ 2 =
      (val (c (k.unpack.largest.succAbove j)) - dequantised (k.unpack.value j).toNat) *
      ((val (c (k.unpack.largest.succAbove j)) - dequantised (k.unpack.value j).toNat) + 2 * dequantised (k.unpack.value j).toNat) by ring,
      abs_mul]
    have h3 := abs_add_le (val (c (k.unpack.largest.succAbove j)) - dequantised (k.unpack.value j).toNat)
      (2 * dequantised (k.unpack.value j).toNat)
    rw [abs_mul, abs_of_pos (show (0 : ℝ) < 2 by norm_num)] at h3
    refine (mul_le_mul h1 (h3.trans (show _ ≤ (1.43 : ℝ) from ?_)) (abs_nonneg _) (by norm_num)).trans (by norm_num)
    norm_num at *
    linarith
  have hDs : |D - storedNorm k.unpack| ≤ 12.9 / 2 ^ 24 := by
    have s0 := abs_le.mp (hsq 0)
    have s1 := abs_le.mp (hsq 1)
    have s2 := abs_le.mp (hsq 2)
    have e : storedNorm k.unpack = dequantised (k.unpack.value 0).toNat ^ 2 + dequantised (k.unpack.value 1).toNat ^ 2 +
      dequantised (k.unpack.value 2).toNat ^ 2 := rfl
    rw [cD, e, abs_le]
    constructor <;> linarith
  have hD0 : 0 ≤ D := by rw [hD]; positivity
  have hD2 : D ≤ 2 := by
    have hj : ∀ j : Fin 3, dequantised (k.unpack.value j).toNat ^ 2 ≤ 0.51 := by
      intro j
      have := dequantised_abs (value_le k j)
      rw [← sq_abs]
      calc _ ≤ (0.70710679 : ℝ) ^ 2 := by gcongr
        _ ≤ 0.51 := by norm_num
    have e : storedNorm k.unpack = dequantised (k.unpack.value 0).toNat ^ 2 + dequantised (k.unpack.value 1).toNat ^ 2 +
      dequantised (k.unpack.value 2).toNat ^ 2 := rfl
    have := (abs_le.mp hDs).2
    have j0 := hj 0
    have j1 := hj 1
    have j2 := hj 2
    norm_num at *
    linarith
  obtain ⟨nF, n0, nE⟩ := norm2_ok (cF 0) (cF 1) (cF 2) (cF 3) (by rw [← hD]; exact hD2.trans (by norm_num))
  rw [← hD] at nE
  set dot := c 0 * c 0 + c 1 * c 1 + c 2 * c 2 + c 3 * c 3 with hdot
  have h150 : (5 : ℝ) / 2 ^ 150 ≤ 1 / 2 ^ 100 := by norm_num
  have h1501 : (1 : ℝ) / 2 ^ 150 ≤ 1 / 2 ^ 100 := by norm_num
  have nE' : |val dot - D| ≤ 8.3 / 2 ^ 24 := by
    refine nE.trans ?_
    generalize (5 : ℝ) / 2 ^ 150 = η at *
    norm_num at *
    linarith
  have hone : val F32.one = 1 := one_real
  rw [abs_le] at nE nE'
  have hdotB : |1 - val dot| ≤ 2 := by rw [abs_le]; constructor <;> norm_num at * <;> linarith
  obtain ⟨sF, sE⟩ := sub_ok one_finite nF (by
    change |val F32.one - val dot| ≤ _
    rw [hone]; exact hdotB.trans (by norm_num))
  change Finite32 (F32.one - dot).bits at sF
  change |val (F32.one - dot) - (val F32.one - val dot)| ≤ |val F32.one - val dot| / 2 ^ 24 at sE
  rw [hone] at sE
  obtain ⟨mF, mV⟩ := fmax_zero_ok sF
  set ww := F32.fmax F32.zero (F32.one - dot) with hww
  have ww0 : 0 ≤ val ww := by rw [mV]; exact le_max_left _ _
  have ww3 : val ww ≤ 3 := by
    rw [mV]
    refine max_le (by norm_num) ?_
    have h1 := sE.trans (div_le_div_of_nonneg_right hdotB (by positivity))
    rw [abs_le] at h1
    have := (abs_le.mp hdotB).2
    norm_num at *
    linarith
  have hsq3 : √(val ww) ≤ 2 := by rw [Real.sqrt_le_left (by norm_num)]; linarith
  obtain ⟨wF, wE, wP⟩ := sqrt_ok mF ww0 (hsq3.trans (by norm_num))
  set w := F32.sqrt ww with hw
  have dL : (k.decompress k.unpack.largest : F32) = if k.unpack.sign = 0#16 then w else -w := by
    show setAt c k.unpack.largest _ k.unpack.largest = _
    simp only [setAt, if_true]
    rfl
  have dJ : ∀ j : Fin 3, (k.decompress (k.unpack.largest.succAbove j) : F32) = c (k.unpack.largest.succAbove j) := by
    intro j
    show setAt c k.unpack.largest _ (k.unpack.largest.succAbove j) = _
    simp only [setAt, if_neg (hne j)]
  refine ⟨?_, fun j => by rw [dJ]; exact (cJ j).2, fun h => by rw [dL, if_pos h]; exact wP, fun h => ?_, fun hst => ?_⟩
  · intro x
    rcases eq_or_succAbove k.unpack.largest x with rfl | ⟨j, rfl⟩
    · rw [dL]
      split
      · exact wF
      · exact neg_finite.mpr wF
    · rw [dJ]; exact (cJ j).1
  · rw [dL, if_neg h, show val (-w) = -val w from neg_real w]
    linarith [wP]
  · have hsum := sum_split (fun i => val (k.decompress i : F32) ^ 2) k.unpack.largest
    simp only [dJ, dL] at hsum
    rw [hsum, ← cD]
    have hw2 : val (if k.unpack.sign = 0#16 then w else -w) ^ 2 = val w ^ 2 := by
      split
      · rfl
      · rw [show val (-w) = -val w from neg_real w, neg_sq]
    rw [hw2]
    -- the root
    have hR := Real.mul_self_sqrt ww0
    have hR0 := Real.sqrt_nonneg (val ww)
    have hwsq : |val w ^ 2 - val ww| ≤ val ww * (2.1 / 2 ^ 24) + 1 / 2 ^ 90 := by
      rw [show val w ^ 2 - val ww = (val w - √(val ww)) * ((val w - √(val ww)) + 2 * √(val ww)) by linear_combination hR,
        abs_mul]
      generalize √(val ww) = R at *
      have h1 := abs_add_le (val w - R) (2 * R)
      rw [abs_of_nonneg (show 0 ≤ 2 * R by linarith)] at h1
      have h2 : |val w - R| ≤ R / 2 ^ 24 + 1 / 2 ^ 100 := wE.trans (by linarith)
      have h3 : |val w - R + 2 * R| ≤ R * (2 + 1 / 2 ^ 24) + 1 / 2 ^ 100 := by linarith
      refine (mul_le_mul h2 h3 (abs_nonneg _) (by positivity)).trans ?_
      rw [← hR]
      have h4 : R * (1 / 2 ^ 100) ≤ 2 * (1 / 2 ^ 100) := mul_le_mul_of_nonneg_right hsq3 (by positivity)
      have h5 : 0 ≤ R * R := mul_self_nonneg R
      norm_num at *
      nlinarith
    rw [abs_le] at hwsq hDs ⊢
    -- room or not
    rcases le_total (val dot) 1 with hle | hle
    · have hs1 : |1 - val dot| ≤ 1 := by rw [abs_le]; constructor <;> linarith
      have h1 := sE.trans (div_le_div_of_nonneg_right hs1 (by positivity))
      rw [abs_le] at h1
      have hsub0 : 0 ≤ val (F32.one - dot) := by
        have := rounds_ge (sub_roundsTo one_finite nF) sF zero_finite (by rw [zero_real, one_real]; linarith)
        rwa [zero_real] at this
      rw [max_eq_right hsub0] at mV
      rw [mV] at hwsq ww3
      generalize (5 : ℝ) / 2 ^ 150 = η at *
      constructor <;> norm_num at * <;> linarith
    · have hsub0 : val (F32.one - dot) ≤ 0 := by
        have := rounds_le (sub_roundsTo one_finite nF) sF zero_finite (by rw [zero_real, one_real]; linarith)
        rwa [zero_real] at this
      rw [max_eq_left hsub0] at mV
      rw [mV] at hwsq
      generalize (5 : ℝ) / 2 ^ 150 = η at *
      constructor <;> norm_num at * <;> linarith

end Ozz.Keys
