import Verif.Model.Trig
import Verif.Proofs.FloatNear
import Verif.Proofs.TrigAsin

/-! Sine and cosine of the crate in single precision. -/

namespace Ozz.Trig

open F32 Ieee Spec

theorem near_lit (n d : Nat) (e : ℝ) (hd : 0 < d) (h : ((n : ℝ) / d) / 2 ^ 24 + 1 / 2 ^ 150 ≤ e ∧ ((n : ℝ) / d) ≤ 2 ^ 127) :
    Near (NumOps.lit n d : F32) ((n : ℝ) / d) e := by
  have hr : Ieee.RoundsTo ((n : ℝ) / d) False (NumOps.lit n d : F32).bits := lit_roundsTo n d hd
  have h0 : (0 : ℝ) ≤ (n : ℝ) / d := by positivity
  have hf := finite_of_rounds hr (small_finite (by rw [abs_of_nonneg h0]; exact h.2))
  refine ⟨hf, ?_⟩
  have := rounds_error hr hf
  rw [abs_of_nonneg h0] at this
  exact this.trans h.1

theorem near_lit' (n d : Nat) (r e : ℝ) (hd : 0 < d) (hr : (n : ℝ) / d = r) (h : r / 2 ^ 24 + 1 / 2 ^ 150 ≤ e ∧ r ≤ 2 ^ 127) :
    Near (NumOps.lit n d : F32) r e := by
  subst hr; exact near_lit n d e hd h

theorem near_neg {x : F32} {r e : ℝ} (h : Near x r e) : Near (-x) (-r) e := by
  refine ⟨neg_finite.mpr h.1, ?_⟩
  have : val (-x) = -val x := neg_real x
  rw [this, show -val x - -r = -(val x - r) by ring, abs_neg]
  exact h.2

theorem val_mag (x : F32) : |val x| = (x.mag : ℝ) / 2 ^ 149 := by
  rw [val, real_eq_signed, abs_div, abs_mul, abs_of_nonneg (show (0:ℝ) ≤ (2:ℝ) ^ 149 by positivity)]
  cases x.negative <;> simp

theorem near_abs {x : F32} (h : Finite32 x.bits) : Near (NumOps.abs x) |val x| 0 := by
  have hlow : (NumOps.abs x).low = x.low := pack_low false (low_lt x)
  refine ⟨?_, ?_⟩
  · rw [finite32_iff] at h ⊢
    rw [hlow]; exact h
  · have : val (NumOps.abs x) = |val x| := by
      rw [val_mag, val, real_eq_signed]
      have : (NumOps.abs x).negative = false := pack_negative false (low_lt x)
      rw [this, mag, hlow, ← mag]
      simp
    rw [this]; simp

theorem half_near : Near (NumOps.half : F32) (1 / 2) 0 := by
  refine ⟨by decide +kernel, ?_⟩
  have : value32 (NumOps.half : F32).bits = 1 / 2 := by decide +kernel
  rw [val, real, this]; norm_num

theorem one_near : Near (NumOps.one : F32) 1 0 := by
  refine ⟨one_finite, ?_⟩
  have : val (NumOps.one : F32) = 1 := one_real
  rw [this]; norm_num

/-- A product that is a float is exact. -/
theorem mul_exact {x y : F32} {n s : Nat} (hx : Finite32 x.bits) (hy : Finite32 y.bits) (hn : n < 2 ^ 24) (hs : s ≤ 100)
    (h : val x * val y = n / 2 ^ s) : Near (x * y) (n / 2 ^ s) 0 := by
  obtain ⟨w, hw, hv⟩ := exists_frac32 hn hs
  have hr := mul_roundsTo hx hy
  have hb : |val x * val y| ≤ 2 ^ 127 := by
    have : (0 : ℝ) ≤ n / 2 ^ s := by positivity
    rw [h, abs_of_nonneg this]
    have h1 : (n : ℝ) / 2 ^ s ≤ n := div_le_self (by positivity) (one_le_pow₀ (by norm_num))
    have h2 : (n : ℝ) < 2 ^ 24 := by exact_mod_cast hn
    linarith [show (2 : ℝ) ^ 24 ≤ 2 ^ 127 by norm_num]
  have hf := finite_of_rounds hr (small_finite hb)
  refine ⟨hf, ?_⟩
  have e := rounds_exact hr hf hw (h.trans hv.symm)
  have e' : val (x * y) = n / 2 ^ s := e.trans hv
  rw [e']; simp

/-- The whole part. -/
theorem trunc_ok {x : F32} (hx : Finite32 x.bits) (h0 : 0 ≤ val x) (h1 : val x < 2 ^ 24) :
    ∃ n : Nat, (n : ℝ) ≤ val x ∧ val x < n + 1 ∧ Near (IntOps.trunc x) n 0 ∧ ∀ i, IntOps.bit i (IntOps.trunc x) = n.testBit i := by
  have hm : val x = (x.mag : ℝ) / 2 ^ 149 := by rw [← val_mag, abs_of_nonneg h0]
  set n := x.mag / 2 ^ 149 with hn
  have hp : (0 : ℝ) < 2 ^ 149 := by positivity
  have l1 : n * 2 ^ 149 ≤ x.mag := Nat.div_mul_le_self _ _
  have l2 : x.mag < (n + 1) * 2 ^ 149 := by
    rw [Nat.mul_comm]; exact Nat.lt_mul_div_succ _ (by positivity)
  have l1' : (n : ℝ) * 2 ^ 149 ≤ x.mag := by exact_mod_cast l1
  have l2' : (x.mag : ℝ) < (n + 1) * 2 ^ 149 := by exact_mod_cast l2
  have k1 : (n : ℝ) ≤ val x := by rw [hm, le_div_iff₀ hp]; exact l1'
  have k2 : val x < n + 1 := by rw [hm, div_lt_iff₀ hp]; exact l2'
  have hn24 : n < 2 ^ 24 := by
    have : (n : ℝ) < 2 ^ 24 := lt_of_le_of_lt k1 h1
    exact_mod_cast this
  obtain ⟨oF, oV⟩ := ofNat_ok hn24
  have hfin : x.isFinite = true := by
    rw [finite32_iff] at hx
    simpa [isFinite] using hx
  have hlow := roundMag_lt (n * 2 ^ 149) 1
  have ht : Near (IntOps.trunc x) n 0 ∧ (IntOps.trunc x).low = (ofNat n).low := by
    show Near (truncF32 x) n 0 ∧ (truncF32 x).low = _
    rw [truncF32, if_pos hfin, ← hn]
    have e : ∀ s, (pack s (roundMag (n * 2 ^ 149) 1)).low = (ofNat n).low := by
      intro s
      rw [pack_low _ hlow, ofNat, pack_low _ hlow]
    refine ⟨⟨?_, ?_⟩, e _⟩
    · rw [finite32_iff] at oF ⊢
      rw [e]; exact oF
    · have hv : val (pack x.negative (roundMag (n * 2 ^ 149) 1)) = n := by
        cases hneg : x.negative with
        | false => exact oV
        | true =>
          -- only -0 is negative
          have : val x ≤ 0 := by
            rw [val, real_eq_signed, hneg]
            simp only [if_true]
            have : (0 : ℝ) ≤ (x.mag : ℝ) / 2 ^ 149 := by positivity
            rw [mul_div_assoc]; linarith
          have hz : (n : ℝ) = 0 := le_antisymm (by linarith) (by positivity)
          have hz' : n = 0 := by exact_mod_cast hz
          rw [hz']
          have e0 : roundMag (0 * 2 ^ 149) 1 = 0 := by decide +kernel
          rw [e0, val, real_eq_signed, mag, pack_low _ (by norm_num)]
          simp [magOf]
      rw [hv]; simp
  refine ⟨n, k1, k2, ht.1, fun i => ?_⟩
  show ((IntOps.trunc x).mag / 2 ^ 149).testBit i = _
  have : (IntOps.trunc x).mag = n * 2 ^ 149 := by
    have a : |val (IntOps.trunc x)| = n := by
      have h := ht.1.2
      rw [abs_nonpos_iff, sub_eq_zero] at h
      rw [h]; exact abs_of_nonneg (by positivity)
    rw [val_mag, div_eq_iff hp.ne'] at a
    exact_mod_cast a
  rw [this, Nat.mul_div_cancel _ (by positivity)]

theorem n1_near : Near (NumOps.lit 15703125 (10 ^ 7) : F32) (201 / 128) 0 := by
  refine ⟨by decide +kernel, ?_⟩
  have : value32 (NumOps.lit 15703125 (10 ^ 7) : F32).bits = 201 / 128 := by decide +kernel
  rw [val, real, this]; norm_num

theorem n2_near : Near (NumOps.lit 4837512969970703125 (10 ^ 22) : F32) (2029 / 2 ^ 22) 0 := by
  refine ⟨by decide +kernel, ?_⟩
  have : value32 (NumOps.lit 4837512969970703125 (10 ^ 22) : F32).bits = 2029 / 2 ^ 22 := by decide +kernel
  rw [val, real, this]; norm_num

/-- The argument reduced to the nearest quadrant. -/
theorem reduce_ok {v : F32} (hv : Finite32 v.bits) (hV : |val v| ≤ 2048) :
    let x : F32 := NumOps.abs v
    let q : F32 := IntOps.trunc (frac2Pi * x + NumOps.half)
    ∃ n : Nat, (∀ i, IntOps.bit i q = n.testBit i) ∧ |(|val v| - n * (Real.pi / 2))| ≤ 0.7859 ∧
      Near (((x - q * NumOps.lit 15703125 (10 ^ 7)) - q * NumOps.lit 4837512969970703125 (10 ^ 22)) -
        q * NumOps.lit 7549789948768648 (10 ^ 23)) (|val v| - n * (Real.pi / 2)) (3.1 / 2 ^ 24) := by
  intro x q
  have p1 := Real.pi_gt_d20
  have p2 := Real.pi_lt_d20
  have hx : Near x |val v| 0 := near_abs hv
  have w0 : 0 ≤ |val v| := abs_nonneg _
  generalize |val v| = w at *
  have hl : Near (frac2Pi : F32) 0.636619772367581343075535053490057448 (0.64 / 2 ^ 24) :=
    near_lit' _ _ _ _ (by norm_num) (by norm_num) (by norm_num)
  have hm := Near.mul 0.64 2048 1304 (2700 / 2 ^ 24) hl hx (by rw [abs_of_nonneg] <;> norm_num)
    (by rw [abs_of_nonneg w0]; exact hV) (by rw [abs_of_nonneg (by positivity)]; linarith) (by norm_num)
  have ht := Near.add 1305 (4100 / 2 ^ 24) hm half_near (by rw [abs_of_nonneg (by positivity)]; linarith) (by norm_num)
  have htE := ht.2
  rw [abs_le] at htE
  obtain ⟨n, n1, n2, hq, hbit⟩ := trunc_ok ht.1 (by linarith) (by norm_num at *; linarith)
  have hn0 : (0 : ℝ) ≤ n := by positivity
  have hnB : (n : ℝ) ≤ 1305 := by
    have h1 : (0.636619772367581343075535053490057448 : ℝ) * w ≤ 1304 := by linarith
    have h2 : (4100 : ℝ) / 2 ^ 24 ≤ 0.001 := by norm_num
    linarith [htE.2]
  have hnN : n ≤ 1305 := by exact_mod_cast hnB
  have hρ : |w - n * (Real.pi / 2)| ≤ 0.7859 := by
    have a1 : n * (Real.pi / 2) ≤ n * 1.5707963267948966193 := by gcongr; linarith
    have a2 : n * 1.5707963267948966192 ≤ n * (Real.pi / 2) := by gcongr; linarith
    rw [abs_le]
    constructor <;> norm_num at * <;> linarith
  refine ⟨n, hbit, hρ, ?_⟩
  have qV : val q = n := by
    have := hq.2
    rw [abs_nonpos_iff, sub_eq_zero] at this
    exact this
  have e1 : Near (q * NumOps.lit 15703125 (10 ^ 7)) ((n * 201 : ℕ) / 2 ^ 7) 0 :=
    mul_exact hq.1 n1_near.1 (by omega) (by norm_num) (by
      have := n1_near.2
      rw [abs_nonpos_iff, sub_eq_zero] at this
      rw [qV, this]; push_cast; ring)
  have e2 : Near (q * NumOps.lit 4837512969970703125 (10 ^ 22)) ((n * 2029 : ℕ) / 2 ^ 22) 0 :=
    mul_exact hq.1 n2_near.1 (by omega) (by norm_num) (by
      have := n2_near.2
      rw [abs_nonpos_iff, sub_eq_zero] at this
      rw [qV, this]; push_cast; ring)
  have l3 : Near (NumOps.lit 7549789948768648 (10 ^ 23) : F32) (7549789948768648 / 10 ^ 23) (1 / 2 ^ 47) :=
    near_lit' _ _ _ _ (by norm_num) (by norm_num) (by norm_num)
  have e3 := Near.mul 1305 (1 / 10 ^ 7) (1 / 10 ^ 4) (0.001 / 2 ^ 24) hq l3 (by rw [abs_of_nonneg hn0]; exact hnB)
    (by rw [abs_of_nonneg (by norm_num)]; norm_num)
    (by rw [abs_of_nonneg (by positivity)]; norm_num at *; linarith) (by norm_num)
  have a1 : n * (Real.pi / 2) ≤ n * 1.5707963267948966193 := by gcongr; linarith
  have a2 : n * 1.5707963267948966192 ≤ n * (Real.pi / 2) := by gcongr; linarith
  rw [abs_le] at hρ
  have s1 := Near.sub 1.5 (1.51 / 2 ^ 24) hx e1 (by
    rw [abs_le]; push_cast
    constructor <;> norm_num at * <;> linarith) (by norm_num)
  have s2 := Near.sub 0.787 (2.3 / 2 ^ 24) s1 e2 (by
    rw [abs_le]; push_cast
    constructor <;> norm_num at * <;> linarith) (by norm_num)
  have s3 := Near.sub 0.787 (3.095 / 2 ^ 24) s2 e3 (by
    rw [abs_le]; push_cast
    constructor <;> norm_num at * <;> linarith) (by norm_num)
  refine s3.shift ?_
  have : |w - ((n * 201 : ℕ) : ℝ) / 2 ^ 7 - ((n * 2029 : ℕ) : ℝ) / 2 ^ 22 - n * (7549789948768648 / 10 ^ 23) - (w - n * (Real.pi / 2))|
      ≤ 0.001 / 2 ^ 24 := by
    rw [abs_le]; push_cast
    constructor <;> norm_num at * <;> linarith
  norm_num at *
  linarith

/-- The whole part of any finite float is a float. -/
theorem trunc_mag {x : F32} (hx : Finite32 x.bits) :
    Finite32 (IntOps.trunc x).bits ∧ (IntOps.trunc x).negative = x.negative ∧
      (IntOps.trunc x).mag = x.mag / 2 ^ 149 * 2 ^ 149 := by
  have hlow := (finite32_iff x).mp hx
  have hfin : x.isFinite = true := by simpa [isFinite] using hlow
  have key : ∃ c, c < 255 * 2 ^ 23 ∧ magOf c = x.mag / 2 ^ 149 * 2 ^ 149 := by
    rcases Nat.lt_or_ge (x.mag / 2 ^ 149) (2 ^ 24) with h | h
    · obtain ⟨w, hw, hv⟩ := exists_frac32 h (show 0 ≤ 100 by norm_num)
      refine ⟨w.low, (finite32_iff w).mp hw, ?_⟩
      have : |val w| = ((x.mag / 2 ^ 149 : Nat) : ℝ) := by
        rw [hv, pow_zero, div_one]; exact abs_of_nonneg (Nat.cast_nonneg _)
      rw [val_mag, div_eq_iff (by positivity)] at this
      have h2 : ((w.mag : Nat) : ℝ) = ((x.mag / 2 ^ 149 * 2 ^ 149 : Nat) : ℝ) := by
        rw [this, Nat.cast_mul, Nat.cast_pow]; rfl
      exact Nat.cast_injective h2
    · refine ⟨x.low, hlow, ?_⟩
      show x.mag = _
      refine (Nat.div_mul_cancel ?_).symm
      have hm : 2 ^ 173 ≤ x.mag := by
        have := Nat.mul_le_of_le_div _ _ _ h
        calc 2 ^ 173 = 2 ^ 24 * 2 ^ 149 := by norm_num
          _ ≤ x.mag := this
      have hn : ¬ x.low < 2 ^ 23 := by
        intro h'
        unfold mag magOf at hm
        rw [if_pos h'] at hm
        have : (2 : Nat) ^ 23 < 2 ^ 173 := by norm_num
        omega
      unfold mag magOf at hm ⊢
      rw [if_neg hn] at hm ⊢
      refine Dvd.dvd.mul_left (Nat.pow_dvd_pow 2 ?_) _
      by_contra h'
      have h1 : 2 ^ (x.low / 2 ^ 23 - 1) ≤ 2 ^ 148 := Nat.pow_le_pow_right (by norm_num) (by omega)
      have h2 : 2 ^ 23 + x.low % 2 ^ 23 < 2 ^ 24 := by omega
      have h3 : (2 ^ 23 + x.low % 2 ^ 23) * 2 ^ (x.low / 2 ^ 23 - 1) ≤ 2 ^ 24 * 2 ^ 148 := Nat.mul_le_mul h2.le h1
      have h4 : (2 : Nat) ^ 24 * 2 ^ 148 < 2 ^ 173 := by norm_num
      exact absurd (hm.trans h3) (not_le.mpr h4)
  obtain ⟨c, hc, hcm⟩ := key
  have hr : roundMag (x.mag / 2 ^ 149 * 2 ^ 149) 1 = c := by
    rw [← hcm]
    have := roundMag_exact c 1 one_pos hc.le
    rwa [Nat.mul_one] at this
  have hlt : c < 2 ^ 31 := by omega
  have e : IntOps.trunc x = pack x.negative c := by
    show truncF32 x = _
    rw [truncF32, if_pos hfin, hr]
  rw [e]
  refine ⟨?_, pack_negative _ hlt, ?_⟩
  · rw [finite32_iff, pack_low _ hlt]; exact hc
  · unfold mag; rw [pack_low _ hlt]; exact hcm

/-- The quadrant fits 32 bits. -/
theorem quadrant_fits {v : F32} (hv : Finite32 v.bits) (hV : |val v| ≤ 2 ^ 31) :
    Finite32 (quadrant v).bits ∧ ∃ n : Nat, val (quadrant v) = n ∧ n < 2 ^ 31 := by
  have hx : Near (NumOps.abs v) |val v| 0 := near_abs hv
  have w0 : 0 ≤ |val v| := abs_nonneg _
  generalize |val v| = w at *
  have hl : Near (frac2Pi : F32) 0.636619772367581343075535053490057448 (0.64 / 2 ^ 24) :=
    near_lit' _ _ _ _ (by norm_num) (by norm_num) (by norm_num)
  have hm := Near.mul 0.64 (2 ^ 31) (0.64 * 2 ^ 31) 200 hl hx (by rw [abs_of_nonneg] <;> norm_num)
    (by rw [abs_of_nonneg w0]; exact hV) (by rw [abs_of_nonneg (by positivity)]; norm_num at *; linarith) (by norm_num)
  have hm0 : 0 ≤ val (frac2Pi * NumOps.abs v) := by
    refine mul_nonneg32 hl.1 hx.1 hm.1 (mul_nonneg ?_ ?_)
    · have := hl.2; rw [abs_le] at this; norm_num at *; linarith
    · have := hx.2; rw [abs_nonpos_iff, sub_eq_zero] at this; rw [this]; exact w0
  have ht := Near.add (0.65 * 2 ^ 31) 1000 hm half_near (by rw [abs_of_nonneg (by positivity)]; norm_num at *; linarith) (by norm_num)
  have ht0 : 0 ≤ val (frac2Pi * NumOps.abs v + NumOps.half) := by
    refine add_nonneg32 hm.1 half_near.1 ht.1 (add_nonneg hm0 ?_)
    have := half_near.2; rw [abs_nonpos_iff, sub_eq_zero] at this; rw [this]; norm_num
  unfold quadrant
  generalize frac2Pi * NumOps.abs v + NumOps.half = x at *
  have hB : |val x| < 2 ^ 31 := by
    have := ht.2
    rw [abs_le] at this
    rw [abs_lt]
    have h0 : 0 ≤ 0.636619772367581343075535053490057448 * w := by positivity
    constructor <;> norm_num at * <;> linarith
  obtain ⟨f, hneg, hmag⟩ := trunc_mag ht.1
  have hp : (0 : ℝ) < 2 ^ 149 := by positivity
  refine ⟨f, x.mag / 2 ^ 149, ?_, ?_⟩
  · rw [val, real_eq_signed, hneg, hmag, Nat.cast_mul, Nat.cast_pow]
    cases h : x.negative with
    | false => simp
    | true =>
      have hz : x.mag = 0 := by
        have h1 : |val x| = val x := abs_of_nonneg ht0
        have h2 : val x = -((x.mag : ℝ) / 2 ^ 149) := by rw [val, real_eq_signed, h]; simp only [if_true]; ring
        rw [val_mag, h2] at h1
        have : (x.mag : ℝ) / 2 ^ 149 = 0 := by linarith
        rw [div_eq_zero_iff] at this
        rcases this with h | h
        · exact_mod_cast h
        · exact absurd h hp.ne'
      rw [hz]; simp
  · rw [val_mag, div_lt_iff₀ hp] at hB
    have : x.mag < 2 ^ 31 * 2 ^ 149 := by exact_mod_cast hB
    exact Nat.div_lt_of_lt_mul (by rw [Nat.mul_comm]; exact this)

end Ozz.Trig
