import Verif.Proofs.TrigSinCos

/-! Arcsine and arccosine of the crate in single precision. -/

namespace Ozz.Trig

open F32 Ieee Spec

/-- A difference that is a float is exact. -/
theorem sub_exact {x y : F32} {n s : Nat} (hx : Finite32 x.bits) (hy : Finite32 y.bits) (hn : n < 2 ^ 24) (hs : s ≤ 100)
    (h : val x - val y = n / 2 ^ s) : Near (x - y) (n / 2 ^ s) 0 := by
  obtain ⟨w, hw, hv⟩ := exists_frac32 hn hs
  have hr := sub_roundsTo hx hy
  have hb : |val x - val y| ≤ 2 ^ 127 := by
    have : (0 : ℝ) ≤ n / 2 ^ s := by positivity
    rw [h, abs_of_nonneg this]
    have h1 : (n : ℝ) / 2 ^ s ≤ n := div_le_self (by positivity) (one_le_pow₀ (by norm_num))
    have h2 : (n : ℝ) < 2 ^ 24 := by exact_mod_cast hn
    linarith [show (2 : ℝ) ^ 24 ≤ 2 ^ 127 by norm_num]
  have hf := finite_of_rounds hr (small_finite hb)
  refine ⟨hf, ?_⟩
  have e := rounds_exact hr hf hw (h.trans hv.symm)
  have e' : val (x - y) = n / 2 ^ s := e.trans hv
  rw [e']; simp

/-- The floats between a half and one are whole multiples of `2^-24`. -/
theorem grain {x : F32} (h0 : 1 / 2 < val x) (h1 : val x ≤ 1) :
    ∃ n : Nat, n < 2 ^ 23 ∧ 1 - val x = n / 2 ^ 24 := by
  have hm : val x = (x.mag : ℝ) / 2 ^ 149 := by rw [← val_mag, abs_of_nonneg (by linarith)]
  have hp : (0 : ℝ) < 2 ^ 149 := by positivity
  rw [hm, lt_div_iff₀ hp] at h0
  rw [hm, div_le_iff₀ hp] at h1
  have l0 : 2 ^ 148 < x.mag := by
    have : ((2 ^ 148 : Nat) : ℝ) < x.mag := by push_cast; linarith
    exact_mod_cast this
  have l1 : x.mag ≤ 2 ^ 149 := by
    have : (x.mag : ℝ) ≤ ((2 ^ 149 : Nat) : ℝ) := by push_cast; linarith
    exact_mod_cast this
  have b0 : 126 * 2 ^ 23 < x.low := by
    have : magOf (126 * 2 ^ 23) < magOf x.low := by
      have : magOf (126 * 2 ^ 23) = 2 ^ 148 := by decide +kernel
      rw [this]; exact l0
    exact magOf_strictMono.lt_iff_lt.mp this
  have b1 : x.low ≤ 127 * 2 ^ 23 := by
    have : magOf x.low ≤ magOf (127 * 2 ^ 23) := by
      have : magOf (127 * 2 ^ 23) = 2 ^ 149 := by decide +kernel
      rw [this]; exact l1
    exact magOf_strictMono.le_iff_le.mp this
  have key : x.mag = (x.low - 125 * 2 ^ 23) * 2 ^ 125 := by
    rcases Nat.lt_or_ge x.low (127 * 2 ^ 23) with h | h
    · have hd : x.low / 2 ^ 23 = 126 := by omega
      unfold mag magOf
      rw [if_neg (by omega), hd, show 2 ^ 23 + x.low % 2 ^ 23 = x.low - 125 * 2 ^ 23 by omega]
    · have : x.low = 127 * 2 ^ 23 := by omega
      unfold mag
      rw [this]
      decide +kernel
  refine ⟨127 * 2 ^ 23 - x.low, by omega, ?_⟩
  have e : (((127 * 2 ^ 23 - x.low : Nat)) : ℝ) = 2 ^ 24 - ((x.low - 125 * 2 ^ 23 : Nat) : ℝ) := by
    rw [Nat.cast_sub b1, Nat.cast_sub (by omega)]; push_cast; ring
  rw [hm, key, e, Nat.cast_mul]
  generalize ((x.low - 125 * 2 ^ 23 : Nat) : ℝ) = y
  norm_num
  ring

theorem fracPi2_near : Near (fracPi2 : F32) (Real.pi / 2) (0.74 / 2 ^ 24) := by
  refine ⟨by decide +kernel, ?_⟩
  have : value32 (fracPi2 : F32).bits = 13176795 / 2 ^ 23 := by decide +kernel
  have p1 := Real.pi_gt_d20
  have p2 := Real.pi_lt_d20
  rw [val, real, this, abs_le]
  push_cast
  constructor <;> norm_num at * <;> linarith

section
variable {α : Type} [Add α] [Sub α] [Mul α] [Div α] [Neg α] [NumOps α]

/-- The polynomial. -/
def asinPoly (x z : α) : α :=
  ((((NumOps.lit 42163199048 (10 ^ 12) * z + NumOps.lit 24181311049 (10 ^ 12)) * z + NumOps.lit 45470025998 (10 ^ 12)) * z +
      NumOps.lit 74953002686 (10 ^ 12)) * z + NumOps.lit 16666752422 (10 ^ 11)) * z * x + x

def asinMag (a : α) : α :=
  let z : α := NumOps.half * (NumOps.one - a)
  if NumOps.lt NumOps.half a then fracPi2 - (asinPoly (NumOps.sqrt z) z + asinPoly (NumOps.sqrt z) z) else asinPoly a (a * a)

theorem asin_eq (v : α) : asin v = flip (NumOps.lt v NumOps.zero) (asinMag (NumOps.min (NumOps.abs v) NumOps.one)) := by
  unfold asin asinMag
  simp only
  generalize NumOps.min (NumOps.abs v) (NumOps.one : α) = a
  generalize NumOps.lt (NumOps.half : α) a = b
  cases b <;> rfl

end

theorem asinPoly_near {x z : F32} {ξ : ℝ} (h0 : 0 ≤ ξ) (h1 : ξ ≤ 1 / 2) (hx : Near x ξ (0.51 / 2 ^ 24))
    (hz : Near z (ξ ^ 2) (0.26 / 2 ^ 24)) :
    Near (asinPoly x z) (Real.arcsin ξ) (1.65 / 2 ^ 24) := by
  have xA : |ξ| ≤ 1 / 2 := by rw [abs_of_nonneg h0]; exact h1
  have hP := asinP_bound xA
  unfold asinP at hP
  unfold asinPoly
  have t0 : 0 ≤ ξ ^ 2 := sq_nonneg ξ
  have t1 : ξ ^ 2 ≤ 1 / 4 := by nlinarith
  generalize ξ ^ 2 = t at *
  have tA : |t| ≤ 1 / 4 := by rw [abs_of_nonneg t0]; exact t1
  have c1 : Near (NumOps.lit 42163199048 (10 ^ 12) : F32) (42163199048 / 10 ^ 12) (0.043 / 2 ^ 24) :=
    near_lit' _ _ _ _ (by norm_num) (by norm_num) (by norm_num)
  have c2 : Near (NumOps.lit 24181311049 (10 ^ 12) : F32) (24181311049 / 10 ^ 12) (0.025 / 2 ^ 24) :=
    near_lit' _ _ _ _ (by norm_num) (by norm_num) (by norm_num)
  have c3 : Near (NumOps.lit 45470025998 (10 ^ 12) : F32) (45470025998 / 10 ^ 12) (0.046 / 2 ^ 24) :=
    near_lit' _ _ _ _ (by norm_num) (by norm_num) (by norm_num)
  have c4 : Near (NumOps.lit 74953002686 (10 ^ 12) : F32) (74953002686 / 10 ^ 12) (0.075 / 2 ^ 24) :=
    near_lit' _ _ _ _ (by norm_num) (by norm_num) (by norm_num)
  have c5 : Near (NumOps.lit 16666752422 (10 ^ 11) : F32) (16666752422 / 10 ^ 11) (0.167 / 2 ^ 24) :=
    near_lit' _ _ _ _ (by norm_num) (by norm_num) (by norm_num)
  -- every intermediate value is between 0 and a bound
  have mulB : ∀ {a b A B : ℝ}, 0 ≤ a → a ≤ A → 0 ≤ b → b ≤ B → 0 ≤ a * b ∧ a * b ≤ A * B := fun p q r s =>
    ⟨mul_nonneg p r, mul_le_mul q s r (p.trans q)⟩
  have ab : ∀ {a A : ℝ}, 0 ≤ a ∧ a ≤ A → |a| ≤ A := fun h => by rw [abs_of_nonneg h.1]; exact h.2
  have e1 := mulB (show (0:ℝ) ≤ 42163199048 / 10 ^ 12 by norm_num) le_rfl t0 t1
  obtain ⟨k1, hk1⟩ : ∃ k : ℝ, k = 42163199048 / 10 ^ 12 * t := ⟨_, rfl⟩
  have m1 := Near.mul 0.043 (1 / 4) 0.011 (0.034 / 2 ^ 24) c1 hz (by rw [abs_of_nonneg] <;> norm_num) tA
    (ab ⟨e1.1, e1.2.trans (by norm_num)⟩) (by norm_num)
  rw [← hk1] at m1 e1 hP
  have s1 : 0 ≤ k1 + 24181311049 / 10 ^ 12 ∧ k1 + 24181311049 / 10 ^ 12 ≤ 0.035 := by
    constructor <;> norm_num at * <;> linarith
  have a1 := Near.add 0.035 (0.095 / 2 ^ 24) m1 c2 (ab s1) (by norm_num)
  obtain ⟨k2, hk2⟩ : ∃ k : ℝ, k = k1 + 24181311049 / 10 ^ 12 := ⟨_, rfl⟩
  rw [← hk2] at a1 s1 hP
  have e2 := mulB s1.1 s1.2 t0 t1
  have m2 := Near.mul 0.035 (1 / 4) 0.009 (0.043 / 2 ^ 24) a1 hz (ab s1) tA (ab ⟨e2.1, e2.2.trans (by norm_num)⟩) (by norm_num)
  obtain ⟨k3, hk3⟩ : ∃ k : ℝ, k = k2 * t := ⟨_, rfl⟩
  rw [← hk3] at m2 e2 hP
  have s2 : 0 ≤ k3 + 45470025998 / 10 ^ 12 ∧ k3 + 45470025998 / 10 ^ 12 ≤ 0.055 := by
    constructor <;> norm_num at * <;> linarith
  have a2 := Near.add 0.055 (0.145 / 2 ^ 24) m2 c3 (ab s2) (by norm_num)
  obtain ⟨k4, hk4⟩ : ∃ k : ℝ, k = k3 + 45470025998 / 10 ^ 12 := ⟨_, rfl⟩
  rw [← hk4] at a2 s2 hP
  have e3 := mulB s2.1 s2.2 t0 t1
  have m3 := Near.mul 0.055 (1 / 4) 0.014 (0.066 / 2 ^ 24) a2 hz (ab s2) tA (ab ⟨e3.1, e3.2.trans (by norm_num)⟩) (by norm_num)
  obtain ⟨k5, hk5⟩ : ∃ k : ℝ, k = k4 * t := ⟨_, rfl⟩
  rw [← hk5] at m3 e3 hP
  have s3 : 0 ≤ k5 + 74953002686 / 10 ^ 12 ∧ k5 + 74953002686 / 10 ^ 12 ≤ 0.089 := by
    constructor <;> norm_num at * <;> linarith
  have a3 := Near.add 0.089 (0.231 / 2 ^ 24) m3 c4 (ab s3) (by norm_num)
  obtain ⟨k6, hk6⟩ : ∃ k : ℝ, k = k5 + 74953002686 / 10 ^ 12 := ⟨_, rfl⟩
  rw [← hk6] at a3 s3 hP
  have e4 := mulB s3.1 s3.2 t0 t1
  have m4 := Near.mul 0.089 (1 / 4) 0.0223 (0.104 / 2 ^ 24) a3 hz (ab s3) tA (ab ⟨e4.1, e4.2.trans (by norm_num)⟩) (by norm_num)
  obtain ⟨k7, hk7⟩ : ∃ k : ℝ, k = k6 * t := ⟨_, rfl⟩
  rw [← hk7] at m4 e4 hP
  have s4 : 0 ≤ k7 + 16666752422 / 10 ^ 11 ∧ k7 + 16666752422 / 10 ^ 11 ≤ 0.189 := by
    constructor <;> norm_num at * <;> linarith
  have a4 := Near.add 0.189 (0.461 / 2 ^ 24) m4 c5 (ab s4) (by norm_num)
  obtain ⟨k8, hk8⟩ : ∃ k : ℝ, k = k7 + 16666752422 / 10 ^ 11 := ⟨_, rfl⟩
  rw [← hk8] at a4 s4 hP
  have e5 := mulB s4.1 s4.2 t0 t1
  have m5 := Near.mul 0.189 (1 / 4) 0.0473 (0.213 / 2 ^ 24) a4 hz (ab s4) tA (ab ⟨e5.1, e5.2.trans (by norm_num)⟩) (by norm_num)
  obtain ⟨k9, hk9⟩ : ∃ k : ℝ, k = k8 * t := ⟨_, rfl⟩
  rw [← hk9] at m5 e5 hP
  have e6 := mulB e5.1 e5.2 h0 h1
  have m6 := Near.mul 0.0473 (1 / 2) 0.0237 (0.156 / 2 ^ 24) m5 hx (ab ⟨e5.1, e5.2.trans (by norm_num)⟩) xA
    (ab ⟨e6.1, e6.2.trans (by norm_num)⟩) (by norm_num)
  obtain ⟨k10, hk10⟩ : ∃ k : ℝ, k = k9 * ξ := ⟨_, rfl⟩
  rw [← hk10] at m6 e6 hP
  have s5 : 0 ≤ k10 + ξ ∧ k10 + ξ ≤ 0.5237 := by constructor <;> norm_num at * <;> linarith
  have a5 := Near.add 0.5237 (1.19 / 2 ^ 24) m6 hx (ab s5) (by norm_num)
  refine a5.shift ?_
  rw [abs_sub_comm]
  norm_num at *
  linarith

theorem fmin_one_ok {x : F32} (hx : Finite32 x.bits) :
    Near (NumOps.min x (NumOps.one : F32)) (min (val x) 1) 0 := by
  have hlt := lt_val one_finite hx
  rw [show val F32.one = 1 from one_real] at hlt
  show Near (F32.fmin x F32.one) _ _
  unfold F32.fmin
  rw [(finite_cases hx).1, (finite_cases one_finite).1]
  simp only [Bool.false_eq_true, if_false]
  split
  · next h =>
    rw [min_eq_right (hlt.mp h).le]
    exact one_near
  · next h =>
    rw [min_eq_left (not_lt.mp fun h' => h (hlt.mpr h'))]
    exact near_self hx

theorem asin_near {v : F32} (hv : Finite32 v.bits) : Near (asin v) (Real.arcsin (val v)) (7 / 2 ^ 24) := by
  have hsg := lt_zero_iff hv
  have ha := near_abs hv
  have hm := fmin_one_ok ha.1
  have hva : val (NumOps.abs v) = |val v| := by have := ha.2; rw [abs_nonpos_iff, sub_eq_zero] at this; exact this
  rw [hva] at hm
  rw [asin_eq]
  generalize NumOps.min (NumOps.abs v) (NumOps.one : F32) = a at *
  have main : Near (asinMag a) (Real.arcsin |val v|) (7 / 2 ^ 24) := by
    unfold asinMag
    have hA : val a = min |val v| 1 := by have := hm.2; rw [abs_nonpos_iff, sub_eq_zero] at this; exact this
    have a0 : 0 ≤ val a := by rw [hA]; exact le_min (abs_nonneg _) zero_le_one
    have a1 : val a ≤ 1 := by rw [hA]; exact min_le_right _ _
    have harc : Real.arcsin |val v| = Real.arcsin (val a) := by
      rw [hA]
      rcases le_total |val v| 1 with h | h
      · rw [min_eq_left h]
      · rw [min_eq_right h, Real.arcsin_of_one_le h, Real.arcsin_one]
    rw [harc]
    have hlt := lt_val half_near.1 hm.1
    have hh : val (NumOps.half : F32) = 1 / 2 := by have := half_near.2; rw [abs_nonpos_iff, sub_eq_zero] at this; exact this
    have h1v : val (NumOps.one : F32) = 1 := one_real
    rw [hh] at hlt
    split
    · next h =>
      obtain ⟨n, hn, hnv⟩ := grain (hlt.mp h) a1
      have d1 := sub_exact (x := NumOps.one) (n := n) (s := 24) one_finite hm.1 (by omega) (by norm_num) (by rw [h1v]; exact hnv)
      have d1v : val (NumOps.one - a) = n / 2 ^ 24 := by have := d1.2; rw [abs_nonpos_iff, sub_eq_zero] at this; exact this
      have d2 := mul_exact (x := NumOps.half) (n := n) (s := 25) half_near.1 d1.1 (by omega) (by norm_num)
        (by rw [hh, d1v]; norm_num; ring)
      have hz : (n : ℝ) / 2 ^ 25 = (1 - val a) / 2 := by rw [hnv]; norm_num; ring
      rw [hz] at d2
      generalize (NumOps.half : F32) * (NumOps.one - a) = z at *
      have hzv : val z = (1 - val a) / 2 := by have := d2.2; rw [abs_nonpos_iff, sub_eq_zero] at this; exact this
      have z0 : 0 ≤ (1 - val a) / 2 := by linarith
      have z1 : (1 - val a) / 2 ≤ 1 / 4 := by linarith [hlt.mp h]
      have r1 : √((1 - val a) / 2) ≤ 1 / 2 := by
        rw [show (1 / 2 : ℝ) = √(1 / 4) by rw [show (1 / 4 : ℝ) = (1 / 2) ^ 2 by norm_num, Real.sqrt_sq (by norm_num)]]
        exact Real.sqrt_le_sqrt z1
      obtain ⟨q1, q2, q3⟩ := sqrt_ok d2.1 (by rw [hzv]; exact z0) (by rw [hzv]; exact r1.trans (by norm_num))
      rw [hzv] at q2
      have hs : Near (NumOps.sqrt z) √((1 - val a) / 2) (0.51 / 2 ^ 24) := by
        refine ⟨q1, ?_⟩
        refine q2.trans ?_
        norm_num at *
        linarith
      have hz' : Near z (√((1 - val a) / 2) ^ 2) (0.26 / 2 ^ 24) := by
        rw [Real.sq_sqrt z0]; exact d2.mono (by norm_num)
      have hp := asinPoly_near (Real.sqrt_nonneg _) r1 hs hz'
      rw [arcsin_half a0 a1]
      have b0 : 0 ≤ Real.arcsin √((1 - val a) / 2) := Real.arcsin_nonneg.mpr (Real.sqrt_nonneg _)
      have b1 : Real.arcsin √((1 - val a) / 2) ≤ Real.pi / 6 := by
        rw [Real.arcsin_le_iff_le_sin' ⟨by linarith [Real.pi_pos], by linarith [Real.pi_pos]⟩, Real.sin_pi_div_six]
        exact r1
      have p1 := Real.pi_gt_d2
      have p2 := Real.pi_lt_d2
      have hd := Near.add 1.06 (4.4 / 2 ^ 24) hp hp (by rw [abs_of_nonneg (by linarith)]; linarith) (by norm_num)
      have hr := Near.sub 1.58 (7 / 2 ^ 24) fracPi2_near hd (by rw [abs_of_nonneg (by linarith)]; linarith) (by norm_num)
      rw [← two_mul] at hr
      exact hr
    · next h =>
      have hle : val a ≤ 1 / 2 := not_lt.mp fun h' => h (hlt.mpr h')
      have ha' := near_self hm.1
      have aA : |val a| ≤ 1 / 2 := by rw [abs_of_nonneg a0]; exact hle
      have hz := Near.mul (1 / 2) (1 / 2) (1 / 4) (0.26 / 2 ^ 24) ha' ha' aA aA
        (by rw [abs_of_nonneg (mul_nonneg a0 a0)]; nlinarith) (by norm_num)
      rw [← sq] at hz
      exact (asinPoly_near a0 hle (ha'.mono (by norm_num)) hz).mono (by norm_num)
  have hfin : Real.arcsin (val v) = if NumOps.lt v (NumOps.zero : F32) then -Real.arcsin |val v| else Real.arcsin |val v| := by
    by_cases h : val v < 0
    · rw [if_pos (hsg.mpr h), abs_of_neg h, Real.arcsin_neg, neg_neg]
    · rw [if_neg (fun h' => h (hsg.mp h')), abs_of_nonneg (not_lt.mp h)]
  rw [hfin]
  exact near_flip _ main

/-- Infinities and NaN count as one. -/
theorem clamp_nonfinite {v : F32} (hv : ¬ Finite32 v.bits) : NumOps.min (NumOps.abs v) (NumOps.one : F32) = NumOps.one := by
  have hlow : (NumOps.abs v).low = v.low := pack_low false (low_lt v)
  have hneg : (NumOps.abs v).negative = false := pack_negative false (low_lt v)
  rw [finite32_iff, not_lt] at hv
  have hone : (F32.one).isNaN = false := (finite_cases one_finite).1
  have hone' : F32.one.rank = 127 * 2 ^ 23 := by decide +kernel
  show F32.fmin (NumOps.abs v) F32.one = F32.one
  unfold F32.fmin
  rw [hone]
  simp only [Bool.false_eq_true, if_false]
  split
  · rfl
  · next h =>
    have : F32.lt F32.one (NumOps.abs v) = true := by
      rw [lt_iff_rank hone (by simpa using h), hone']
      unfold rank
      rw [hneg, hlow]
      simp only [Bool.false_eq_true, if_false]
      omega
    rw [if_pos this]

theorem asin_nonfinite {v : F32} (hv : ¬ Finite32 v.bits) : asin v = flip (NumOps.lt v NumOps.zero) ⟨0x3fc90fdb⟩ := by
  have h : asinMag (NumOps.one : F32) = ⟨0x3fc90fdb⟩ := by decide +kernel
  rw [asin_eq, clamp_nonfinite hv, h]

theorem lt_zero_nonfinite {v : F32} (hv : ¬ Finite32 v.bits) : NumOps.lt v (NumOps.zero : F32) = true ↔ Inf32 v.bits ∧ Minus v.bits := by
  have h : ¬ v.low < 255 * 2 ^ 23 := fun h => hv ((finite32_iff v).mpr h)
  have hz : F32.zero.isNaN = false := (finite_cases zero_finite).1
  have hz' : F32.zero.rank = 0 := by decide +kernel
  rw [inf32_iff, minus_iff]
  show F32.lt v F32.zero = true ↔ _
  unfold F32.lt
  rw [hz, hz']
  unfold isNaN rank
  cases v.negative
  · simp
  · simp; omega

theorem acos_near {v : F32} (hv : Finite32 v.bits) : Near (acos v) (Real.arccos (val v)) (11 / 2 ^ 24) := by
  have h := asin_near hv
  have a0 := Real.arccos_nonneg (val v)
  have a1 := Real.arccos_le_pi (val v)
  have p2 := Real.pi_lt_d2
  rw [Real.arccos] at *
  exact Near.sub 3.15 (11 / 2 ^ 24) fracPi2_near h (by rw [abs_of_nonneg a0]; linarith) (by norm_num)

end Ozz.Trig
