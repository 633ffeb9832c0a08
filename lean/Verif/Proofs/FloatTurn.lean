import Verif.Proofs.FloatAimRun

/-! Helpers: turning a vector in single precision, up to rounding. -/

namespace Ozz.IK

open F32 Ieee Spec Blending Ozz.Trig

/-- What turning by `q` computes, without rounding. -/
noncomputable def turned3 (q v : F4 ℝ) : F4 ℝ := fun i =>
  v i + cross q (fun i => q 3 * v i + cross q v i) i + cross q (fun i => q 3 * v i + cross q v i) i

theorem cross_mag (a b : F4 ℝ) : mag3 (cross a b) ≤ mag3 a * mag3 b := by
  refine abs_le_of_sq_le_sq' ?_ (mul_nonneg (mag3_nonneg _) (mag3_nonneg _)) |>.2
  rw [mul_pow, mag3_sq, mag3_sq, mag3_sq]
  simp only [dot3, cross, f4_0, f4_1, f4_2]
  nlinarith [sq_nonneg (a 0 * b 0 + a 1 * b 1 + a 2 * b 2)]

theorem cross_sub_right (a b c : F4 ℝ) : cross a b - cross a c = cross a (b - c) := by
  apply ext4 <;> simp [cross] <;> ring

theorem mag3_le_norm (q : F4 ℝ) : mag3 q ≤ ‖toQuat q‖ := by
  rw [norm_toQuat, mag3_eq]
  apply Real.sqrt_le_sqrt
  unfold dot3 norm2
  nlinarith [sq_nonneg (q 3)]

/-- Turning by a quaternion of any length, and what the formula gives. -/
theorem turned3_eq (q v : F4 ℝ) : pureQuat (turned3 q v) = toQuat q * pureQuat v * star (toQuat q) + (1 - norm2 q) • pureQuat v := by
  ext <;> simp [turned3, cross, norm2] <;> ring

theorem star_inv {Q : Quaternion ℝ} : star Q = (‖Q‖ ^ 2) • Q⁻¹ := by
  rcases eq_or_ne Q 0 with h | h
  · rw [h]; simp
  · have : Q * star Q = ((‖Q‖ ^ 2 : ℝ) : Quaternion ℝ) := by
      rw [Quaternion.self_mul_star, Quaternion.normSq_eq_norm_mul_self, pow_two]
    have h2 : star Q = Q⁻¹ * (Q * star Q) := by rw [← mul_assoc, inv_mul_cancel₀ h, one_mul]
    rw [h2, this, Quaternion.mul_coe_eq_smul]

/-- The formula, compared with turning by the quaternion. -/
theorem turned3_near {q v x : F4 ℝ} {c : ℝ} (hc : |norm2 q - 1| ≤ c) (hc1 : c ≤ 1 / 2) (hx : Turns q v x) :
    mag3 (turned3 q v - x) ≤ 2 * c * mag3 v := by
  have e : norm2 q = ‖toQuat q‖ ^ 2 := by
    rw [norm_toQuat, Real.sq_sqrt]; unfold norm2; positivity
  unfold Turns at hx
  have hn : ‖toQuat q‖ ≠ 0 := by
    intro h0
    rw [e, h0] at hc
    norm_num at hc
    linarith
  rw [← mag3_sub_norm, turned3_eq, star_inv, mul_smul_comm, ← hx, ← e]
  have hx' : ‖pureQuat x‖ = mag3 v := by
    rw [hx, norm_mul, norm_mul, norm_inv, norm_pure, mul_comm, ← mul_assoc, inv_mul_cancel₀ hn, one_mul]
  have : norm2 q • pureQuat x + (1 - norm2 q) • pureQuat v - pureQuat x = (norm2 q - 1) • pureQuat x - (norm2 q - 1) • pureQuat v := by
    rw [sub_smul, sub_smul, sub_smul, one_smul, one_smul]; abel
  rw [this]
  refine (norm_sub_le _ _).trans ?_
  rw [norm_smul, norm_smul, hx', norm_pure, Real.norm_eq_abs]
  have := mul_le_mul_of_nonneg_right hc (mag3_nonneg v)
  linarith

theorem cross_ok3 {a b : F4 F32} (ha : Fin3 a) (hb : Fin3 b) {S : ℝ} (hS : mag3 (valVec a) * mag3 (valVec b) ≤ S)
    (hS0 : 1 / 2 ^ 100 ≤ S) (hB : S ≤ 2 ^ 100) : Fin3 (vec3Cross a b) ∧
    mag3 (valVec (vec3Cross a b) - cross (valVec a) (valVec b)) ≤ 3.54 * S / 2 ^ 24 := by
  refine ⟨fun i hi => (cross_ok ha hb hS hS0 hB i hi).1, ?_⟩
  refine (mag3_le_three fun i hi => (cross_ok ha hb hS hS0 hB i hi).2).trans ?_
  linarith

theorem qtv_ok {q v : F4 F32} {M : ℝ} (hq : ∀ c, Finite32 (q c).bits) (hq1 : |norm2 (valVec q) - 1| ≤ 1 / 2 ^ 10) (hv : Fin3 v)
    (hM : mag3 (valVec v) ≤ M) (h0 : 1 / 2 ^ 60 ≤ M) (h1 : M ≤ 2 ^ 60) :
    Fin3 (quatTransformVector q v) ∧ mag3 (valVec (quatTransformVector q v) - turned3 (valVec q) (valVec v)) ≤ 40 / 2 ^ 24 * M := by
  have M0 : 0 < M := lt_of_lt_of_le (by positivity) h0
  have fq : Fin3 q := fun i _ => hq i
  have nq := norm_near_one (q := valVec q) (c := 1 / 2 ^ 11) (by norm_num) (hq1.trans (by norm_num))
  have nq' : ‖toQuat (valVec q)‖ ≤ 1.001 := by have := (abs_le.mp nq).2; linarith
  have mq : mag3 (valVec q) ≤ 1.001 := (mag3_le_norm _).trans nq'
  have q3 : |val (q 3)| ≤ 1.001 := by
    refine abs_le_of_sq_le_sq ?_ (by norm_num)
    have e : norm2 (valVec q) = ‖toQuat (valVec q)‖ ^ 2 := by
      rw [norm_toQuat, Real.sq_sqrt]; unfold norm2; positivity
    have h : norm2 (valVec q) ≤ 1.001 ^ 2 := by rw [e]; exact pow_le_pow_left₀ (norm_nonneg _) nq' 2
    refine le_trans ?_ h
    unfold norm2 valVec
    nlinarith [sq_nonneg (val (q 0)), sq_nonneg (val (q 1)), sq_nonneg (val (q 2))]
  have v0 := mag3_nonneg (valVec v)
  have S1 : mag3 (valVec q) * mag3 (valVec v) ≤ 1.001 * M := mul_le_mul mq hM v0 (by norm_num)
  obtain ⟨f1, e1⟩ := cross_ok3 fq hv S1 (by linarith) (by linarith)
  -- the inner vector
  have w : ∀ i, i ≠ 3 → Finite32 (q 3 * v i + vec3Cross q v i).bits ∧
      |val (q 3 * v i + vec3Cross q v i) - (val (q 3) * val (v i) + cross (valVec q) (valVec v) i)| ≤ 6.6 / 2 ^ 24 * M := by
    intro i hi
    have vi : |val (v i)| ≤ M := (abs_le_mag3 (valVec v) i hi).trans hM
    have p : |val (q 3) * val (v i)| ≤ 1.001 * M := by
      rw [abs_mul]; exact mul_le_mul q3 vi (abs_nonneg _) (by norm_num)
    obtain ⟨g1, d1, b1⟩ := mul_bound (hq 3) (hv i hi) p (by linarith)
    have c1 : |val (vec3Cross q v i) - cross (valVec q) (valVec v) i| ≤ 3.54 * (1.001 * M) / 2 ^ 24 :=
      (abs_le_mag3 (valVec (vec3Cross q v) - cross (valVec q) (valVec v)) i hi).trans e1
    have c2 : |cross (valVec q) (valVec v) i| ≤ 1.001 * M := (abs_le_mag3 _ i hi).trans ((cross_mag _ _).trans S1)
    have c3 : |val (vec3Cross q v i)| ≤ 1.002 * M := by
      have := abs_add_le (val (vec3Cross q v i) - cross (valVec q) (valVec v) i) (cross (valVec q) (valVec v) i)
      rw [sub_add_cancel] at this
      linarith
    obtain ⟨g2, d2, -⟩ := add_bound g1 (f1 i hi) b1 c3 (by linarith)
    refine ⟨g2, ?_⟩
    generalize q 3 * v i = x at *
    generalize vec3Cross q v i = y at *
    rw [abs_le] at *
    constructor <;> linarith
  generalize hW : (fun i => q 3 * v i + vec3Cross q v i : F4 F32) = W at *
  have hWi : ∀ i, q 3 * v i + vec3Cross q v i = W i := fun i => by rw [← hW]
  simp only [hWi] at w
  have fW : Fin3 W := fun i hi => (w i hi).1
  set X : F4 ℝ := fun i => valVec q 3 * valVec v i + cross (valVec q) (valVec v) i with hX
  have eW : mag3 (valVec W - X) ≤ 7 / 4 * (6.6 / 2 ^ 24 * M) := mag3_le_three fun i hi => (w i hi).2
  have mX : mag3 X ≤ 1.001 * M := by
    have : mag3 X ^ 2 ≤ norm2 (valVec q) * mag3 (valVec v) ^ 2 := by
      rw [mag3_sq, mag3_sq]
      simp only [hX, dot3, cross, f4_0, f4_1, f4_2, norm2]
      nlinarith [sq_nonneg (valVec q 0 * valVec v 0 + valVec q 1 * valVec v 1 + valVec q 2 * valVec v 2)]
    refine abs_le_of_sq_le_sq' ?_ (by positivity) |>.2
    refine this.trans ?_
    rw [mul_pow]
    have e : norm2 (valVec q) = ‖toQuat (valVec q)‖ ^ 2 := by
      rw [norm_toQuat, Real.sq_sqrt]; unfold norm2; positivity
    rw [e]
    exact mul_le_mul (pow_le_pow_left₀ (norm_nonneg _) nq' 2) (pow_le_pow_left₀ v0 hM 2) (sq_nonneg _) (by norm_num)
  have mW : mag3 (valVec W) ≤ 1.002 * M := by
    have := mag3_sub_le (valVec W) X
    linarith
  have S2 : mag3 (valVec q) * mag3 (valVec W) ≤ 1.004 * M :=
    (mul_le_mul mq mW (mag3_nonneg _) (by norm_num)).trans (by linarith)
  obtain ⟨f2, e2⟩ := cross_ok3 fq fW S2 (by linarith) (by linarith)
  have e3 : mag3 (cross (valVec q) (valVec W) - cross (valVec q) X) ≤ 1.001 * (7 / 4 * (6.6 / 2 ^ 24 * M)) := by
    rw [cross_sub_right]
    exact (cross_mag _ _).trans (mul_le_mul mq eW (mag3_nonneg _) (by norm_num))
  have mC : mag3 (cross (valVec q) X) ≤ 1.003 * M :=
    (cross_mag _ _).trans ((mul_le_mul mq mX (mag3_nonneg _) (by norm_num)).trans (by linarith))
  have e4 : mag3 (valVec (vec3Cross q W) - cross (valVec q) X) ≤ 15.2 / 2 ^ 24 * M := by
    have := mag3_sub_le (valVec (vec3Cross q W) - cross (valVec q) X) (valVec (vec3Cross q W) - cross (valVec q) (valVec W))
    rw [sub_sub_sub_cancel_left] at this
    linarith
  generalize hC : vec3Cross q W = C at *
  have shape : ∀ i, quatTransformVector q v i = v i + C i + C i := fun i => by
    rw [qtv_shape, hW, hC]
  have fin : ∀ i, i ≠ 3 → Finite32 (v i + C i + C i).bits ∧
      |val (v i + C i + C i) - (val (v i) + val (C i) + val (C i))| ≤ 5.1 / 2 ^ 24 * M := by
    intro i hi
    have vi : |val (v i)| ≤ M := (abs_le_mag3 (valVec v) i hi).trans hM
    have ci : |val (C i)| ≤ 1.004 * M := by
      have := mag3_sub_le (valVec C) (cross (valVec q) X)
      exact (abs_le_mag3 (valVec C) i hi).trans (by linarith)
    obtain ⟨g1, d1, b1⟩ := add_bound (hv i hi) (f2 i hi) vi ci (by linarith)
    generalize v i + C i = y at *
    obtain ⟨g2, d2, -⟩ := add_bound g1 (f2 i hi) b1 ci (by linarith)
    refine ⟨g2, ?_⟩
    rw [abs_le] at *
    constructor <;> linarith
  refine ⟨fun i hi => by rw [shape]; exact (fin i hi).1, ?_⟩
  have t1 : mag3 (valVec (quatTransformVector q v) - (valVec v + valVec C + valVec C)) ≤ 7 / 4 * (5.1 / 2 ^ 24 * M) :=
    mag3_le_three fun i hi => by
      show |val (quatTransformVector q v i) - (val (v i) + val (C i) + val (C i))| ≤ _
      rw [shape]; exact (fin i hi).2
  have t2 : mag3 ((valVec v + valVec C + valVec C) - turned3 (valVec q) (valVec v)) ≤ 2 * (15.2 / 2 ^ 24 * M) := by
    have : (valVec v + valVec C + valVec C) - turned3 (valVec q) (valVec v) = (valVec C - cross (valVec q) X) + (valVec C - cross (valVec q) X) := by
      funext i
      simp only [turned3, Pi.add_apply, Pi.sub_apply]
      ring
    rw [this]
    refine (len_add).trans ?_
    have e4' : len (valVec C 0 - cross (valVec q) X 0) (valVec C 1 - cross (valVec q) X 1) (valVec C 2 - cross (valVec q) X 2) ≤
      15.2 / 2 ^ 24 * M := e4
    simp only [Pi.sub_apply]
    linarith
  have := mag3_sub_le (valVec (quatTransformVector q v) - turned3 (valVec q) (valVec v))
    (valVec (quatTransformVector q v) - (valVec v + valVec C + valVec C))
  rw [sub_sub_sub_cancel_left] at this
  linarith

end Ozz.IK
