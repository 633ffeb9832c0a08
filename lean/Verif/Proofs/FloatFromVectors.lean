import Verif.Proofs.FloatVec

/-! Helpers: the rotation between two vectors in single precision. -/

namespace Ozz.IK

open F32 Ieee Spec Blending Ozz.Trig

/-- Directions of close vectors are close. -/
theorem normalized_near {E : Type} [NormedAddCommGroup E] [NormedSpace ℝ E] {x y : E} (hx : x ≠ 0) (hy : y ≠ 0) :
    ‖(‖x‖⁻¹) • x - (‖y‖⁻¹) • y‖ ≤ 2 * (‖x - y‖ / ‖y‖) := by
  have hx' : 0 < ‖x‖ := norm_pos_iff.mpr hx
  have hy' : 0 < ‖y‖ := norm_pos_iff.mpr hy
  have e : (‖x‖⁻¹) • x - (‖y‖⁻¹) • y = (‖y‖⁻¹) • (x - y) + (‖x‖⁻¹ - ‖y‖⁻¹) • x := by
    rw [smul_sub, sub_smul]; abel
  rw [e]
  refine (norm_add_le _ _).trans ?_
  rw [norm_smul, norm_smul, Real.norm_eq_abs, Real.norm_eq_abs, abs_of_pos (inv_pos.mpr hy')]
  have h : |‖x‖⁻¹ - ‖y‖⁻¹| * ‖x‖ = |‖y‖ - ‖x‖| / ‖y‖ := by
    rw [show ‖x‖⁻¹ - ‖y‖⁻¹ = (‖y‖ - ‖x‖) / (‖x‖ * ‖y‖) by field_simp, abs_div, abs_of_pos (mul_pos hx' hy')]
    field_simp
  rw [h]
  have h2 : |‖y‖ - ‖x‖| ≤ ‖x - y‖ := by rw [norm_sub_rev]; exact abs_norm_sub_norm_le y x
  have := div_le_div_of_nonneg_right h2 hy'.le
  rw [inv_mul_eq_div]
  linarith

/-- The exact quaternion between two vectors, before it is normalised. -/
noncomputable def between (A B : F4 ℝ) : F4 ℝ := f4 (cross A B 0) (cross A B 1) (cross A B 2) (mag3 A * mag3 B + dot3 A B)

theorem between_sq (A B : F4 ℝ) : norm2 (between A B) = 2 * (mag3 A * mag3 B) * (mag3 A * mag3 B + dot3 A B) := by
  have hA := mag3_sq A
  have hB := mag3_sq B
  unfold dot3 at hA hB
  simp only [norm2, between, f4_0, f4_1, f4_2, f4_3, cross, dot3]
  generalize mag3 A = x at *
  generalize mag3 B = y at *
  linear_combination (-(B 0 * B 0 + B 1 * B 1 + B 2 * B 2)) * hA - x ^ 2 * hB

theorem between_turns (A B : F4 ℝ) :
    mag3 B • (toQuat (between A B) * pureQuat A) = mag3 A • (pureQuat B * toQuat (between A B)) := by
  have hA := mag3_sq A
  have hB := mag3_sq B
  unfold dot3 at hA hB
  ext <;> simp [between, cross, dot3] <;> generalize mag3 A = x at * <;> generalize mag3 B = y at *
  · ring
  · linear_combination x * A 0 * hB - y * B 0 * hA
  · linear_combination x * A 1 * hB - y * B 1 * hA
  · linear_combination x * A 2 * hB - y * B 2 * hA

theorem norm_pure (v : F4 ℝ) : ‖pureQuat v‖ = mag3 v := Frame.pure_norm rfl

/-- Turning by a quaternion, from an equation without a division. -/
theorem turn_eq {U x y : Quaternion ℝ} (hU : ‖U‖ = 1) (h : U * x = y * U) : U * x * U⁻¹ = y := by
  have : U ≠ 0 := by intro h0; rw [h0, norm_zero] at hU; exact zero_ne_one hU
  rw [h, mul_assoc, mul_inv_cancel₀ this, mul_one]

theorem norm_unit {Q : Quaternion ℝ} (h : Q ≠ 0) : ‖(‖Q‖⁻¹) • Q‖ = 1 := by
  rw [norm_smul, norm_inv, norm_norm, inv_mul_cancel₀ (norm_ne_zero_iff.mpr h)]

theorem root_near {r n c : ℝ} (hr : 0 ≤ r) (hn : 0 < n) (hc : c ≤ 1 / 100) (h : |r ^ 2 - n ^ 2| ≤ 2 * c * n ^ 2) :
    |r - n| ≤ 1.02 * c * n := by
  have hc0 : 0 ≤ c := by
    have := (abs_nonneg _).trans h
    by_contra hneg
    nlinarith [mul_pos hn hn]
  have e : |r ^ 2 - n ^ 2| = |r - n| * (r + n) := by
    rw [show r ^ 2 - n ^ 2 = (r - n) * (r + n) by ring, abs_mul, abs_of_nonneg (show 0 ≤ r + n by linarith)]
  rw [e] at h
  have d0 := abs_nonneg (r - n)
  have h1 : |r - n| ≤ 2 * c * n := by
    refine le_of_mul_le_mul_right ?_ hn
    nlinarith
  have h2 : (2 - 2 * c) * n ≤ r + n := by
    have := (abs_le.mp h1).1
    linarith
  have h3 : |r - n| * (2 - 2 * c) ≤ 2 * c * n := by
    refine le_of_mul_le_mul_right ?_ hn
    have := mul_le_mul_of_nonneg_left h2 d0
    nlinarith
  have h4 : |r - n| * 1.98 ≤ |r - n| * (2 - 2 * c) := mul_le_mul_of_nonneg_left (by norm_num at *; linarith) d0
  have h5 : 0 ≤ c * n := by positivity
  norm_num at *
  linarith

/-- The product of the lengths. -/
theorem norms_ok {a b : F4 F32} (ha : Fin3 a) (hb : Fin3 b) (a0 : 1 / 2 ^ 49 ≤ mag3 (valVec a)) (a1 : mag3 (valVec a) ≤ 2 ^ 30)
    (b0 : 1 / 2 ^ 49 ≤ mag3 (valVec b)) (b1 : mag3 (valVec b) ≤ 2 ^ 30) (n0 : 1 / 2 ^ 21 ≤ mag3 (valVec a) * mag3 (valVec b)) :
    Finite32 (NumOps.sqrt (vec3Length2S a 0 * vec3Length2S b 0) : F32).bits ∧
      |val (NumOps.sqrt (vec3Length2S a 0 * vec3Length2S b 0) : F32) - mag3 (valVec a) * mag3 (valVec b)| ≤
        4.63 / 2 ^ 24 * (mag3 (valVec a) * mag3 (valVec b)) := by
  have sa := mag3_sq (valVec a)
  have sb := mag3_sq (valVec b)
  have pa0 : (1 / 2 ^ 98 : ℝ) ≤ mag3 (valVec a) ^ 2 := by
    have := pow_le_pow_left₀ (by positivity) a0 2
    norm_num at *; linarith
  have pa1 : mag3 (valVec a) ^ 2 ≤ (2 ^ 60 : ℝ) := by
    have := pow_le_pow_left₀ (mag3_nonneg _) a1 2
    norm_num at *; linarith
  have pb0 : (1 / 2 ^ 98 : ℝ) ≤ mag3 (valVec b) ^ 2 := by
    have := pow_le_pow_left₀ (by positivity) b0 2
    norm_num at *; linarith
  have pb1 : mag3 (valVec b) ^ 2 ≤ (2 ^ 60 : ℝ) := by
    have := pow_le_pow_left₀ (mag3_nonneg _) b1 2
    norm_num at *; linarith
  obtain ⟨fa, ea⟩ := len2_ok ha (by rw [← sa]; norm_num at *; linarith) (by rw [← sa]; norm_num at *; linarith)
  obtain ⟨fb, eb⟩ := len2_ok hb (by rw [← sb]; norm_num at *; linarith) (by rw [← sb]; norm_num at *; linarith)
  rw [← sa] at ea
  rw [← sb] at eb
  have hx : 0 < mag3 (valVec a) := lt_of_lt_of_le (by positivity) a0
  have hy : 0 < mag3 (valVec b) := lt_of_lt_of_le (by positivity) b0
  obtain ⟨X, hX⟩ : ∃ X, X = vec3Length2S a 0 := ⟨_, rfl⟩
  obtain ⟨Y, hY⟩ : ∃ Y, Y = vec3Length2S b 0 := ⟨_, rfl⟩
  rw [← hX] at fa ea ⊢
  rw [← hY] at fb eb ⊢
  generalize mag3 (valVec a) = x at *
  generalize mag3 (valVec b) = y at *
  -- the product of the squares
  have x2 : (0 : ℝ) < x ^ 2 := by positivity
  have y2 : (0 : ℝ) < y ^ 2 := by positivity
  obtain ⟨da, hda⟩ : ∃ d, val X = x ^ 2 * (1 + d) := ⟨val X / x ^ 2 - 1, by field_simp; ring⟩
  obtain ⟨db, hdb⟩ : ∃ d, val Y = y ^ 2 * (1 + d) := ⟨val Y / y ^ 2 - 1, by field_simp; ring⟩
  have ka : |da| ≤ 3.02 / 2 ^ 24 := by
    rw [hda, show x ^ 2 * (1 + da) - x ^ 2 = da * x ^ 2 by ring, abs_mul, abs_of_pos x2, mul_comm (3.02 : ℝ), mul_div_assoc,
      mul_comm (x ^ 2)] at ea
    exact le_of_mul_le_mul_right ea x2
  have kb : |db| ≤ 3.02 / 2 ^ 24 := by
    rw [hdb, show y ^ 2 * (1 + db) - y ^ 2 = db * y ^ 2 by ring, abs_mul, abs_of_pos y2, mul_comm (3.02 : ℝ), mul_div_assoc,
      mul_comm (y ^ 2)] at eb
    exact le_of_mul_le_mul_right eb y2
  rw [abs_le] at ka kb
  have N1 : x ^ 2 * y ^ 2 ≤ 2 ^ 120 := by
    calc x ^ 2 * y ^ 2 ≤ 2 ^ 60 * 2 ^ 60 := mul_le_mul pa1 pb1 y2.le (by positivity)
      _ = _ := by norm_num
  have N0 : 1 / 2 ^ 120 ≤ x ^ 2 * y ^ 2 := by
    rw [← mul_pow]
    exact le_trans (by norm_num) (pow_le_pow_left₀ (by positivity) n0 2)
  have hN : 0 < x * y := mul_pos hx hy
  have pe : val X * val Y = (x * y) ^ 2 * ((1 + da) * (1 + db)) := by rw [hda, hdb]; ring
  have hm0 : 1 - 6.05 / 2 ^ 24 ≤ (1 + da) * (1 + db) := by norm_num at *; nlinarith
  have hm1 : (1 + da) * (1 + db) ≤ 1 + 6.05 / 2 ^ 24 := by norm_num at *; nlinarith
  generalize (1 + da) * (1 + db) = m at *
  have hmp : 0 < m := by norm_num at hm0; linarith
  have hm2 : m ≤ 2 := by norm_num at hm1; linarith
  rw [← mul_pow] at N0 N1
  have PP : 0 ≤ val X * val Y := by rw [pe]; positivity
  have PB : |val X * val Y| ≤ 2 ^ 121 := by
    rw [abs_of_nonneg PP, pe]
    calc (x * y) ^ 2 * m ≤ 2 ^ 120 * 2 := mul_le_mul N1 hm2 hmp.le (by positivity)
      _ = _ := by norm_num
  obtain ⟨fp, ep⟩ := mul_ok fa fb (PB.trans (by norm_num))
  have P0 : 0 ≤ val (X * Y) := mul_nonneg32 fa fb fp PP
  obtain ⟨P, hP⟩ : ∃ P, P = X * Y := ⟨_, rfl⟩
  rw [← hP] at fp ep P0 ⊢
  rw [abs_of_nonneg PP, pe] at ep
  -- the square root
  have hr0 : √(val P) ≤ 2 ^ 127 := by
    rw [Real.sqrt_le_left (by positivity)]
    rw [abs_le] at ep
    have := mul_le_mul N1 hm2 hmp.le (by positivity)
    norm_num at *
    linarith [ep.2]
  obtain ⟨fs, es, -⟩ := sqrt_ok fp P0 hr0
  refine ⟨fs, ?_⟩
  have hd : |val P - (x * y) ^ 2| ≤ 7.07 / 2 ^ 24 * (x * y) ^ 2 := by
    have t : (x * y) ^ 2 * m / 2 ^ 24 + 1 / 2 ^ 150 ≤ 1.02 / 2 ^ 24 * (x * y) ^ 2 := by
      have := mul_le_mul_of_nonneg_left hm1 (sq_nonneg (x * y))
      norm_num at *
      linarith
    have t2 : |(x * y) ^ 2 * m - (x * y) ^ 2| ≤ 6.05 / 2 ^ 24 * (x * y) ^ 2 := by
      rw [show (x * y) ^ 2 * m - (x * y) ^ 2 = (m - 1) * (x * y) ^ 2 by ring, abs_mul, abs_of_nonneg (sq_nonneg (x * y))]
      refine mul_le_mul_of_nonneg_right ?_ (sq_nonneg _)
      rw [abs_le]; constructor <;> linarith
    calc |val P - (x * y) ^ 2| = |(val P - (x * y) ^ 2 * m) + ((x * y) ^ 2 * m - (x * y) ^ 2)| := by ring_nf
      _ ≤ _ := abs_add_le _ _
      _ ≤ 1.02 / 2 ^ 24 * (x * y) ^ 2 + 6.05 / 2 ^ 24 * (x * y) ^ 2 := add_le_add (ep.trans t) t2
      _ ≤ _ := by rw [← add_mul]; exact mul_le_mul_of_nonneg_right (by norm_num) (sq_nonneg _)
  have N0' : 1 / 2 ^ 60 ≤ x * y := by
    refine abs_le_of_sq_le_sq' ?_ hN.le |>.2
    calc ((1 : ℝ) / 2 ^ 60) ^ 2 = 1 / 2 ^ 120 := by norm_num
      _ ≤ _ := N0
  have q2 := Real.sq_sqrt P0
  have q0 := Real.sqrt_nonneg (val P)
  have qd : |√(val P) - x * y| ≤ 1.02 * (3.535 / 2 ^ 24) * (x * y) := by
    refine root_near q0 hN (by norm_num) ?_
    rw [q2]
    refine hd.trans (le_of_eq ?_)
    norm_num
  change |val (F32.sqrt P) - x * y| ≤ _
  rw [abs_le] at qd es ⊢
  constructor <;> norm_num at * <;> linarith [qd.1, qd.2, es.1, es.2]

section
variable {α : Type} [Add α] [Sub α] [Mul α] [Div α] [Neg α] [NumOps α]

theorem fromVectors_shape (a b : F4 α) : quatFromVectors a b =
    if NumOps.lt (NumOps.sqrt (vec3Length2S a 0 * vec3Length2S b 0)) (NumOps.lit 1 1000000) then quatUnit
    else quatNormalize
      (if NumOps.lt (NumOps.sqrt (vec3Length2S a 0 * vec3Length2S b 0) + vec3DotS a b 0)
          (NumOps.lit 1 1000000 * NumOps.sqrt (vec3Length2S a 0 * vec3Length2S b 0)) then
        if NumOps.lt (NumOps.abs (a 2)) (NumOps.abs (a 0)) then f4 (-a 1) (a 0) NumOps.zero NumOps.zero
        else f4 NumOps.zero (-a 2) (a 1) NumOps.zero
      else f4 (vec3Cross a b 0) (vec3Cross a b 1) (vec3Cross a b 2)
        (NumOps.sqrt (vec3Length2S a 0 * vec3Length2S b 0) + vec3DotS a b 0)) := rfl
end

/-- What `norms` and `real_part` come to. -/
theorem realPart_ok {a b : F4 F32} (ha : Fin3 a) (hb : Fin3 b) (a0 : 1 / 2 ^ 49 ≤ mag3 (valVec a)) (a1 : mag3 (valVec a) ≤ 2 ^ 30)
    (b0 : 1 / 2 ^ 49 ≤ mag3 (valVec b)) (b1 : mag3 (valVec b) ≤ 2 ^ 30)
    (n0 : 1 / 2 ^ 21 ≤ mag3 (valVec a) * mag3 (valVec b)) {n r : F32}
    (hn : n = NumOps.sqrt (vec3Length2S a 0 * vec3Length2S b 0)) (hr : r = n + vec3DotS a b 0) :
    Finite32 n.bits ∧ Finite32 r.bits ∧ |val n - mag3 (valVec a) * mag3 (valVec b)| ≤ 4.63 / 2 ^ 24 * (mag3 (valVec a) * mag3 (valVec b)) ∧
    ∃ s, |s - (mag3 (valVec a) * mag3 (valVec b) + dot3 (valVec a) (valVec b))| ≤ 7.65 / 2 ^ 24 * (mag3 (valVec a) * mag3 (valVec b)) ∧
      |val r - s| ≤ |s| / 2 ^ 24 := by
  obtain ⟨fn, en⟩ := norms_ok ha hb a0 a1 b0 b1 n0
  rw [← hn] at fn en
  have hx : 0 < mag3 (valVec a) := lt_of_lt_of_le (by positivity) a0
  have hy : 0 < mag3 (valVec b) := lt_of_lt_of_le (by positivity) b0
  have N0 : 1 / 2 ^ 60 ≤ mag3 (valVec a) * mag3 (valVec b) := by
    exact le_trans (by norm_num) n0
  have N1 : mag3 (valVec a) * mag3 (valVec b) ≤ 2 ^ 60 := by
    calc mag3 (valVec a) * mag3 (valVec b) ≤ 2 ^ 30 * 2 ^ 30 := mul_le_mul a1 b1 hy.le (by positivity)
      _ = _ := by norm_num
  obtain ⟨fd, ed⟩ := dotS_ok ha hb le_rfl (by norm_num at *; linarith) (by norm_num at *; linarith)
  have hd : |dot3 (valVec a) (valVec b)| ≤ mag3 (valVec a) * mag3 (valVec b) := dot_le_len
  generalize mag3 (valVec a) * mag3 (valVec b) = N at *
  generalize dot3 (valVec a) (valVec b) = d at *
  generalize vec3DotS a b 0 = D at *
  rw [abs_le] at ed hd en
  have hs : |val n + val D - (N + d)| ≤ 7.65 / 2 ^ 24 * N := by
    rw [abs_le]
    constructor <;> norm_num at * <;> linarith
  obtain ⟨fr, er⟩ := add_ok fn fd (by rw [abs_le]; constructor <;> norm_num at * <;> linarith)
  rw [← hr] at fr er
  exact ⟨fn, fr, abs_le.mpr en, _, hs, er⟩

theorem norm_toQuat_four {q : F4 ℝ} {e w z : ℝ} (h : ∀ i, i ≠ 3 → |q i| ≤ e) (h3 : |q 3| ≤ w) (hz : 0 ≤ z) (hs : 3 * e ^ 2 + w ^ 2 ≤ z ^ 2) :
    ‖toQuat q‖ ≤ z := by
  rw [norm_toQuat]
  apply Real.sqrt_le_iff.mpr
  refine ⟨hz, le_trans ?_ hs⟩
  have k : ∀ i, i ≠ 3 → q i ^ 2 ≤ e ^ 2 := fun i hi => by
    rw [← sq_abs]; exact pow_le_pow_left₀ (abs_nonneg _) (h i hi) 2
  have k3 : q 3 ^ 2 ≤ w ^ 2 := by rw [← sq_abs]; exact pow_le_pow_left₀ (abs_nonneg _) h3 2
  unfold norm2
  linarith [k 0 (by decide), k 1 (by decide), k 2 (by decide)]

/-- The branch for vectors that are not opposite. -/
theorem regular_ok {a b : F4 F32} (ha : Fin3 a) (hb : Fin3 b) (a0 : 1 / 2 ^ 49 ≤ mag3 (valVec a)) (a1 : mag3 (valVec a) ≤ 2 ^ 30)
    (b0 : 1 / 2 ^ 49 ≤ mag3 (valVec b)) (b1 : mag3 (valVec b) ≤ 2 ^ 30)
    (n0 : 1 / 2 ^ 21 ≤ mag3 (valVec a) * mag3 (valVec b)) (n1 : mag3 (valVec a) * mag3 (valVec b) ≤ 2 ^ 48) {r : F32}
    (hr : r = NumOps.sqrt (vec3Length2S a 0 * vec3Length2S b 0) + vec3DotS a b 0) {κ : ℝ} (hκ : 1 / 1400 ≤ κ)
    (h : κ ^ 2 * (mag3 (valVec a) * mag3 (valVec b)) ≤ mag3 (valVec a) * mag3 (valVec b) + dot3 (valVec a) (valVec b)) :
    (∀ c, Finite32 (quatNormalize (f4 (vec3Cross a b 0) (vec3Cross a b 1) (vec3Cross a b 2) r) c).bits) ∧
    |norm2 (valVec (quatNormalize (f4 (vec3Cross a b 0) (vec3Cross a b 1) (vec3Cross a b 2) r))) - 1| ≤ 1 / 2 ^ 19 ∧
    ∃ U : Quaternion ℝ, ‖U‖ = 1 ∧
      ‖toQuat (valVec (quatNormalize (f4 (vec3Cross a b 0) (vec3Cross a b 1) (vec3Cross a b 2) r))) - U‖ ≤ 28 / κ / 2 ^ 24 ∧
      U * pureQuat (valVec a) * U⁻¹ = (mag3 (valVec a) / mag3 (valVec b)) • pureQuat (valVec b) := by
  obtain ⟨-, fr, -, s, hs, hrs⟩ := realPart_ok ha hb a0 a1 b0 b1 n0 rfl hr
  have hx : 0 < mag3 (valVec a) := lt_of_lt_of_le (by positivity) a0
  have hy : 0 < mag3 (valVec b) := lt_of_lt_of_le (by positivity) b0
  have N0 : 1 / 2 ^ 60 ≤ mag3 (valVec a) * mag3 (valVec b) := by
    exact le_trans (by norm_num) n0
  have N1 : mag3 (valVec a) * mag3 (valVec b) ≤ 2 ^ 60 := by
    calc mag3 (valVec a) * mag3 (valVec b) ≤ 2 ^ 30 * 2 ^ 30 := mul_le_mul a1 b1 hy.le (by positivity)
      _ = _ := by norm_num
  have cr := cross_ok ha hb le_rfl (by norm_num at *; linarith) (by norm_num at *; linarith)
  have hd : |dot3 (valVec a) (valVec b)| ≤ mag3 (valVec a) * mag3 (valVec b) := dot_le_len
  have bs := between_sq (valVec a) (valVec b)
  have bt := between_turns (valVec a) (valVec b)
  have b3 : between (valVec a) (valVec b) 3 = mag3 (valVec a) * mag3 (valVec b) + dot3 (valVec a) (valVec b) := rfl
  have bi : ∀ i, i ≠ 3 → between (valVec a) (valVec b) i = cross (valVec a) (valVec b) i := four_ne rfl rfl rfl
  obtain ⟨q, hq⟩ : ∃ q, q = f4 (vec3Cross a b 0) (vec3Cross a b 1) (vec3Cross a b 2) r := ⟨_, rfl⟩
  have qi : ∀ i, i ≠ 3 → q i = vec3Cross a b i := by rw [hq]; exact four_ne rfl rfl rfl
  have q3 : q 3 = r := by rw [hq]; rfl
  rw [← hq]
  have hN : 0 < mag3 (valVec a) * mag3 (valVec b) := mul_pos hx hy
  have hκ0 : 0 < κ := lt_of_lt_of_le (by norm_num) hκ
  have hκ2 : κ ≤ 1.415 := by
    have : κ ^ 2 * (mag3 (valVec a) * mag3 (valVec b)) ≤ 2 * (mag3 (valVec a) * mag3 (valVec b)) := by linarith [(abs_le.mp hd).2]
    have := le_of_mul_le_mul_right this hN
    refine abs_le_of_sq_le_sq' (b := (1.415 : ℝ)) ?_ (by norm_num) |>.2
    norm_num; linarith
  set A := valVec a
  set B := valVec b
  have hw : |val (q 3) - between A B 3| ≤ 9.66 * (mag3 A * mag3 B) / 2 ^ 24 := by
    rw [q3, b3]
    generalize mag3 A * mag3 B = N at *
    generalize dot3 A B = d at *
    rw [abs_le] at hd hs hrs ⊢
    have : |s| ≤ 2.001 * N := by rw [abs_le]; constructor <;> norm_num at * <;> linarith
    constructor <;> norm_num at * <;> linarith
  have hc : ∀ i, i ≠ 3 → |val (q i) - between A B i| ≤ 2.02 * (mag3 A * mag3 B) / 2 ^ 24 := fun i hi => by
    rw [qi i hi, bi i hi]; exact (cr i hi).2
  have hf : ∀ c, Finite32 (q c).bits := by
    apply four_all
    · rw [qi 0 (by decide)]; exact (cr 0 (by decide)).1
    · rw [qi 1 (by decide)]; exact (cr 1 (by decide)).1
    · rw [qi 2 (by decide)]; exact (cr 2 (by decide)).1
    · rw [q3]; exact fr
  have hdist : ‖toQuat (valVec q) - toQuat (between A B)‖ ≤ 10.4 * (mag3 A * mag3 B) / 2 ^ 24 := by
    rw [← toQuat_sub]
    refine norm_toQuat_four hc hw (by positivity) ?_
    generalize mag3 A * mag3 B = N at *
    have := sq_nonneg N
    norm_num
    nlinarith
  have hb2 : ‖toQuat (between A B)‖ ^ 2 = 2 * (mag3 A * mag3 B) * (mag3 A * mag3 B + dot3 A B) := by
    rw [norm_toQuat, Real.sq_sqrt (by unfold norm2; positivity), bs]
  generalize hNN : mag3 A * mag3 B = N at *
  generalize dot3 A B = d at *
  have hlow : 1.414 * κ * N ≤ ‖toQuat (between A B)‖ := by
    refine abs_le_of_sq_le_sq' ?_ (norm_nonneg _) |>.2
    rw [hb2]
    have := mul_le_mul_of_nonneg_left h (show 0 ≤ 2 * N by linarith)
    have := mul_nonneg (sq_nonneg κ) (sq_nonneg N)
    norm_num
    nlinarith
  have hup : ‖toQuat (between A B)‖ ≤ 2 * N := by
    refine abs_le_of_sq_le_sq' ?_ (by linarith) |>.2
    rw [hb2]
    nlinarith [(abs_le.mp hd).2]
  have hpos : 0 < 1.414 * κ * N := by positivity
  have hB0 : toQuat (between A B) ≠ 0 := by
    rw [← norm_pos_iff]; linarith
  have hlow' : 1 / 2 ^ 71 ≤ 1.414 * κ * N := by
    have := mul_le_mul hκ N0 (by positivity) hκ0.le
    norm_num at *
    linarith
  have hκN : 1 / 1400 * N ≤ κ * N := mul_le_mul_of_nonneg_right hκ hN.le
  have hq1 : 0.9 * (1.414 * κ * N) ≤ ‖toQuat (valVec q)‖ := by
    have := norm_add_le (toQuat (between A B) - toQuat (valVec q)) (toQuat (valVec q))
    rw [sub_add_cancel, norm_sub_rev] at this
    norm_num at *
    linarith
  have hq2 : ‖toQuat (valVec q)‖ ≤ 3 * N := by
    have := norm_add_le (toQuat (valVec q) - toQuat (between A B)) (toQuat (between A B))
    rw [sub_add_cancel] at this
    norm_num at *
    linarith
  have hQ0 : toQuat (valVec q) ≠ 0 := by
    rw [← norm_pos_iff]; linarith
  have hn2 : norm2 (valVec q) = ‖toQuat (valVec q)‖ ^ 2 := by
    rw [norm_toQuat, Real.sq_sqrt (by unfold norm2; positivity)]
  obtain ⟨k1, k2, k3⟩ := normalize4_ok hf (by
      rw [hn2]
      have := pow_le_pow_left₀ (by positivity) (show 1 / 2 ^ 50 ≤ ‖toQuat (valVec q)‖ by norm_num at *; linarith) 2
      refine le_trans (by norm_num) this) (by
      rw [hn2]
      have := pow_le_pow_left₀ (norm_nonneg _) (show ‖toQuat (valVec q)‖ ≤ 2 ^ 50 by norm_num at *; linarith) 2
      refine this.trans (by norm_num))
  refine ⟨k1, k2, (‖toQuat (between A B)‖⁻¹) • toQuat (between A B), norm_unit hB0, ?_, ?_⟩
  · have g := norm_add_le (toQuat (valVec (quatNormalize q)) - (‖toQuat (valVec q)‖⁻¹) • toQuat (valVec q))
      ((‖toQuat (valVec q)‖⁻¹) • toQuat (valVec q) - (‖toQuat (between A B)‖⁻¹) • toQuat (between A B))
    rw [sub_add_sub_cancel] at g
    refine g.trans ?_
    have g2 := normalized_near hQ0 hB0
    have g3 : ‖toQuat (valVec q) - toQuat (between A B)‖ / ‖toQuat (between A B)‖ ≤ 10.4 * N / 2 ^ 24 / (1.414 * κ * N) :=
      div_le_div₀ (by positivity) hdist hpos hlow
    have g4 : 10.4 * N / 2 ^ 24 / (1.414 * κ * N) = 10.4 / 1.414 / κ / 2 ^ 24 := by field_simp
    rw [g4] at g3
    have g5 : (9 : ℝ) ≤ 12.8 / κ := by rw [le_div_iff₀ hκ0]; norm_num at *; linarith
    have g6 : 28 / κ / 2 ^ 24 = 2 * (10.4 / 1.414 / κ / 2 ^ 24) + (28 - 20.8 / 1.414) / κ / 2 ^ 24 := by ring
    have g7 : 12.8 / κ ≤ (28 - 20.8 / 1.414) / κ := div_le_div_of_nonneg_right (by norm_num) hκ0.le
    have g8 : (9 : ℝ) / 2 ^ 24 ≤ (28 - 20.8 / 1.414) / κ / 2 ^ 24 := div_le_div_of_nonneg_right (g5.trans g7) (by positivity)
    rw [g6]
    linarith
  · apply turn_eq (norm_unit hB0)
    rw [smul_mul_assoc, mul_smul_comm, smul_mul_assoc]
    congr 1
    have : toQuat (between A B) * pureQuat A = (mag3 B)⁻¹ • (mag3 B • (toQuat (between A B) * pureQuat A)) := by
      rw [smul_smul, inv_mul_cancel₀ hy.ne', one_smul]
    rw [this, bt, smul_smul]
    congr 1
    field_simp

theorem lit_millionth : Finite32 (NumOps.lit 1 1000000 : F32).bits ∧ |val (NumOps.lit 1 1000000 : F32) - 1 / 1000000| ≤ 1 / 2 ^ 44 := by
  have f : Finite32 (NumOps.lit 1 1000000 : F32).bits := by
    have : Finite32 (F32.pack false (F32.roundMag (1 * 2 ^ 149) 1000000)).bits := by decide +kernel
    exact this
  refine ⟨f, ?_⟩
  have : value32 (F32.pack false (F32.roundMag (1 * 2 ^ 149) 1000000)).bits = 8796093 / 2 ^ 43 := by decide +kernel
  have e : val (NumOps.lit 1 1000000 : F32) = ((8796093 / 2 ^ 43 : ℚ) : ℝ) := by
    exact congrArg (fun x : ℚ => (x : ℝ)) this
  rw [e]
  norm_num [abs_le]

/-- The quaternion of half a turn about an axis at a right angle. -/
theorem half_turn {P A : F4 ℝ} (h3 : P 3 = 0) (hd : dot3 P A = 0) : toQuat P * pureQuat A = (-pureQuat A) * toQuat P := by
  unfold dot3 at hd
  ext <;> simp [h3]
  · linarith
  · ring
  · ring
  · ring

/-- The branch for opposite vectors. -/
theorem opposite_ok {a p : F4 F32} (ha : Fin3 a) (a0 : 1 / 2 ^ 49 ≤ mag3 (valVec a)) (a1 : mag3 (valVec a) ≤ 2 ^ 30)
    (hp : p = if NumOps.lt (NumOps.abs (a 2)) (NumOps.abs (a 0)) then f4 (-a 1) (a 0) F32.zero F32.zero
        else f4 F32.zero (-a 2) (a 1) F32.zero) :
    (∀ c, Finite32 (quatNormalize p c).bits) ∧ |norm2 (valVec (quatNormalize p)) - 1| ≤ 1 / 2 ^ 19 ∧
    ∃ U : Quaternion ℝ, ‖U‖ = 1 ∧ ‖toQuat (valVec (quatNormalize p)) - U‖ ≤ 9 / 2 ^ 24 ∧
      U * pureQuat (valVec a) * U⁻¹ = -pureQuat (valVec a) := by
  have hz : val F32.zero = 0 := zero_real
  have hab : ∀ i, i ≠ 3 → Finite32 (NumOps.abs (a i)).bits ∧ val (NumOps.abs (a i)) = |val (a i)| := fun i hi => by
    have := near_abs (ha i hi)
    refine ⟨this.1, ?_⟩
    have := this.2; rw [abs_nonpos_iff, sub_eq_zero] at this; exact this
  have hlt : (NumOps.lt (NumOps.abs (a 2)) (NumOps.abs (a 0)) = true) ↔ |val (a 2)| < |val (a 0)| := by
    have := lt_val32 (hab 2 (by decide)).1 (hab 0 (by decide)).1
    rw [(hab 2 (by decide)).2, (hab 0 (by decide)).2] at this
    exact this
  have sA := mag3_sq (valVec a)
  have dA : dot3 (valVec a) (valVec a) = val (a 0) ^ 2 + val (a 1) ^ 2 + val (a 2) ^ 2 := by unfold dot3 valVec; ring
  have s0 := sq_nonneg (val (a 0))
  have s1 := sq_nonneg (val (a 1))
  have s2 := sq_nonneg (val (a 2))
  have key : (∀ c, Finite32 (p c).bits) ∧ valVec p 3 = 0 ∧ dot3 (valVec p) (valVec a) = 0 ∧
      mag3 (valVec a) ^ 2 / 2 ≤ norm2 (valVec p) ∧ norm2 (valVec p) ≤ mag3 (valVec a) ^ 2 := by
    rw [sA, dA]
    by_cases h : |val (a 2)| < |val (a 0)|
    · rw [if_pos (hlt.mpr h)] at hp
      have e : valVec p = f4 (-val (a 1)) (val (a 0)) 0 0 := by
        rw [hp]; apply ext4
        · exact neg_real _
        · rfl
        · exact hz
        · exact hz
      have h' := sq_lt_sq.mpr h
      refine ⟨?_, by rw [e]; rfl, by rw [e]; simp [dot3, valVec]; ring, ?_, ?_⟩
      · rw [hp]; apply four_all
        exacts [neg_finite.mpr (ha 1 (by decide)), ha 0 (by decide), zero_finite, zero_finite]
      · rw [e]; simp only [norm2, f4_0, f4_1, f4_2, f4_3]; linarith
      · rw [e]; simp only [norm2, f4_0, f4_1, f4_2, f4_3]; linarith
    · rw [if_neg (fun hh => h (hlt.mp hh))] at hp
      have e : valVec p = f4 0 (-val (a 2)) (val (a 1)) 0 := by
        rw [hp]; apply ext4
        · exact hz
        · exact neg_real _
        · rfl
        · exact hz
      have h' := sq_le_sq.mpr (not_lt.mp h)
      refine ⟨?_, by rw [e]; rfl, by rw [e]; simp [dot3, valVec]; ring, ?_, ?_⟩
      · rw [hp]; apply four_all
        exacts [zero_finite, neg_finite.mpr (ha 2 (by decide)), ha 1 (by decide), zero_finite]
      · rw [e]; simp only [norm2, f4_0, f4_1, f4_2, f4_3]; linarith
      · rw [e]; simp only [norm2, f4_0, f4_1, f4_2, f4_3]; linarith
  obtain ⟨hf, h3, hd, l0, l1⟩ := key
  have p0 : (1 / 2 ^ 98 : ℝ) ≤ mag3 (valVec a) ^ 2 := by
    have := pow_le_pow_left₀ (by positivity) a0 2
    norm_num at *; linarith
  have p1 : mag3 (valVec a) ^ 2 ≤ (2 ^ 60 : ℝ) := by
    have := pow_le_pow_left₀ (mag3_nonneg _) a1 2
    norm_num at *; linarith
  obtain ⟨k1, k2, k3⟩ := normalize4_ok hf (by norm_num at *; linarith) (by norm_num at *; linarith)
  have hQ : toQuat (valVec p) ≠ 0 := by
    rw [← norm_pos_iff, norm_toQuat]
    apply Real.sqrt_pos.mpr
    norm_num at *; linarith
  refine ⟨k1, k2, _, norm_unit hQ, k3, ?_⟩
  apply turn_eq (norm_unit hQ)
  rw [smul_mul_assoc, half_turn h3 hd, mul_smul_comm]

theorem opposite_dist {A B : F4 ℝ} (hA : 0 < mag3 A) (hB : 0 < mag3 B) {δ : ℝ} (h0 : 0 ≤ δ)
    (h : 2 * (mag3 A * mag3 B + dot3 A B) ≤ δ ^ 2 * (mag3 A * mag3 B)) :
    ‖-pureQuat A - (mag3 A / mag3 B) • pureQuat B‖ ≤ δ * mag3 A := by
  have e : -pureQuat A - (mag3 A / mag3 B) • pureQuat B = pureQuat (fun i => -A i - mag3 A / mag3 B * B i) := by
    ext <;> simp
  rw [e, norm_pure]
  refine abs_le_of_sq_le_sq' ?_ (by positivity) |>.2
  have e2 : mag3 (fun i => -A i - mag3 A / mag3 B * B i) ^ 2 = mag3 A ^ 2 + 2 * (mag3 A / mag3 B) * dot3 A B + (mag3 A / mag3 B) ^ 2 * mag3 B ^ 2 := by
    rw [mag3_sq, mag3_sq, mag3_sq]
    unfold dot3
    ring
  rw [e2]
  have e3 : (mag3 A / mag3 B) ^ 2 * mag3 B ^ 2 = mag3 A ^ 2 := by rw [div_pow]; field_simp
  have e4 : mag3 A ^ 2 + 2 * (mag3 A / mag3 B) * dot3 A B + mag3 A ^ 2 = mag3 A / mag3 B * (2 * (mag3 A * mag3 B + dot3 A B)) := by
    field_simp; ring
  rw [e3, e4]
  refine (mul_le_mul_of_nonneg_left h (by positivity)).trans (le_of_eq ?_)
  field_simp

/-- The rotation from one vector to another, of lengths that are not too small together. -/
theorem fromVectors_core {a b : F4 F32} (ha : Fin3 a) (hb : Fin3 b) (a0 : 1 / 2 ^ 49 ≤ mag3 (valVec a)) (a1 : mag3 (valVec a) ≤ 2 ^ 30)
    (b0 : 1 / 2 ^ 49 ≤ mag3 (valVec b)) (b1 : mag3 (valVec b) ≤ 2 ^ 30)
    (n0 : 1 / 2 ^ 21 ≤ mag3 (valVec a) * mag3 (valVec b)) (n1 : mag3 (valVec a) * mag3 (valVec b) ≤ 2 ^ 48)
    (c1 : ¬ (NumOps.lt (NumOps.sqrt (vec3Length2S a 0 * vec3Length2S b 0) : F32) (NumOps.lit 1 1000000) = true)) :
    (∀ c, Finite32 (quatFromVectors a b c).bits) ∧ |norm2 (valVec (quatFromVectors a b)) - 1| ≤ 1 / 2 ^ 19 ∧
    (∃ U : Quaternion ℝ, ‖U‖ = 1 ∧ ‖toQuat (valVec (quatFromVectors a b)) - U‖ ≤ 1 / 430 ∧
      2 * ‖toQuat (valVec (quatFromVectors a b)) - U‖ * mag3 (valVec a) +
        ‖U * pureQuat (valVec a) * U⁻¹ - (mag3 (valVec a) / mag3 (valVec b)) • pureQuat (valVec b)‖ ≤ mag3 (valVec a) / 215) ∧
    ∀ κ : ℝ, 1 / 800 ≤ κ →
      κ ^ 2 * (mag3 (valVec a) * mag3 (valVec b)) ≤ mag3 (valVec a) * mag3 (valVec b) + dot3 (valVec a) (valVec b) →
      ∃ U : Quaternion ℝ, ‖U‖ = 1 ∧ ‖toQuat (valVec (quatFromVectors a b)) - U‖ ≤ 28 / κ / 2 ^ 24 ∧
        U * pureQuat (valVec a) * U⁻¹ = (mag3 (valVec a) / mag3 (valVec b)) • pureQuat (valVec b) := by
  have hx : 0 < mag3 (valVec a) := lt_of_lt_of_le (by positivity) a0
  have hy : 0 < mag3 (valVec b) := lt_of_lt_of_le (by positivity) b0
  have hN : 0 < mag3 (valVec a) * mag3 (valVec b) := mul_pos hx hy
  obtain ⟨n, hn⟩ : ∃ n : F32, n = NumOps.sqrt (vec3Length2S a 0 * vec3Length2S b 0) := ⟨_, rfl⟩
  obtain ⟨r, hr⟩ : ∃ r : F32, r = n + vec3DotS a b 0 := ⟨_, rfl⟩
  obtain ⟨fn, fr, en, s, hs, hrs⟩ := realPart_ok ha hb a0 a1 b0 b1 n0 hn hr
  have shape := fromVectors_shape a b
  rw [← hn, ← hr] at shape
  obtain ⟨fl, el⟩ := lit_millionth
  obtain ⟨m, hm⟩ : ∃ m : F32, m = NumOps.lit 1 1000000 := ⟨_, rfl⟩
  rw [← hm] at shape fl el
  rw [← hn, ← hm] at c1
  rw [if_neg c1] at shape
  have reg := fun κ => regular_ok ha hb a0 a1 b0 b1 n0 n1 (r := r) (by rw [hr, hn]) (κ := κ)
  -- the threshold
  have hmn : |val m * val n| ≤ 2 ^ 100 := by
    rw [abs_mul]
    have h1 : |val m| ≤ 1 := by rw [abs_le] at el ⊢; constructor <;> norm_num at * <;> linarith
    have h2 : |val n| ≤ 2 ^ 49 := by rw [abs_le] at en ⊢; constructor <;> norm_num at * <;> linarith
    refine (mul_le_mul h1 h2 (abs_nonneg _) (by norm_num)).trans (by norm_num)
  obtain ⟨ft, et⟩ := mul_ok fl fn (hmn.trans (by norm_num))
  have hlt := lt_val32 fr ft
  have ht : |val (m * n) - mag3 (valVec a) * mag3 (valVec b) / 1000000| ≤ mag3 (valVec a) * mag3 (valVec b) / 10 ^ 12 := by
    rw [abs_le] at et
    have hp : |val m * val n - mag3 (valVec a) * mag3 (valVec b) / 1000000| ≤ 5 / 10 ^ 13 * (mag3 (valVec a) * mag3 (valVec b)) := by
      generalize mag3 (valVec a) * mag3 (valVec b) = N at *
      rw [show val m * val n - N / 1000000 = (val m - 1 / 1000000) * val n + 1 / 1000000 * (val n - N) by ring]
      have h2 : |val n| ≤ 1.001 * N := by rw [abs_le] at en ⊢; constructor <;> norm_num at * <;> linarith
      refine (abs_add_le _ _).trans ?_
      rw [abs_mul, abs_mul, abs_of_nonneg (show (0:ℝ) ≤ 1 / 1000000 by norm_num)]
      have := mul_le_mul el h2 (abs_nonneg _) (by positivity)
      norm_num at *
      linarith
    have hq : |val m * val n| ≤ 1.001 / 1000000 * (mag3 (valVec a) * mag3 (valVec b)) := by
      rw [abs_le] at hp ⊢
      constructor <;> norm_num at * <;> linarith
    rw [abs_le] at hp ⊢
    constructor <;> norm_num at * <;> linarith
  by_cases hop : NumOps.lt r (m * n) = true
  · -- opposite
    rw [if_pos hop] at shape
    have hv := hlt.mp hop
    obtain ⟨k1, k2, U, u1, u2, u3⟩ := opposite_ok ha a0 a1 rfl
    have e : quatFromVectors a b = quatNormalize (if NumOps.lt (NumOps.abs (a 2)) (NumOps.abs (a 0)) then f4 (-a 1) (a 0) F32.zero F32.zero
        else f4 F32.zero (-a 2) (a 1) F32.zero) := shape
    rw [e]
    have hd : mag3 (valVec a) * mag3 (valVec b) + dot3 (valVec a) (valVec b) ≤ 1.46 / 1000000 * (mag3 (valVec a) * mag3 (valVec b)) := by
      generalize mag3 (valVec a) * mag3 (valVec b) = N at *
      generalize dot3 (valVec a) (valVec b) = d at *
      rw [abs_le] at hs hrs ht
      rcases le_total 0 s with h0 | h0
      · rw [abs_of_nonneg h0] at hrs
        norm_num at *
        linarith
      · norm_num at *
        linarith
    refine ⟨k1, k2, ⟨U, u1, u2.trans (by norm_num), ?_⟩, ?_⟩
    · rw [u3]
      have := opposite_dist hx hy (δ := 1 / 570) (by norm_num) (by norm_num at *; linarith)
      have := mul_le_mul_of_nonneg_right u2 hx.le
      norm_num at *
      linarith
    · intro κ hκ h
      exfalso
      have hk2 : (1 / 800 : ℝ) ^ 2 ≤ κ ^ 2 := pow_le_pow_left₀ (by norm_num) hκ 2
      have := mul_le_mul_of_nonneg_right hk2 hN.le
      norm_num at *
      linarith
  · rw [if_neg hop] at shape
    rw [shape]
    have hv : val (m * n) ≤ val r := by
      by_contra hh
      exact hop (hlt.mpr (not_le.mp hh))
    have hd : (73 / 100000 : ℝ) ^ 2 * (mag3 (valVec a) * mag3 (valVec b)) ≤ mag3 (valVec a) * mag3 (valVec b) + dot3 (valVec a) (valVec b) := by
      generalize mag3 (valVec a) * mag3 (valVec b) = N at *
      generalize dot3 (valVec a) (valVec b) = d at *
      rw [abs_le] at hs hrs ht
      rcases le_total 0 s with h0 | h0
      · rw [abs_of_nonneg h0] at hrs
        norm_num at *
        linarith
      · rw [abs_of_nonpos h0] at hrs
        norm_num at *
        linarith
    obtain ⟨k1, k2, U, u1, u2, u3⟩ := reg _ (by norm_num) hd
    refine ⟨k1, k2, ⟨U, u1, u2.trans (by norm_num), ?_⟩, ?_⟩
    · rw [u3, sub_self, norm_zero, add_zero]
      have := mul_le_mul_of_nonneg_right u2 hx.le
      norm_num at *
      linarith
    · intro κ hκ h
      exact (reg κ (by norm_num at *; linarith) h).2.2


/-- The rotation from one vector to another: near a unit quaternion that turns the first towards the second. -/
theorem fromVectors_ok {a b : F4 F32} (ha : Fin3 a) (hb : Fin3 b) (a0 : 1 / 2 ^ 30 ≤ mag3 (valVec a)) (a1 : mag3 (valVec a) ≤ 2 ^ 30)
    (b0 : 1 / 2 ^ 30 ≤ mag3 (valVec b)) (b1 : mag3 (valVec b) ≤ 2 ^ 30)
    (n0 : 1.001 / 1000000 ≤ mag3 (valVec a) * mag3 (valVec b)) (n1 : mag3 (valVec a) * mag3 (valVec b) ≤ 2 ^ 48) :
    (∀ c, Finite32 (quatFromVectors a b c).bits) ∧ |norm2 (valVec (quatFromVectors a b)) - 1| ≤ 1 / 2 ^ 19 ∧
    (∃ U : Quaternion ℝ, ‖U‖ = 1 ∧ ‖toQuat (valVec (quatFromVectors a b)) - U‖ ≤ 1 / 430 ∧
      2 * ‖toQuat (valVec (quatFromVectors a b)) - U‖ * mag3 (valVec a) +
        ‖U * pureQuat (valVec a) * U⁻¹ - (mag3 (valVec a) / mag3 (valVec b)) • pureQuat (valVec b)‖ ≤ mag3 (valVec a) / 215) ∧
    ∀ κ : ℝ, 1 / 800 ≤ κ →
      κ ^ 2 * (mag3 (valVec a) * mag3 (valVec b)) ≤ mag3 (valVec a) * mag3 (valVec b) + dot3 (valVec a) (valVec b) →
      ∃ U : Quaternion ℝ, ‖U‖ = 1 ∧ ‖toQuat (valVec (quatFromVectors a b)) - U‖ ≤ 28 / κ / 2 ^ 24 ∧
        U * pureQuat (valVec a) * U⁻¹ = (mag3 (valVec a) / mag3 (valVec b)) • pureQuat (valVec b) := by
  refine fromVectors_core ha hb (le_trans (by norm_num) a0) a1 (le_trans (by norm_num) b0) b1 (le_trans (by norm_num) n0) n1 ?_
  obtain ⟨fn, en⟩ := norms_ok ha hb (le_trans (by norm_num) a0) a1 (le_trans (by norm_num) b0) b1 (le_trans (by norm_num) n0)
  obtain ⟨fl, el⟩ := lit_millionth
  generalize (NumOps.sqrt (vec3Length2S a 0 * vec3Length2S b 0) : F32) = n at *
  generalize (NumOps.lit 1 1000000 : F32) = m at *
  intro h
  have h := (lt_val32 fn fl).mp h
  rw [abs_le] at en el
  linarith

/-- Whatever the two vectors are, the rotation is finite and of unit length. -/
theorem fromVectors_total {a b : F4 F32} {A B : ℝ} (ha : Within3 a A) (hb : Within3 b B) (A1 : A ≤ 2 ^ 22) (B1 : B ≤ 2 ^ 22) :
    (∀ c, Finite32 (quatFromVectors a b c).bits) ∧ |norm2 (valVec (quatFromVectors a b)) - 1| ≤ 1 / 2 ^ 19 := by
  by_cases c1 : NumOps.lt (NumOps.sqrt (vec3Length2S a 0 * vec3Length2S b 0) : F32) (NumOps.lit 1 1000000) = true
  · rw [fromVectors_shape, if_pos c1]
    constructor
    · apply four_all
      exacts [zero_finite, zero_finite, zero_finite, one_finite]
    · have e : valVec (quatUnit : F4 F32) = f4 0 0 0 1 := by
        apply ext4
        exacts [zero_real, zero_real, zero_real, one_real]
      rw [e]
      norm_num [norm2]
  · have fa : Fin3 a := fun i hi => (ha i hi).1
    have fb : Fin3 b := fun i hi => (hb i hi).1
    have ma : mag3 (valVec a) ≤ 2 ^ 23 := (len_le_three (ha 0 (by decide)).2 (ha 1 (by decide)).2 (ha 2 (by decide)).2).trans (by linarith)
    have mb : mag3 (valVec b) ≤ 2 ^ 23 := (len_le_three (hb 0 (by decide)).2 (hb 1 (by decide)).2 (hb 2 (by decide)).2).trans (by linarith)
    have a0 := mag3_nonneg (valVec a)
    have b0 := mag3_nonneg (valVec b)
    -- the lengths are not too small
    have low : ∀ {v : F4 F32}, Fin3 v → mag3 (valVec v) ≤ 2 ^ 23 → Finite32 (vec3Length2S v 0).bits ∧
        0 ≤ val (vec3Length2S v 0) ∧ |val (vec3Length2S v 0) - mag3 (valVec v) ^ 2| ≤ 4 / 2 ^ 24 * mag3 (valVec v) ^ 2 + 1 / 2 ^ 120 := by
      intro v hv hm
      have m0 := mag3_nonneg (valVec v)
      have m2 : mag3 (valVec v) ^ 2 ≤ 2 ^ 46 := (pow_le_pow_left₀ m0 hm 2).trans (by norm_num)
      obtain ⟨f, e⟩ := dotS_ok hv hv (S := mag3 (valVec v) ^ 2 + 1 / 2 ^ 100) (by rw [← pow_two]; linarith)
        (by linarith [sq_nonneg (mag3 (valVec v))]) (by linarith)
      rw [← mag3_sq] at e
      refine ⟨f, ?_, e.trans (by linarith [sq_nonneg (mag3 (valVec v))])⟩
      have sq : ∀ i, i ≠ 3 → Finite32 (v i * v i).bits ∧ 0 ≤ val (v i * v i) ∧ val (v i * v i) ≤ 2 ^ 47 := fun i hi => by
        have h1 : val (v i) ^ 2 ≤ 2 ^ 46 := by
          refine le_trans ?_ m2
          rw [← sq_abs]
          refine pow_le_pow_left₀ (abs_nonneg _) ?_ 2
          revert i
          exact four_ne abs_le_len1 abs_le_len2 abs_le_len3
        obtain ⟨g, e, p⟩ := square_ok (hv i hi) h1 (by norm_num)
        have := (abs_le.mp e).2
        exact ⟨g, p, by linarith⟩
      obtain ⟨f0, p0, b0⟩ := sq 0 (by decide)
      obtain ⟨f1, p1, b1⟩ := sq 1 (by decide)
      obtain ⟨f2, p2, b2⟩ := sq 2 (by decide)
      show 0 ≤ val (v 0 * v 0 + v 1 * v 1 + v 2 * v 2)
      generalize v 0 * v 0 = x0 at *
      generalize v 1 * v 1 = x1 at *
      generalize v 2 * v 2 = x2 at *
      obtain ⟨g1, k1, q1⟩ := sum_ok f0 f1 p0 p1 (by linarith)
      have c1 : val (x0 + x1) ≤ 2 ^ 49 := by have := (abs_le.mp k1).2; linarith
      generalize x0 + x1 = y at *
      exact (sum_ok g1 f2 q1 p2 (by linarith)).2.2
    obtain ⟨fX, X0, eX⟩ := low fa ma
    obtain ⟨fY, Y0, eY⟩ := low fb mb
    have core := fromVectors_core fa fb
    have ma2 : mag3 (valVec a) ^ 2 ≤ 2 ^ 46 := (pow_le_pow_left₀ a0 ma 2).trans (by norm_num)
    have mb2 : mag3 (valVec b) ^ 2 ≤ 2 ^ 46 := (pow_le_pow_left₀ b0 mb 2).trans (by norm_num)
    have n0 : 1 / 2 ^ 21 ≤ mag3 (valVec a) * mag3 (valVec b) := by
      obtain ⟨fl, el⟩ := lit_millionth
      have sA := sq_nonneg (mag3 (valVec a))
      have sB := sq_nonneg (mag3 (valVec b))
      generalize vec3Length2S a 0 = X at *
      generalize vec3Length2S b 0 = Y at *
      generalize mag3 (valVec a) = x at *
      generalize mag3 (valVec b) = y at *
      have hX : val X ≤ 1.001 * x ^ 2 + 1 / 2 ^ 120 := by have := (abs_le.mp eX).2; linarith
      have hY : val Y ≤ 1.001 * y ^ 2 + 1 / 2 ^ 120 := by have := (abs_le.mp eY).2; linarith
      have XY : val X * val Y ≤ 1.003 * (x * y) ^ 2 + 1 / 2 ^ 70 := by
        refine (mul_le_mul hX hY Y0 (by linarith)).trans ?_
        nlinarith
      have xy2 : (x * y) ^ 2 ≤ 2 ^ 92 := by
        rw [mul_pow]; exact (mul_le_mul ma2 mb2 sB (by norm_num)).trans (by norm_num)
      have XY0 : 0 ≤ val X * val Y := mul_nonneg X0 Y0
      obtain ⟨fP, eP⟩ := mul_ok fX fY (by rw [abs_of_nonneg XY0]; linarith)
      have P0 := mul_nonneg32 fX fY fP XY0
      rw [abs_of_nonneg XY0] at eP
      have eP := (abs_le.mp eP).2
      generalize X * Y = P at *
      have rP : √(val P) ≤ 2 ^ 50 := by
        rw [Real.sqrt_le_left (by positivity)]; linarith
      obtain ⟨fS, eS, -⟩ := sqrt_ok fP P0 (rP.trans (by norm_num))
      have hl : val (NumOps.lit 1 1000000 : F32) ≤ val (NumOps.sqrt P : F32) :=
        not_lt.mp fun h => c1 ((lt_val32 fS fl).mpr h)
      generalize (NumOps.lit 1 1000000 : F32) = m at *
      have eS : |val (NumOps.sqrt P : F32) - √(val P)| ≤ √(val P) / 2 ^ 24 + 1 / 2 ^ 150 := eS
      generalize (NumOps.sqrt P : F32) = n at *
      have r0 := Real.sqrt_nonneg (val P)
      have lo : 0.99 / 1000000 ≤ √(val P) := by
        have := (abs_le.mp el).1
        have := (abs_le.mp eS).2
        linarith
      have lo2 := pow_le_pow_left₀ (by norm_num) lo 2
      rw [Real.sq_sqrt P0] at lo2
      refine abs_le_of_sq_le_sq' ?_ (mul_nonneg a0 b0) |>.2
      linarith
    have hA : 1 / 2 ^ 49 ≤ mag3 (valVec a) := by
      have := mul_le_mul_of_nonneg_left mb a0
      linarith
    have hB : 1 / 2 ^ 49 ≤ mag3 (valVec b) := by
      have := mul_le_mul_of_nonneg_right ma b0
      linarith
    have n1 : mag3 (valVec a) * mag3 (valVec b) ≤ 2 ^ 48 := (mul_le_mul ma mb b0 (by positivity)).trans (by norm_num)
    have := core hA (ma.trans (by norm_num)) hB (mb.trans (by norm_num)) n0 n1 c1
    exact ⟨this.1, this.2.1⟩

end Ozz.IK
