import Verif.Spec.Math
import Verif.Proofs.Exact
import Mathlib.LinearAlgebra.Matrix.NonsingularInverse
import Mathlib.Tactic.Ring
import Mathlib.Tactic.Linarith
import Mathlib.Tactic.FieldSimp
import Mathlib.Tactic.LinearCombination

/-! Helper lemmas about math.rs. -/

namespace Ozz

theorem toMatrix_mul (a b : Mat4 ℝ) : toMatrix (Mat4.mul a b) = toMatrix a * toMatrix b := by
  ext r c
  rw [Matrix.mul_apply]
  simp only [toMatrix, Mat4.mul, Mat4.mulCol, swz, Fin.sum_univ_four, Pi.add_apply, Pi.mul_apply]
  revert r
  apply four <;> simp only [f4_0, f4_1, f4_2, f4_3] <;> ring

/-- Determinant as the code computes it. -/
def detOf (m : Mat4 ℝ) : ℝ := m 0 0 * m.minors.2 0 0 + m 1 0 * m.minors.2 0 1 + m 2 0 * m.minors.2 0 2
  + m 3 0 * m.minors.2 0 3

theorem detOf_eq (m : Mat4 ℝ) : detOf m = (toMatrix m).det := by
  simp only [detOf, Mat4.minors, swz, swz2, pick, f4_0, f4_1, f4_2, f4_3, Pi.add_apply, Pi.mul_apply,
    Pi.sub_apply]
  rw [Matrix.det_succ_row_zero]
  simp only [Fin.sum_univ_four, Matrix.det_fin_three, Matrix.submatrix_apply, toMatrix]
  simp [Fin.succAbove, toMatrix]
  ring

theorem toMatrix_minors (m : Mat4 ℝ) : toMatrix m * toMatrix m.minors.2 = Matrix.scalar (Fin 4) (detOf m) := by
  ext r c
  rw [Matrix.mul_apply, Matrix.scalar_apply, Matrix.diagonal_apply]
  simp only [toMatrix, detOf, Mat4.minors, swz, swz2, pick, Fin.sum_univ_four]
  revert r c
  apply four <;> apply four <;>
    simp only [f4_0, f4_1, f4_2, f4_3, Pi.add_apply, Pi.mul_apply, Pi.sub_apply] <;>
    simp only [Fin.reduceEq, if_true, if_false] <;> ring

/-- The Newton step changes nothing in exact arithmetic. -/
theorem invert_eq (m : Mat4 ℝ) (c : Fin 4) : m.invert c = fun r => (detOf m)⁻¹ * m.minors.2 c r := by
  have hd : ∀ l : Fin 4, (fun l => (swz (swz (m.minors.1 * m.minors.2 0) 2 3 0 1 + m.minors.1 * m.minors.2 0) 1 0 3 2 +
      (swz (m.minors.1 * m.minors.2 0) 2 3 0 1 + m.minors.1 * m.minors.2 0)) l) l = detOf m := by
    have h0 : m.minors.1 0 = m 0 0 := rfl
    have h1 : m.minors.1 1 = m 1 0 := rfl
    have h2 : m.minors.1 2 = m 2 0 := rfl
    have h3 : m.minors.1 3 = m 3 0 := rfl
    simp only [detOf, ← h0, ← h1, ← h2, ← h3, swz, Pi.add_apply, Pi.mul_apply]
    apply four <;> simp only [f4_0, f4_1, f4_2, f4_3] <;> ring
  have hi : ∀ x : ℝ, (if NumOps.eq x NumOps.zero = true then NumOps.zero else recip x) = x⁻¹ := by
    intro x
    simp only [real_eq, real_zero, recip, real_one, decide_eq_true_eq, one_div]
    split
    · next h => rw [h, inv_zero]
    · rfl
  have hn : (detOf m)⁻¹ + (detOf m)⁻¹ - detOf m * ((detOf m)⁻¹ * (detOf m)⁻¹) = (detOf m)⁻¹ := by
    by_cases h : detOf m = 0
    · rw [h]; simp
    · field_simp; ring
  funext r
  have h0 := hd 0
  revert c
  apply four <;>
    simp only [Mat4.invert, Mat4.splatX, f4_0, f4_1, f4_2, f4_3, hi] <;>
    rw [Pi.mul_apply] <;> congr 1 <;> revert r <;> apply four <;>
    simp only [swz, f4_0, f4_1, f4_2, f4_3, Pi.add_apply, Pi.sub_apply, Pi.mul_apply] at h0 ⊢ <;>
    rw [h0, hn]

theorem invert_mul (m : Mat4 ℝ) (h : (toMatrix m).det ≠ 0) :
    toMatrix m * toMatrix m.invert = 1 ∧ toMatrix m.invert * toMatrix m = 1 := by
  have hd : detOf m ≠ 0 := by rw [detOf_eq]; exact h
  have h1 : toMatrix m * toMatrix m.invert = 1 := by
    have e : toMatrix m.invert = (detOf m)⁻¹ • toMatrix m.minors.2 := by
      ext r c
      rw [Matrix.smul_apply]
      simp only [toMatrix, invert_eq, smul_eq_mul]
    rw [e, Matrix.mul_smul, toMatrix_minors]
    ext r c
    rw [Matrix.smul_apply, Matrix.scalar_apply, Matrix.diagonal_apply, Matrix.one_apply]
    split
    · rw [smul_eq_mul, inv_mul_cancel₀ hd]
    · simp
  exact ⟨h1, mul_eq_one_comm.mp h1⟩

theorem invert_singular (m : Mat4 ℝ) (h : (toMatrix m).det = 0) (c r : Fin 4) : m.invert c r = 0 := by
  rw [invert_eq, detOf_eq, h]; simp

/-! ### Affine matrices -/

theorem toAos_apply {α : Type} (s : SoaMat4 α) (m c r : Fin 4) : s.toAos m c r = s c r m := by
  revert m c r
  apply four <;> apply four <;> apply four <;> rfl

/-! ### Quaternions -/

@[simp] theorem toQuat_re (q : F4 ℝ) : (toQuat q).re = q 3 := rfl
@[simp] theorem toQuat_imI (q : F4 ℝ) : (toQuat q).imI = q 0 := rfl
@[simp] theorem toQuat_imJ (q : F4 ℝ) : (toQuat q).imJ = q 1 := rfl
@[simp] theorem toQuat_imK (q : F4 ℝ) : (toQuat q).imK = q 2 := rfl
@[simp] theorem pureQuat_re (q : F4 ℝ) : (pureQuat q).re = 0 := rfl
@[simp] theorem pureQuat_imI (q : F4 ℝ) : (pureQuat q).imI = q 0 := rfl
@[simp] theorem pureQuat_imJ (q : F4 ℝ) : (pureQuat q).imJ = q 1 := rfl
@[simp] theorem pureQuat_imK (q : F4 ℝ) : (pureQuat q).imK = q 2 := rfl

theorem toQuat_mul (a b : F4 ℝ) : toQuat (quatMul a b) = toQuat a * toQuat b := by
  ext <;> simp [quatMul, xor4, swz, flip] <;> ring

theorem toQuat_soa_mul (a b : SoaQuat ℝ) (l : Fin 4) :
    toQuat ((a.mul b).lane l) = toQuat (a.lane l) * toQuat (b.lane l) := by
  ext <;> simp [SoaQuat.mul, SoaQuat.lane] <;> ring

theorem toQuat_soa_conjugate (a : SoaQuat ℝ) (l : Fin 4) :
    toQuat (a.conjugate.lane l) = star (toQuat (a.lane l)) := by
  ext <;> simp [SoaQuat.conjugate, SoaQuat.lane]

theorem quatTransform_coords (q v : F4 ℝ) :
    quatTransformVector q v 0 = v 0 + 2 * (q 3 * (q 1 * v 2 - q 2 * v 1) + (q 1 * (q 0 * v 1 - q 1 * v 0) - q 2 * (q 2 * v 0 - q 0 * v 2))) ∧
    quatTransformVector q v 1 = v 1 + 2 * (q 3 * (q 2 * v 0 - q 0 * v 2) + (q 2 * (q 1 * v 2 - q 2 * v 1) - q 0 * (q 0 * v 1 - q 1 * v 0))) ∧
    quatTransformVector q v 2 = v 2 + 2 * (q 3 * (q 0 * v 1 - q 1 * v 0) + (q 0 * (q 2 * v 0 - q 0 * v 2) - q 1 * (q 1 * v 2 - q 2 * v 1))) := by
  simp only [quatTransformVector, vec3Cross, swz, f4_0, f4_1, f4_2, f4_3, Pi.add_apply, Pi.sub_apply, Pi.mul_apply]
  refine ⟨?_, ?_, ?_⟩ <;> ring

theorem pureQuat_transform (q v : F4 ℝ) (h : norm2 q = 1) :
    pureQuat (quatTransformVector q v) = toQuat q * pureQuat v * star (toQuat q) := by
  obtain ⟨e0, e1, e2⟩ := quatTransform_coords q v
  unfold norm2 at h
  ext <;> simp [e0, e1, e2]
  · ring
  · linear_combination (-(v 0)) * h
  · linear_combination (-(v 1)) * h
  · linear_combination (-(v 2)) * h

theorem norm2_toQuat (q : F4 ℝ) : Quaternion.normSq (toQuat q) = norm2 q := by
  simp [Quaternion.normSq_def', norm2]; ring

theorem norm2_pureQuat (v : F4 ℝ) : Quaternion.normSq (pureQuat v) = v 0 ^ 2 + v 1 ^ 2 + v 2 ^ 2 := by
  simp [Quaternion.normSq_def']

theorem fromAffine_point (t : SoaVec3 ℝ) (r : SoaQuat ℝ) (s : SoaVec3 ℝ) (p : F4 ℝ) (l : Fin 4)
    (h : norm2 (r.lane l) = 1) :
    pureQuat (Mat4.transformPoint ((SoaMat4.fromAffine t r s).toAos l) p)
      = toQuat (r.lane l) * pureQuat (s.lane l * p) * star (toQuat (r.lane l)) + pureQuat (t.lane l) ∧
    Mat4.transformPoint ((SoaMat4.fromAffine t r s).toAos l) p 3 = 1 := by
  simp only [norm2, SoaQuat.lane, f4_0, f4_1, f4_2, f4_3] at h
  refine ⟨?_, ?_⟩
  · ext <;> simp [Mat4.transformPoint, toAos_apply, SoaMat4.fromAffine, SoaQuat.lane, SoaVec3.lane, swz, one4, two4, splat]
    · ring
    · linear_combination (-(s.x l * p 0)) * h
    · linear_combination (-(s.y l * p 1)) * h
    · linear_combination (-(s.z l * p 2)) * h
  · simp [Mat4.transformPoint, toAos_apply, SoaMat4.fromAffine, swz, one4, zero4, splat]

theorem fromAffine_vector (t : SoaVec3 ℝ) (r : SoaQuat ℝ) (s : SoaVec3 ℝ) (p : F4 ℝ) (l : Fin 4)
    (h : norm2 (r.lane l) = 1) :
    pureQuat (Mat4.transformVector ((SoaMat4.fromAffine t r s).toAos l) p)
      = toQuat (r.lane l) * pureQuat (s.lane l * p) * star (toQuat (r.lane l)) ∧
    Mat4.transformVector ((SoaMat4.fromAffine t r s).toAos l) p 3 = 0 := by
  simp only [norm2, SoaQuat.lane, f4_0, f4_1, f4_2, f4_3] at h
  refine ⟨?_, ?_⟩
  · ext <;> simp [Mat4.transformVector, toAos_apply, SoaMat4.fromAffine, SoaQuat.lane, SoaVec3.lane, swz, one4, two4, splat]
    · ring
    · linear_combination (-(s.x l * p 0)) * h
    · linear_combination (-(s.y l * p 1)) * h
    · linear_combination (-(s.z l * p 2)) * h
  · simp [Mat4.transformVector, toAos_apply, SoaMat4.fromAffine, swz, zero4, splat]

theorem transformPoint_affine (m o : Mat4 ℝ) (p : F4 ℝ)
    (ho : o 0 3 = 0 ∧ o 1 3 = 0 ∧ o 2 3 = 0 ∧ o 3 3 = 1) :
    Mat4.transformPoint (Mat4.mul m o) p = Mat4.transformPoint m (Mat4.transformPoint o p) := by
  obtain ⟨h0, h1, h2, h3⟩ := ho
  apply ext4 <;> simp [Mat4.transformPoint, Mat4.mul, Mat4.mulCol, swz, h0, h1, h2, h3] <;> ring

/-! ### Rotation between two vectors -/

theorem vec3DotS_zero (a b : F4 ℝ) : vec3DotS a b 0 = dot3 a b := by
  simp [vec3DotS, swz, dot3]

theorem dot3_self_nonneg (a : F4 ℝ) : 0 ≤ dot3 a a := by
  unfold dot3; nlinarith [mul_self_nonneg (a 0), mul_self_nonneg (a 1), mul_self_nonneg (a 2)]

theorem quatNormalize_apply (q : F4 ℝ) (i : Fin 4) : quatNormalize q i = q i * (√(norm2 q))⁻¹ := by
  have : sum4 (q * q) = norm2 q := by simp [sum4, norm2]; ring
  simp [quatNormalize, recip4, sqrt4, recip, splat, this]

theorem norm2_normalize (q : F4 ℝ) (h : norm2 q ≠ 0) : norm2 (quatNormalize q) = 1 := by
  have h0 : 0 ≤ norm2 q := by unfold norm2; positivity
  have hs : √(norm2 q) ^ 2 = norm2 q := Real.sq_sqrt h0
  have e : norm2 (quatNormalize q) = norm2 q * ((√(norm2 q))⁻¹) ^ 2 := by
    conv_lhs => unfold norm2
    simp only [quatNormalize_apply]
    conv_rhs => rw [show ∀ x : ℝ, norm2 q * x = (q 0 ^ 2 + q 1 ^ 2 + q 2 ^ 2 + q 3 ^ 2) * x from fun _ => rfl]
    ring
  rw [e, inv_pow, hs, mul_inv_cancel₀ h]

theorem lagrange (a b : F4 ℝ) : (a 1 * b 2 - a 2 * b 1) ^ 2 + (a 2 * b 0 - a 0 * b 2) ^ 2
    + (a 0 * b 1 - a 1 * b 0) ^ 2 = dot3 a a * dot3 b b - dot3 a b ^ 2 := by
  unfold dot3; ring

theorem dot3_le (a b : F4 ℝ) : |dot3 a b| ≤ √(dot3 a a * dot3 b b) := by
  apply Real.abs_le_sqrt
  have := lagrange a b
  nlinarith [sq_nonneg (a 1 * b 2 - a 2 * b 1), sq_nonneg (a 2 * b 0 - a 0 * b 2), sq_nonneg (a 0 * b 1 - a 1 * b 0)]

theorem dot3_transform (q v w : F4 ℝ) (h : norm2 q = 1) :
    dot3 (quatTransformVector q v) (quatTransformVector q w) = dot3 v w := by
  obtain ⟨e0, e1, e2⟩ := quatTransform_coords q v
  obtain ⟨f0, f1, f2⟩ := quatTransform_coords q w
  have h3 : q 3 ^ 2 = 1 - (q 0 ^ 2 + q 1 ^ 2 + q 2 ^ 2) := by unfold norm2 at h; linarith
  unfold dot3
  rw [e0, e1, e2, f0, f1, f2]
  linear_combination (4 * ((q 1 * v 2 - q 2 * v 1) * (q 1 * w 2 - q 2 * w 1) +
    (q 2 * v 0 - q 0 * v 2) * (q 2 * w 0 - q 0 * w 2) + (q 0 * v 1 - q 1 * v 0) * (q 0 * w 1 - q 1 * w 0))) * h3

/-- The general branch: the cross product with real part `n + a·b` turns `a` into the direction of `b`. -/
theorem between_general (a b : F4 ℝ) (n : ℝ) (hn : n ^ 2 = dot3 a a * dot3 b b) (hn0 : 0 < n)
    (hr : 0 < n + dot3 a b) (q : F4 ℝ) (h0 : q 0 = a 1 * b 2 - a 2 * b 1) (h1 : q 1 = a 2 * b 0 - a 0 * b 2)
    (h2 : q 2 = a 0 * b 1 - a 1 * b 0) (h3 : q 3 = n + dot3 a b) :
    norm2 q = 2 * n * (n + dot3 a b) ∧ ∀ i : Fin 3,
      quatTransformVector (quatNormalize q) a i.castSucc = dot3 a a / n * b i.castSucc := by
  have hq : norm2 q = 2 * n * (n + dot3 a b) := by
    unfold norm2
    rw [h0, h1, h2, h3, lagrange]; linear_combination (-1 : ℝ) * hn
  refine ⟨hq, ?_⟩
  have hpos : 0 < norm2 q := by rw [hq]; positivity
  have hs : (√(norm2 q))⁻¹ ^ 2 = (norm2 q)⁻¹ := by rw [inv_pow, Real.sq_sqrt hpos.le]
  obtain ⟨e0, e1, e2⟩ := quatTransform_coords (quatNormalize q) a
  simp only [quatNormalize_apply] at e0 e1 e2
  generalize (√(norm2 q))⁻¹ = s at *
  have hs' : s ^ 2 * (2 * n * (n + dot3 a b)) = 1 := by
    rw [hs, hq]; exact inv_mul_cancel₀ (by positivity)
  have hsn : 2 * s ^ 2 * (n + dot3 a b) = 1 / n := by
    rw [eq_div_iff hn0.ne']; linear_combination hs'
  have key : ∀ x y : ℝ, x + 2 * s ^ 2 * ((n + dot3 a b) * (dot3 a a * y - dot3 a b * x) - (n ^ 2 - dot3 a b ^ 2) * x)
      = dot3 a a / n * y := by
    intro x y
    have : 2 * s ^ 2 * ((n + dot3 a b) * (dot3 a a * y - dot3 a b * x) - (n ^ 2 - dot3 a b ^ 2) * x)
        = (2 * s ^ 2 * (n + dot3 a b)) * (dot3 a a * y - n * x) := by ring
    rw [this, hsn]; field_simp; ring
  have t0 : quatTransformVector (quatNormalize q) a 0 = dot3 a a / n * b 0 := by
    rw [e0, h0, h1, h2, h3, ← key (a 0) (b 0), hn]; unfold dot3; ring
  have t1 : quatTransformVector (quatNormalize q) a 1 = dot3 a a / n * b 1 := by
    rw [e1, h0, h1, h2, h3, ← key (a 1) (b 1), hn]; unfold dot3; ring
  have t2 : quatTransformVector (quatNormalize q) a 2 = dot3 a a / n * b 2 := by
    rw [e2, h0, h1, h2, h3, ← key (a 2) (b 2), hn]; unfold dot3; ring
  intro i
  obtain ⟨i, hi⟩ := i
  have : i = 0 ∨ i = 1 ∨ i = 2 := by omega
  rcases this with rfl | rfl | rfl
  · exact t0
  · exact t1
  · exact t2

/-- The opposite branch: a half turn about an axis orthogonal to `a` turns `a` into `-a`. -/
theorem between_opposite (a q : F4 ℝ) (ho : dot3 a q = 0) (h3 : q 3 = 0) (hq : norm2 q ≠ 0) (i : Fin 3) :
    quatTransformVector (quatNormalize q) a i.castSucc = -a i.castSucc := by
  have h0 : 0 ≤ norm2 q := by unfold norm2; positivity
  have hs : (√(norm2 q))⁻¹ ^ 2 * norm2 q = 1 := by rw [inv_pow, Real.sq_sqrt h0, inv_mul_cancel₀ hq]
  obtain ⟨e0, e1, e2⟩ := quatTransform_coords (quatNormalize q) a
  simp only [quatNormalize_apply] at e0 e1 e2
  generalize (√(norm2 q))⁻¹ = s at *
  unfold norm2 at hs
  rw [h3] at hs
  unfold dot3 at ho
  have t0 : quatTransformVector (quatNormalize q) a 0 = -a 0 := by
    rw [e0, h3]; linear_combination 2 * s ^ 2 * q 0 * ho - 2 * a 0 * hs
  have t1 : quatTransformVector (quatNormalize q) a 1 = -a 1 := by
    rw [e1, h3]; linear_combination 2 * s ^ 2 * q 1 * ho - 2 * a 1 * hs
  have t2 : quatTransformVector (quatNormalize q) a 2 = -a 2 := by
    rw [e2, h3]; linear_combination 2 * s ^ 2 * q 2 * ho - 2 * a 2 * hs
  obtain ⟨i, hi⟩ := i
  have : i = 0 ∨ i = 1 ∨ i = 2 := by omega
  rcases this with rfl | rfl | rfl
  · exact t0
  · exact t1
  · exact t2

/-- The three outcomes of `quat_from_vectors`. -/
theorem quatFromVectors_cases (a b : F4 ℝ) :
    let n := √(dot3 a a * dot3 b b)
    (n < 1 / 1000000 → quatFromVectors a b = f4 0 0 0 1) ∧
    (1 / 1000000 ≤ n → n + dot3 a b < 1 / 1000000 * n →
      norm2 (quatFromVectors a b) = 1 ∧ quatFromVectors a b 3 = 0 ∧
      ∀ i : Fin 3, quatTransformVector (quatFromVectors a b) a i.castSucc = -a i.castSucc) ∧
    (1 / 1000000 ≤ n → 1 / 1000000 * n ≤ n + dot3 a b →
      norm2 (quatFromVectors a b) = 1 ∧ 0 < quatFromVectors a b 3 ∧
      ∀ i : Fin 3, quatTransformVector (quatFromVectors a b) a i.castSucc = dot3 a a / n * b i.castSucc) := by
  intro n
  have hA := dot3_self_nonneg a
  have hB := dot3_self_nonneg b
  have hn2 : n ^ 2 = dot3 a a * dot3 b b := Real.sq_sqrt (mul_nonneg hA hB)
  have e0 : (sqrt4 (vec3Length2S a * vec3Length2S b)) 0 = n := by
    simp [sqrt4, vec3Length2S, vec3DotS_zero, n]
  have er : (sqrt4 (vec3Length2S a * vec3Length2S b) + vec3DotS a b) 0 = n + dot3 a b := by
    rw [Pi.add_apply, e0, vec3DotS_zero]
  refine ⟨fun h => ?_, fun h h' => ?_, fun h h' => ?_⟩
  · unfold quatFromVectors
    simp only [e0, real_lt, real_lit]
    rw [if_pos (by simpa using h)]
    rfl
  · have hne : ∃ q : F4 ℝ, quatFromVectors a b = quatNormalize q ∧ dot3 a q = 0 ∧ q 3 = 0 ∧ norm2 q ≠ 0 := by
      unfold quatFromVectors
      simp only [e0, er, real_lt, real_lit, real_abs, real_zero]
      rw [if_neg (by simpa using h), if_pos (by simpa using h')]
      have hApos : dot3 a a ≠ 0 := by
        intro hz
        rw [hz, zero_mul] at hn2
        have : n = 0 := by nlinarith
        linarith
      refine ⟨_, rfl, ?_⟩
      split
      · next hc =>
        have hc' : |a 2| < |a 0| := by simpa using hc
        have h0 : a 0 ≠ 0 := by
          intro hz; rw [hz, abs_zero] at hc'; exact absurd hc' (not_lt.mpr (abs_nonneg _))
        refine ⟨by simp [dot3]; ring, rfl, ?_⟩
        have : 0 < a 0 ^ 2 := by positivity
        simp only [norm2, f4_0, f4_1, f4_2, f4_3]
        nlinarith [sq_nonneg (a 1)]
      · next hc =>
        have hc' : |a 0| ≤ |a 2| := by simpa using hc
        refine ⟨by simp [dot3]; ring, rfl, ?_⟩
        simp only [norm2, f4_0, f4_1, f4_2, f4_3]
        intro hz
        have h2 : a 2 = 0 := by nlinarith [sq_nonneg (a 1), sq_nonneg (a 2)]
        have h1 : a 1 = 0 := by nlinarith [sq_nonneg (a 1), sq_nonneg (a 2)]
        rw [h2, abs_zero] at hc'
        have h0 : a 0 = 0 := abs_nonpos_iff.mp hc'
        apply hApos
        simp [dot3, h0, h1, h2]
    obtain ⟨q, hq, ho, h3, hnz⟩ := hne
    rw [hq]
    exact ⟨norm2_normalize q hnz, by rw [quatNormalize_apply, h3, zero_mul], between_opposite a q ho h3 hnz⟩
  · have hpos : 0 < n := by linarith
    have hr : 0 < n + dot3 a b := by nlinarith
    have hq : ∃ q : F4 ℝ, quatFromVectors a b = quatNormalize q ∧ q 0 = a 1 * b 2 - a 2 * b 1 ∧
        q 1 = a 2 * b 0 - a 0 * b 2 ∧ q 2 = a 0 * b 1 - a 1 * b 0 ∧ q 3 = n + dot3 a b := by
      unfold quatFromVectors
      simp only [e0, er, real_lt, real_lit]
      rw [if_neg (by simpa using h), if_neg (by simpa using h')]
      refine ⟨_, rfl, ?_, ?_, ?_, ?_⟩
      · simp [setW, swz2, pick, vec3Cross, swz]; ring
      · simp [setW, swz2, pick, vec3Cross, swz]; ring
      · simp [setW, swz2, pick, vec3Cross, swz]; ring
      · rw [← er]; rfl
    obtain ⟨q, hq, h0, h1, h2, h3⟩ := hq
    obtain ⟨k1, k2⟩ := between_general a b n hn2 hpos hr q h0 h1 h2 h3
    have hnq : 0 < norm2 q := by rw [k1]; positivity
    rw [hq]
    refine ⟨norm2_normalize q hnq.ne', ?_, k2⟩
    rw [quatNormalize_apply, h3]
    have := Real.sqrt_pos.mpr hnq
    positivity

end Ozz
