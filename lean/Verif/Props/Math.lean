import Verif.Proofs.Math

/-!
Property theorems about math.rs, in exact arithmetic: C49 (matrix inversion), C50 (affine matrices),
C51 (quaternions). Matrices and quaternions of the specification are Mathlib's.
-/

namespace Ozz.Props

open Ozz

/-- C49: the product computed by the code is the matrix product. -/
theorem C49_mul (a b : Mat4 ℝ) : toMatrix (a.mul b) = toMatrix a * toMatrix b := toMatrix_mul a b

/-- C49: the inverse of a matrix with non-zero determinant is its inverse on both sides. -/
theorem C49_inverse (m : Mat4 ℝ) (h : (toMatrix m).det ≠ 0) :
    toMatrix (m.mul m.invert) = 1 ∧ toMatrix (m.invert.mul m) = 1 := by
  rw [toMatrix_mul, toMatrix_mul]
  exact invert_mul m h

/-- C49: a singular matrix is mapped to the zero matrix. -/
theorem C49_singular (m : Mat4 ℝ) (h : (toMatrix m).det = 0) : toMatrix m.invert = 0 := by
  ext r c
  exact invert_singular m h c r

/-- A matrix with determinant 2, not diagonal. -/
def mat2 : Mat4 ℝ := f4 (f4 1 0 0 0) (f4 3 2 0 0) (f4 0 0 0 1) (f4 5 7 (-1) 0)

theorem det_mat2 : (toMatrix mat2).det = 2 := by
  rw [Matrix.det_succ_row_zero]
  simp only [Fin.sum_univ_four, Matrix.det_fin_three, Matrix.submatrix_apply, toMatrix]
  simp [Fin.succAbove, mat2]

example : toMatrix (mat2.mul mat2.invert) = 1 :=
  (C49_inverse mat2 (by rw [det_mat2]; norm_num)).1

/-- Inverting it by hand: the translation column of the inverse. -/
example : mat2.invert 1 = f4 (-3 / 2) (1 / 2) 0 0 := by
  have hd : detOf mat2 = 2 := by rw [detOf_eq, det_mat2]
  rw [invert_eq, hd]
  apply ext4 <;> simp [Mat4.minors, swz, swz2, pick, mat2] <;> norm_num

example : toMatrix (Mat4.invert (f4 (f4 1 2 3 0) (f4 2 4 6 0) (f4 0 0 1 0) (f4 0 0 0 1))) = 0 := by
  apply C49_singular
  rw [Matrix.det_succ_row_zero]
  simp only [Fin.sum_univ_four, Matrix.det_fin_three, Matrix.submatrix_apply, toMatrix]
  simp [Fin.succAbove]
  norm_num

/-- C50: the transposition to four matrices moves element (column, row, lane) to its place; no
arithmetic, for every element type. -/
theorem C50_transpose {α : Type} (s : SoaMat4 α) (lane col row : Fin 4) :
    s.toAos lane col row = s col row lane := toAos_apply s lane col row

/-- C50: matrix `l` maps a point to scale, rotation `q·v·q⁻¹` and translation of lane `l`. -/
theorem C50_point (t : SoaVec3 ℝ) (r : SoaQuat ℝ) (s : SoaVec3 ℝ) (p : F4 ℝ) (l : Fin 4)
    (h : Quaternion.normSq (toQuat (r.lane l)) = 1) :
    pureQuat (Mat4.transformPoint ((SoaMat4.fromAffine t r s).toAos l) p)
      = toQuat (r.lane l) * pureQuat (s.lane l * p) * (toQuat (r.lane l))⁻¹ + pureQuat (t.lane l) ∧
    Mat4.transformPoint ((SoaMat4.fromAffine t r s).toAos l) p 3 = 1 := by
  rw [Quaternion.inv_def, h, inv_one, one_smul]
  rw [norm2_toQuat] at h
  exact fromAffine_point t r s p l h

/-- C50: directions are scaled and rotated but not translated. -/
theorem C50_vector (t : SoaVec3 ℝ) (r : SoaQuat ℝ) (s : SoaVec3 ℝ) (p : F4 ℝ) (l : Fin 4)
    (h : Quaternion.normSq (toQuat (r.lane l)) = 1) :
    pureQuat (Mat4.transformVector ((SoaMat4.fromAffine t r s).toAos l) p)
      = toQuat (r.lane l) * pureQuat (s.lane l * p) * (toQuat (r.lane l))⁻¹ ∧
    Mat4.transformVector ((SoaMat4.fromAffine t r s).toAos l) p 3 = 0 := by
  rw [Quaternion.inv_def, h, inv_one, one_smul]
  rw [norm2_toQuat] at h
  exact fromAffine_vector t r s p l h

/-- C50: multiplying an affine matrix by another composes the maps of points. -/
theorem C50_compose (m o : Mat4 ℝ) (p : F4 ℝ) (h : o 0 3 = 0 ∧ o 1 3 = 0 ∧ o 2 3 = 0 ∧ o 3 3 = 1) :
    Mat4.transformPoint (m.mul o) p = Mat4.transformPoint m (Mat4.transformPoint o p) :=
  transformPoint_affine m o p h

/-- C50: the hypothesis of `C50_compose` holds for every matrix made from a transform. -/
theorem C50_affine (t : SoaVec3 ℝ) (r : SoaQuat ℝ) (s : SoaVec3 ℝ) (l : Fin 4) :
    let o := (SoaMat4.fromAffine t r s).toAos l
    o 0 3 = 0 ∧ o 1 3 = 0 ∧ o 2 3 = 0 ∧ o 3 3 = 1 := by
  simp [toAos_apply, SoaMat4.fromAffine, zero4, one4, splat]

/-- Lane 2: a quarter turn about z, scale (2, 3, 4), translation (5, 6, 7): (1, 1, 1) goes to (2, 8, 11). -/
example :
    let t : SoaVec3 ℝ := ⟨f4 0 0 5 0, f4 0 0 6 0, f4 0 0 7 0⟩
    let r : SoaQuat ℝ := ⟨splat 0, splat 0, splat (√2 / 2), splat (√2 / 2)⟩
    let s : SoaVec3 ℝ := ⟨splat 2, splat 3, splat 4⟩
    Quaternion.normSq (toQuat (r.lane 2)) = 1 ∧
    Mat4.transformPoint ((SoaMat4.fromAffine t r s).toAos 2) (f4 1 1 1 9) = f4 2 8 11 1 := by
  have h : √2 * √2 = (2 : ℝ) := Real.mul_self_sqrt (by norm_num)
  refine ⟨?_, ?_⟩
  · simp [norm2_toQuat, norm2, SoaQuat.lane, splat]; nlinarith
  · apply ext4 <;> simp [Mat4.transformPoint, toAos_apply, SoaMat4.fromAffine, swz, one4, two4, zero4, splat] <;> nlinarith

/-- C51: both products are the Hamilton product, lane by lane in the SoA form. -/
theorem C51_products (a b : F4 ℝ) (p q : SoaQuat ℝ) (l : Fin 4) :
    toQuat (quatMul a b) = toQuat a * toQuat b ∧
    toQuat ((p.mul q).lane l) = toQuat (p.lane l) * toQuat (q.lane l) ∧
    toQuat (p.conjugate.lane l) = star (toQuat (p.lane l)) :=
  ⟨toQuat_mul a b, toQuat_soa_mul p q l, toQuat_soa_conjugate p l⟩

/-- C51: `quat_transform_vector` by a unit quaternion is the rotation `q·v·q⁻¹`. -/
theorem C51_rotation (q v : F4 ℝ) (h : Quaternion.normSq (toQuat q) = 1) :
    pureQuat (quatTransformVector q v) = toQuat q * pureQuat v * (toQuat q)⁻¹ := by
  rw [Quaternion.inv_def, h, inv_one, one_smul]
  rw [norm2_toQuat] at h
  exact pureQuat_transform q v h

/-- C51: rotating preserves dot products, so lengths and angles. -/
theorem C51_isometry (q v w : F4 ℝ) (h : Quaternion.normSq (toQuat q) = 1) :
    dot3 (quatTransformVector q v) (quatTransformVector q w) = dot3 v w := by
  rw [norm2_toQuat] at h
  exact dot3_transform q v w h

/-- C51: rotating by a product is rotating twice. -/
theorem C51_composition (a b v : F4 ℝ) (ha : Quaternion.normSq (toQuat a) = 1)
    (hb : Quaternion.normSq (toQuat b) = 1) :
    Quaternion.normSq (toQuat (quatMul a b)) = 1 ∧
    pureQuat (quatTransformVector (quatMul a b) v) = pureQuat (quatTransformVector a (quatTransformVector b v)) := by
  have hab : Quaternion.normSq (toQuat (quatMul a b)) = 1 := by rw [toQuat_mul, map_mul, ha, hb, one_mul]
  refine ⟨hab, ?_⟩
  rw [C51_rotation _ _ hab, C51_rotation _ _ ha, C51_rotation _ _ hb, toQuat_mul]
  rw [Quaternion.inv_def, Quaternion.inv_def, Quaternion.inv_def, map_mul, star_mul, ha, hb]
  simp [mul_assoc]

/-- A third of a turn about (1, 1, 1): x goes to y. -/
example : Quaternion.normSq (toQuat (f4 (1/2) (1/2) (1/2) (1/2))) = 1 ∧
    ∀ i : Fin 3, quatTransformVector (f4 (1/2) (1/2) (1/2) (1/2) : F4 ℝ) (f4 1 0 0 0) i.castSucc = (f4 0 1 0 0 : F4 ℝ) i.castSucc := by
  refine ⟨by rw [norm2_toQuat]; norm_num [norm2], ?_⟩
  obtain ⟨e0, e1, e2⟩ := quatTransform_coords (f4 (1/2) (1/2) (1/2) (1/2)) (f4 1 0 0 0)
  intro i
  fin_cases i
  · refine Eq.trans e0 ?_; norm_num
  · refine Eq.trans e1 ?_; norm_num
  · refine Eq.trans e2 ?_
    simp only [f4_0, f4_1, f4_2, f4_3]
    change _ = (0 : ℝ)
    norm_num

/-- C51: the quaternion between two vectors, when the product of their lengths is at least `1e-6`.
It is unit. Unless the vectors are nearly opposite it turns the first exactly into the direction of
the second; when they are nearly opposite it turns the first into its opposite, whose direction is
then within `√2e-3` of the second.
Missing: vectors with a smaller product of lengths (see `C51_small_vectors`). -/
theorem C51_between_partial (a b : F4 ℝ) (hn : 1 / 1000000 ≤ √(dot3 a a) * √(dot3 b b)) :
    Quaternion.normSq (toQuat (quatFromVectors a b)) = 1 ∧
    (-(1 - 1 / 1000000) * (√(dot3 a a) * √(dot3 b b)) ≤ dot3 a b → ∀ i : Fin 3,
      quatTransformVector (quatFromVectors a b) a i.castSucc = √(dot3 a a) * (b i.castSucc / √(dot3 b b))) ∧
    (dot3 a b < -(1 - 1 / 1000000) * (√(dot3 a a) * √(dot3 b b)) → ∀ i : Fin 3,
      quatTransformVector (quatFromVectors a b) a i.castSucc = -a i.castSucc) := by
  obtain ⟨-, h2, h3⟩ := quatFromVectors_cases a b
  rw [Real.sqrt_mul (dot3_self_nonneg a)] at h2 h3
  rw [norm2_toQuat]
  refine ⟨?_, fun h i => ?_, fun h i => ?_⟩
  · rcases lt_or_ge (√(dot3 a a) * √(dot3 b b) + dot3 a b) (1 / 1000000 * (√(dot3 a a) * √(dot3 b b))) with h | h
    · exact (h2 hn h).1
    · exact (h3 hn h).1
  · rw [(h3 hn (by linarith)).2.2 i]
    have hp : 0 < √(dot3 a a) * √(dot3 b b) := by linarith
    have ha : √(dot3 a a) ≠ 0 := by intro hz; rw [hz] at hp; simp at hp
    have hb : √(dot3 b b) ≠ 0 := by intro hz; rw [hz] at hp; simp at hp
    have hs : dot3 a a = √(dot3 a a) * √(dot3 a a) := (Real.mul_self_sqrt (dot3_self_nonneg a)).symm
    generalize √(dot3 a a) = x at *
    generalize √(dot3 b b) = y at *
    rw [hs]
    field_simp
  · exact (h2 hn (by linarith)).2.2 i

/-- C51: how far the second direction can be from the opposite of the first in the last case. -/
theorem C51_opposite_error (a b : F4 ℝ) (hn : 0 < √(dot3 a a) * √(dot3 b b))
    (h : dot3 a b < -(1 - 1 / 1000000) * (√(dot3 a a) * √(dot3 b b))) :
    let u : F4 ℝ := fun i => -a i / √(dot3 a a) - b i / √(dot3 b b)
    dot3 u u < 2 / 1000000 := by
  have hsa : √(dot3 a a) * √(dot3 a a) = dot3 a a := Real.mul_self_sqrt (dot3_self_nonneg a)
  have hsb : √(dot3 b b) * √(dot3 b b) = dot3 b b := Real.mul_self_sqrt (dot3_self_nonneg b)
  have ha : 0 < √(dot3 a a) := lt_of_le_of_ne (Real.sqrt_nonneg _) (by rintro hz; rw [← hz] at hn; simp at hn)
  have hb : 0 < √(dot3 b b) := lt_of_le_of_ne (Real.sqrt_nonneg _) (by rintro hz; rw [← hz] at hn; simp at hn)
  intro u
  have e : dot3 u u = 2 + 2 * (dot3 a b / (√(dot3 a a) * √(dot3 b b))) := by
    have : dot3 u u = dot3 a a / (√(dot3 a a) * √(dot3 a a)) + dot3 b b / (√(dot3 b b) * √(dot3 b b))
        + 2 * (dot3 a b / (√(dot3 a a) * √(dot3 b b))) := by
      have hu : ∀ i, u i = -a i / √(dot3 a a) - b i / √(dot3 b b) := fun _ => rfl
      clear_value u
      generalize √(dot3 a a) = x at *
      generalize √(dot3 b b) = y at *
      simp only [dot3, hu]
      field_simp
      ring
    rw [this, hsa, hsb, div_self, div_self]
    · ring
    · rw [← hsb]; positivity
    · rw [← hsa]; positivity
  have : dot3 a b / (√(dot3 a a) * √(dot3 b b)) < -(1 - 1 / 1000000) := by
    rw [div_lt_iff₀ hn]; exact h
  rw [e]; linarith

/-- C51 is false for short vectors: two orthogonal vectors of length `1e-4` give the identity, which
does not turn one into the direction of the other. -/
theorem C51_small_vectors : ∃ a b : F4 ℝ, dot3 a a ≠ 0 ∧ dot3 b b ≠ 0 ∧
    quatFromVectors a b = f4 0 0 0 1 ∧ quatTransformVector (quatFromVectors a b) a 0 ≠ 0 ∧ b 0 = 0 := by
  refine ⟨f4 (1/10000) 0 0 0, f4 0 (1/10000) 0 0, by norm_num [dot3], by norm_num [dot3], ?_⟩
  have h : quatFromVectors (f4 (1/10000) 0 0 0 : F4 ℝ) (f4 0 (1/10000) 0 0) = f4 0 0 0 1 := by
    apply (quatFromVectors_cases _ _).1
    rw [Real.sqrt_lt' (by norm_num)]
    norm_num [dot3]
  refine ⟨h, ?_, rfl⟩
  rw [h, (quatTransform_coords _ _).1]
  norm_num

/-- From x to a vector twice as long along y: the hypotheses hold and x goes to y. -/
example : (1 : ℝ) / 1000000 ≤ √(dot3 (f4 1 0 0 0) (f4 1 0 0 0)) * √(dot3 (f4 0 2 0 0) (f4 0 2 0 0)) ∧
    quatTransformVector (quatFromVectors (f4 1 0 0 0 : F4 ℝ) (f4 0 2 0 0)) (f4 1 0 0 0) 1 = 1 := by
  have h1 : √(dot3 (f4 1 0 0 0) (f4 1 0 0 0)) = 1 := by norm_num [dot3]
  have h2 : √(dot3 (f4 0 2 0 0) (f4 0 2 0 0)) = 2 := by
    rw [show dot3 (f4 0 2 0 0) (f4 0 2 0 0) = 2 ^ 2 by norm_num [dot3]]
    exact Real.sqrt_sq (by norm_num)
  have hn : (1 : ℝ) / 1000000 ≤ √(dot3 (f4 1 0 0 0) (f4 1 0 0 0)) * √(dot3 (f4 0 2 0 0) (f4 0 2 0 0)) := by
    rw [h1, h2]; norm_num
  refine ⟨hn, ?_⟩
  have := (C51_between_partial _ _ hn).2.1 (by rw [h1, h2]; norm_num [dot3]) 1
  rw [h1, h2] at this
  refine Eq.trans this ?_
  change 1 * ((2 : ℝ) / 2) = 1
  norm_num

/-- Exactly opposite vectors are covered by the last case. -/
example : quatTransformVector (quatFromVectors (f4 1 0 0 0 : F4 ℝ) (f4 (-1) 0 0 0)) (f4 1 0 0 0) 0 = -1 := by
  have h1 : √(dot3 (f4 1 0 0 0) (f4 1 0 0 0)) = 1 := by norm_num [dot3]
  have h2 : √(dot3 (f4 (-1) 0 0 0) (f4 (-1) 0 0 0)) = 1 := by norm_num [dot3]
  have hn : (1 : ℝ) / 1000000 ≤ √(dot3 (f4 1 0 0 0) (f4 1 0 0 0)) * √(dot3 (f4 (-1) 0 0 0) (f4 (-1) 0 0 0)) := by
    rw [h1, h2]; norm_num
  exact (C51_between_partial _ _ hn).2.2 (by rw [h1, h2]; norm_num [dot3]) 0

end Ozz.Props
