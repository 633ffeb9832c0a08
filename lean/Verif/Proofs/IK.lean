import Verif.Spec.IK
import Verif.Proofs.Math
import Verif.Proofs.Exact

/-! Helper lemmas about the IK jobs over the real numbers. -/

namespace Ozz.IK

open Spec

theorem Same3.refl (a : F4 ℝ) : Same3 a a := ⟨rfl, rfl, rfl⟩
theorem Same3.symm {a b : F4 ℝ} (h : Same3 a b) : Same3 b a := ⟨h.1.symm, h.2.1.symm, h.2.2.symm⟩
theorem Same3.trans {a b c : F4 ℝ} (h : Same3 a b) (h' : Same3 b c) : Same3 a c :=
  ⟨h.1.trans h'.1, h.2.1.trans h'.2.1, h.2.2.trans h'.2.2⟩

theorem same3_of_fin3 {a b : F4 ℝ} (h : ∀ i : Fin 3, a i.castSucc = b i.castSucc) : Same3 a b := ⟨h 0, h 1, h 2⟩

theorem same3_fin3 {a b : F4 ℝ} (h : Same3 a b) : ∀ i : Fin 3, a i.castSucc = b i.castSucc := by
  intro ⟨i, hi⟩
  have : i = 0 ∨ i = 1 ∨ i = 2 := by omega
  rcases this with rfl | rfl | rfl
  · exact h.1
  · exact h.2.1
  · exact h.2.2

theorem dot3_congr {a a' b b' : F4 ℝ} (h : Same3 a a') (h' : Same3 b b') : dot3 a b = dot3 a' b' := by
  simp only [dot3, h.1, h.2.1, h.2.2, h'.1, h'.2.1, h'.2.2]

theorem pureQuat_same {a b : F4 ℝ} (h : Same3 a b) : pureQuat a = pureQuat b := by
  unfold pureQuat
  rw [h.1, h.2.1, h.2.2]

theorem same_pureQuat {a b : F4 ℝ} (h : pureQuat a = pureQuat b) : Same3 a b :=
  ⟨congrArg QuaternionAlgebra.imI h, congrArg QuaternionAlgebra.imJ h, congrArg QuaternionAlgebra.imK h⟩

theorem transform_congr (q : F4 ℝ) {a b : F4 ℝ} (h : Same3 a b) : Same3 (quatTransformVector q a) (quatTransformVector q b) := by
  obtain ⟨e0, e1, e2⟩ := quatTransform_coords q a
  obtain ⟨f0, f1, f2⟩ := quatTransform_coords q b
  refine ⟨?_, ?_, ?_⟩
  · rw [e0, f0, h.1, h.2.1, h.2.2]
  · rw [e1, f1, h.1, h.2.1, h.2.2]
  · rw [e2, f2, h.1, h.2.1, h.2.2]

/-! ### Affine matrices -/

theorem sendsPoint_iff {m : Mat4 ℝ} {p x : F4 ℝ} : SendsPoint m p x ↔ Same3 x (m.transformPoint p) := by
  have e : ∀ i, m.transformPoint p i = m 0 i * p 0 + m 1 i * p 1 + m 2 i * p 2 + m 3 i := by
    apply four <;> simp [Mat4.transformPoint, swz] <;> ring
  constructor
  · intro h
    exact same3_of_fin3 fun i => (h i).trans (e _).symm
  · intro h i
    exact (same3_fin3 h i).trans (e _)

theorem sendsVector_iff {m : Mat4 ℝ} {p x : F4 ℝ} : SendsVector m p x ↔ Same3 x (m.transformVector p) := by
  have e : ∀ i, m.transformVector p i = m 0 i * p 0 + m 1 i * p 1 + m 2 i * p 2 := by
    apply four <;> simp [Mat4.transformVector, swz] <;> ring
  constructor
  · intro h
    exact same3_of_fin3 fun i => (h i).trans (e _).symm
  · intro h i
    exact (same3_fin3 h i).trans (e _)

theorem invert_affine {m : Mat4 ℝ} (ha : AffineMat m) (hd : (toMatrix m).det ≠ 0) : AffineMat m.invert := by
  obtain ⟨h1, -⟩ := invert_mul m hd
  obtain ⟨a0, a1, a2, a3⟩ := ha
  have e : ∀ c, m.invert c 3 = (1 : Matrix (Fin 4) (Fin 4) ℝ) 3 c := by
    intro c
    rw [← h1, Matrix.mul_apply, Fin.sum_univ_four]
    simp [toMatrix, a0, a1, a2, a3]
  refine ⟨?_, ?_, ?_, ?_⟩ <;> rw [e] <;> simp

theorem toMatrix_inj {a b : Mat4 ℝ} (h : toMatrix a = toMatrix b) : a = b := by
  funext c r
  exact congrFun (congrFun h r) c

theorem mul_invert {m : Mat4 ℝ} (hd : (toMatrix m).det ≠ 0) (p : F4 ℝ) :
    Same3 (Mat4.transformPoint (m.mul m.invert) p) p ∧ Same3 (Mat4.transformPoint (m.invert.mul m) p) p := by
  obtain ⟨h1, h2⟩ := invert_mul m hd
  have e : ∀ n : Mat4 ℝ, toMatrix n = 1 → Same3 (Mat4.transformPoint n p) p := by
    intro n hn
    have f : ∀ c r, n c r = (1 : Matrix (Fin 4) (Fin 4) ℝ) r c := fun c r => by rw [← hn]; rfl
    refine ⟨?_, ?_, ?_⟩ <;> simp [Mat4.transformPoint, swz, f]
  exact ⟨e _ (by rw [toMatrix_mul, h1]), e _ (by rw [toMatrix_mul, h2])⟩

theorem transformPoint_congr (m : Mat4 ℝ) {a b : F4 ℝ} (h : Same3 a b) : m.transformPoint a = m.transformPoint b := by
  obtain ⟨h0, h1, h2⟩ := h
  funext i
  simp [Mat4.transformPoint, swz, h0, h1, h2]

theorem transformVector_congr (m : Mat4 ℝ) {a b : F4 ℝ} (h : Same3 a b) : m.transformVector a = m.transformVector b := by
  obtain ⟨h0, h1, h2⟩ := h
  funext i
  simp [Mat4.transformVector, swz, h0, h1, h2]

/-- The inverse undoes the matrix. -/
theorem invert_point {m : Mat4 ℝ} (ha : AffineMat m) (hd : (toMatrix m).det ≠ 0) (p : F4 ℝ) :
    Same3 (m.transformPoint (m.invert.transformPoint p)) p := by
  rw [← transformPoint_affine m m.invert p (invert_affine ha hd)]
  exact (mul_invert hd p).1

theorem point_invert {m : Mat4 ℝ} (ha : AffineMat m) (hd : (toMatrix m).det ≠ 0) {p x : F4 ℝ} (h : SendsPoint m p x) :
    Same3 (m.invert.transformPoint x) p := by
  rw [transformPoint_congr _ (sendsPoint_iff.mp h), ← transformPoint_affine m.invert m p ha]
  exact (mul_invert hd p).2

/-- Points are directions plus the image of the origin. -/
theorem transformPoint_add (m : Mat4 ℝ) (p v : F4 ℝ) :
    m.transformPoint (p + v) = m.transformPoint p + m.transformVector v := by
  apply ext4 <;> simp [Mat4.transformPoint, Mat4.transformVector, swz] <;> ring

theorem transformPoint_zero (m : Mat4 ℝ) : m.transformPoint (fun _ => 0) = m 3 := by
  apply ext4 <;> simp [Mat4.transformPoint, swz]

/-! ### Rotations -/

theorem turns_iff {q v x : F4 ℝ} (hq : norm2 q = 1) : Turns q v x ↔ Same3 x (quatTransformVector q v) := by
  have e : toQuat q * pureQuat v * (toQuat q)⁻¹ = pureQuat (quatTransformVector q v) := by
    rw [pureQuat_transform q v hq, Quaternion.inv_def, norm2_toQuat, hq, inv_one, one_smul]
  unfold Turns
  rw [e]
  exact ⟨same_pureQuat, pureQuat_same⟩

theorem unitQuat_iff {q : F4 ℝ} : UnitQuat q ↔ norm2 q = 1 := by unfold UnitQuat; rw [norm2_toQuat]

theorem norm2_quatMul (a b : F4 ℝ) : norm2 (quatMul a b) = norm2 a * norm2 b := by
  rw [← norm2_toQuat, toQuat_mul, map_mul, norm2_toQuat, norm2_toQuat]

theorem transform_mul {a b : F4 ℝ} (v : F4 ℝ) (ha : norm2 a = 1) (hb : norm2 b = 1) :
    Same3 (quatTransformVector (quatMul a b) v) (quatTransformVector a (quatTransformVector b v)) := by
  apply same_pureQuat
  rw [pureQuat_transform _ _ ha, pureQuat_transform _ _ hb, pureQuat_transform _ _ (by rw [norm2_quatMul, ha, hb, one_mul]),
    toQuat_mul, star_mul]
  simp [mul_assoc]

/-- A quaternion along `v` leaves `v` where it is. -/
theorem transform_axis {q v : F4 ℝ} {k : ℝ} (h : q 0 = k * v 0 ∧ q 1 = k * v 1 ∧ q 2 = k * v 2) :
    Same3 (quatTransformVector q v) v := by
  obtain ⟨e0, e1, e2⟩ := quatTransform_coords q v
  obtain ⟨h0, h1, h2⟩ := h
  refine ⟨?_, ?_, ?_⟩
  · rw [e0, h0, h1, h2]; ring
  · rw [e1, h0, h1, h2]; ring
  · rw [e2, h0, h1, h2]; ring

theorem quatPositiveW_cases (q : F4 ℝ) : (quatPositiveW q = q ∧ 0 ≤ q 3) ∨ (quatPositiveW q = -q ∧ q 3 < 0) := by
  by_cases h : q 3 < 0
  · right
    refine ⟨?_, h⟩
    apply ext4 <;> simp [quatPositiveW, xor4, sign4, swz, flip, h]
  · left
    refine ⟨?_, not_lt.mp h⟩
    apply ext4 <;> simp [quatPositiveW, xor4, sign4, swz, flip, h]

theorem positiveW_nonneg (q : F4 ℝ) : 0 ≤ quatPositiveW q 3 := by
  rcases quatPositiveW_cases q with ⟨h, h'⟩ | ⟨h, h'⟩ <;> rw [h]
  · exact h'
  · show 0 ≤ -q 3
    linarith

theorem positiveW_norm2 (q : F4 ℝ) : norm2 (quatPositiveW q) = norm2 q := by
  rcases quatPositiveW_cases q with ⟨h, -⟩ | ⟨h, -⟩ <;> rw [h]
  simp [norm2]

theorem positiveW_transform (q v : F4 ℝ) : Same3 (quatTransformVector (quatPositiveW q) v) (quatTransformVector q v) := by
  rcases quatPositiveW_cases q with ⟨h, -⟩ | ⟨h, -⟩ <;> rw [h]
  · exact Same3.refl _
  · obtain ⟨e0, e1, e2⟩ := quatTransform_coords q v
    obtain ⟨f0, f1, f2⟩ := quatTransform_coords (-q) v
    refine ⟨?_, ?_, ?_⟩
    · rw [e0, f0]; simp only [Pi.neg_apply]; ring
    · rw [e1, f1]; simp only [Pi.neg_apply]; ring
    · rw [e2, f2]; simp only [Pi.neg_apply]; ring

/-- `lerp` from the identity never vanishes below weight one. -/
theorem lerp_unit {q : F4 ℝ} {w : ℝ} (hq : 0 ≤ q 3) (hw : w < 1) :
    0 < lerp4 quatUnit q (max4 (splat w) zero4) 3 := by
  have e : lerp4 quatUnit q (max4 (splat w) zero4) 3 = max w 0 * (q 3 - 1) + 1 := by
    simp [lerp4, quatUnit, max4, splat, zero4]
  rw [e]
  have h0 : 0 ≤ max w 0 := le_max_right _ _
  have h1 : max w 0 < 1 := max_lt hw one_pos
  nlinarith [mul_nonneg h0 hq]

theorem quatFromCosAngle_unit {axis c : F4 ℝ} (ha : dot3 axis axis = 1) (h1 : -1 ≤ c 0) (h2 : c 0 ≤ 1) :
    norm2 (quatFromCosAngle axis c) = 1 ∧ ∃ k, quatFromCosAngle axis c 0 = k * axis 0 ∧
      quatFromCosAngle axis c 1 = k * axis 1 ∧ quatFromCosAngle axis c 2 = k * axis 2 := by
  have e0 : quatFromCosAngle axis c 0 = axis 0 * √(1 - (1 + c 0) * (1 / 2)) := by
    simp [quatFromCosAngle, setW, setY, swz2, pick, swz, sqrt4, one4, half4, splat]
  have e1 : quatFromCosAngle axis c 1 = axis 1 * √(1 - (1 + c 0) * (1 / 2)) := by
    simp [quatFromCosAngle, setW, setY, swz2, pick, swz, sqrt4, one4, half4, splat]
  have e2 : quatFromCosAngle axis c 2 = axis 2 * √(1 - (1 + c 0) * (1 / 2)) := by
    simp [quatFromCosAngle, setW, setY, swz2, pick, swz, sqrt4, one4, half4, splat]
  have e3 : quatFromCosAngle axis c 3 = √((1 + c 0) * (1 / 2)) := by
    simp [quatFromCosAngle, setW, setY, swz2, pick, swz, sqrt4, one4, half4, splat]
  refine ⟨?_, √(1 - (1 + c 0) * (1 / 2)), by rw [e0]; ring, by rw [e1]; ring, by rw [e2]; ring⟩
  have s1 : √(1 - (1 + c 0) * (1 / 2)) ^ 2 = 1 - (1 + c 0) * (1 / 2) := Real.sq_sqrt (by linarith)
  have s2 : √((1 + c 0) * (1 / 2)) ^ 2 = (1 + c 0) * (1 / 2) := Real.sq_sqrt (by linarith)
  unfold dot3 at ha
  simp only [norm2, e0, e1, e2, e3]
  generalize √(1 - (1 + c 0) * (1 / 2)) = x at *
  generalize √((1 + c 0) * (1 / 2)) = y at *
  linear_combination x ^ 2 * ha + s1 + s2

theorem quatFromAxisAngle_eq (axis angle : F4 ℝ) :
    quatFromAxisAngle idealTrig.sinCos axis angle = f4 (axis 0 * Real.sin (angle 0 / 2)) (axis 1 * Real.sin (angle 0 / 2))
      (axis 2 * Real.sin (angle 0 / 2)) (Real.cos (angle 0 / 2)) := by
  apply ext4 <;> simp [quatFromAxisAngle, idealTrig, setW, swz2, pick, swz, half4, splat, div_eq_mul_inv]

theorem quatFromAxisAngle_unit {axis : F4 ℝ} (angle : F4 ℝ) (ha : dot3 axis axis = 1) :
    norm2 (quatFromAxisAngle idealTrig.sinCos axis angle) = 1 ∧ ∃ k, quatFromAxisAngle idealTrig.sinCos axis angle 0 = k * axis 0 ∧
      quatFromAxisAngle idealTrig.sinCos axis angle 1 = k * axis 1 ∧ quatFromAxisAngle idealTrig.sinCos axis angle 2 = k * axis 2 := by
  rw [quatFromAxisAngle_eq]
  refine ⟨?_, Real.sin (angle 0 / 2), mul_comm _ _, mul_comm _ _, mul_comm _ _⟩
  · have h := Real.sin_sq_add_cos_sq (angle 0 / 2)
    unfold dot3 at ha
    simp only [norm2, f4_0, f4_1, f4_2, f4_3]
    generalize Real.sin (angle 0 / 2) = x at *
    generalize Real.cos (angle 0 / 2) = y at *
    linear_combination x ^ 2 * ha + h

theorem clamp4_mem (v : F4 ℝ) : -1 ≤ clamp4 v negOne4 one4 0 ∧ clamp4 v negOne4 one4 0 ≤ 1 := by
  simp only [clamp4, negOne4, one4, splat, real_one, real_lt, decide_eq_true_eq]
  constructor <;> split_ifs <;> linarith

/-- The quaternion between two vectors of the same length. -/
theorem fromVectors_same {a b : F4 ℝ} (hab : dot3 a a = dot3 b b) (hb : 1 / 1000000 ≤ dot3 b b) :
    norm2 (quatFromVectors a b) = 1 ∧
    (-(1 - 1 / 1000000) * dot3 b b ≤ dot3 a b → Same3 (quatTransformVector (quatFromVectors a b) a) b) ∧
    (dot3 a b < -(1 - 1 / 1000000) * dot3 b b → ∀ i : Fin 3, quatTransformVector (quatFromVectors a b) a i.castSucc = -a i.castSucc) := by
  obtain ⟨-, h2, h3⟩ := quatFromVectors_cases a b
  have hn : √(dot3 a a * dot3 b b) = dot3 b b := by rw [hab]; exact Real.sqrt_mul_self (dot3_self_nonneg b)
  simp only [hn] at h2 h3
  rcases lt_or_ge (dot3 b b + dot3 a b) (1 / 1000000 * dot3 b b) with h | h
  · refine ⟨(h2 hb h).1, fun h' => absurd h' (by linarith), fun _ => (h2 hb h).2.2⟩
  · refine ⟨(h3 hb h).1, fun _ => same3_of_fin3 fun i => ?_, fun h' => absurd h' (by linarith)⟩
    rw [(h3 hb h).2.2 i, hab]
    field_simp

end Ozz.IK
