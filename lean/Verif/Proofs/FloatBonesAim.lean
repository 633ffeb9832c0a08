import Verif.Proofs.FloatBonesStart

/-! Helpers: where the start joint of the two-bone job turns the end of the chain, in single precision. -/

namespace Ozz.IK

open F32 Ieee Spec Blending Ozz.Trig

theorem mag3_smul (c : ℝ) (v : F4 ℝ) : mag3 (c • v) = |c| * mag3 v := by
  have : pureQuat (c • v) = c • pureQuat v := by ext <;> simp
  rw [← norm_pure, this, norm_smul, norm_pure, Real.norm_eq_abs]

/-- Directions of nearby vectors. -/
theorem direction_near {V τ : F4 ℝ} {d e p : ℝ} (hV : 0 < mag3 V) (hτ : 0 < mag3 τ) (hd : mag3 (V - τ) ≤ d) (he : 0 ≤ e) (hp : 0 ≤ p) :
    mag3 ((e / mag3 V) • V - (p / mag3 τ) • τ) ≤ |e - p| + 2 * (p * d / mag3 τ) := by
  have e1 : (e / mag3 V) • V - (p / mag3 τ) • τ = (((e - p) / mag3 V) • V + (p / mag3 V - p / mag3 τ) • V) + (p / mag3 τ) • (V - τ) := by
    rw [sub_div, sub_smul, sub_smul, smul_sub]; abel
  rw [e1]
  refine (mag3_add_le _ _).trans ?_
  have h1 := mag3_add_le (((e - p) / mag3 V) • V) ((p / mag3 V - p / mag3 τ) • V)
  rw [mag3_smul, mag3_smul, abs_div, abs_of_pos hV, div_mul_cancel₀ _ hV.ne'] at h1
  have h2 : |p / mag3 V - p / mag3 τ| * mag3 V ≤ p * d / mag3 τ := by
    have h3 : |mag3 V - mag3 τ| ≤ d := (mag3_diff V τ).trans hd
    rw [show p / mag3 V - p / mag3 τ = p * (mag3 τ - mag3 V) / (mag3 V * mag3 τ) by field_simp, abs_div, abs_mul, abs_of_nonneg hp,
      abs_of_pos (mul_pos hV hτ), abs_sub_comm, div_mul_eq_mul_div, div_le_div_iff₀ (mul_pos hV hτ) hτ]
    have := mul_le_mul_of_nonneg_left h3 hp
    have := mul_le_mul_of_nonneg_right this (mul_pos hV hτ).le
    linarith
  have h4 : mag3 ((p / mag3 τ) • (V - τ)) ≤ p * d / mag3 τ := by
    rw [mag3_smul, abs_of_nonneg (by positivity), div_mul_eq_mul_div]
    exact div_le_div_of_nonneg_right (mul_le_mul_of_nonneg_left hd hp) hτ.le
  linarith

/-- The start correction turns the end of the chain to the ray of the target. -/
theorem direction_ok {E V R : F4 F32} {p τ x : F4 ℝ} {T : ℝ} {A : Quaternion ℝ} (hT : 1 ≤ T) (hT2 : T ≤ 2 ^ 16) (fE : Fin3 E) (fV : Fin3 V)
    (hE : mag3 (valVec E - p) ≤ 6010 / 2 ^ 24 * T) (hV : mag3 (valVec V - τ) ≤ 1395 / 2 ^ 24 * T) (τ0 : T / 2 ^ 7 ≤ mag3 τ)
    (τ1 : mag3 τ ≤ 3.5 * T) (E1 : mag3 (valVec E) ≤ 7.03 * T) (hA : Axial A (valVec V))
    (dA : ‖toQuat (valVec R) - A * toQuat (valVec (quatFromVectors E V))‖ ≤ 105 / 2 ^ 24) (ql : |‖toQuat (valVec R)‖ - 1| ≤ 122 / 2 ^ 24)
    (hx : Turns (valVec R) p x) :
    mag3 (x - (mag3 p / mag3 τ) • τ) ≤ mag3 p / 200 + T / 1000 + T * mag3 p / (6000 * mag3 τ) ∧
    (-(1 / 2) * (mag3 p * mag3 τ) ≤ dot3 p τ →
      mag3 (x - (mag3 p / mag3 τ) • τ) ≤ mag3 p / 2 ^ 14 + T / 1000 + T * mag3 p / (6000 * mag3 τ)) := by
  have hτ : 0 < mag3 τ := by linarith
  have p0 := mag3_nonneg p
  have E0 := mag3_nonneg (valVec E)
  have vd := abs_le.mp ((mag3_diff (valVec V) τ).trans hV)
  have ed := (mag3_diff (valVec E) p).trans hE
  have ed' := abs_le.mp ed
  have hv : 0 < mag3 (valVec V) := by linarith
  have dn := direction_near hv hτ hV E0 p0
  have dn2 : 2 * (mag3 p * (1395 / 2 ^ 24 * T) / mag3 τ) ≤ T * mag3 p / (6000 * mag3 τ) := by
    rw [show 2 * (mag3 p * (1395 / 2 ^ 24 * T) / mag3 τ) = 2790 / 2 ^ 24 * (T * mag3 p / mag3 τ) by ring,
      show T * mag3 p / (6000 * mag3 τ) = 1 / 6000 * (T * mag3 p / mag3 τ) by field_simp]
    exact mul_le_mul_of_nonneg_right (by norm_num) (by positivity)
  have q0 : toQuat (valVec R) ≠ 0 := by
    intro h0; rw [h0, norm_zero] at ql; norm_num at ql
  obtain ⟨y, hy⟩ := turns_exists q0 (valVec E)
  have xy := turns_mag q0 hx hy
  have pe : mag3 (p - valVec E) ≤ 6010 / 2 ^ 24 * T := by
    rw [← mag3_neg, neg_sub]; exact hE
  -- the distance for any such turn
  have main : ∀ {U : Quaternion ℝ} {δ : ℝ}, ‖U‖ = 1 → 2 * ‖toQuat (valVec (quatFromVectors E V)) - U‖ * mag3 (valVec E) +
      ‖U * pureQuat (valVec E) * U⁻¹ - (mag3 (valVec E) / mag3 (valVec V)) • pureQuat (valVec V)‖ ≤ δ * mag3 (valVec E) →
      mag3 (x - (mag3 p / mag3 τ) • τ) ≤ (δ + 454 / 2 ^ 24) * mag3 (valVec E) + 12020 / 2 ^ 24 * T + T * mag3 p / (6000 * mag3 τ) := by
    intro U δ hU hδ
    have hAU : ‖A * U‖ = 1 := by rw [norm_mul, hA.1, hU, one_mul]
    have d1 : ‖toQuat (valVec R) - A * U‖ ≤ 105 / 2 ^ 24 + ‖toQuat (valVec (quatFromVectors E V)) - U‖ := by
      have h1 := norm_sub_le_norm_sub_add_norm_sub (toQuat (valVec R)) (A * toQuat (valVec (quatFromVectors E V))) (A * U)
      rw [← mul_sub, norm_mul, hA.1, one_mul] at h1
      linarith
    have d2 := turn_almost (x := pureQuat (valVec E)) hAU ql (by norm_num)
    rw [norm_pure] at d2
    have d3 := axial_turn (U := U) (x := pureQuat (valVec E)) hA (y := (mag3 (valVec E) / mag3 (valVec V)) • pureQuat (valVec V)) rfl
    unfold Turns at hy
    have es : (mag3 (valVec E) / mag3 (valVec V)) • pureQuat (valVec V) = pureQuat ((mag3 (valVec E) / mag3 (valVec V)) • valVec V) := by
      ext <;> simp
    rw [← hy] at d2
    have h1 := norm_sub_le_norm_sub_add_norm_sub (pureQuat y) (A * U * pureQuat (valVec E) * (A * U)⁻¹)
      ((mag3 (valVec E) / mag3 (valVec V)) • pureQuat (valVec V))
    rw [d3, es, mag3_sub_norm] at h1
    rw [es] at hδ
    have h2 : 2 * (‖toQuat (valVec R) - A * U‖ + 122 / 2 ^ 24) * mag3 (valVec E) ≤
        2 * (227 / 2 ^ 24 + ‖toQuat (valVec (quatFromVectors E V)) - U‖) * mag3 (valVec E) :=
      mul_le_mul_of_nonneg_right (by linarith) E0
    have : 2 * (227 / 2 ^ 24 + ‖toQuat (valVec (quatFromVectors E V)) - U‖) * mag3 (valVec E) =
      454 / 2 ^ 24 * mag3 (valVec E) + 2 * ‖toQuat (valVec (quatFromVectors E V)) - U‖ * mag3 (valVec E) := by ring
    have t1 := mag3_tri x y ((mag3 p / mag3 τ) • τ)
    have t2 := mag3_tri y ((mag3 (valVec E) / mag3 (valVec V)) • valVec V) ((mag3 p / mag3 τ) • τ)
    linarith
  rcases le_or_gt (T / 7700) (mag3 (valVec E)) with big | small
  · have n0 : 1 / 7700 * 0.00772 ≤ mag3 (valVec E) * mag3 (valVec V) := mul_le_mul (by linarith) (by linarith) (by norm_num) E0
    have n1 : mag3 (valVec E) * mag3 (valVec V) ≤ 2 ^ 20 * 2 ^ 20 := mul_le_mul (by linarith) (by linarith) hv.le (by norm_num)
    obtain ⟨-, -, ⟨U, hU, -, rT⟩, rS⟩ := fromVectors_ok fE fV (by linarith) (by linarith) (by linarith) (by linarith)
      (le_trans (by norm_num) n0) (n1.trans (by norm_num))
    have coarse := main (δ := 1 / 215) hU (by linarith)
    refine ⟨by linarith, fun hang => ?_⟩
    rcases le_or_gt (T / 100) (mag3 (valVec E)) with far | near
    · have Ev : 0 < mag3 (valVec E) := by linarith
      have hdot : -(0.5715) * (mag3 (valVec E) * mag3 (valVec V)) ≤ dot3 (valVec E) (valVec V) := by
        have e1 : dot3 (valVec E) (valVec V) = dot3 (valVec E - p) (valVec V) + dot3 p (valVec V - τ) + dot3 p τ := by
          simp only [dot3, Pi.sub_apply]; ring
        have h1 : |dot3 (valVec E - p) (valVec V)| ≤ mag3 (valVec E - p) * mag3 (valVec V) := dot_le_len
        have h2 : |dot3 p (valVec V - τ)| ≤ mag3 p * mag3 (valVec V - τ) := dot_le_len
        have h3 : mag3 (valVec E - p) * mag3 (valVec V) ≤ 601000 / 2 ^ 24 * mag3 (valVec E) * mag3 (valVec V) :=
          mul_le_mul_of_nonneg_right (by linarith) hv.le
        have pE : mag3 p ≤ 1.0359 * mag3 (valVec E) := by linarith
        have τV : mag3 τ ≤ 1.0109 * mag3 (valVec V) := by linarith
        have h4 : mag3 p * mag3 (valVec V - τ) ≤ 1.0359 * mag3 (valVec E) * (0.0109 * mag3 (valVec V)) :=
          mul_le_mul pE (by linarith) (mag3_nonneg _) (by positivity)
        have h5 : mag3 p * mag3 τ ≤ 1.0359 * mag3 (valVec E) * (1.0109 * mag3 (valVec V)) :=
          mul_le_mul pE τV hτ.le (by positivity)
        have a1 := (abs_le.mp h1).1
        have a2 := (abs_le.mp h2).1
        rw [e1]
        have := mul_pos Ev hv
        linarith
      obtain ⟨U', hU', rU', rT'⟩ := rS (65 / 100) (by norm_num) (by linarith)
      have := main (δ := 86.2 / 2 ^ 24) hU' (by
        rw [rT', sub_self, norm_zero, add_zero]
        exact mul_le_mul_of_nonneg_right (by linarith) E0)
      linarith
    · linarith
  · have lx := turns_len q0 hx
    have : mag3 (x - (mag3 p / mag3 τ) • τ) ≤ 2 * mag3 p := by
      rw [sub_eq_add_neg]
      refine (mag3_add_le _ _).trans ?_
      rw [mag3_neg, mag3_smul, abs_of_nonneg (by positivity), div_mul_cancel₀ _ hτ.ne', lx]
      linarith
    have : 0 ≤ T * mag3 p / (6000 * mag3 τ) := by positivity
    exact ⟨by linarith, fun _ => by linarith⟩

end Ozz.IK
