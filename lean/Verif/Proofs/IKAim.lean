import Verif.Proofs.IK

/-! Helper lemmas about the aim job. -/

namespace Ozz.IK

open Spec

/-- A vector divided by its length, possibly turned around. -/
theorem axis_unit {v a : F4 ℝ} {s k : ℝ} (hv : 0 < dot3 v v) (hs : s = 1 ∨ s = -1) (hk : k = s * (√(dot3 v v))⁻¹)
    (ha : ∀ i, a i = k * v i) : dot3 a a = 1 := by
  have h1 : √(dot3 v v) ^ 2 = dot3 v v := Real.sq_sqrt hv.le
  have h0 : √(dot3 v v) ≠ 0 := (Real.sqrt_pos.mpr hv).ne'
  have e : dot3 a a = k ^ 2 * dot3 v v := by simp only [dot3, ha]; ring
  rw [e, hk, mul_pow, inv_pow, h1, mul_assoc, inv_mul_cancel₀ hv.ne', mul_one]
  rcases hs with rfl | rfl <;> norm_num

theorem vec3Length2S_zero (v : F4 ℝ) : vec3Length2S v 0 = dot3 v v := vec3DotS_zero v v

/-- Turning the plane is a rotation about the direction of the target. -/
theorem aim_plane (j : Aim ℝ) (inv : Mat4 ℝ) {v : F4 ℝ} (rot : F4 ℝ) (hv : 0 < dot3 v v) :
    dot3 (j.rotatePlane inv v rot).1 (j.rotatePlane inv v rot).1 = 1 ∧ (∃ k, ∀ i, (j.rotatePlane inv v rot).1 i = k * v i) ∧
    norm2 (j.rotatePlane inv v rot).2 = 1 ∧ ∃ k, (j.rotatePlane inv v rot).2 0 = k * v 0 ∧
      (j.rotatePlane inv v rot).2 1 = k * v 1 ∧ (j.rotatePlane inv v rot).2 2 = k * v 2 := by
  have key : ∀ (n r : F4 ℝ) (s : Bool), (∀ i, (v * Mat4.splatX (recip4 (sqrt4 (setZ (setY (vec3Length2S v) n) r)))) i =
      (√(dot3 v v))⁻¹ * v i) ∧ ∀ i, xor4 (v * Mat4.splatX (recip4 (sqrt4 (setZ (setY (vec3Length2S v) n) r)))) (fun _ => s) i =
      ((if s then -1 else 1) * (√(dot3 v v))⁻¹) * v i := by
    intro n r s
    have e : ∀ i, (v * Mat4.splatX (recip4 (sqrt4 (setZ (setY (vec3Length2S v) n) r)))) i = (√(dot3 v v))⁻¹ * v i := by
      have e0 : recip4 (sqrt4 (setZ (setY (vec3Length2S v) n) r)) 0 = (√(dot3 v v))⁻¹ := by
        simp [recip4, recip, sqrt4, setZ, setY, swz2, pick, vec3Length2S_zero]
      intro i
      rw [Pi.mul_apply, mul_comm]
      congr 1
      rw [← e0]
      revert i
      apply four <;> rfl
    refine ⟨e, fun i => ?_⟩
    simp only [xor4, e]
    cases s <;> simp [flip]
  have hflip : ∀ x : F4 ℝ, ∃ s, sign4 (Mat4.splatX x) = fun _ => s := by
    intro x
    refine ⟨NumOps.lt (x 0) NumOps.zero, ?_⟩
    apply ext4 <;> rfl
  unfold Aim.rotatePlane
  extract_lets up pole refN normal denoms rsq axis cosA fl
  have hk1 := (key (vec3Length2S normal) (vec3Length2S refN) true).1
  have ha : dot3 axis axis = 1 := axis_unit (s := 1) hv (Or.inl rfl) (one_mul _).symm hk1
  by_cases hz : allNonZero denoms
  · rw [if_pos hz]
    refine ⟨ha, ⟨_, hk1⟩, ?_⟩
    obtain ⟨s, hs⟩ := hflip (vec3DotS refN up)
    have hk2 := (key (vec3Length2S normal) (vec3Length2S refN) s).2
    have hfl : xor4 axis fl = xor4 axis (fun _ => s) := congrArg _ hs
    have hu : dot3 (xor4 axis fl) (xor4 axis fl) = 1 := by
      rw [hfl]
      exact axis_unit (s := if s then -1 else 1) hv (by cases s <;> simp) rfl hk2
    obtain ⟨h1, k, h2, h3, h4⟩ := quatFromCosAngle_unit hu (clamp4_mem cosA).1 (clamp4_mem cosA).2
    refine ⟨h1, k * ((if s then -1 else 1) * (√(dot3 v v))⁻¹), ?_, ?_, ?_⟩
    · refine h2.trans ?_
      rw [hfl, mul_assoc]
      exact congrArg _ (hk2 0)
    · refine h3.trans ?_
      rw [hfl, mul_assoc]
      exact congrArg _ (hk2 1)
    · refine h4.trans ?_
      rw [hfl, mul_assoc]
      exact congrArg _ (hk2 2)
  · rw [if_neg hz]
    refine ⟨ha, ⟨_, hk1⟩, by simp [norm2, quatUnit], 0, ?_, ?_, ?_⟩ <;> simp [quatUnit]

/-- The correction before weighting: unit, and it turns `a` as `rot` does when that is along the target. -/
theorem aim_twisted (j : Aim ℝ) (inv : Mat4 ℝ) {v rot : F4 ℝ} (hv : 0 < dot3 v v) (hrot : norm2 rot = 1) :
    norm2 (j.twisted idealTrig (j.rotatePlane inv v rot).1 (j.rotatePlane inv v rot).2 rot) = 1 ∧
    ∃ p, norm2 p = 1 ∧ Same3 (quatTransformVector p v) v ∧ ∀ a,
      Same3 (quatTransformVector (j.twisted idealTrig (j.rotatePlane inv v rot).1 (j.rotatePlane inv v rot).2 rot) a)
        (quatTransformVector p (quatTransformVector rot a)) := by
  obtain ⟨h1, ⟨k, h2⟩, h3, k', h4⟩ := aim_plane j inv rot hv
  generalize (j.rotatePlane inv v rot).1 = axis at *
  generalize (j.rotatePlane inv v rot).2 = plane at *
  unfold Aim.twisted
  split_ifs with ht
  · refine ⟨by rw [norm2_quatMul, h3, hrot, one_mul], plane, h3, transform_axis h4, fun a => transform_mul a h3 hrot⟩
  · obtain ⟨t1, kt, t2, t3, t4⟩ := quatFromAxisAngle_unit (splat j.twistAngle) h1
    have t5 : Same3 (quatTransformVector (quatFromAxisAngle idealTrig.sinCos axis (splat j.twistAngle)) v) v := by
      apply transform_axis (k := kt * k)
      rw [h2] at t2 t3 t4
      exact ⟨by rw [t2]; ring, by rw [t3]; ring, by rw [t4]; ring⟩
    generalize quatFromAxisAngle idealTrig.sinCos axis (splat j.twistAngle) = tw at *
    have h5 : norm2 (quatMul tw plane) = 1 := by rw [norm2_quatMul, t1, h3, one_mul]
    refine ⟨by rw [norm2_quatMul, h5, hrot, one_mul], quatMul tw plane, h5, ?_, fun a => transform_mul a h5 hrot⟩
    exact Same3.trans (transform_mul v t1 h3) (Same3.trans (transform_congr _ (transform_axis h4)) t5)

/-- The point of the forward line at the distance of the target. -/
theorem offsetted {f o v : F4 ℝ} (hf : dot3 f f = 1) :
    (dot3 v v < dot3 o o - dot3 f o ^ 2 → offsettedForward f o v = none) ∧
    (dot3 o o - dot3 f o ^ 2 ≤ dot3 v v → ∃ p, offsettedForward f o v = some p ∧
      (∀ i, p i = o i + (√(dot3 v v - (dot3 o o - dot3 f o ^ 2)) - dot3 f o) * f i) ∧ dot3 p p = dot3 v v) := by
  have e : (vec3Length2S o - vec3DotS f o * vec3DotS f o) 0 = dot3 o o - dot3 f o ^ 2 := by
    rw [Pi.sub_apply, Pi.mul_apply, vec3Length2S_zero, vec3DotS_zero]; ring
  unfold offsettedForward
  simp only [e, vec3Length2S_zero, real_lt, decide_eq_true_eq]
  refine ⟨fun h => if_pos h, fun h => ?_⟩
  rw [if_neg (not_lt.mpr h)]
  have hp : ∀ i, (o + f * Mat4.splatX (sqrt4 (vec3Length2S v - (vec3Length2S o - vec3DotS f o * vec3DotS f o)) - vec3DotS f o)) i =
      o i + (√(dot3 v v - (dot3 o o - dot3 f o ^ 2)) - dot3 f o) * f i := by
    intro i
    have : ∀ i, Mat4.splatX (sqrt4 (vec3Length2S v - (vec3Length2S o - vec3DotS f o * vec3DotS f o)) - vec3DotS f o) i =
        √(dot3 v v - (dot3 o o - dot3 f o ^ 2)) - dot3 f o := by
      have e0 : (sqrt4 (vec3Length2S v - (vec3Length2S o - vec3DotS f o * vec3DotS f o)) - vec3DotS f o) 0 =
          √(dot3 v v - (dot3 o o - dot3 f o ^ 2)) - dot3 f o := by
        rw [Pi.sub_apply, vec3DotS_zero, sqrt4, Pi.sub_apply, e, vec3Length2S_zero, real_sqrt]
      rw [← e0]
      apply four <;> rfl
    rw [Pi.add_apply, Pi.mul_apply, this, mul_comm]
  refine ⟨_, rfl, hp, ?_⟩
  · have hs : √(dot3 v v - (dot3 o o - dot3 f o ^ 2)) ^ 2 = dot3 v v - (dot3 o o - dot3 f o ^ 2) := Real.sq_sqrt (by linarith)
    generalize √(dot3 v v - (dot3 o o - dot3 f o ^ 2)) = x at *
    generalize (o + f * Mat4.splatX (sqrt4 (vec3Length2S v - (vec3Length2S o - vec3DotS f o * vec3DotS f o)) - vec3DotS f o)) = p at *
    have : dot3 p p = dot3 o o + 2 * (x - dot3 f o) * dot3 f o + (x - dot3 f o) ^ 2 * dot3 f f := by
      simp only [hp, dot3]; ring
    rw [this, hf]
    linear_combination hs

end Ozz.IK
