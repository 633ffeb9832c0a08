import Verif.Proofs.FloatBonesAim
import Verif.Proofs.FloatBonesBend
import Verif.Spec.FloatBend

/-! Helpers: the distance the two-bone job reaches, in single precision. -/

namespace Ozz.IK

open F32 Ieee Spec Blending Ozz.Trig

/-- Dot products across two nearly rigid joints. -/
theorem across_dot {s m : Mat4 F32} {ε T : ℝ} (hs : Rigid32 s ε T) (hm : Rigid32 m ε T) (hε : ε ≤ 1 / 1000) (v w : F4 ℝ) :
    |dot3 (toStart (valMat s) (valMat m) v) (toStart (valMat s) (valMat m) w) - dot3 v w| ≤ 6.1 * ε * (mag3 v * mag3 w) := by
  have ε0 : 0 ≤ ε := (abs_nonneg _).trans (hs.columns 0 0 (by decide) (by decide))
  have rs := rigid_real hs
  have h1 := rigid_dot (rigid_real hm) v w
  have h2 := rigid_dot rs (toStart (valMat s) (valMat m) v) (toStart (valMat s) (valMat m) w)
  have i1 := invert_vector rs.affine (rs.det_ne hε) ((valMat m).transformVector v)
  have i2 := invert_vector rs.affine (rs.det_ne hε) ((valMat m).transformVector w)
  have e : dot3 ((valMat s).transformVector (toStart (valMat s) (valMat m) v)) ((valMat s).transformVector (toStart (valMat s) (valMat m) w)) =
      dot3 ((valMat m).transformVector v) ((valMat m).transformVector w) := dot3_congr i1 i2
  rw [e] at h2
  have a1 : mag3 (toStart (valMat s) (valMat m) v) ≤ 1.004 * mag3 v := (across_mag hs hm hε v).1
  have a2 : mag3 (toStart (valMat s) (valMat m) w) ≤ 1.004 * mag3 w := (across_mag hs hm hε w).1
  have v0 := mag3_nonneg v
  have w0 := mag3_nonneg w
  have h3 : 3 * ε * (mag3 (toStart (valMat s) (valMat m) v) * mag3 (toStart (valMat s) (valMat m) w)) ≤
      3 * ε * ((1.004 * mag3 v) * (1.004 * mag3 w)) :=
    mul_le_mul_of_nonneg_left (mul_le_mul a1 a2 (mag3_nonneg _) (by positivity)) (by positivity)
  have t := abs_sub_le (dot3 (toStart (valMat s) (valMat m) v) (toStart (valMat s) (valMat m) w))
    (dot3 ((valMat m).transformVector v) ((valMat m).transformVector w)) (dot3 v w)
  rw [abs_sub_comm] at h2
  have : 0 ≤ ε * (mag3 v * mag3 w) := by positivity
  linarith

/-- The squared distance of the end joint. -/
theorem startEnd_ok {j : TwoBone F32} {σ η τ π : F4 ℝ} {ε T P : ℝ} (h : BonesInput32 j σ η τ π ε T P) (b : Bones j σ η τ T) :
    |val (j.setup.startEndLen2 0) - mag3 η ^ 2| ≤ 2847 / 2 ^ 24 * (T * (mag3 σ + mag3 (η - σ))) := by
  have hT := h.size_ge
  have hT2 := h.size_le
  obtain ⟨fe, ee, -⟩ := point_seen h.start h.rigid hT hT2 h.tip h.endS
  have s4 : j.setup.startEndLen2 0 = vec3Length2S (j.startJoint.invert.transformPoint (j.endJoint 3)) 0 := rfl
  rw [s4]
  generalize j.startJoint.invert.transformPoint (j.endJoint 3) = v at *
  have tri : mag3 η ≤ mag3 σ + mag3 (η - σ) := by
    have := mag3_add_le σ (η - σ)
    rwa [add_sub_cancel] at this
  have σ0 := b.σ_ge
  have σ1 := b.σ_le
  have B0 := b.bone_ge
  have B1 := b.bone_le
  have η0 := mag3_nonneg η
  have L0 : T / 2 ^ 6 ≤ mag3 σ + mag3 (η - σ) := by linarith
  have L1 : mag3 σ + mag3 (η - σ) ≤ 10.5 * T := by linarith
  generalize mag3 σ + mag3 (η - σ) = L at *
  have md := (mag3_diff (valVec v) η).trans ee
  have md' := abs_le.mp md
  have vL : mag3 (valVec v) ≤ 1.006 * L := by linarith
  obtain ⟨-, -, e⟩ := len2_nonneg32 fe vL (by linarith) (by linarith)
  have e2 : |mag3 (valVec v) ^ 2 - mag3 η ^ 2| ≤ 1395 / 2 ^ 24 * T * (2.006 * L) := by
    have v0 := mag3_nonneg (valVec v)
    rw [show mag3 (valVec v) ^ 2 - mag3 η ^ 2 = (mag3 (valVec v) - mag3 η) * (mag3 (valVec v) + mag3 η) by ring, abs_mul,
      abs_of_nonneg (add_nonneg v0 η0)]
    exact mul_le_mul md (by linarith) (add_nonneg v0 η0) (by positivity)
  have L2 : (1.006 * L) ^ 2 ≤ 10.63 * (T * L) := by
    have : L * L ≤ 10.5 * T * L := mul_le_mul_of_nonneg_right L1 (by linarith)
    have : 0 < T * L := mul_pos (by linarith) (by linarith)
    rw [mul_pow, pow_two L]; linarith
  have t := abs_sub_le (val (vec3Length2S v 0)) (mag3 (valVec v) ^ 2) (mag3 η ^ 2)
  have : 0 < T * L := mul_pos (by linarith) (by linarith)
  linarith

/-- The side to which the bones are bent. -/
theorem flag_ok {j : TwoBone F32} {σ η τ π μ e : F4 ℝ} {ε T P ν κ : ℝ} (h : BonesInput32 j σ η τ π ε T P) (hb : BonesBend32 j μ e ν κ)
    (hμ : T / 2 ^ 7 ≤ 1.004 * mag3 μ) (he : T / 2 ^ 7 ≤ 1.004 * mag3 e) :
    if NumOps.lt (vec3DotS (vec3Cross j.setup.startMidMs j.midAxis) j.setup.midEndMs 0) (NumOps.zero : F32) then
      dot3 (-μ) (cross (valVec j.midAxis) e) ≤ -(κ * (mag3 μ * mag3 e)) else κ * (mag3 μ * mag3 e) ≤ dot3 (-μ) (cross (valVec j.midAxis) e) := by
  have hT := h.size_ge
  have hT2 := h.size_le
  have ws : Within3 (j.startJoint 3) T := fun i hi => ⟨h.start.finite 3 i, h.start.translation i hi⟩
  obtain ⟨fs, es, μ1⟩ := point_seen h.middle h.rigid hT hT2 ws hb.startM
  obtain ⟨fe, ee, e1⟩ := point_seen h.middle h.rigid hT hT2 h.tip hb.endM
  have s1 : j.setup.midEndMs = j.midJoint.invert.transformPoint (j.endJoint 3) := rfl
  have s2 : j.setup.startMidMs = -(j.midJoint.invert.transformPoint (j.startJoint 3)) := rfl
  have fa := h.axis
  have ua := h.unit
  have bent := hb.bent
  have bge := hb.bent_ge
  rw [s1, s2]
  generalize j.midJoint.invert.transformPoint (j.endJoint 3) = E at *
  generalize j.midJoint.invert.transformPoint (j.startJoint 3) = S at *
  generalize j.midAxis = n at *
  rw [← mag3_eq, ← mag3_eq] at bent
  have fS : Fin3 (-S) := fun i hi => neg_finite.mpr (fs i hi)
  have vS : valVec (-S) = -valVec S := funext fun i => neg_real _
  have dS : mag3 (valVec (-S) - -μ) ≤ 1395 / 2 ^ 24 * T := by
    rw [vS, ← neg_sub', mag3_neg]; exact es
  generalize -S = s at *
  have ax1 : mag3 (valVec n) ≤ 1.00001 := by
    refine abs_le_of_sq_le_sq' ?_ (by norm_num) |>.2
    rw [mag3_sq]
    have := (abs_le.mp ua).2
    linarith
  have n0 := mag3_nonneg (valVec n)
  have a0 : 0 < mag3 μ := by linarith
  have b0 : 0 < mag3 e := by linarith
  have sa : mag3 (valVec s) ≤ 1.0107 * mag3 μ := by
    have := mag3_sub_le (valVec s) (-μ)
    rw [mag3_neg] at this
    linarith
  have eb : mag3 (valVec E) ≤ 1.0107 * mag3 e := by
    have := mag3_sub_le (valVec E) e
    linarith
  have sn : mag3 (valVec s) * mag3 (valVec n) ≤ 1.0108 * mag3 μ := by
    have := mul_le_mul sa ax1 n0 (by positivity)
    linarith
  obtain ⟨fX, eX⟩ := cross_ok3 fS fa sn (by linarith) (by linarith)
  generalize vec3Cross s n = X at *
  have X1 : mag3 (valVec X) ≤ 1.011 * mag3 μ := by
    have h1 := mag3_sub_le (valVec X) (cross (valVec s) (valVec n))
    have h2 := (cross_mag (valVec s) (valVec n)).trans sn
    linarith
  have XE : mag3 (valVec X) * mag3 (valVec E) ≤ 1.022 * (mag3 μ * mag3 e) := by
    have := mul_le_mul X1 eb (mag3_nonneg _) (by positivity)
    linarith [mul_pos a0 b0]
  have ab0 : 1 / 2 ^ 20 ≤ mag3 μ * mag3 e := le_trans (by norm_num) (mul_le_mul (show 1 / 2 ^ 10 ≤ mag3 μ by linarith) (show 1 / 2 ^ 10 ≤ mag3 e by linarith)
    (by norm_num) a0.le)
  have ab1 : mag3 μ * mag3 e ≤ 2 ^ 40 := (mul_le_mul (show mag3 μ ≤ 2 ^ 20 by linarith) (show mag3 e ≤ 2 ^ 20 by linarith) b0.le (by norm_num)).trans (by norm_num)
  obtain ⟨fz, ez⟩ := dotS_ok fX fe XE (by linarith) (by linarith)
  generalize vec3DotS X E 0 = z at *
  have id1 : dot3 (valVec X) (valVec E) - dot3 (-μ) (cross (valVec n) e) = dot3 (valVec X - cross (valVec s) (valVec n)) (valVec E) +
      dot3 (cross (valVec s - -μ) (valVec n)) (valVec E) + dot3 (cross (-μ) (valVec n)) (valVec E - e) := by
    simp only [dot3, cross, f4_0, f4_1, f4_2, Pi.sub_apply, Pi.neg_apply]; ring
  have id2 : dot3 (-μ) (cross (valVec n) e) = dot3 (valVec n) (cross μ e) := by
    simp only [dot3, cross, f4_0, f4_1, f4_2, Pi.neg_apply]; ring
  have t1 : |dot3 (valVec X - cross (valVec s) (valVec n)) (valVec E)| ≤ 3.54 * (1.0108 * mag3 μ) / 2 ^ 24 * (1.0107 * mag3 e) :=
    dot_le_len.trans (mul_le_mul eX eb (mag3_nonneg _) (by positivity))
  have t2 : |dot3 (cross (valVec s - -μ) (valVec n)) (valVec E)| ≤ 1395 / 2 ^ 24 * T * 1.00001 * (1.0107 * mag3 e) :=
    dot_le_len.trans (mul_le_mul ((cross_mag _ _).trans (mul_le_mul dS ax1 n0 (by positivity))) eb (mag3_nonneg _) (by positivity))
  have t3 : |dot3 (cross (-μ) (valVec n)) (valVec E - e)| ≤ mag3 μ * 1.00001 * (1395 / 2 ^ 24 * T) := by
    refine dot_le_len.trans (mul_le_mul ?_ ee (mag3_nonneg _) (by positivity))
    refine (cross_mag _ _).trans ?_
    rw [mag3_neg]; exact mul_le_mul_of_nonneg_left ax1 a0.le
  have Te : T * mag3 e ≤ 128.52 * (mag3 μ * mag3 e) := by
    rw [← mul_assoc]; exact mul_le_mul_of_nonneg_right (by linarith) b0.le
  have Tμ : mag3 μ * T ≤ 128.52 * (mag3 μ * mag3 e) := by
    have := mul_le_mul_of_nonneg_left (show T ≤ 128.52 * mag3 e by linarith) a0.le
    linarith
  have κ0 : 1 / 32 * (mag3 μ * mag3 e) ≤ κ * (mag3 μ * mag3 e) := mul_le_mul_of_nonneg_right bge (by positivity)
  rw [← id2] at bent
  have tot : |val z - dot3 (-μ) (cross (valVec n) e)| ≤ 0.022 * (mag3 μ * mag3 e) := by
    have t := abs_sub_le (val z) (dot3 (valVec X) (valVec E)) (dot3 (-μ) (cross (valVec n) e))
    rw [id1] at t
    have t4 := abs_add_le (dot3 (valVec X - cross (valVec s) (valVec n)) (valVec E) + dot3 (cross (valVec s - -μ) (valVec n)) (valVec E))
      (dot3 (cross (-μ) (valVec n)) (valVec E - e))
    have t5 := abs_add_le (dot3 (valVec X - cross (valVec s) (valVec n)) (valVec E)) (dot3 (cross (valVec s - -μ) (valVec n)) (valVec E))
    linarith
  generalize dot3 (-μ) (cross (valVec n) e) = g at *
  generalize mag3 μ * mag3 e = ab at *
  have tot' := abs_le.mp tot
  split_ifs with hc
  · have hz := (lt_val32 fz zero_finite).mp hc
    rw [valZero] at hz
    rcases le_abs.mp bent with hg | hg <;> linarith
  · have hz := mt (lt_val32 fz zero_finite).mpr hc
    rw [valZero, not_lt] at hz
    rcases le_abs.mp bent with hg | hg <;> linarith

/-- The dot product with a vector turned by an inexact quaternion about an inexact axis. -/
theorem turned_near {q n p e x : F4 ℝ} {φ : ℝ} (hl : |mag3 n - 1| ≤ 1 / 2 ^ 20) (h3 : ∀ i, i ≠ 3 → |q i - n i * Real.sin (φ / 2)| ≤ 8 / 2 ^ 24)
    (h4 : |q 3 - Real.cos (φ / 2)| ≤ 8 / 2 ^ 24) (hx : Turns q e x) :
    |dot3 p x - (dot3 p e * Real.cos φ + dot3 p (cross ((mag3 n)⁻¹ • n) e) * Real.sin φ +
      dot3 ((mag3 n)⁻¹ • n) p * dot3 ((mag3 n)⁻¹ • n) e * (1 - Real.cos φ))| ≤ 128 / 2 ^ 24 * (mag3 p * mag3 e) := by
  have l0 : 0 < mag3 n := by
    have := (abs_le.mp hl).1
    linarith
  obtain ⟨m, hm⟩ : ∃ m, m = (mag3 n)⁻¹ • n := ⟨_, rfl⟩
  have nm : n = mag3 n • m := by rw [hm, smul_smul, mul_inv_cancel₀ l0.ne', one_smul]
  have m1 : mag3 m = 1 := by rw [hm, mag3_smul, abs_of_pos (inv_pos.mpr l0), inv_mul_cancel₀ l0.ne']
  have mm : dot3 m m = 1 := by rw [← mag3_sq, m1, one_pow]
  rw [← hm, ← dot_turned mm φ]
  obtain ⟨q0, hq0⟩ : ∃ q0 : F4 ℝ, q0 = f4 (m 0 * Real.sin (φ / 2)) (m 1 * Real.sin (φ / 2)) (m 2 * Real.sin (φ / 2)) (Real.cos (φ / 2)) := ⟨_, rfl⟩
  obtain ⟨q1, hq1⟩ : ∃ q1 : F4 ℝ, q1 = f4 (n 0 * Real.sin (φ / 2)) (n 1 * Real.sin (φ / 2)) (n 2 * Real.sin (φ / 2)) (Real.cos (φ / 2)) := ⟨_, rfl⟩
  rw [← hq0]
  have cs := Real.sin_sq_add_cos_sq (φ / 2)
  have n0 : norm2 q0 = 1 := by
    rw [hq0]
    simp only [norm2, f4_0, f4_1, f4_2, f4_3, dot3] at mm ⊢
    linear_combination Real.sin (φ / 2) ^ 2 * mm + cs
  have W1 : ‖toQuat q0‖ = 1 := by rw [norm_toQuat, n0, Real.sqrt_one]
  have d1 : ‖toQuat q - toQuat q1‖ ≤ 16 / 2 ^ 24 := by
    rw [← toQuat_sub, norm_toQuat]
    apply Real.sqrt_le_iff.mpr ⟨by norm_num, ?_⟩
    have sq : ∀ {y : ℝ}, |y| ≤ 8 / 2 ^ 24 → y * y ≤ (8 / 2 ^ 24) ^ 2 := fun {y} hy => by
      rw [← pow_two, ← sq_abs]; exact pow_le_pow_left₀ (abs_nonneg _) hy 2
    have a0 := sq (h3 0 (by decide))
    have a1 := sq (h3 1 (by decide))
    have a2 := sq (h3 2 (by decide))
    have a3 := sq h4
    rw [hq1]
    simp only [norm2, Pi.sub_apply, f4_0, f4_1, f4_2, f4_3]
    linarith
  have d2 : ‖toQuat q1 - toQuat q0‖ ≤ 16 / 2 ^ 24 := by
    have e1 : toQuat q1 - toQuat q0 = ((mag3 n - 1) * Real.sin (φ / 2)) • pureQuat m := by
      have f0 : n 0 = mag3 n * m 0 := congrFun nm 0
      have f1 : n 1 = mag3 n * m 1 := congrFun nm 1
      have f2 : n 2 = mag3 n * m 2 := congrFun nm 2
      rw [hq1, hq0]
      ext <;> simp
      · linear_combination Real.sin (φ / 2) * f0
      · linear_combination Real.sin (φ / 2) * f1
      · linear_combination Real.sin (φ / 2) * f2
    rw [e1, norm_smul, norm_pure, m1, mul_one, Real.norm_eq_abs, abs_mul]
    have := mul_le_mul hl (Real.abs_sin_le_one (φ / 2)) (abs_nonneg _) (by norm_num)
    linarith
  have d3 : ‖toQuat q - toQuat q0‖ ≤ 32 / 2 ^ 24 := by
    have := norm_sub_le_norm_sub_add_norm_sub (toQuat q) (toQuat q1) (toQuat q0)
    linarith
  have ql : |‖toQuat q‖ - 1| ≤ 32 / 2 ^ 24 := by
    have := abs_norm_sub_norm_le (toQuat q) (toQuat q0)
    rw [W1] at this
    linarith
  have ta := turn_almost (x := pureQuat e) W1 ql (by norm_num)
  have te := turned3_eq q0 e
  rw [n0, sub_self, zero_smul, add_zero, star_inv, W1, one_pow, one_smul] at te
  unfold Turns at hx
  rw [← hx, ← te, mag3_sub_norm, norm_pure] at ta
  have e2 : dot3 p x - dot3 p (turned3 q0 e) = dot3 p (x - turned3 q0 e) := by
    simp only [dot3, Pi.sub_apply]; ring
  rw [e2]
  have e0 := mag3_nonneg e
  have ta2 : mag3 (x - turned3 q0 e) ≤ 128 / 2 ^ 24 * mag3 e := by
    refine ta.trans ?_
    exact mul_le_mul_of_nonneg_right (by linarith) e0
  have h5 : |dot3 p (x - turned3 q0 e)| ≤ mag3 p * mag3 (x - turned3 q0 e) := dot_le_len
  have := mul_le_mul_of_nonneg_left ta2 (mag3_nonneg p)
  linarith

/-- The bones in the space of the start joint. -/
theorem bones_real {j : TwoBone F32} {σ η τ π μ e : F4 ℝ} {ε T P ν κ : ℝ} (h : BonesInput32 j σ η τ π ε T P) (hb : BonesBend32 j μ e ν κ) :
    Same3 σ (toStart (valMat j.startJoint) (valMat j.midJoint) (-μ)) ∧ Same3 (η - σ) (toStart (valMat j.startJoint) (valMat j.midJoint) e) := by
  have rs := rigid_real h.start
  have rm := rigid_real h.middle
  have ds := rs.det_ne h.rigid
  have dm := rm.det_ne h.rigid
  obtain ⟨b1, b2⟩ := bones rs.affine ds rm.affine dm (valVec (j.endJoint 3))
  have p1 := point_invert rs.affine ds h.midS
  have p2 := point_invert rs.affine ds h.endS
  have p3 := point_invert rm.affine dm hb.startM
  have p4 := point_invert rm.affine dm hb.endM
  rw [toStart_congr _ _ p4] at b2
  have p5 : Same3 (-((valMat j.midJoint).invert.transformPoint (valMat j.startJoint 3))) (-μ) :=
    ⟨congrArg Neg.neg p3.1, congrArg Neg.neg p3.2.1, congrArg Neg.neg p3.2.2⟩
  rw [toStart_congr _ _ p5] at b1
  refine ⟨Same3.trans (Same3.symm p1) b1, Same3.trans (Same3.symm ?_) b2⟩
  exact ⟨congrArg₂ (· - ·) p2.1 p1.1, congrArg₂ (· - ·) p2.2.1 p1.2.1, congrArg₂ (· - ·) p2.2.2 p1.2.2⟩

set_option maxHeartbeats 1000000 in
/-- The end of the chain with the middle joint corrected is as far away as the target. -/
theorem chain_reach {j : TwoBone F32} {σ η τ π μ e x : F4 ℝ} {ε T P ν κ : ℝ} (h : BonesInput32 j σ η τ π ε T P) (b : Bones j σ η τ T)
    (hb : BonesBend32 j μ e ν κ) (near : |mag3 σ - mag3 (η - σ)| ≤ mag3 τ) (far : mag3 τ ≤ mag3 σ + mag3 (η - σ)) {q : F4 F32}
    (hq : q = j.computeMid polyTrig j.setup (vec3Length2S (j.startJoint.invert.transformPoint j.target))) (hx : Turns (valVec q) e x) :
    |mag3 τ ^ 2 - mag3 (σ + toStart (valMat j.startJoint) (valMat j.midJoint) x) ^ 2| ≤
      (T * (mag3 σ + mag3 (η - σ)) / 300 + (50 * ε + 4 * ν ^ 2) * (mag3 σ + mag3 (η - σ)) ^ 2) / κ := by
  have hT := h.size_ge
  obtain ⟨s1, s2⟩ := bones_real h hb
  have ε0 : 0 ≤ ε := (abs_nonneg _).trans (h.start.columns 0 0 (by decide) (by decide))
  have dot := across_dot h.start h.middle h.rigid
  have m1 := across_mag h.start h.middle h.rigid (-μ)
  have m2 := across_mag h.start h.middle h.rigid e
  have A' : mag3 σ = mag3 (toStart (valMat j.startJoint) (valMat j.midJoint) (-μ)) := mag3_congr s1
  have B' : mag3 (η - σ) = mag3 (toStart (valMat j.startJoint) (valMat j.midJoint) e) := mag3_congr s2
  have g' : dot3 σ (η - σ) = dot3 (toStart (valMat j.startJoint) (valMat j.midJoint) (-μ)) (toStart (valMat j.startJoint) (valMat j.midJoint) e) :=
    dot3_congr s1 s2
  have d1 := dot (-μ) (-μ)
  have d2 := dot e e
  have d3 := dot (-μ) e
  have d4 := dot (-μ + x) (-μ + x)
  rw [← g'] at d3
  rw [← mag3_sq, ← mag3_sq, ← A', ← pow_two] at d1
  rw [← mag3_sq, ← mag3_sq, ← B', ← pow_two] at d2
  rw [← mag3_sq, ← mag3_sq, ← pow_two, toStart_add] at d4
  have sx : mag3 (σ + toStart (valMat j.startJoint) (valMat j.midJoint) x) =
      mag3 (toStart (valMat j.startJoint) (valMat j.midJoint) (-μ) + toStart (valMat j.startJoint) (valMat j.midJoint) x) :=
    mag3_congr ⟨congrArg (· + _) s1.1, congrArg (· + _) s1.2.1, congrArg (· + _) s1.2.2⟩
  rw [← sx] at d4
  change mag3 (toStart (valMat j.startJoint) (valMat j.midJoint) (-μ)) ≤ _ ∧ _ ≤ 1.004 * mag3 (toStart (valMat j.startJoint) (valMat j.midJoint) (-μ)) at m1
  change mag3 (toStart (valMat j.startJoint) (valMat j.midJoint) e) ≤ _ ∧ _ ≤ 1.004 * mag3 (toStart (valMat j.startJoint) (valMat j.midJoint) e) at m2
  rw [← A'] at m1
  rw [← B'] at m2
  have hσ := b.σ_ge
  have hB := b.bone_ge
  have hσ1 := b.σ_le
  have hB1 := b.bone_le
  have fl := flag_ok h hb (by have := mag3_neg μ; linarith) (by linarith)
  obtain ⟨fq, nq, C0, C1, φ, c0, c1, e0, e1, hφ, l3, l4⟩ := mid_ok h b rfl rfl hq
  have D3 := startEnd_ok h b
  have D4 : |val (vec3Length2S (j.startJoint.invert.transformPoint j.target) 0) - mag3 τ ^ 2| ≤ 2847 / 2 ^ 24 * (T * (mag3 σ + mag3 (η - σ))) := by
    refine b.D4.2.trans ?_
    have := mul_le_mul_of_nonneg_left far (show 0 ≤ T by linarith)
    linarith
  have tri : mag3 η ≤ mag3 σ + mag3 (η - σ) := by
    have := mag3_add_le σ (η - σ)
    rwa [add_sub_cancel] at this
  have tri2 : |mag3 σ - mag3 (η - σ)| ≤ mag3 η := by
    have := mag3_diff σ (-(η - σ))
    rwa [sub_neg_eq_add, add_sub_cancel, mag3_neg] at this
  have n0 := cos_near (C := C0) (by linarith) hσ hσ1 hB hB1 far near b.D1.2 b.D2.2 D4 e0
  have n1 := cos_near (C := C1) (by linarith) hσ hσ1 hB hB1 tri tri2 b.D1.2 b.D2.2 D3 e1
  have η2 : mag3 η ^ 2 = mag3 σ ^ 2 + mag3 (η - σ) ^ 2 + 2 * dot3 σ (η - σ) := by
    rw [mag3_sq, mag3_sq, mag3_sq]; simp only [dot3, Pi.sub_apply]; ring
  have hA0 : 0 < mag3 σ := by linarith
  have hB0 : 0 < mag3 (η - σ) := by linarith
  have n1' : |C1 - -(dot3 σ (η - σ) / (mag3 σ * mag3 (η - σ)))| ≤
      6100 / 2 ^ 24 * (T * (mag3 σ + mag3 (η - σ)) / (mag3 σ * mag3 (η - σ))) := by
    have : (mag3 σ ^ 2 + mag3 (η - σ) ^ 2 - mag3 η ^ 2) / (2 * (mag3 σ * mag3 (η - σ))) = -(dot3 σ (η - σ) / (mag3 σ * mag3 (η - σ))) := by
      rw [η2]; field_simp; ring
    rw [this] at n1
    exact n1
  -- the axis
  have ax1 : |mag3 (valVec j.midAxis) - 1| ≤ 1 / 2 ^ 20 := by
    have hu := h.unit
    rw [← mag3_sq] at hu
    have n := mag3_nonneg (valVec j.midAxis)
    rw [show mag3 (valVec j.midAxis) ^ 2 - 1 = (mag3 (valVec j.midAxis) - 1) * (mag3 (valVec j.midAxis) + 1) by ring, abs_mul] at hu
    refine le_trans ?_ hu
    refine le_mul_of_one_le_right (abs_nonneg _) ?_
    rw [abs_of_nonneg (by linarith)]; linarith
  have px := turned_near (p := -μ) ax1 l3 l4 hx
  have xl := turns_len (quat_ne (by norm_num) nq) hx
  have ac1 := hb.acrossStart
  have ac2 := hb.acrossEnd
  have bent := hb.bent
  have bge := hb.bent_ge
  rw [← mag3_eq] at ac1 ac2
  rw [← mag3_eq, ← mag3_eq] at bent
  have a0 : 0 < mag3 (-μ) := by linarith
  have b0 : 0 < mag3 e := by linarith
  generalize NumOps.lt (vec3DotS (vec3Cross j.setup.startMidMs j.midAxis) j.setup.midEndMs 0) (NumOps.zero : F32) = flag at *
  generalize toStart (valMat j.startJoint) (valMat j.midJoint) x = X at *
  generalize valVec j.midAxis = n at *
  have ax2 := abs_le.mp ax1
  have l0 : 0 < mag3 n := by linarith
  have li : 0 < (mag3 n)⁻¹ := inv_pos.mpr l0
  have li1 : (mag3 n)⁻¹ ≤ 1.0001 := by rw [inv_le_comm₀ l0 (by norm_num)]; linarith
  have li2 : 0.999 ≤ (mag3 n)⁻¹ := by rw [le_inv_comm₀ (by norm_num) l0]; linarith
  have scale : ∀ v : F4 ℝ, dot3 ((mag3 n)⁻¹ • n) v = (mag3 n)⁻¹ * dot3 n v := fun v => by
    simp only [dot3, Pi.smul_apply, smul_eq_mul]; ring
  have scale2 : dot3 (-μ) (cross ((mag3 n)⁻¹ • n) e) = (mag3 n)⁻¹ * dot3 (-μ) (cross n e) := by
    simp only [dot3, cross, f4_0, f4_1, f4_2, Pi.smul_apply, smul_eq_mul]; ring
  have m1' : mag3 ((mag3 n)⁻¹ • n) = 1 := by rw [mag3_smul, abs_of_pos li, inv_mul_cancel₀ l0.ne']
  have mm : dot3 ((mag3 n)⁻¹ • n) ((mag3 n)⁻¹ • n) = 1 := by rw [← mag3_sq, m1', one_pow]
  have μn := mag3_neg μ
  have dn : dot3 n (-μ) = -dot3 n μ := by simp only [dot3, Pi.neg_apply]; ring
  have ν0 : 0 ≤ ν := by
    have : 0 ≤ ν * mag3 e := (abs_nonneg _).trans ac2
    exact nonneg_of_mul_nonneg_left this b0
  have k1 : |dot3 ((mag3 n)⁻¹ • n) (-μ)| ≤ 1.0001 * ν * mag3 (-μ) := by
    rw [scale, dn, abs_mul, abs_neg, abs_of_pos li, μn, mul_assoc]
    exact mul_le_mul li1 ac1 (abs_nonneg _) (by norm_num)
  have k2 : |dot3 ((mag3 n)⁻¹ • n) e| ≤ 1.0001 * ν * mag3 e := by
    rw [scale, abs_mul, abs_of_pos li, mul_assoc]
    exact mul_le_mul li1 ac2 (abs_nonneg _) (by norm_num)
  have gr := gram mm k1 k2
  have ab0 : 0 < mag3 (-μ) * mag3 e := mul_pos a0 b0
  have id2 : dot3 (-μ) (cross n e) = dot3 n (cross μ e) := by
    simp only [dot3, cross, f4_0, f4_1, f4_2, Pi.neg_apply]; ring
  have k3 : |dot3 (-μ) (cross ((mag3 n)⁻¹ • n) e)| ≤ mag3 (-μ) * mag3 e := by
    have h1 : |dot3 (-μ) (cross ((mag3 n)⁻¹ • n) e)| ≤ mag3 (-μ) * mag3 (cross ((mag3 n)⁻¹ • n) e) := dot_le_len
    have h2 := cross_mag ((mag3 n)⁻¹ • n) e
    rw [m1', one_mul] at h2
    exact h1.trans (mul_le_mul_of_nonneg_left h2 a0.le)
  have κ0 : 0 < κ := by linarith
  have κ1 : 0.999 * κ ≤ 1 := by
    rw [scale2, abs_mul, abs_of_pos li, id2] at k3
    rw [μn] at k3 ab0
    have h1 := mul_le_mul li2 bent (by positivity) li.le
    have h2 : 0.999 * κ * (mag3 μ * mag3 e) ≤ 1 * (mag3 μ * mag3 e) := by linarith
    exact le_of_mul_le_mul_right h2 ab0
  have hfl : if flag then dot3 (-μ) (cross ((mag3 n)⁻¹ • n) e) ≤ -(0.999 * κ * (mag3 (-μ) * mag3 e)) else
      0.999 * κ * (mag3 (-μ) * mag3 e) ≤ dot3 (-μ) (cross ((mag3 n)⁻¹ • n) e) := by
    rw [scale2, μn]
    have pos : 0 < κ * (mag3 μ * mag3 e) := by rw [μn] at ab0; exact mul_pos κ0 ab0
    cases flag
    · simp only [Bool.false_eq_true, if_false] at fl ⊢
      have := mul_le_mul li2 fl pos.le li.le
      linarith
    · simp only [if_true] at fl ⊢
      have := mul_le_mul li2 (neg_le_neg fl) (by linarith) li.le
      linarith
  have hm : |dot3 ((mag3 n)⁻¹ • n) (-μ) * dot3 ((mag3 n)⁻¹ • n) e| ≤ (1.0001 * ν) ^ 2 * (mag3 (-μ) * mag3 e) := by
    rw [abs_mul]
    refine (mul_le_mul k1 k2 (abs_nonneg _) (by positivity)).trans (le_of_eq (by ring))
  have hd : |dot3 (-μ) e| ≤ mag3 (-μ) * mag3 e := dot_le_len
  have main := bend_len (T := T) (t := mag3 τ) a0 b0 hA0 hB0 (by linarith) hσ1 (show 0 ≤ 6.1 * ε by positivity) (by linarith [h.rigid]) d1 d2 d3
    hd k3 gr hm (show 0 < 0.999 * κ by positivity) κ1 hfl c0 c1 far near n0 n1' hφ px
  have sq : mag3 (-μ + x) ^ 2 = mag3 (-μ) ^ 2 + mag3 e ^ 2 + 2 * dot3 (-μ) x := by
    rw [← xl, mag3_sq, mag3_sq, mag3_sq]; simp only [dot3, Pi.add_apply]; ring
  rw [← sq] at main
  have len : mag3 (-μ + x) ≤ mag3 (-μ) + mag3 e := by rw [← xl]; exact mag3_add_le _ _
  have len2 := pow_le_pow_left₀ (mag3_nonneg _) len 2
  have aA : mag3 (-μ) + mag3 e ≤ 1.004 * (mag3 σ + mag3 (η - σ)) := by linarith
  have aA2 := pow_le_pow_left₀ (by positivity) aA 2
  rw [mul_pow] at aA2
  have hTL : 0 < T * (mag3 σ + mag3 (η - σ)) := mul_pos (by linarith) (by linarith)
  generalize mag3 σ + mag3 (η - σ) = L at *
  generalize mag3 (-μ) + mag3 e = l at *
  generalize mag3 (-μ + x) ^ 2 = Y at *
  generalize mag3 (σ + X) ^ 2 = Z at *
  have t := abs_sub_le (mag3 τ ^ 2) Y Z
  rw [abs_sub_comm Y Z] at t
  refine t.trans ?_
  rw [le_div_iff₀ κ0]
  have main2 : |mag3 τ ^ 2 - Y| * (0.999 * κ) ≤ T * L / 328 + (6.2 * (6.1 * ε) + 3 * (1.0001 * ν) ^ 2) * l ^ 2 := by
    rwa [le_div_iff₀ (by positivity)] at main
  have q1 : |Z - Y| * (0.999 * κ) ≤ 6.1 * ε * l ^ 2 := by
    refine (mul_le_of_le_one_right (abs_nonneg _) κ1).trans (d4.trans ?_)
    exact mul_le_mul_of_nonneg_left len2 (by positivity)
  have q2 : ε * l ^ 2 ≤ ε * (1.004 ^ 2 * L ^ 2) := mul_le_mul_of_nonneg_left aA2 ε0
  have q3 : ν ^ 2 * l ^ 2 ≤ ν ^ 2 * (1.004 ^ 2 * L ^ 2) := mul_le_mul_of_nonneg_left aA2 (sq_nonneg ν)
  have q4 : 0 ≤ ε * L ^ 2 := by positivity
  have q5 : 0 ≤ ν ^ 2 * L ^ 2 := by positivity
  have q6 : (6.2 * (6.1 * ε) + 3 * (1.0001 * ν) ^ 2) * l ^ 2 = 37.82 * (ε * l ^ 2) + 3 * 1.0001 ^ 2 * (ν ^ 2 * l ^ 2) := by ring
  have q7 : (50 * ε + 4 * ν ^ 2) * L ^ 2 = 50 * (ε * L ^ 2) + 4 * (ν ^ 2 * L ^ 2) := by ring
  rw [q6] at main2
  rw [q7]
  rw [show ε * (1.004 ^ 2 * L ^ 2) = 1.004 ^ 2 * (ε * L ^ 2) by ring] at q2
  rw [show ν ^ 2 * (1.004 ^ 2 * L ^ 2) = 1.004 ^ 2 * (ν ^ 2 * L ^ 2) by ring] at q3
  rw [show 6.1 * ε * l ^ 2 = 6.1 * (ε * l ^ 2) by ring] at q1
  rw [show |mag3 τ ^ 2 - Y| * (0.999 * κ) = 0.999 * (|mag3 τ ^ 2 - Y| * κ) by ring] at main2
  rw [show |Z - Y| * (0.999 * κ) = 0.999 * (|Z - Y| * κ) by ring] at q1
  rw [add_mul]
  generalize |mag3 τ ^ 2 - Y| * κ = z1 at *
  generalize |Z - Y| * κ = z2 at *
  generalize ε * l ^ 2 = z3 at *
  generalize ν ^ 2 * l ^ 2 = z4 at *
  generalize ε * L ^ 2 = z5 at *
  generalize ν ^ 2 * L ^ 2 = z6 at *
  linarith

end Ozz.IK
