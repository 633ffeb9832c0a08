import Verif.Proofs.FloatBonesRun

/-! Helpers: the start joint of the two-bone job in single precision. -/

namespace Ozz.IK

open F32 Ieee Spec Blending Ozz.Trig

section
set_option linter.unusedSectionVars false
variable {α : Type} [Add α] [Sub α] [Mul α] [Div α] [Neg α] [NumOps α]

theorem twoBone_run {t : Trig α} {j : TwoBone α} (hn : vec3IsNormalized j.midAxis = true) (hw : NumOps.le j.weight NumOps.zero = false)
    {V L : F4 α} (hs : (j.softenTarget j.setup).2 = (V, L)) :
    j.run t = .ok { j with
      startCorrection := (aimOf j).weighted (j.computeStart t j.setup (j.computeMid t j.setup L) V L)
      midCorrection := (aimOf j).weighted (j.computeMid t j.setup L)
      reached := (j.softenTarget j.setup).1 && NumOps.le NumOps.one j.weight } := by
  have h1 : (j.softenTarget j.setup).2.1 = V := by rw [hs]
  have h2 : (j.softenTarget j.setup).2.2 = L := by rw [hs]
  unfold TwoBone.run
  simp only [hn, hw, Bool.not_true, Bool.false_eq_true, if_false, weightOutput_shape, h1, h2]

theorem twoBone_weights {t : Trig α} {j : TwoBone α} (hn : vec3IsNormalized j.midAxis = true)
    {V L : F4 α} (hs : (j.softenTarget j.setup).2 = (V, L)) (hL : NumOps.lt NumOps.zero (L 0) = true) {q E : F4 α}
    (hq : q = j.computeMid t j.setup L) (hE : E = fun i => j.setup.startMidSs i +
      j.setup.invStart.transformVector (j.midJoint.transformVector (quatTransformVector q j.setup.midEndMs)) i) (w : α)
    (hw : NumOps.le w NumOps.zero = false) :
    ({ j with weight := w } : TwoBone α).run t = .ok { j with
      weight := w
      startCorrection := (aimOf { j with weight := w }).weighted (j.rotatePlane t j.setup (quatFromVectors E V) V L)
      midCorrection := (aimOf { j with weight := w }).weighted q
      reached := (j.softenTarget j.setup).1 && NumOps.le NumOps.one w } := by
  have h := twoBone_run (t := t) (j := { j with weight := w }) hn hw (V := V) (L := L) hs
  have c := computeStart_shape t j j.setup q V L hL
  rw [← hE] at c
  have h1 : ({ j with weight := w } : TwoBone α).computeMid t ({ j with weight := w } : TwoBone α).setup L = q := hq.symm
  rw [h1] at h
  have h2 : ({ j with weight := w } : TwoBone α).computeStart t ({ j with weight := w } : TwoBone α).setup q V L =
      j.rotatePlane t j.setup (quatFromVectors E V) V L := c
  rw [h2] at h
  exact h

end

theorem turns_exists {q : F4 ℝ} (hq : toQuat q ≠ 0) (v : F4 ℝ) : ∃ x, Turns q v x := by
  have hn : ‖toQuat q‖ ^ 2 ≠ 0 := pow_ne_zero 2 (norm_ne_zero_iff.mpr hq)
  refine ⟨(‖toQuat q‖ ^ 2)⁻¹ • (turned3 q v - (1 - norm2 q) • v), ?_⟩
  have e := turned3_eq q v
  rw [star_inv] at e
  have e2 : pureQuat ((‖toQuat q‖ ^ 2)⁻¹ • (turned3 q v - (1 - norm2 q) • v)) =
      (‖toQuat q‖ ^ 2)⁻¹ • (pureQuat (turned3 q v) - (1 - norm2 q) • pureQuat v) := by
    ext <;> simp
  unfold Turns
  rw [e2, e, add_sub_cancel_right, mul_smul_comm, smul_smul, inv_mul_cancel₀ hn, one_smul]

theorem turns_mag {q v x w y : F4 ℝ} (hq : toQuat q ≠ 0) (hx : Turns q v x) (hy : Turns q w y) : mag3 (x - y) = mag3 (v - w) := by
  unfold Turns at hx hy
  rw [← mag3_sub_norm, ← mag3_sub_norm, hx, hy, ← sub_mul, ← mul_sub, norm_mul, norm_mul, norm_inv, mul_comm ‖toQuat q‖, mul_assoc,
    mul_inv_cancel₀ (norm_ne_zero_iff.mpr hq), mul_one]

theorem turns_len {q v x : F4 ℝ} (hq : toQuat q ≠ 0) (hx : Turns q v x) : mag3 x = mag3 v := by
  unfold Turns at hx
  rw [← norm_pure, ← norm_pure, hx, norm_mul, norm_mul, norm_inv, mul_comm ‖toQuat q‖, mul_assoc,
    mul_inv_cancel₀ (norm_ne_zero_iff.mpr hq), mul_one]

theorem quat_ne {q : F4 ℝ} {c : ℝ} (hc : c < 1) (h : |norm2 q - 1| ≤ c) : toQuat q ≠ 0 := by
  intro h0
  have e : norm2 q = ‖toQuat q‖ ^ 2 := by
    rw [norm_toQuat, Real.sq_sqrt]; unfold norm2; positivity
  rw [e, h0, norm_zero] at h
  norm_num at h
  linarith

theorem norm2_sq (q : F4 ℝ) : norm2 q = ‖toQuat q‖ ^ 2 := by
  rw [norm_toQuat, Real.sq_sqrt]; unfold norm2; positivity

/-- Where the end of the chain comes to with the middle joint corrected. -/
theorem chain_end_ok {j : TwoBone F32} {σ η τ π e x : F4 ℝ} {ε T P : ℝ} (h : BonesInput32 j σ η τ π ε T P) (b : Bones j σ η τ T)
    {q : F4 F32} (hq : ∀ c, Finite32 (q c).bits) (hq1 : |norm2 (valVec q) - 1| ≤ 1 / 2 ^ 18)
    (he : SendsPoint (valMat j.midJoint) e (valVec (j.endJoint 3))) (hx : Turns (valVec q) e x) {E : F4 F32}
    (hE : E = fun i => j.setup.startMidSs i +
      j.setup.invStart.transformVector (j.midJoint.transformVector (quatTransformVector q j.setup.midEndMs)) i) :
    Fin3 E ∧ mag3 (valVec E - (σ + (valMat j.startJoint).invert.transformVector ((valMat j.midJoint).transformVector x))) ≤ 6010 / 2 ^ 24 * T ∧
    mag3 (valVec E) ≤ 7.03 * T ∧ mag3 e ≤ 3.5 * T := by
  have hT := h.size_ge
  have hT2 := h.size_le
  have q0 := quat_ne (by norm_num) hq1
  obtain ⟨fe, ee, e1⟩ := point_seen h.middle h.rigid hT hT2 h.tip he
  have s1 : j.setup.midEndMs = j.midJoint.invert.transformPoint (j.endJoint 3) := rfl
  rw [← s1] at fe ee
  have s2 : j.setup.invStart = j.startJoint.invert := rfl
  rw [s2] at hE
  obtain ⟨fm, em⟩ := b.mid
  generalize j.setup.midEndMs = m at *
  generalize j.setup.startMidSs = sm at *
  have m1 := (mag3_sub_le _ _).trans (add_le_add e1 ee)
  have m2 : mag3 (valVec m) ≤ 3.501 * T := m1.trans (by linarith)
  obtain ⟨fw, ew⟩ := qtv_ok hq (hq1.trans (by norm_num)) fe m2 (by linarith) (by linarith)
  obtain ⟨x', hx'⟩ := turns_exists q0 (valVec m)
  have n1 := turned3_near hq1 (by norm_num) hx'
  have n2 := turns_mag q0 hx' hx
  have n3 := turns_len q0 hx
  have w1 : mag3 (valVec (quatTransformVector q m) - x) ≤ 1984 / 2 ^ 24 * T := by
    have t1 := mag3_tri (valVec (quatTransformVector q m)) (turned3 (valVec q) (valVec m)) x
    have t2 := mag3_tri (turned3 (valVec q) (valVec m)) x' x
    have : 2 * (1 / 2 ^ 18) * mag3 (valVec m) ≤ 2 * (1 / 2 ^ 18) * (3.501 * T) := mul_le_mul_of_nonneg_left m2 (by norm_num)
    rw [n2] at t2
    linarith
  generalize quatTransformVector q m = w at *
  have w2 := (mag3_sub_le _ _).trans (add_le_add (n3.trans_le e1) w1)
  obtain ⟨fz, ez⟩ := across_vector h.start h.middle h.rigid hT hT2 fw (M := 3.501 * T) (w2.trans (by linarith)) (by linarith) (by linarith)
  have a1 := (across_mag h.start h.middle h.rigid (valVec w - x)).1
  rw [transformVector_sub, transformVector_sub] at a1
  have a2 := (across_mag h.start h.middle h.rigid x).1
  have z1 := mag3_tri (valVec (j.startJoint.invert.transformVector (j.midJoint.transformVector w)))
    ((valMat j.startJoint).invert.transformVector ((valMat j.midJoint).transformVector (valVec w)))
    ((valMat j.startJoint).invert.transformVector ((valMat j.midJoint).transformVector x))
  generalize j.startJoint.invert.transformVector (j.midJoint.transformVector w) = z at *
  generalize (valMat j.startJoint).invert.transformVector ((valMat j.midJoint).transformVector x) = y at *
  have s3 : mag3 (valVec sm + valVec z - (σ + y)) ≤ 5996 / 2 ^ 24 * T := by
    rw [add_sub_add_comm]
    refine (mag3_add_le _ _).trans ?_
    linarith
  have s4 := (mag3_sub_le _ _).trans (add_le_add ((mag3_add_le σ y).trans (add_le_add b.σ_le a2)) s3)
  have s5 : mag3 (valVec sm + valVec z) ≤ 7.02 * T := by linarith
  obtain ⟨f, d⟩ := add3_ok fm fz s5 (by linarith)
  subst hE
  refine ⟨f, (mag3_tri _ _ _).trans ((add_le_add d s3).trans (by linarith)), ?_, e1⟩
  exact (mag3_sub_le _ _).trans ((add_le_add s5 d).trans (by linarith))

/-- Plane and twist of the start joint. -/
theorem start_plane_ok {j : TwoBone F32} {σ η τ π : F4 ℝ} {ε T P : ℝ} (h : BonesInput32 j σ η τ π ε T P) (b : Bones j σ η τ T)
    {rot V : F4 F32} (hV : V = j.startJoint.invert.transformPoint j.target) (hr : ∀ c, Finite32 (rot c).bits) (hr1 : |norm2 (valVec rot) - 1| ≤ 1 / 2 ^ 19) :
    (∀ c, Finite32 (j.rotatePlane polyTrig j.setup rot V (vec3Length2S V) c).bits) ∧
    ∃ U, Axial U (valVec V) ∧
      ‖toQuat (valVec (j.rotatePlane polyTrig j.setup rot V (vec3Length2S V))) - U * toQuat (valVec rot)‖ ≤ 105 / 2 ^ 24 := by
  have hT := h.size_ge
  have hT2 := h.size_le
  obtain ⟨axis, plane, axis', c, bb, k1, k2, k3, k4, k5⟩ := twoPlane_shape polyTrig j j.setup rot V (vec3Length2S V)
  obtain ⟨fV, eV⟩ := b.target
  rw [← hV] at fV eV
  have τ0 := b.τ_ge
  have τ1 := b.τ_le
  have vd := abs_le.mp ((mag3_diff (valVec V) τ).trans eV)
  have hm : 0 < mag3 (valVec V) := by linarith
  obtain ⟨fD, eD, -, -⟩ := len_ok fV (by linarith) (by linarith) rfl
  have hA := axis_ok fV (by linarith) (by linarith) fD (eD.trans (by nlinarith [sq_nonneg (mag3 (valVec V))])) (fun i _ => k2 i)
  rw [k1]
  refine twisted_ok (j := aimOf j) hm hA ?_ hr hr1 h.twist.1 h.twist.2
  rw [k3]
  have s2 : j.setup.invStart = j.startJoint.invert := rfl
  rw [s2] at k5
  -- the pole
  obtain ⟨fp, ep⟩ := back_vector h.start h.rigid hT hT2 h.pole (by linarith [h.pole_ge]) (by linarith [h.pole_le])
  have P0 := h.pole_ge
  have P1 := h.pole_le
  have hπ : Same3 ((valMat j.startJoint).invert.transformVector (valVec j.poleVector)) π :=
    vector_invert (rigid_real h.start).affine ((rigid_real h.start).det_ne h.rigid) h.poleS
  have ep' : mag3 (valVec (j.startJoint.invert.transformVector j.poleVector) - π) ≤ 706 / 2 ^ 24 * P := by
    refine le_of_eq_of_le (mag3_congr ?_) ep
    refine ⟨?_, ?_, ?_⟩ <;> simp only [Pi.sub_apply]
    · rw [hπ.1]
    · rw [hπ.2.1]
    · rw [hπ.2.2]
  have π1 : mag3 π ≤ 1.753 * P := by
    rw [← mag3_congr hπ]
    have h1 := (inverse_mag (rigid_real h.start) h.rigid (valVec j.poleVector)).1
    have h2 := mag3_le_three (v := valVec j.poleVector) fun i hi => (h.pole i hi).2
    linarith
  generalize j.startJoint.invert.transformVector j.poleVector = p at *
  have p1 := (mag3_sub_le _ _).trans (add_le_add π1 ep')
  -- the normal of the plane with the pole
  have hap : P / 16 * mag3 τ ≤ mag3 (cross τ π) := by
    apply mag_ge
    rw [mul_pow, mag3_sq]; exact h.apart
  have V1 : mag3 (valVec V) ≤ 3.501 * T := by linarith
  have vp : mag3 (valVec V) * mag3 (valVec p) ≤ 1.76 * (P * mag3 (valVec V)) := by
    rw [mul_comm, ← mul_assoc]; exact mul_le_mul_of_nonneg_right (by linarith) hm.le
  have Vr : mag3 (valVec V) ≤ 1.011 * mag3 τ := by linarith
  have PV0 : 1 / 2 ^ 20 ≤ P * mag3 (valVec V) := le_trans (by norm_num) (mul_le_mul P0 (show 1 / 2 ^ 8 ≤ mag3 (valVec V) by linarith) (by positivity) (by linarith))
  have PV1 : P * mag3 (valVec V) ≤ 2 ^ 40 := (mul_le_mul P1 (show mag3 (valVec V) ≤ 2 ^ 20 by linarith) hm.le (by positivity)).trans (by norm_num)
  obtain ⟨fn, en⟩ := cross_ok3 fV fp vp (by linarith) (by linarith)
  have cn : mag3 (cross (valVec V) (valVec p) - cross τ π) ≤ 0.02 * (P * mag3 τ) := by
    have e1 : cross (valVec V) (valVec p) - cross τ π = cross (valVec V - τ) (valVec p) + cross τ (valVec p - π) := by
      apply ext4 <;> simp [cross] <;> ring
    rw [e1]
    refine (mag3_add_le _ _).trans ?_
    have t1 := (cross_mag (valVec V - τ) (valVec p)).trans
      (mul_le_mul (eV.trans (show _ ≤ 1395 * 2 ^ 7 / 2 ^ 24 * mag3 τ by linarith)) (show mag3 (valVec p) ≤ 1.76 * P by linarith) (mag3_nonneg _) (mul_nonneg (by norm_num) (mag3_nonneg _)))
    have t2 := (cross_mag τ (valVec p - π)).trans (mul_le_mul_of_nonneg_left ep' (mag3_nonneg τ))
    have t3 : 0 ≤ P * mag3 τ := mul_nonneg (by linarith) (mag3_nonneg _)
    rw [show 1395 * 2 ^ 7 / 2 ^ 24 * mag3 τ * (1.76 * P) = 1395 * 2 ^ 7 / 2 ^ 24 * 1.76 * (P * mag3 τ) by ring] at t1
    rw [show mag3 τ * (706 / 2 ^ 24 * P) = 706 / 2 ^ 24 * (P * mag3 τ) by ring] at t2
    linarith
  have PVr : P * mag3 (valVec V) ≤ 1.011 * (P * mag3 τ) := by
    have := mul_le_mul_of_nonneg_left Vr (show 0 ≤ P by linarith); linarith
  have n0 : 0.04 * (P * mag3 τ) ≤ mag3 (valVec (vec3Cross V p)) := by
    have t1 := mag3_tri (valVec (vec3Cross V p)) (cross (valVec V) (valVec p)) (cross τ π)
    have t2 := abs_le.mp (mag3_diff (valVec (vec3Cross V p)) (cross τ π))
    have : P / 16 * mag3 τ = 0.0625 * (P * mag3 τ) := by ring
    linarith
  have n1 : mag3 (valVec (vec3Cross V p)) ≤ 2 ^ 42 := by
    have t1 := mag3_sub_le (valVec (vec3Cross V p)) (cross (valVec V) (valVec p))
    have t2 := cross_mag (valVec V) (valVec p)
    linarith
  -- the normal of the plane with the bones
  have ax1 : |mag3 (valVec j.midAxis) - 1| ≤ 1 / 2 ^ 20 := by
    have hu := h.unit
    rw [← mag3_sq] at hu
    have n := mag3_nonneg (valVec j.midAxis)
    rw [show mag3 (valVec j.midAxis) ^ 2 - 1 = (mag3 (valVec j.midAxis) - 1) * (mag3 (valVec j.midAxis) + 1) by ring, abs_mul] at hu
    refine le_trans ?_ hu
    refine le_mul_of_one_le_right (abs_nonneg _) ?_
    rw [abs_of_nonneg (by linarith)]; linarith
  have ax2 := abs_le.mp ax1
  obtain ⟨fa, ea⟩ := across_vector h.start h.middle h.rigid hT hT2 h.axis (M := 1.001) (by linarith) (by norm_num) (by norm_num)
  have am := across_mag h.start h.middle h.rigid (valVec j.midAxis)
  have ad := abs_le.mp (mag3_diff (valVec (j.startJoint.invert.transformVector (j.midJoint.transformVector j.midAxis)))
    ((valMat j.startJoint).invert.transformVector ((valMat j.midJoint).transformVector (valVec j.midAxis))))
  generalize j.startJoint.invert.transformVector (j.midJoint.transformVector j.midAxis) = a at *
  have a0 : 0.99 ≤ mag3 (valVec a) := by linarith
  have a1 : mag3 (valVec a) ≤ 1.01 := by linarith
  obtain ⟨fj, ej⟩ := qtv_ok hr (hr1.trans (by norm_num)) fa a1 (by norm_num) (by norm_num)
  have q0 := quat_ne (by norm_num) hr1
  obtain ⟨x, hx⟩ := turns_exists q0 (valVec a)
  have jn := turned3_near hr1 (by norm_num) hx
  have xl := turns_len q0 hx
  have j2 := abs_le.mp (mag3_diff (valVec (quatTransformVector rot a)) x)
  have j3 := mag3_tri (valVec (quatTransformVector rot a)) (turned3 (valVec rot) (valVec a)) x
  generalize quatTransformVector rot a = jv at *
  have jl : 0.9 ≤ mag3 (valVec jv) := by linarith
  have ju : mag3 (valVec jv) ≤ 1.1 := by linarith
  -- scaled
  have ne : ∀ {v : F4 F32}, Fin3 v → 1 / 2 ^ 30 ≤ mag3 (valVec v) → mag3 (valVec v) ≤ 2 ^ 45 → Within3 (fun i => v i * (F32.one / F32.sqrt (vec3Length2S v 0))) 2 := by
    intro v fv v0 v1
    have w : Within3 v (mag3 (valVec v)) := fun i hi => ⟨fv i hi, abs_le_mag3 (valVec v) i hi⟩
    obtain ⟨g1, g2⟩ := scaled_within w (v1.trans (by norm_num)) rfl
    refine g2 fun hz => ?_
    have vp : 0 < mag3 (valVec v) := lt_of_lt_of_le (by positivity) v0
    obtain ⟨-, e⟩ := len2_ok fv (by rw [← mag3_sq]; exact le_trans (by norm_num) (pow_le_pow_left₀ (by positivity) v0 2))
      (by rw [← mag3_sq]; exact (pow_le_pow_left₀ vp.le v1 2).trans (by norm_num))
    rw [hz, ← mag3_sq, zero_sub, abs_neg, abs_of_nonneg (sq_nonneg _)] at e
    have : 0 < mag3 (valVec v) ^ 2 := by positivity
    linarith
  have PT : 1 / 2 ^ 17 ≤ P * mag3 τ := le_trans (by norm_num) (mul_le_mul P0 (show 1 / 2 ^ 7 ≤ mag3 τ by linarith) (by positivity) (by linarith))
  have wn := ne fn (by linarith) (n1.trans (by norm_num))
  have wj := ne fj (by linarith) (by linarith)
  have fc : Finite32 (c 0).bits := by rw [k5]; exact dotS_within wn wj (by norm_num)
  obtain ⟨g1, g2⟩ := clamp_ok fc
  exact cosAngle_ok hm hA.1 hA.2.1 hA.2.2 k4 g1 g2

/-- The middle joint's correction. -/
theorem mid_ok {j : TwoBone F32} {σ η τ π : F4 ℝ} {ε T P : ℝ} (h : BonesInput32 j σ η τ π ε T P) (b : Bones j σ η τ T) {V L : F4 F32}
    (hV : V = j.startJoint.invert.transformPoint j.target) (hL : L = vec3Length2S V) {q : F4 F32} (hq : q = j.computeMid polyTrig j.setup L) :
    (∀ c, Finite32 (q c).bits) ∧ |norm2 (valVec q) - 1| ≤ 1 / 2 ^ 18 ∧
    ∃ C0 C1 φ : ℝ, |C0| ≤ 1 ∧ |C1| ≤ 1 ∧
      |C0 - clamp1 ((val (j.setup.startMidLen2 0) + val (j.setup.midEndLen2 0) - val (L 0)) /
          (2 * √(val (j.setup.startMidLen2 0) * val (j.setup.midEndLen2 0))))| ≤
        11 / 2 ^ 24 * ((val (j.setup.startMidLen2 0) + val (j.setup.midEndLen2 0) + val (L 0)) /
          (2 * √(val (j.setup.startMidLen2 0) * val (j.setup.midEndLen2 0)))) ∧
      |C1 - clamp1 ((val (j.setup.startMidLen2 0) + val (j.setup.midEndLen2 0) - val (j.setup.startEndLen2 0)) /
          (2 * √(val (j.setup.startMidLen2 0) * val (j.setup.midEndLen2 0))))| ≤
        11 / 2 ^ 24 * ((val (j.setup.startMidLen2 0) + val (j.setup.midEndLen2 0) + val (j.setup.startEndLen2 0)) /
          (2 * √(val (j.setup.startMidLen2 0) * val (j.setup.midEndLen2 0)))) ∧
      |φ - (Real.arccos C0 - if NumOps.lt (vec3DotS (vec3Cross j.setup.startMidMs j.midAxis) j.setup.midEndMs 0) (NumOps.zero : F32) then
        -Real.arccos C1 else Real.arccos C1)| ≤ 29 / 2 ^ 24 ∧
      (∀ i, i ≠ 3 → |val (q i) - val (j.midAxis i) * Real.sin (φ / 2)| ≤ 8 / 2 ^ 24) ∧
      |val (q 3) - Real.cos (φ / 2)| ≤ 8 / 2 ^ 24 := by
  subst hq hL hV
  have hT := h.size_ge
  have hT2 := h.size_le
  have T2 : T ^ 2 ≤ 2 ^ 32 := (pow_le_pow_left₀ (by linarith) hT2 2).trans (by norm_num)
  have T1 : 1 ≤ T ^ 2 := one_le_pow₀ hT
  have lo : ∀ {m : ℝ}, T / 2 ^ 7 ≤ m → m ≤ 7 * T → T ^ 2 / 2 ^ 14 ≤ m ^ 2 ∧ m ^ 2 ≤ 49 * T ^ 2 ∧ T * m ≤ 2 ^ 7 * m ^ 2 ∧ 0 ≤ m ^ 2 := by
    intro m h0 h1
    have m0 : 0 ≤ m := by linarith
    refine ⟨?_, ?_, ?_, sq_nonneg m⟩
    · have := pow_le_pow_left₀ (by linarith) h0 2
      rw [div_pow] at this
      linarith
    · have := pow_le_pow_left₀ m0 h1 2
      rw [mul_pow] at this
      linarith
    · rw [pow_two, ← mul_assoc]; exact mul_le_mul_of_nonneg_right (by linarith) m0
  have p1 := lo b.σ_ge (b.σ_le.trans (by linarith))
  have p2 := lo b.bone_ge b.bone_le
  have p4 := lo b.τ_ge (b.τ_le.trans (by linarith))
  have e1 := abs_le.mp b.D1.2
  have e2 := abs_le.mp b.D2.2
  have e3 := abs_le.mp b.D3.2.2
  have e4 := abs_le.mp b.D4.2
  have p3 : mag3 η ^ 2 ≤ 12.25 * T ^ 2 := by
    have := pow_le_pow_left₀ (mag3_nonneg _) b.η_le 2
    rw [mul_pow] at this
    linarith
  refine computeMid_ok h.axis h.unit rfl rfl rfl b.D1.1 b.D2.1 b.D3.1 b.D4.1 ?_ ?_ ?_ ?_ b.D3.2.1 ?_ ?_ ?_ <;> linarith

/-- A whole run. -/
theorem bones_ok {j : TwoBone F32} {σ η τ π : F4 ℝ} {ε T P : ℝ} (h : BonesInput32 j σ η τ π ε T P) (b : Bones j σ η τ T) :
    ∃ V q E rot R : F4 F32, V = j.startJoint.invert.transformPoint j.target ∧ q = j.computeMid polyTrig j.setup (vec3Length2S V) ∧
    (E = fun i => j.setup.startMidSs i +
      j.setup.invStart.transformVector (j.midJoint.transformVector (quatTransformVector q j.setup.midEndMs)) i) ∧
    rot = quatFromVectors E V ∧
    (∀ w : F32, Finite32 w.bits → 0 < val w → ({ j with weight := w } : TwoBone F32).run polyTrig = .ok { j with
      weight := w, startCorrection := (aimOf { j with weight := w }).weighted R, midCorrection := (aimOf { j with weight := w }).weighted q,
      reached := (j.softenTarget j.setup).1 && NumOps.le NumOps.one w }) ∧
    (∀ c, Finite32 (q c).bits) ∧ |norm2 (valVec q) - 1| ≤ 1 / 2 ^ 18 ∧
    (∀ c, Finite32 (rot c).bits) ∧ |norm2 (valVec rot) - 1| ≤ 1 / 2 ^ 19 ∧
    (∀ c, Finite32 (R c).bits) ∧ |norm2 (valVec R) - 1| ≤ 1 / 2 ^ 16 ∧ |‖toQuat (valVec R)‖ - 1| ≤ 122 / 2 ^ 24 ∧
    ∃ U, Axial U (valVec V) ∧ ‖toQuat (valVec R) - U * toQuat (valVec rot)‖ ≤ 105 / 2 ^ 24 := by
  have hT := h.size_ge
  have hT2 := h.size_le
  obtain ⟨hs, -, -⟩ := soften_ok h b
  have hL : NumOps.lt (NumOps.zero : F32) (vec3Length2S (j.startJoint.invert.transformPoint j.target) 0) = true := by
    refine (lt_val32 zero_finite b.D4.1).mpr ?_
    rw [valZero]
    have e4 := abs_le.mp b.D4.2
    have τ0 := b.τ_ge
    have : T * mag3 τ ≤ 2 ^ 7 * mag3 τ ^ 2 := by
      rw [pow_two, ← mul_assoc]; exact mul_le_mul_of_nonneg_right (by linarith) (mag3_nonneg _)
    have : 0 < mag3 τ ^ 2 := by
      have : 0 < mag3 τ := by linarith
      positivity
    linarith
  obtain ⟨q, hq⟩ : ∃ q, q = j.computeMid polyTrig j.setup (vec3Length2S (j.startJoint.invert.transformPoint j.target)) := ⟨_, rfl⟩
  obtain ⟨E, hE⟩ : ∃ E : F4 F32, E = fun i => j.setup.startMidSs i +
      j.setup.invStart.transformVector (j.midJoint.transformVector (quatTransformVector q j.setup.midEndMs)) i := ⟨_, rfl⟩
  have run := fun w => twoBone_weights (t := polyTrig) (normalized_ok h.axis h.unit) hs hL hq hE w
  obtain ⟨fq, nq, -⟩ := mid_ok h b rfl rfl hq
  have hm : ∃ e, SendsPoint (valMat j.midJoint) e (valVec (j.endJoint 3)) :=
    ⟨_, sendsPoint_iff.mpr (Same3.symm (invert_point (rigid_real h.middle).affine ((rigid_real h.middle).det_ne h.rigid) (valVec (j.endJoint 3))))⟩
  obtain ⟨e, he⟩ := hm
  obtain ⟨x, hx⟩ := turns_exists (quat_ne (by norm_num) nq) e
  obtain ⟨fE, -, mE, -⟩ := chain_end_ok h b fq nq he hx hE
  obtain ⟨fV, eV⟩ := b.target
  have pl := fun rot => start_plane_ok (rot := rot) h b rfl
  generalize hV : j.startJoint.invert.transformPoint j.target = V at *
  have mV := (mag3_sub_le _ _).trans (add_le_add b.τ_le eV)
  obtain ⟨fr, nr⟩ := fromVectors_total (A := 7.03 * T) (B := 3.51 * T) (fun i hi => ⟨fE i hi, (abs_le_mag3 (valVec E) i hi).trans mE⟩)
    (fun i hi => ⟨fV i hi, (abs_le_mag3 (valVec V) i hi).trans (mV.trans (by linarith))⟩) (by linarith) (by linarith)
  generalize hrot : quatFromVectors E V = rot at *
  obtain ⟨fR, U, hU, dU⟩ := pl rot fr nr
  generalize hR : j.rotatePlane polyTrig j.setup rot V (vec3Length2S V) = R at *
  refine ⟨V, q, E, rot, R, rfl, hq, hE, hrot.symm, ?_, fq, nq, fr, nr, fR, ?_⟩
  · intro w fw w0
    refine run w ?_
    rw [Bool.eq_false_iff]
    intro hle
    have := (le_val32 fw zero_finite).mp hle
    rw [valZero] at this
    linarith
  · have rl := norm_near_one (q := valVec rot) (c := 1 / 2 ^ 20) (by norm_num) (nr.trans (by norm_num))
    have ql : |‖toQuat (valVec R)‖ - 1| ≤ 122 / 2 ^ 24 := by
      have h1 := abs_norm_sub_norm_le (toQuat (valVec R)) (U * toQuat (valVec rot))
      rw [norm_mul, hU.1, one_mul] at h1
      have := abs_sub_le ‖toQuat (valVec R)‖ ‖toQuat (valVec rot)‖ 1
      linarith
    refine ⟨?_, ql, U, hU, dU⟩
    rw [norm2_sq, show ‖toQuat (valVec R)‖ ^ 2 - 1 = (‖toQuat (valVec R)‖ - 1) * (‖toQuat (valVec R)‖ + 1) by ring, abs_mul]
    have h2 : |‖toQuat (valVec R)‖ + 1| ≤ 2.01 := by
      have := abs_le.mp ql
      rw [abs_le]; constructor <;> linarith
    refine (mul_le_mul ql h2 (abs_nonneg _) (by norm_num)).trans (by norm_num)

end Ozz.IK
