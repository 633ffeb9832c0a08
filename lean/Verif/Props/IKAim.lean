import Verif.Proofs.IKAim
import Mathlib.Tactic.FinCases

/-! C54: the aim job in exact arithmetic with ideal trigonometry. -/

namespace Ozz.Props

open IK Spec

/-- What a run that is not rejected computes. -/
private theorem aim_run {j j' : Aim ℝ} (hrun : j.run idealTrig = .ok j') :
    (offsettedForward j.forward j.offset (j.joint.invert.transformPoint j.target) = none ∧ j'.reached = false) ∨
    ∃ p, offsettedForward j.forward j.offset (j.joint.invert.transformPoint j.target) = some p ∧ j'.reached = true ∧
      (dot3 (j.joint.invert.transformPoint j.target) (j.joint.invert.transformPoint j.target) = 0 ∨
        j'.correction = j.weighted (j.twisted idealTrig
          (j.rotatePlane j.joint.invert (j.joint.invert.transformPoint j.target)
            (quatFromVectors p (j.joint.invert.transformPoint j.target))).1
          (j.rotatePlane j.joint.invert (j.joint.invert.transformPoint j.target)
            (quatFromVectors p (j.joint.invert.transformPoint j.target))).2
          (quatFromVectors p (j.joint.invert.transformPoint j.target)))) := by
  unfold Aim.run at hrun
  split_ifs at hrun with hn
  simp only at hrun
  cases ho : offsettedForward j.forward j.offset (j.joint.invert.transformPoint j.target) with
  | none =>
    simp only [ho] at hrun
    cases hrun
    exact Or.inl ⟨rfl, rfl⟩
  | some p =>
    simp only [ho, vec3Length2S_zero, real_zero, real_eq, decide_eq_true_eq] at hrun
    right
    split_ifs at hrun with hz
    · cases hrun
      exact ⟨p, rfl, rfl, Or.inl hz⟩
    · cases hrun
      exact ⟨p, rfl, rfl, Or.inr rfl⟩

/-- C54: when the job reports reached at full weight, the correction is a rotation that takes a point of the forward line onto
the target: exactly, unless that point is almost opposite to the target, and within `1.5e-3` of the distance then. The point
is on the forward ray if the target is farther away than the offset or the offset is behind the joint.
`τ` is the target in the space of the joint.
Missing: forward directions that are only almost unit, targets closer than `1e-3` (`C54_close_target`), and the ray
in the other cases (`C54_behind`). -/
theorem C54_aims_partial {j j' : Aim ℝ} (hrun : j.run idealTrig = .ok j') (hreached : j'.reached = true) (hw : 1 ≤ j.weight)
    (ha : AffineMat j.joint) (hd : (toMatrix j.joint).det ≠ 0) (hf : dot3 j.forward j.forward = 1) {τ : F4 ℝ}
    (hτ : SendsPoint j.joint τ j.target) (hfar : 1 / 1000000 ≤ dot3 τ τ) :
    UnitQuat j'.correction ∧ ∃ (s : ℝ) (x : F4 ℝ), let p : F4 ℝ := fun i => j.offset i + s * j.forward i
      Turns j'.correction p x ∧ (-(1 - 1 / 1000000) * dot3 τ τ ≤ dot3 p τ → SendsPoint j.joint x j.target) ∧
      dist2 x τ ≤ 2 / 1000000 * dot3 τ τ ∧ (dot3 j.offset j.offset ≤ dot3 τ τ ∨ dot3 j.forward j.offset ≤ 0 → 0 ≤ s) := by
  have hv := point_invert ha hd hτ
  have hrun' := aim_run hrun
  generalize j.joint.invert.transformPoint j.target = v at *
  have hvv : dot3 v v = dot3 τ τ := dot3_congr hv hv
  rcases hrun' with ⟨-, h⟩ | ⟨p, hp, -, hc⟩
  · rw [h] at hreached; cases hreached
  obtain ⟨o1, o2⟩ := offsetted (o := j.offset) (v := v) hf
  have hle : dot3 j.offset j.offset - dot3 j.forward j.offset ^ 2 ≤ dot3 v v := by
    by_contra h
    rw [o1 (not_le.mp h)] at hp
    cases hp
  obtain ⟨p', hp', hpe, hpp⟩ := o2 hle
  rw [hp] at hp'
  cases hp'
  rcases hc with hc | hc
  · rw [hvv] at hc; rw [hc] at hfar; norm_num at hfar
  have hpos : 0 < dot3 v v := by rw [hvv]; linarith
  obtain ⟨f1, f2, f3⟩ := fromVectors_same hpp (by rw [hvv]; exact hfar)
  obtain ⟨t1, q, t2, t3, t4⟩ := aim_twisted j j.joint.invert hpos f1
  have hwt : ∀ r, j.weighted r = quatPositiveW r := by
    intro r
    simp only [Aim.weighted, real_one, real_lt, decide_eq_true_eq]
    rw [if_neg (not_lt.mpr hw)]
  rw [hwt] at hc
  have hu : norm2 j'.correction = 1 := by rw [hc, positiveW_norm2, t1]
  have hs : Same3 (quatTransformVector j'.correction p) (quatTransformVector q (quatTransformVector (quatFromVectors p v) p)) := by
    rw [hc]
    exact Same3.trans (positiveW_transform _ _) (t4 p)
  have hpeq : (fun i => j.offset i + (√(dot3 v v - (dot3 j.offset j.offset - dot3 j.forward j.offset ^ 2)) - dot3 j.forward j.offset) *
      j.forward i) = p := (funext hpe).symm
  refine ⟨unitQuat_iff.mpr hu, √(dot3 v v - (dot3 j.offset j.offset - dot3 j.forward j.offset ^ 2)) - dot3 j.forward j.offset,
    quatTransformVector j'.correction p, ?_⟩
  intro p0
  have hp0 : p0 = p := hpeq
  rw [hp0]
  have hpτ : dot3 p v = dot3 p τ := dot3_congr (Same3.refl p) hv
  refine ⟨(turns_iff hu).mpr (Same3.refl _), ?_, ?_, ?_⟩
  · intro hnear
    have h1 : Same3 (quatTransformVector j'.correction p) τ :=
      Same3.trans hs (Same3.trans (transform_congr q (f2 (by rw [hvv, hpτ]; exact hnear))) (Same3.trans t3 hv))
    rw [sendsPoint_iff, transformPoint_congr _ h1]
    exact sendsPoint_iff.mp hτ
  · rcases le_or_gt (-(1 - 1 / 1000000) * dot3 v v) (dot3 p v) with h | h
    · have h1 : Same3 (quatTransformVector j'.correction p) τ :=
        Same3.trans hs (Same3.trans (transform_congr q (f2 h)) (Same3.trans t3 hv))
      simp only [dist2, h1.1, h1.2.1, h1.2.2, sub_self]
      linarith
    · have h1 := f3 h
      -- both points are turned by `q`, which keeps distances
      have h2 : Same3 (quatTransformVector (quatFromVectors p v) p) (-p) := same3_of_fin3 h1
      have h3 : Same3 (quatTransformVector j'.correction p) (quatTransformVector q (-p)) := Same3.trans hs (transform_congr q h2)
      have h4 := dot3_transform q (-p) (-p) t2
      have h5 := dot3_transform q (-p) v t2
      rw [dot3_congr (Same3.symm h3) (Same3.symm h3)] at h4
      rw [dot3_congr (Same3.symm h3) t3, dot3_congr (Same3.refl _) hv] at h5
      have h6 : dot3 (-p) (-p) = dot3 τ τ := by rw [← hvv, ← hpp]; simp [dot3]
      have h7 : dot3 (-p) v = -dot3 p v := by simp [dot3]; ring
      generalize quatTransformVector j'.correction p = x at *
      have h8 : dist2 x τ = dot3 x x - 2 * dot3 x τ + dot3 τ τ := by simp only [dist2, dot3]; ring
      rw [h8, h4, h5, h6, h7]
      rw [hvv] at h
      linarith
  · intro h
    have h0 : 0 ≤ √(dot3 v v - (dot3 j.offset j.offset - dot3 j.forward j.offset ^ 2)) := Real.sqrt_nonneg _
    rcases h with h | h
    · have : dot3 j.forward j.offset ≤ √(dot3 v v - (dot3 j.offset j.offset - dot3 j.forward j.offset ^ 2)) := by
        apply Real.le_sqrt_of_sq_le
        rw [hvv]
        linarith
      linarith
    · linarith

/-- C54: the job reports unreached exactly when the target is closer to the joint than every point of the forward line. -/
theorem C54_unreached {j j' : Aim ℝ} (hrun : j.run idealTrig = .ok j') (ha : AffineMat j.joint)
    (hd : (toMatrix j.joint).det ≠ 0) (hf : dot3 j.forward j.forward = 1) {τ : F4 ℝ} (hτ : SendsPoint j.joint τ j.target) :
    j'.reached = false ↔ ∀ s : ℝ, let p : F4 ℝ := fun i => j.offset i + s * j.forward i; dot3 τ τ < dot3 p p := by
  have hv := point_invert ha hd hτ
  have hrun' := aim_run hrun
  generalize j.joint.invert.transformPoint j.target = v at *
  have hvv : dot3 v v = dot3 τ τ := dot3_congr hv hv
  obtain ⟨o1, o2⟩ := offsetted (o := j.offset) (v := v) hf
  have hp : ∀ s : ℝ, dot3 (fun i => j.offset i + s * j.forward i) (fun i => j.offset i + s * j.forward i) =
      dot3 j.offset j.offset - dot3 j.forward j.offset ^ 2 + (s + dot3 j.forward j.offset) ^ 2 := by
    intro s
    have : dot3 (fun i => j.offset i + s * j.forward i) (fun i => j.offset i + s * j.forward i) =
        dot3 j.offset j.offset + 2 * s * dot3 j.forward j.offset + s ^ 2 * dot3 j.forward j.forward := by
      simp only [dot3]; ring
    rw [this, hf]; ring
  simp only [hp]
  constructor
  · intro h s
    rcases hrun' with ⟨ho, -⟩ | ⟨_, _, h', -⟩
    · rcases lt_or_ge (dot3 v v) (dot3 j.offset j.offset - dot3 j.forward j.offset ^ 2) with hlt | hge
      · nlinarith [sq_nonneg (s + dot3 j.forward j.offset)]
      · obtain ⟨_, h1, -⟩ := o2 hge
        rw [h1] at ho; cases ho
    · rw [h] at h'; cases h'
  · intro h
    have h0 := h (-dot3 j.forward j.offset)
    rw [neg_add_cancel] at h0
    have hn := o1 (by rw [hvv]; linarith)
    rcases hrun' with ⟨-, h'⟩ | ⟨_, h', -⟩
    · exact h'
    · rw [hn] at h'; cases h'

/-- C54: a forward direction whose squared length is not within 0.002 of 1 is rejected, and the outputs stay. -/
theorem C54_rejected (t : Trig ℝ) (j : Aim ℝ) (h : dot3 j.forward j.forward ≤ 998 / 1000 ∨ 1002 / 1000 ≤ dot3 j.forward j.forward) :
    j.run t = .err .invalidJob j := by
  have : vec3IsNormalized j.forward = false := by
    simp only [vec3IsNormalized, real_lt, real_lit, Bool.and_eq_false_iff, decide_eq_false_iff_not, not_lt]
    rcases h with h | h
    · left; simpa [dot3] using h
    · right; simpa [dot3] using h
  simp [Aim.run, this]

/-- C54: any other job runs. -/
theorem C54_runs (t : Trig ℝ) (j : Aim ℝ) (h1 : 998 / 1000 < dot3 j.forward j.forward) (h2 : dot3 j.forward j.forward < 1002 / 1000) :
    ∃ j', j.run t = .ok j' := by
  have : vec3IsNormalized j.forward = true := by
    simp only [vec3IsNormalized, real_lt, real_lit, Bool.and_eq_true, decide_eq_true_eq]
    exact ⟨by simpa [dot3] using h1, by simpa [dot3] using h2⟩
  simp only [Aim.run, this, Bool.not_true, Bool.false_eq_true, if_false]
  split
  · exact ⟨_, rfl⟩
  · split
    · exact ⟨_, rfl⟩
    · exact ⟨_, rfl⟩

/-- C54: below full weight the correction is still a unit quaternion that turns by at most half a turn. -/
theorem C54_weighted_unit {j j' : Aim ℝ} (hrun : j.run idealTrig = .ok j') (ha : AffineMat j.joint)
    (hd : (toMatrix j.joint).det ≠ 0) (hf : dot3 j.forward j.forward = 1) {τ : F4 ℝ} (hτ : SendsPoint j.joint τ j.target)
    (hfar : 1 / 1000000 ≤ dot3 τ τ) (hreached : j'.reached = true) :
    UnitQuat j'.correction ∧ 0 ≤ j'.correction 3 := by
  have hv := point_invert ha hd hτ
  have hrun' := aim_run hrun
  generalize j.joint.invert.transformPoint j.target = v at *
  have hvv : dot3 v v = dot3 τ τ := dot3_congr hv hv
  rcases hrun' with ⟨-, h⟩ | ⟨p, hp, -, hc⟩
  · rw [h] at hreached; cases hreached
  obtain ⟨o1, o2⟩ := offsetted (o := j.offset) (v := v) hf
  have hle : dot3 j.offset j.offset - dot3 j.forward j.offset ^ 2 ≤ dot3 v v := by
    by_contra h
    rw [o1 (not_le.mp h)] at hp
    cases hp
  obtain ⟨p', hp', -, hpp⟩ := o2 hle
  rw [hp] at hp'
  cases hp'
  rcases hc with hc | hc
  · rw [hvv] at hc; rw [hc] at hfar; norm_num at hfar
  have hpos : 0 < dot3 v v := by rw [hvv]; linarith
  obtain ⟨f1, -, -⟩ := fromVectors_same hpp (by rw [hvv]; exact hfar)
  obtain ⟨t1, -⟩ := aim_twisted j j.joint.invert hpos f1
  rw [unitQuat_iff, hc]
  generalize Aim.twisted idealTrig j _ _ _ = r at *
  simp only [Aim.weighted, real_one, real_lt, decide_eq_true_eq]
  split_ifs with hw
  · have h3 := lerp_unit (positiveW_nonneg r) hw
    generalize lerp4 quatUnit (quatPositiveW r) (max4 (splat j.weight) zero4) = l at *
    have hn : norm2 l ≠ 0 := by
      have : 0 < norm2 l := by unfold norm2; positivity
      exact this.ne'
    refine ⟨norm2_normalize l hn, ?_⟩
    rw [quatNormalize_apply]
    positivity
  · exact ⟨by rw [positiveW_norm2, t1], positiveW_nonneg r⟩

/-! ### Examples and counterexamples -/

/-- Scaled by two and moved by (1, 2, 3). -/
private def aimJoint : Mat4 ℝ := f4 (f4 2 0 0 0) (f4 0 2 0 0) (f4 0 0 2 0) (f4 1 2 3 1)

private theorem aimJoint_det : (toMatrix aimJoint).det ≠ 0 := by
  rw [Matrix.det_succ_row_zero]
  simp only [Fin.sum_univ_four, Matrix.det_fin_three, Matrix.submatrix_apply, toMatrix]
  simp [Fin.succAbove, aimJoint]

/-- Forward is x, from the offset (0, 0, 3); the target is (0, 5, 0) in the space of the joint. -/
private noncomputable def aimJob : Aim ℝ where
  target := f4 1 12 3 0
  forward := f4 1 0 0 0
  offset := f4 0 0 3 0
  up := f4 0 1 0 0
  poleVector := f4 0 1 1 0
  twistAngle := 1 / 3
  weight := 1
  joint := aimJoint
  correction := f4 0 0 0 1
  reached := false

/-- The job reports reached, and its correction brings a point of the ray onto the target. -/
example : ∃ j', aimJob.run idealTrig = .ok j' ∧ j'.reached = true ∧ ∃ (s : ℝ) (x : F4 ℝ), 0 ≤ s ∧
    Turns j'.correction (fun i => aimJob.offset i + s * aimJob.forward i) x ∧ SendsPoint aimJoint x (f4 1 12 3 0) := by
  obtain ⟨j', hj⟩ := C54_runs idealTrig aimJob (by norm_num [dot3, aimJob]) (by norm_num [dot3, aimJob])
  have ha : AffineMat aimJob.joint := by simp [AffineMat, aimJob, aimJoint]
  have hf : dot3 aimJob.forward aimJob.forward = 1 := by norm_num [dot3, aimJob]
  have hτ : SendsPoint aimJob.joint (f4 0 5 0 0) aimJob.target := by
    intro i
    fin_cases i <;> simp [aimJob, aimJoint] <;> norm_num
  have hr : j'.reached = true := by
    by_contra hn
    have := (C54_unreached hj ha aimJoint_det hf hτ).mp (by simpa using hn) 4
    norm_num [dot3, aimJob] at this
  obtain ⟨-, s, x, h1, h2, -, h3⟩ := C54_aims_partial hj hr le_rfl ha aimJoint_det hf hτ (by norm_num [dot3])
  refine ⟨j', hj, hr, s, x, h3 (Or.inl (by norm_num [dot3, aimJob])), h1, h2 ?_⟩
  norm_num [dot3, aimJob]

private def idMat : Mat4 ℝ := f4 (f4 1 0 0 0) (f4 0 1 0 0) (f4 0 0 1 0) (f4 0 0 0 1)

private theorem idMat_det : (toMatrix idMat).det ≠ 0 := by
  rw [Matrix.det_succ_row_zero]
  simp only [Fin.sum_univ_four, Matrix.det_fin_three, Matrix.submatrix_apply, toMatrix]
  simp [Fin.succAbove, idMat]

private theorem idMat_sends (p : F4 ℝ) : SendsPoint idMat p p := by
  intro i
  fin_cases i <;> simp [idMat]

/-- Too close: the offset is 3 away from the joint, the target 1. -/
example : ∃ j', ({ aimJob with joint := idMat, target := f4 0 1 0 0 } : Aim ℝ).run idealTrig = .ok j' ∧ j'.reached = false := by
  obtain ⟨j', hj⟩ := C54_runs idealTrig { aimJob with joint := idMat, target := f4 0 1 0 0 } (by norm_num [dot3, aimJob])
    (by norm_num [dot3, aimJob])
  refine ⟨j', hj, (C54_unreached hj (by simp [AffineMat, idMat]) idMat_det (by norm_num [dot3, aimJob]) (idMat_sends _)).mpr ?_⟩
  intro s
  simp only [dot3, aimJob, f4_0, f4_1, f4_2]
  nlinarith [sq_nonneg s]

/-- C54 is false for the forward ray: with the offset (2, 0, 0) and forward x, the target (1, 0, 0) is closer than every point
of the ray, yet the job reports reached. -/
theorem C54_behind : ∃ j j' : Aim ℝ, j.run idealTrig = .ok j' ∧ j'.reached = true ∧ 1 ≤ j.weight ∧ j.joint = idMat ∧
    dot3 j.forward j.forward = 1 ∧ ∀ s : ℝ, 0 ≤ s → let p : F4 ℝ := fun i => j.offset i + s * j.forward i
      dot3 j.target j.target < dot3 p p ∧ ∀ q, UnitQuat q → ¬ Turns q p j.target := by
  let j : Aim ℝ := { aimJob with joint := idMat, target := f4 1 0 0 0, offset := f4 2 0 0 0 }
  have hf : dot3 j.forward j.forward = 1 := by norm_num [dot3, aimJob, j]
  obtain ⟨j', hj⟩ := C54_runs idealTrig j (by rw [hf]; norm_num) (by rw [hf]; norm_num)
  have hr : j'.reached = true := by
    by_contra hn
    have := (C54_unreached hj (by simp [AffineMat, j, idMat]) idMat_det hf (idMat_sends _)).mp (by simpa using hn) (-2)
    norm_num [dot3, aimJob, j] at this
  refine ⟨j, j', hj, hr, le_rfl, rfl, hf, fun s hs => ?_⟩
  intro p
  have hlt : dot3 j.target j.target < dot3 p p := by
    simp only [dot3, aimJob, j, p, f4_0, f4_1, f4_2]
    nlinarith
  refine ⟨hlt, fun q hq ht => ?_⟩
  rw [unitQuat_iff] at hq
  have h1 := (turns_iff hq).mp ht
  have h2 := dot3_transform q p p hq
  rw [← dot3_congr h1 h1] at h2
  linarith

/-- C54 is false for close targets: at the distance `1e-4` the job reports reached and does not turn the joint, although
forward is at a right angle to the target. -/
theorem C54_close_target : ∃ j j' : Aim ℝ, j.run idealTrig = .ok j' ∧ j'.reached = true ∧ 1 ≤ j.weight ∧ j.joint = idMat ∧
    dot3 j.forward j.forward = 1 ∧ j'.correction = f4 0 0 0 1 ∧ dot3 j.target j.target ≠ 0 ∧
    ∀ s : ℝ, ¬ Turns j'.correction (fun i => j.offset i + s * j.forward i) j.target := by
  let j : Aim ℝ :=
    { aimJob with
      joint := idMat
      target := f4 0 (1 / 10000) 0 0
      offset := f4 0 0 0 0
      poleVector := f4 0 0 0 0
      twistAngle := 0 }
  have hf : dot3 j.forward j.forward = 1 := by norm_num [dot3, aimJob, j]
  obtain ⟨j', hj⟩ := C54_runs idealTrig j (by rw [hf]; norm_num) (by rw [hf]; norm_num)
  have ha : AffineMat j.joint := by simp [AffineMat, j, idMat]
  have hr : j'.reached = true := by
    by_contra hn
    have := (C54_unreached hj ha idMat_det hf (idMat_sends _)).mp (by simpa using hn) 0
    norm_num [dot3, aimJob, j] at this
  have hv := point_invert ha idMat_det (idMat_sends j.target)
  have hc : j'.correction = f4 0 0 0 1 := by
    rcases aim_run hj with ⟨-, h⟩ | ⟨p, hp, -, hc⟩
    · rw [h] at hr; cases hr
    have hinv : j.joint.invert.transformVector j.poleVector = fun _ => 0 := by
      apply ext4 <;> simp [Mat4.transformVector, swz, j]
    generalize j.joint.invert.transformPoint j.target = v at *
    have hvv : dot3 v v = 1 / 100000000 := by
      rw [dot3_congr hv hv]; norm_num [dot3, j]
    obtain ⟨-, o2⟩ := offsetted (o := j.offset) (v := v) hf
    obtain ⟨p', hp', -, hpp⟩ := o2 (by rw [hvv]; norm_num [dot3, j])
    rw [hp] at hp'
    cases hp'
    have hq : quatFromVectors p v = f4 0 0 0 1 := by
      apply (quatFromVectors_cases p v).1
      rw [hpp, hvv, Real.sqrt_mul_self (by norm_num)]
      norm_num
    rcases hc with hc | hc
    · rw [hvv] at hc; norm_num at hc
    rw [hc, hq]
    have hplane : (j.rotatePlane j.joint.invert v (f4 0 0 0 1)).2 = quatUnit := by
      unfold Aim.rotatePlane
      extract_lets up pole refN normal denoms rsq axis cosA fl
      have hz : allNonZero denoms = false := by
        have h0 : denoms 2 = 0 := by
          simp [denoms, setZ, setY, swz2, pick, vec3Length2S_zero, dot3, refN, pole, hinv, vec3Cross, swz]
        simp [allNonZero, h0]
      rw [hz]
      rfl
    rw [hplane]
    have htw : ∀ axis, j.twisted idealTrig axis quatUnit (f4 0 0 0 1) = f4 0 0 0 1 := by
      intro axis
      have h0 : j.twistAngle = 0 := rfl
      simp only [Aim.twisted, h0, real_zero, real_eq, decide_true, if_true]
      apply ext4 <;> simp [quatMul, quatUnit, xor4, swz, flip]
    rw [htw]
    have hw : j.weight = 1 := rfl
    simp only [Aim.weighted, hw, real_one, real_lt, lt_self_iff_false, decide_false, Bool.false_eq_true, if_false]
    apply ext4 <;> simp [quatPositiveW, xor4, sign4, swz, flip]
  refine ⟨j, j', hj, hr, le_rfl, rfl, hf, hc, by norm_num [dot3, j], fun s ht => ?_⟩
  rw [hc] at ht
  have h1 := (turns_iff (by norm_num [norm2])).mp ht
  have h2 := h1.2.1
  rw [(quatTransform_coords _ _).2.1] at h2
  norm_num [j, aimJob] at h2

end Ozz.Props
