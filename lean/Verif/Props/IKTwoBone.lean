import Verif.Proofs.IKTwoBone
import Verif.Model.Trig
import Mathlib.Tactic.FinCases

/-! C52, C53: the two-bone job. -/

namespace Ozz.Props

open IK Spec

/-! ### C52: outputs -/

/-- C52: a middle axis that is not normalised is rejected, and the outputs stay; for any arithmetic. -/
theorem C52_rejected {α : Type} [Add α] [Sub α] [Mul α] [Div α] [Neg α] [NumOps α] (t : Trig α) (j : TwoBone α) (h : vec3IsNormalized j.midAxis = false) :
    j.run t = .err .invalidJob j := by
  simp [TwoBone.run, h]

/-- C52: in exact arithmetic these are the axes whose squared length is not within 0.002 of 1. -/
theorem C52_rejected_exact (t : Trig ℝ) (j : TwoBone ℝ)
    (h : dot3 j.midAxis j.midAxis ≤ 998 / 1000 ∨ 1002 / 1000 ≤ dot3 j.midAxis j.midAxis) :
    j.run t = .err .invalidJob j := by
  apply C52_rejected
  simp only [vec3IsNormalized, real_lt, real_lit, Bool.and_eq_false_iff, decide_eq_false_iff_not, not_lt]
  rcases h with h | h
  · left; simpa [dot3] using h
  · right; simpa [dot3] using h

/-- C52: any other job runs, and keeps its inputs. -/
theorem C52_runs {α : Type} [Add α] [Sub α] [Mul α] [Div α] [Neg α] [NumOps α] (t : Trig α) (j : TwoBone α) (h : vec3IsNormalized j.midAxis = true) :
    ∃ a b r, j.run t = .ok { j with startCorrection := a, midCorrection := b, reached := r } := by
  simp only [TwoBone.run, h, Bool.not_true, Bool.false_eq_true, if_false]
  split_ifs
  · exact ⟨_, _, _, rfl⟩
  · exact ⟨_, _, _, rfl⟩

/-- C52: at a weight of zero or below the corrections are the identity and the target is not reached; for any arithmetic. -/
theorem C52_zero_weight {α : Type} [Add α] [Sub α] [Mul α] [Div α] [Neg α] [NumOps α] {t : Trig α} {j j' : TwoBone α} (hrun : j.run t = .ok j')
    (hw : NumOps.le j.weight NumOps.zero = true) :
    let identity : F4 α := f4 NumOps.zero NumOps.zero NumOps.zero NumOps.one
    j'.startCorrection = identity ∧ j'.midCorrection = identity ∧ j'.reached = false := by
  intro identity
  unfold TwoBone.run at hrun
  split_ifs at hrun with hn
  cases hrun
  exact ⟨rfl, rfl, rfl⟩

/-- C52: reached is only reported at full weight; for any arithmetic. -/
theorem C52_reached_full_weight {α : Type} [Add α] [Sub α] [Mul α] [Div α] [Neg α] [NumOps α] {t : Trig α} {j j' : TwoBone α} (hrun : j.run t = .ok j')
    (hr : j'.reached = true) : NumOps.le NumOps.one j.weight = true := by
  unfold TwoBone.run at hrun
  split_ifs at hrun with hn hw
  · cases hrun; cases hr
  · cases hrun
    exact (Bool.and_eq_true _ _ ▸ hr : _ ∧ _).2

private theorem two_run {t : Trig ℝ} {j j' : TwoBone ℝ} (hrun : j.run t = .ok j') (hw : 0 < j.weight) :
    let r := j.softenTarget j.setup
    let m := j.computeMid t j.setup r.2.2
    let s := j.computeStart t j.setup m r.2.1 r.2.2
    j'.startCorrection = (j.weightOutput s m).1 ∧ j'.midCorrection = (j.weightOutput s m).2 ∧
      (j'.reached = true ↔ r.1 = true ∧ 1 ≤ j.weight) := by
  intro r m s
  unfold TwoBone.run at hrun
  simp only [real_le, real_zero, not_le.mpr hw, decide_false, Bool.false_eq_true, if_false] at hrun
  split_ifs at hrun
  cases hrun
  refine ⟨rfl, rfl, ?_⟩
  simp only [real_le, real_one, Bool.and_eq_true, decide_eq_true_eq]
  exact Iff.rfl

private theorem weight_out (j : TwoBone ℝ) (s m : F4 ℝ) :
    (0 ≤ (j.weightOutput s m).1 3 ∧ 0 ≤ (j.weightOutput s m).2 3) ∧
    (norm2 s = 1 → norm2 (j.weightOutput s m).1 = 1) ∧ (norm2 m = 1 → norm2 (j.weightOutput s m).2 = 1) := by
  simp only [TwoBone.weightOutput, real_one, real_lt, decide_eq_true_eq]
  split_ifs with hw
  · have h1 := lerp_unit (positiveW_nonneg s) hw
    have h2 := lerp_unit (positiveW_nonneg m) hw
    generalize lerp4 quatUnit (quatPositiveW s) (max4 (splat j.weight) zero4) = a at *
    generalize lerp4 quatUnit (quatPositiveW m) (max4 (splat j.weight) zero4) = b at *
    have e1 : ∀ x : F4 ℝ, sum4 (x * x) = norm2 x := fun x => by simp [sum4, norm2]; ring
    have q1 : a * Mat4.splatX (recip4 (sqrt4 (f4 (sum4 (a * a)) (sum4 (b * b)) (NumOps.zero : ℝ) NumOps.zero))) = quatNormalize a := by
      apply ext4 <;> simp [quatNormalize_apply, Mat4.splatX, swz, recip4, recip, sqrt4, e1]
    have q2 : b * swz (recip4 (sqrt4 (f4 (sum4 (a * a)) (sum4 (b * b)) (NumOps.zero : ℝ) NumOps.zero))) 1 1 1 1 = quatNormalize b := by
      apply ext4 <;> simp [quatNormalize_apply, swz, recip4, recip, sqrt4, e1]
    rw [q1, q2]
    have hp : ∀ x : F4 ℝ, 0 < x 3 → norm2 x ≠ 0 := fun x h => by
      have : 0 < norm2 x := by unfold norm2; positivity
      exact this.ne'
    refine ⟨⟨?_, ?_⟩, fun _ => norm2_normalize a (hp a h1), fun _ => norm2_normalize b (hp b h2)⟩
    · show 0 ≤ quatNormalize a 3
      rw [quatNormalize_apply]; positivity
    · show 0 ≤ quatNormalize b 3
      rw [quatNormalize_apply]; positivity
  · exact ⟨⟨positiveW_nonneg s, positiveW_nonneg m⟩, fun h => by rw [positiveW_norm2, h], fun h => by rw [positiveW_norm2, h]⟩

/-- C52: at a positive weight both corrections have a non-negative `w`, whatever the trigonometric functions return. -/
theorem C52_nonneg_w {t : Trig ℝ} {j j' : TwoBone ℝ} (hrun : j.run t = .ok j') (hw : 0 < j.weight) :
    0 ≤ j'.startCorrection 3 ∧ 0 ≤ j'.midCorrection 3 := by
  obtain ⟨h1, h2, -⟩ := two_run hrun hw
  rw [h1, h2]
  exact (weight_out j _ _).1

/-- C52: with a unit axis both corrections are unit quaternions. (A pole vector in the direction of the target is outside
exact arithmetic: `C52_pole_parallel`.) -/
theorem C52_unit {j j' : TwoBone ℝ} (hrun : j.run idealTrig = .ok j') (hw : 0 < j.weight) (ha : dot3 j.midAxis j.midAxis = 1)
    (_hs : AffineMat j.startJoint) (_hds : (toMatrix j.startJoint).det ≠ 0) {τ π : F4 ℝ} (_hτ : SendsPoint j.startJoint τ j.target)
    (_hπ : SendsVector j.startJoint π j.poleVector) (_hpole : dot3 τ π ^ 2 < dot3 τ τ * dot3 π π) :
    UnitQuat j'.startCorrection ∧ UnitQuat j'.midCorrection := by
  obtain ⟨h1, h2, -⟩ := two_run hrun hw
  rw [unitQuat_iff, unitQuat_iff, h1, h2]
  have hm : ∀ l, norm2 (j.computeMid idealTrig j.setup l) = 1 := fun l => (quatFromAxisAngle_unit _ ha).1
  refine ⟨(weight_out j _ _).2.1 ?_, (weight_out j _ _).2.2 (hm _)⟩
  have hlen := (soften_cases j j.setup (by rw [show j.setup.startMidLen2 = vec3Length2S _ from rfl, vec3Length2S_zero]; exact dot3_self_nonneg _)
    (by rw [show j.setup.midEndLen2 = vec3Length2S _ from rfl, vec3Length2S_zero]; exact dot3_self_nonneg _)).1
  generalize j.computeMid idealTrig j.setup _ = m
  generalize (j.softenTarget j.setup).2.1 = v at *
  generalize (j.softenTarget j.setup).2.2 = l at *
  unfold TwoBone.computeStart
  extract_lets e1 e2 rot
  have hrot : norm2 rot = 1 := by
    obtain ⟨c1, c2, c3⟩ := quatFromVectors_cases e2 v
    rcases lt_or_ge √(dot3 e2 e2 * dot3 v v) (1 / 1000000) with h | h
    · show norm2 (quatFromVectors e2 v) = 1
      rw [c1 h]; norm_num [norm2]
    · rcases lt_or_ge (√(dot3 e2 e2 * dot3 v v) + dot3 e2 v) (1 / 1000000 * √(dot3 e2 e2 * dot3 v v)) with h' | h'
      · exact (c2 h h').1
      · exact (c3 h h').1
  split_ifs with hp
  · have hp' : 0 < dot3 v v := by
      rw [← hlen]; simpa using hp
    exact (two_plane j j.setup hp' hlen hrot).1
  · exact hrot

/-! ### C53: reaching -/

/-- C53: reached is reported exactly at full weight for targets within the reach of the bones, the far end shortened by the
soften ratio. `σ` and `η` are the middle and the end joint in the space of the start joint. -/
theorem C53_reached_iff {t : Trig ℝ} {j j' : TwoBone ℝ} (hrun : j.run t = .ok j') (hs : AffineMat j.startJoint)
    (hds : (toMatrix j.startJoint).det ≠ 0) {σ η τ : F4 ℝ} (hσ : SendsPoint j.startJoint σ (j.midJoint 3))
    (hη : SendsPoint j.startJoint η (j.endJoint 3)) (hτ : SendsPoint j.startJoint τ j.target) :
    j'.reached = true ↔ 1 ≤ j.weight ∧ |√(dot3 σ σ) - √(dist2 η σ)| < √(dot3 τ τ) ∧
      √(dot3 τ τ) ≤ (√(dot3 σ σ) + √(dist2 η σ)) * min (max j.soften 0) 1 := by
  rcases le_or_gt j.weight 0 with hw | hw
  · have h := (C52_zero_weight hrun (by simpa using hw)).2.2
    rw [h]
    constructor
    · intro h'; cases h'
    · rintro ⟨h', -⟩; linarith
  · obtain ⟨-, -, h3⟩ := two_run hrun hw
    have q1 : j.setup.startMidLen2 0 = dot3 σ σ := (vec3Length2S_zero _).trans (dot3_congr (point_invert hs hds hσ) (point_invert hs hds hσ))
    have q2 : j.setup.midEndLen2 0 = dist2 η σ := by
      have a := point_invert hs hds hσ
      have b := point_invert hs hds hη
      refine (vec3Length2S_zero _).trans ?_
      simp only [dot3, dist2, Pi.sub_apply, a.1, a.2.1, a.2.2, b.1, b.2.1, b.2.2]; ring
    obtain ⟨-, h4, -⟩ := soften_cases j j.setup
      (by rw [q1]; exact dot3_self_nonneg _) (by rw [q2]; unfold dist2; positivity)
    have q3 := dot3_congr (point_invert hs hds hτ) (point_invert hs hds hτ)
    have q4 : j.setup.invStart.transformPoint j.target = j.startJoint.invert.transformPoint j.target := rfl
    rw [h3, h4, q1, q2, q4, q3]
    constructor
    · rintro ⟨⟨a, b⟩, c⟩; exact ⟨c, a, b⟩
    · rintro ⟨c, a, b⟩; exact ⟨⟨a, b⟩, c⟩

/-- C53: when the job reports reached, the corrections bring the end joint onto the target: exactly, unless the bent chain
points almost opposite to the target, and within `1.5e-3` of the distance then.
`μ` and `ε` are the start and the end joint in the space of the middle joint, `τ` and `π` target and pole vector in the space
of the start joint. The end joint, turned by the middle correction in the space of the middle joint, is `ε'`, which is `p` in
the space of the start joint; turned by the start correction it is `x`.
Missing: a middle axis that is not at a right angle to both bones (`C53_skew_axis`) or only almost unit, a middle joint that
is not a similarity of the start joint, targets closer than `1e-3`. -/
theorem C53_reaches_partial {j j' : TwoBone ℝ} (hrun : j.run idealTrig = .ok j') (hreached : j'.reached = true)
    (hs : AffineMat j.startJoint) (hds : (toMatrix j.startJoint).det ≠ 0)
    (hm : AffineMat j.midJoint) (hdm : (toMatrix j.midJoint).det ≠ 0) {k : ℝ}
    (hk : ∀ v w v' w' x y, SendsVector j.midJoint v x → SendsVector j.startJoint v' x → SendsVector j.midJoint w y →
      SendsVector j.startJoint w' y → dot3 v' w' = k * dot3 v w)
    (ha : dot3 j.midAxis j.midAxis = 1) {μ ε τ π : F4 ℝ} (hμ : SendsPoint j.midJoint μ (j.startJoint 3))
    (hε : SendsPoint j.midJoint ε (j.endJoint 3)) (haμ : dot3 j.midAxis μ = 0) (haε : dot3 j.midAxis ε = 0)
    (hτ : SendsPoint j.startJoint τ j.target) (hfar : 1 / 1000000 ≤ dot3 τ τ)
    (_hπ : SendsVector j.startJoint π j.poleVector) (_hpole : dot3 τ π ^ 2 < dot3 τ τ * dot3 π π)
    {ε' y p x : F4 ℝ} (hε' : Turns j'.midCorrection ε ε') (hy : SendsPoint j.midJoint ε' y) (hp : SendsPoint j.startJoint p y)
    (hx : Turns j'.startCorrection p x) :
    (-(1 - 1 / 1000000) * dot3 τ τ ≤ dot3 p τ → SendsPoint j.startJoint x j.target) ∧ dist2 x τ ≤ 2 / 1000000 * dot3 τ τ := by
  have hw : 1 ≤ j.weight := by
    have := C52_reached_full_weight hrun hreached
    simpa using this
  have hw0 : 0 < j.weight := by linarith
  obtain ⟨h1, h2, h3⟩ := two_run hrun hw0
  have hr := (h3.mp hreached).1
  obtain ⟨sc, -, sr⟩ := soften_cases j j.setup
    (by rw [show j.setup.startMidLen2 = vec3Length2S _ from rfl, vec3Length2S_zero]; exact dot3_self_nonneg _)
    (by rw [show j.setup.midEndLen2 = vec3Length2S _ from rfl, vec3Length2S_zero]; exact dot3_self_nonneg _)
  obtain ⟨t1, t2, t3, t4⟩ := sr hr
  rw [t1] at h1
  have hv := point_invert hs hds hτ
  have hv' : Same3 (j.setup.invStart.transformPoint j.target) τ := hv
  generalize j.setup.invStart.transformPoint j.target = v at *
  generalize (j.softenTarget j.setup).2.2 = len2 at *
  have hvv : dot3 v v = dot3 τ τ := dot3_congr hv' hv'
  have hmu := point_invert hm hdm hμ
  have hep := point_invert hm hdm hε
  have hau : dot3 j.midAxis j.setup.startMidMs = 0 := by
    have : dot3 j.midAxis (-(j.midJoint.invert.transformPoint (j.startJoint 3))) = -dot3 j.midAxis μ := by
      rw [← dot3_congr (Same3.refl j.midAxis) hmu]; simp [dot3]; ring
    exact this.trans (by rw [haμ, neg_zero])
  have hav : dot3 j.midAxis j.setup.midEndMs = 0 := (dot3_congr (Same3.refl j.midAxis) hep).trans haε
  have hb := mid_bend j hs hds hm hdm hk ha hau hav (len2 := len2) (by rw [t2]; exact dot3_self_nonneg _)
    (by rw [t2]; exact t3) (by rw [t2]; exact t4)
  have hmun : norm2 (j.computeMid idealTrig j.setup len2) = 1 := (quatFromAxisAngle_unit _ ha).1
  have hwo : ∀ a b, j.weightOutput a b = (quatPositiveW a, quatPositiveW b) := by
    intro a b
    simp only [TwoBone.weightOutput, real_one, real_lt, decide_eq_true_eq]
    rw [if_neg (not_lt.mpr hw)]
  rw [hwo] at h1 h2
  simp only at h1 h2
  -- the bent chain in the space of the start joint
  have hcm : norm2 j'.midCorrection = 1 := by rw [h2, positiveW_norm2, hmun]
  have g1 : Same3 ε' (quatTransformVector (j.computeMid idealTrig j.setup len2) j.setup.midEndMs) := by
    have a1 := (turns_iff hcm).mp hε'
    rw [h2] at a1
    exact Same3.trans a1 (Same3.trans (positiveW_transform _ _) (transform_congr _ (Same3.symm hep)))
  have g2 : Same3 p (j.setup.startMidSs + toStart j.startJoint j.midJoint ε') := by
    have a1 := point_invert hs hds hp
    have a2 := sendsPoint_iff.mp hy
    refine Same3.trans (Same3.symm a1) ?_
    rw [transformPoint_congr _ a2]
    have a3 : j.midJoint.transformPoint ε' = j.midJoint 3 + j.midJoint.transformVector ε' := by
      have := transformPoint_add j.midJoint (fun _ => 0) ε'
      rw [transformPoint_zero] at this
      rw [← this]
      congr 1
      funext i; simp
    rw [a3, transformPoint_add]
    exact Same3.refl _
  rw [toStart_congr _ _ g1] at g2
  generalize he : j.setup.startMidSs +
    toStart j.startJoint j.midJoint (quatTransformVector (j.computeMid idealTrig j.setup len2) j.setup.midEndMs) = e at *
  rw [t2] at hb
  obtain ⟨f1, f2, f3⟩ := fromVectors_same hb (by rw [hvv]; exact hfar)
  have hpos : 0 < dot3 v v := by rw [hvv]; linarith
  obtain ⟨u1, q, u2, u3, u4⟩ := two_plane j j.setup hpos t2 f1
  have hst : j.computeStart idealTrig j.setup (j.computeMid idealTrig j.setup len2) v len2 =
      j.rotatePlane idealTrig j.setup (quatFromVectors e v) v len2 := by
    unfold TwoBone.computeStart
    extract_lets e1 e2 rot
    have : e2 = e := he
    have hl : 0 < len2 0 := by rw [t2]; exact hpos
    rw [if_pos (by simpa using hl)]
    show j.rotatePlane idealTrig j.setup (quatFromVectors e2 v) v len2 = _
    rw [this]
  rw [hst] at h1
  have hcs : norm2 j'.startCorrection = 1 := by rw [h1, positiveW_norm2, u1]
  have g3 : Same3 x (quatTransformVector q (quatTransformVector (quatFromVectors e v) e)) := by
    have a1 := (turns_iff hcs).mp hx
    rw [h1] at a1
    exact Same3.trans a1 (Same3.trans (positiveW_transform _ _) (Same3.trans (u4 p)
      (transform_congr q (transform_congr _ g2))))
  have hev : dot3 e v = dot3 p τ := dot3_congr (Same3.symm g2) hv'
  have hnear : -(1 - 1 / 1000000) * dot3 v v ≤ dot3 e v → Same3 x τ := fun h =>
    Same3.trans g3 (Same3.trans (transform_congr q (f2 h)) (Same3.trans u3 hv'))
  refine ⟨?_, ?_⟩
  · intro h
    have := hnear (by rw [hvv, hev]; exact h)
    rw [sendsPoint_iff, transformPoint_congr _ this]
    exact sendsPoint_iff.mp hτ
  · rcases le_or_gt (-(1 - 1 / 1000000) * dot3 v v) (dot3 e v) with h | h
    · have h1 := hnear h
      simp only [dist2, h1.1, h1.2.1, h1.2.2, sub_self]
      linarith
    · have h2 : Same3 (quatTransformVector (quatFromVectors e v) e) (-e) := same3_of_fin3 (f3 h)
      have h3 : Same3 x (quatTransformVector q (-e)) := Same3.trans g3 (transform_congr q h2)
      have h4 := dot3_transform q (-e) (-e) u2
      have h5 := dot3_transform q (-e) v u2
      rw [dot3_congr (Same3.symm h3) (Same3.symm h3)] at h4
      rw [dot3_congr (Same3.symm h3) u3, dot3_congr (Same3.refl _) hv'] at h5
      have h6 : dot3 (-e) (-e) = dot3 τ τ := by rw [← hvv, ← hb]; simp [dot3]
      have h7 : dot3 (-e) v = -dot3 e v := by simp [dot3]; ring
      have h8 : dist2 x τ = dot3 x x - 2 * dot3 x τ + dot3 τ τ := by simp only [dist2, dot3]; ring
      rw [h8, h4, h5, h6, h7]
      rw [hvv] at h
      linarith

/-! ### Examples and counterexamples -/

private def diagAt (d x y z : ℝ) : Mat4 ℝ := f4 (f4 d 0 0 0) (f4 0 d 0 0) (f4 0 0 d 0) (f4 x y z 1)

private theorem diagAt_det {d : ℝ} (x y z : ℝ) (hd : d ≠ 0) : (toMatrix (diagAt d x y z)).det ≠ 0 := by
  rw [Matrix.det_succ_row_zero]
  simp only [Fin.sum_univ_four, Matrix.det_fin_three, Matrix.submatrix_apply, toMatrix]
  simp [Fin.succAbove, diagAt, hd]

private theorem diagAt_affine (d x y z : ℝ) : AffineMat (diagAt d x y z) := by simp [AffineMat, diagAt]

private theorem diagAt_point (d x y z : ℝ) (p : F4 ℝ) : SendsPoint (diagAt d x y z) p (f4 (d * p 0 + x) (d * p 1 + y) (d * p 2 + z) 1) := by
  intro i
  fin_cases i <;> simp [diagAt]

private theorem diagAt_vector (d x y z : ℝ) (p : F4 ℝ) : SendsVector (diagAt d x y z) p (f4 (d * p 0) (d * p 1) (d * p 2) 1) := by
  intro i
  fin_cases i <;> simp [diagAt]

private theorem diagAt_similar {d d' x y z x' y' z' : ℝ} (hd : d ≠ 0) : ∀ v w v' w' a b : F4 ℝ, SendsVector (diagAt d' x' y' z') v a →
    SendsVector (diagAt d x y z) v' a → SendsVector (diagAt d' x' y' z') w b → SendsVector (diagAt d x y z) w' b →
    dot3 v' w' = (d' / d) ^ 2 * dot3 v w := by
  intro v w v' w' a b h1 h2 h3 h4
  have e : ∀ v v' : F4 ℝ, ∀ a, SendsVector (diagAt d' x' y' z') v a → SendsVector (diagAt d x y z) v' a →
      Same3 v' (fun i => d' / d * v i) := by
    intro v v' a h1 h2
    have a0 := (h1 0).symm.trans (h2 0)
    have a1 := (h1 1).symm.trans (h2 1)
    have a2 := (h1 2).symm.trans (h2 2)
    simp [diagAt] at a0 a1 a2
    refine ⟨?_, ?_, ?_⟩
    · beta_reduce
      rw [div_mul_eq_mul_div, eq_div_iff hd]; linarith
    · beta_reduce
      rw [div_mul_eq_mul_div, eq_div_iff hd]; linarith
    · beta_reduce
      rw [div_mul_eq_mul_div, eq_div_iff hd]; linarith
  rw [dot3_congr (e v v' a h1 h2) (e w w' b h3 h4)]
  simp only [dot3]; ring

/-- Bones of length 1 and 2 in the space of the start joint, bent by a right angle; the target at the distance 2. -/
private noncomputable def twoJob : TwoBone ℝ where
  target := f4 1 2 7 1
  midAxis := f4 0 0 1 0
  poleVector := f4 0 1 0 0
  twistAngle := 1 / 3
  soften := 1
  weight := 1
  startJoint := diagAt 2 1 2 3
  midJoint := diagAt 4 1 4 3
  endJoint := diagAt 1 5 4 3
  startCorrection := f4 0 0 0 1
  midCorrection := f4 0 0 0 1
  reached := false

/-- The job reports reached, and its corrections bring the end joint to the target (0, 0, 2). -/
example : ∃ j' ε' y p x, twoJob.run idealTrig = .ok j' ∧ j'.reached = true ∧ Turns j'.midCorrection (f4 1 0 0 0) ε' ∧
    SendsPoint twoJob.midJoint ε' y ∧ SendsPoint twoJob.startJoint p y ∧ Turns j'.startCorrection p x ∧
    dist2 x (f4 0 0 2 0) ≤ 8 / 1000000 := by
  obtain ⟨a, b, r, hj⟩ := C52_runs idealTrig twoJob (by norm_num [vec3IsNormalized, twoJob])
  have hds : (toMatrix twoJob.startJoint).det ≠ 0 := diagAt_det _ _ _ (by norm_num)
  have hdm : (toMatrix twoJob.midJoint).det ≠ 0 := diagAt_det _ _ _ (by norm_num)
  have hs : AffineMat twoJob.startJoint := diagAt_affine _ _ _ _
  have hτ : SendsPoint twoJob.startJoint (f4 0 0 2 0) twoJob.target := by
    intro i; fin_cases i <;> simp [twoJob, diagAt]
    all_goals norm_num
  have hσ : SendsPoint twoJob.startJoint (f4 0 1 0 0) (twoJob.midJoint 3) := by
    intro i; fin_cases i <;> simp [twoJob, diagAt]
    all_goals norm_num
  have hη : SendsPoint twoJob.startJoint (f4 2 1 0 0) (twoJob.endJoint 3) := by
    intro i; fin_cases i <;> simp [twoJob, diagAt]
    all_goals norm_num
  have hπ : SendsVector twoJob.startJoint (f4 0 (1 / 2) 0 0) twoJob.poleVector := by
    intro i; fin_cases i <;> simp [twoJob, diagAt]
  have hμ : SendsPoint twoJob.midJoint (f4 0 (-1 / 2) 0 0) (twoJob.startJoint 3) := by
    intro i; fin_cases i <;> simp [twoJob, diagAt]
    all_goals norm_num
  have hε : SendsPoint twoJob.midJoint (f4 1 0 0 0) (twoJob.endJoint 3) := by
    intro i; fin_cases i <;> simp [twoJob, diagAt]
    all_goals norm_num
  have hax : dot3 twoJob.midAxis twoJob.midAxis = 1 := by norm_num [dot3, twoJob]
  have hp : dot3 (f4 0 0 2 0) (f4 0 (1 / 2 : ℝ) 0 0) ^ 2 < dot3 (f4 0 0 2 0) (f4 0 0 2 0) * dot3 (f4 0 (1 / 2) 0 0) (f4 0 (1 / 2) 0 0) := by
    norm_num [dot3]
  have s4 : √(4 : ℝ) = 2 := by rw [show (4 : ℝ) = 2 ^ 2 by norm_num]; exact Real.sqrt_sq (by norm_num)
  have hr : r = true := by
    refine (C53_reached_iff hj hs hds hσ hη hτ).mpr ?_
    norm_num [dot3, dist2, twoJob, s4]
  obtain ⟨hu1, hu2⟩ := C52_unit hj (by norm_num [twoJob]) hax hs hds hτ hπ hp
  rw [unitQuat_iff] at hu1 hu2
  have hg : SendsPoint twoJob.startJoint (twoJob.startJoint.invert.transformPoint (twoJob.midJoint.transformPoint (quatTransformVector b (f4 1 0 0 0))))
      (twoJob.midJoint.transformPoint (quatTransformVector b (f4 1 0 0 0))) := by
    rw [sendsPoint_iff]; exact Same3.symm (invert_point hs hds _)
  refine ⟨_, quatTransformVector b (f4 1 0 0 0), twoJob.midJoint.transformPoint (quatTransformVector b (f4 1 0 0 0)),
    _, quatTransformVector a _, hj, hr, (turns_iff hu2).mpr (Same3.refl _), sendsPoint_iff.mpr (Same3.refl _), hg,
    (turns_iff hu1).mpr (Same3.refl _), ?_⟩
  have := (C53_reaches_partial hj hr hs hds (diagAt_affine _ _ _ _) hdm (diagAt_similar (by norm_num)) hax hμ hε (by norm_num [dot3, twoJob])
    (by norm_num [dot3, twoJob]) hτ (by norm_num [dot3]) hπ hp ((turns_iff hu2).mpr (Same3.refl _)) (sendsPoint_iff.mpr (Same3.refl _)) hg
    ((turns_iff hu1).mpr (Same3.refl _))).2
  refine this.trans ?_
  norm_num [dot3]

/-- C53 is false for an axis along a bone: the bones (1, 0, 0) and (0, 1, 0) and the axis (0, 1, 0). The target (0, 0, 1) is
reported reached, but every correction about that axis leaves the end joint at the distance √2 of the start joint. -/
theorem C53_skew_axis : ∃ j j' : TwoBone ℝ, j.run idealTrig = .ok j' ∧ j'.reached = true ∧ dot3 j.midAxis j.midAxis = 1 ∧
    j.startJoint = diagAt 1 0 0 0 ∧ j.midJoint = diagAt 1 1 0 0 ∧ j.endJoint 3 = f4 1 1 0 1 ∧ j.target = f4 0 0 1 1 ∧
    j.poleVector = f4 0 1 0 0 ∧ UnitQuat j'.startCorrection ∧ UnitQuat j'.midCorrection ∧
    ∀ ε' y p x, Turns j'.midCorrection (f4 0 1 0 0) ε' → SendsPoint j.midJoint ε' y → SendsPoint j.startJoint p y →
      Turns j'.startCorrection p x → dot3 x x = 2 ∧ ¬ SendsPoint j.startJoint x j.target := by
  let j : TwoBone ℝ :=
    { twoJob with
      target := f4 0 0 1 1
      midAxis := f4 0 1 0 0
      startJoint := diagAt 1 0 0 0
      midJoint := diagAt 1 1 0 0
      endJoint := diagAt 1 1 1 0 }
  obtain ⟨a, b, r, hj⟩ := C52_runs idealTrig j (by norm_num [vec3IsNormalized, j])
  have hds : (toMatrix j.startJoint).det ≠ 0 := diagAt_det _ _ _ (by norm_num)
  have hs : AffineMat j.startJoint := diagAt_affine _ _ _ _
  have hτ : SendsPoint j.startJoint (f4 0 0 1 0) j.target := by
    intro i; fin_cases i <;> simp [j, diagAt]
  have hσ : SendsPoint j.startJoint (f4 1 0 0 0) (j.midJoint 3) := by
    intro i; fin_cases i <;> simp [j, diagAt]
  have hη : SendsPoint j.startJoint (f4 1 1 0 0) (j.endJoint 3) := by
    intro i; fin_cases i <;> simp [j, diagAt]
  have hπ : SendsVector j.startJoint (f4 0 1 0 0) j.poleVector := by
    intro i; fin_cases i <;> simp [j, twoJob, diagAt]
  have hax : dot3 j.midAxis j.midAxis = 1 := by norm_num [dot3, j]
  have hr : r = true := by
    refine (C53_reached_iff hj hs hds hσ hη hτ).mpr ?_
    norm_num [dot3, dist2, twoJob, j]
  obtain ⟨hu1, hu2⟩ := C52_unit hj (by norm_num [twoJob, j]) hax hs hds hτ hπ (by norm_num [dot3])
  refine ⟨j, _, hj, hr, hax, rfl, rfl, rfl, rfl, rfl, hu1, hu2, ?_⟩
  rw [unitQuat_iff] at hu1 hu2
  intro ε' y p x h1 h2 h3 h4
  have hm : b = quatPositiveW (j.computeMid idealTrig j.setup (j.softenTarget j.setup).2.2) := by
    obtain ⟨-, q, -⟩ := two_run hj (by norm_num [twoJob, j])
    have hwt : j.weight = 1 := rfl
    simp only [TwoBone.weightOutput, hwt, real_one, real_lt, lt_self_iff_false, decide_false, Bool.false_eq_true, if_false] at q
    exact q
  have hq : ∃ g, j.computeMid idealTrig j.setup (j.softenTarget j.setup).2.2 = quatFromAxisAngle idealTrig.sinCos j.midAxis g := ⟨_, rfl⟩
  obtain ⟨g, hq⟩ := hq
  obtain ⟨-, k, k0, k1, k2⟩ := quatFromAxisAngle_unit g hax
  rw [hq] at hm
  have hfix : Same3 ε' (f4 0 1 0 0) := by
    have g := (turns_iff hu2).mp h1
    rw [show ({ j with startCorrection := a, midCorrection := b, reached := r } : TwoBone ℝ).midCorrection = b from rfl, hm] at g
    exact Same3.trans g (Same3.trans (positiveW_transform _ _) (transform_axis (k := k) ⟨k0, k1, k2⟩))
  have hy : Same3 y (f4 1 1 0 0) := by
    have g := sendsPoint_iff.mp h2
    rw [transformPoint_congr _ hfix] at g
    refine Same3.trans g ?_
    simp [Same3, Mat4.transformPoint, swz, j, diagAt]
  have hp : Same3 p (f4 1 1 0 0) := by
    have g := sendsPoint_iff.mp h3
    refine Same3.trans (Same3.symm ?_) (Same3.trans (Same3.symm (Same3.refl y)) hy)
    refine Same3.trans g ?_
    simp [Same3, Mat4.transformPoint, swz, j, diagAt]
  have hx : dot3 x x = 2 := by
    have g := (turns_iff hu1).mp h4
    rw [dot3_congr g g, dot3_transform _ _ _ hu1, dot3_congr hp hp]
    norm_num [dot3]
  refine ⟨hx, fun hc => ?_⟩
  have g := sendsPoint_iff.mp hc
  have g' : Same3 x (f4 0 0 1 0) := by
    refine Same3.symm ?_
    have e : Same3 (j.startJoint.transformPoint x) x := by simp [Same3, Mat4.transformPoint, swz, j, diagAt]
    exact Same3.trans g e
  rw [dot3_congr g' g'] at hx
  norm_num [dot3] at hx

private def f32At (x y : Nat) : Mat4 F32 :=
  f4 (f4 (F32.ofNat 1) (F32.ofNat 0) (F32.ofNat 0) (F32.ofNat 0)) (f4 (F32.ofNat 0) (F32.ofNat 1) (F32.ofNat 0) (F32.ofNat 0))
    (f4 (F32.ofNat 0) (F32.ofNat 0) (F32.ofNat 1) (F32.ofNat 0)) (f4 (F32.ofNat x) (F32.ofNat y) (F32.ofNat 0) (F32.ofNat 1))

/-- The bones (1, 0, 0) and (0, 1, 0), the target and the pole vector (0, 1, 0). -/
private def poleJob : TwoBone F32 where
  target := f4 (F32.ofNat 0) (F32.ofNat 1) (F32.ofNat 0) (F32.ofNat 0)
  midAxis := f4 (F32.ofNat 0) (F32.ofNat 0) (F32.ofNat 1) (F32.ofNat 0)
  poleVector := f4 (F32.ofNat 0) (F32.ofNat 1) (F32.ofNat 0) (F32.ofNat 0)
  twistAngle := F32.ofNat 0
  soften := F32.ofNat 1
  weight := F32.ofNat 1
  startJoint := f32At 0 0
  midJoint := f32At 1 0
  endJoint := f32At 1 1
  startCorrection := f4 (F32.ofNat 0) (F32.ofNat 0) (F32.ofNat 0) (F32.ofNat 1)
  midCorrection := f4 (F32.ofNat 0) (F32.ofNat 0) (F32.ofNat 0) (F32.ofNat 1)
  reached := false

/-- In `f32` with the polynomials of the crate, a pole vector along the target makes the start correction NaN, in a job
that reports reached. -/
theorem C52_pole_parallel : ∃ j j' : TwoBone F32, j.run Trig.polyTrig = .ok j' ∧ j'.reached = true ∧
    j.poleVector = j.target ∧ (j'.startCorrection 0).isNaN = true ∧ (j'.startCorrection 3).isNaN = true := by
  have h : (match poleJob.run Trig.polyTrig with
    | .ok j' => j'.reached && (j'.startCorrection 0).isNaN && (j'.startCorrection 3).isNaN
    | _ => false) = true := by decide +kernel
  cases hr : poleJob.run Trig.polyTrig with
  | ok j' =>
    rw [hr] at h
    simp only [Bool.and_eq_true, decide_eq_true_eq] at h
    exact ⟨poleJob, j', hr, h.1.1, rfl, h.1.2, h.2⟩
  | err e s => rw [hr] at h; cases h
  | panic => rw [hr] at h; cases h

/-- With the pole vector (1, 1, 0) the same job gives numbers. -/
example : (match ({ poleJob with poleVector := f4 (F32.ofNat 1) (F32.ofNat 1) (F32.ofNat 0) (F32.ofNat 0) } : TwoBone F32).run Trig.polyTrig with
    | .ok j' => j'.reached && !(j'.startCorrection 0).isNaN && !(j'.startCorrection 3).isNaN
    | _ => false) = true := by decide +kernel

end Ozz.Props
