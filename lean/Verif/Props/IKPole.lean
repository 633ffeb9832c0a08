import Verif.Proofs.IKPole
import Verif.Props.IKTwoBone
import Verif.Props.IKAim
import Mathlib.Tactic.FinCases

/-! C58, C59, C60: soft reach and pole vectors of the IK jobs. -/

namespace Ozz.Props

open IK Spec

/-- The corrections of a job at full weight. -/
private theorem full_run {j j' : TwoBone ℝ} (hrun : j.run idealTrig = .ok j') (hw : 1 ≤ j.weight) :
    let r := j.softenTarget j.setup
    let m := j.computeMid idealTrig j.setup r.2.2
    j'.startCorrection = quatPositiveW (j.computeStart idealTrig j.setup m r.2.1 r.2.2) ∧ j'.midCorrection = quatPositiveW m := by
  intro r m
  unfold TwoBone.run at hrun
  simp only [real_le, real_zero, not_le.mpr (lt_of_lt_of_le one_pos hw), decide_false, Bool.false_eq_true, if_false] at hrun
  split_ifs at hrun
  cases hrun
  simp only [TwoBone.weightOutput, real_one, real_lt, decide_eq_true_eq]
  rw [if_neg (not_lt.mpr hw)]
  exact ⟨rfl, rfl⟩

/-- The bent chain and the rotation of its end onto the target's direction. -/
private theorem full_solve {j j' : TwoBone ℝ} (hrun : j.run idealTrig = .ok j') (hw : 1 ≤ j.weight) {k : ℝ} {μ ε σ η τ π : F4 ℝ}
    (R : Rig j k μ ε σ η τ π) {ε' y p : F4 ℝ} (hε' : Turns j'.midCorrection ε ε') (hy : SendsPoint j.midJoint ε' y)
    (hp : SendsPoint j.startJoint p y) :
    let d := softDistance (√(dot3 σ σ) + √(dist2 η σ)) j.soften √(dot3 τ τ)
    let D := reachDistance σ η τ j.soften
    0 < d ∧ 0 < D ∧ dot3 p p = D ^ 2 ∧ dot3 (toStart j.startJoint j.midJoint j.midAxis) p = 0 ∧ (1 / 1000000 ≤ D * d → -(1 - 1 / 1000000) * √(dot3 p p * dot3 τ τ) ≤ dot3 p τ →
      ∃ rot v len2 u w, norm2 rot = 1 ∧ Same3 v (fun i => d / √(dot3 τ τ) * τ i) ∧ len2 0 = dot3 v v ∧ 0 < dot3 v v ∧
        Same3 (quatTransformVector rot p) (fun i => D / √(dot3 τ τ) * τ i) ∧
        j'.startCorrection = quatPositiveW (j.rotatePlane idealTrig j.setup rot v len2) ∧
        dot3 j.midAxis u = 0 ∧ dot3 j.midAxis w = 0 ∧ 0 ≤ dot3 (vec3Cross u j.midAxis) w ∧
        Same3 p (toStart j.startJoint j.midJoint (u + w)) ∧ Same3 σ (toStart j.startJoint j.midJoint u)) := by
  intro d D
  obtain ⟨h1, h2⟩ := full_run hrun hw
  have hmu := point_invert R.affineM R.detM R.startM
  have hep := point_invert R.affineM R.detM R.endM
  have hsi := point_invert R.affineS R.detS R.midS
  have het := point_invert R.affineS R.detS R.endS
  have hta := point_invert R.affineS R.detS R.targetS
  have q1 : j.setup.startMidLen2 0 = dot3 σ σ := (vec3Length2S_zero _).trans (dot3_congr hsi hsi)
  have q2 : j.setup.midEndLen2 0 = dist2 η σ := by
    refine (vec3Length2S_zero _).trans ?_
    simp only [dot3, dist2, Pi.sub_apply, hsi.1, hsi.2.1, hsi.2.2, het.1, het.2.1, het.2.2]; ring
  have hau : dot3 j.midAxis j.setup.startMidMs = 0 := by
    have : dot3 j.midAxis (-(j.midJoint.invert.transformPoint (j.startJoint 3))) = -dot3 j.midAxis μ := by
      rw [← dot3_congr (Same3.refl j.midAxis) hmu]; simp [dot3]; ring
    exact this.trans (by rw [R.axisS, neg_zero])
  have hav : dot3 j.midAxis j.setup.midEndMs = 0 := (dot3_congr (Same3.refl j.midAxis) hep).trans R.axisE
  have hta' : Same3 (j.setup.invStart.transformPoint j.target) τ := hta
  have hvv := dot3_congr hta' hta'
  have htp : 0 < √(dot3 τ τ) := Real.sqrt_pos.mpr R.apart
  have hsv := soften_value j j.setup (by rw [q1]; exact dot3_self_nonneg _) (by rw [q2]; exact R.bone2.le)
  simp only [q1, q2, hvv] at hsv
  obtain ⟨hd, hlen2, hv⟩ := hsv htp
  have hdd : softDistance (√(dot3 σ σ) + √(dist2 η σ)) j.soften √(dot3 τ τ) = d := rfl
  rw [hdd] at hd hlen2 hv
  have hmr := mid_reach j R.affineS R.detS R.affineM R.detM R.similar R.unit hau hav (len := d) hd.le hlen2
    (by rw [q1]; exact R.bone1) (by rw [q2]; exact R.bone2)
  generalize (j.softenTarget j.setup).2.2 = len2 at *
  generalize (j.softenTarget j.setup).2.1 = v at *
  obtain ⟨r1, r2, r3, r4⟩ := hmr
  rw [q1, q2] at r1
  have hD : min (max d |√(dot3 σ σ) - √(dist2 η σ)|) (√(dot3 σ σ) + √(dist2 η σ)) = D := rfl
  rw [hD] at r1
  have hDp : 0 < D := by
    rw [← hD]
    refine lt_min (lt_of_lt_of_le hd (le_max_left _ _)) ?_
    have := Real.sqrt_pos.mpr R.bone1
    positivity
  have hvs : Same3 v (fun i => d / √(dot3 τ τ) * τ i) := by
    refine ⟨?_, ?_, ?_⟩
    · rw [hv, hta'.1]
    · rw [hv, hta'.2.1]
    · rw [hv, hta'.2.2]
  have hvd : dot3 v v = d ^ 2 := by
    rw [dot3_congr hvs hvs]
    have : dot3 (fun i => d / √(dot3 τ τ) * τ i) (fun i => d / √(dot3 τ τ) * τ i) = (d / √(dot3 τ τ)) ^ 2 * dot3 τ τ := by simp only [dot3]; ring
    rw [this, div_pow, Real.sq_sqrt R.apart.le]
    field_simp [R.apart.ne']
  clear_value d D
  have hmun : norm2 (j.computeMid idealTrig j.setup len2) = 1 := (quatFromAxisAngle_unit _ R.unit).1
  have hcm : norm2 j'.midCorrection = 1 := by rw [h2, positiveW_norm2, hmun]
  have g1 : Same3 ε' (quatTransformVector (j.computeMid idealTrig j.setup len2) j.setup.midEndMs) := by
    have a1 := (turns_iff hcm).mp hε'
    rw [h2] at a1
    exact Same3.trans a1 (Same3.trans (positiveW_transform _ _) (transform_congr _ (Same3.symm hep)))
  have g2 : Same3 p (j.setup.startMidSs + toStart j.startJoint j.midJoint ε') := by
    have a1 := point_invert R.affineS R.detS hp
    have a2 := sendsPoint_iff.mp hy
    refine Same3.trans (Same3.symm a1) ?_
    rw [transformPoint_congr _ a2]
    have a3 : j.midJoint.transformPoint ε' = j.midJoint 3 + j.midJoint.transformVector ε' := by
      have := transformPoint_add j.midJoint (fun _ => 0) ε'
      rw [transformPoint_zero] at this
      rw [← this]
      congr 1
      funext i; simp
    rw [a3, transformPoint_add]
    exact Same3.refl _
  rw [toStart_congr _ _ g1] at g2
  have hee : dot3 p p = D ^ 2 := (dot3_congr g2 g2).trans r1
  generalize hw' : quatTransformVector (j.computeMid idealTrig j.setup len2) j.setup.midEndMs = w at *
  have hadd : Same3 p (toStart j.startJoint j.midJoint (j.setup.startMidMs + w)) := by
    rw [toStart_add]
    refine Same3.trans g2 ?_
    exact ⟨by simp only [Pi.add_apply, r4.1], by simp only [Pi.add_apply, r4.2.1], by simp only [Pi.add_apply, r4.2.2]⟩
  refine ⟨hd, hDp, hee, ?_, ?_⟩
  · rw [dot3_congr (Same3.refl _) hadd, toStart_dot R.affineS R.detS R.similar]
    have : dot3 j.midAxis (j.setup.startMidMs + w) = dot3 j.midAxis j.setup.startMidMs + dot3 j.midAxis w := by simp only [dot3, Pi.add_apply]; ring
    rw [this, hau, r2, add_zero, mul_zero]
  intro hfar hnear
  have hσ' : Same3 σ (toStart j.startJoint j.midJoint j.setup.startMidMs) :=
    Same3.trans (Same3.symm (hsi : Same3 j.setup.startMidSs σ)) r4
  have hpos : 0 < dot3 v v := by rw [hvd]; positivity
  obtain ⟨-, -, c3⟩ := quatFromVectors_cases (j.setup.startMidSs + toStart j.startJoint j.midJoint w) v
  have hn : √(dot3 (j.setup.startMidSs + toStart j.startJoint j.midJoint w) (j.setup.startMidSs + toStart j.startJoint j.midJoint w) * dot3 v v) = D * d := by
    rw [r1, hvd, ← mul_pow, Real.sqrt_sq (by positivity)]
  have hdot : dot3 (j.setup.startMidSs + toStart j.startJoint j.midJoint w) v = d / √(dot3 τ τ) * dot3 p τ := by
    rw [dot3_congr (Same3.symm g2) hvs]; simp only [dot3]; ring
  rw [hn, hdot, r1] at c3
  have hn2 : √(dot3 p p * dot3 τ τ) = D * √(dot3 τ τ) := by
    rw [hee, Real.sqrt_mul (by positivity), Real.sqrt_sq hDp.le]
  rw [hn2] at hnear
  obtain ⟨f1, -, f2⟩ := c3 hfar (by
    have : d / √(dot3 τ τ) * (-(1 - 1 / 1000000) * (D * √(dot3 τ τ))) ≤ d / √(dot3 τ τ) * dot3 p τ :=
      mul_le_mul_of_nonneg_left hnear (by positivity)
    have e : d / √(dot3 τ τ) * (-(1 - 1 / 1000000) * (D * √(dot3 τ τ))) = -(1 - 1 / 1000000) * (D * d) := by field_simp
    rw [e] at this
    linarith)
  refine ⟨quatFromVectors (j.setup.startMidSs + toStart j.startJoint j.midJoint w) v, v, len2, j.setup.startMidMs, w, f1, hvs,
    by rw [hlen2, hvd], hpos, ?_, ?_, hau, r2, r3, hadd, hσ'⟩
  · refine Same3.trans (transform_congr _ g2) (Same3.trans (same3_of_fin3 (b := fun i => D ^ 2 / (D * d) * v i) f2) ?_)
    have e : D ^ 2 / (D * d) * (d / √(dot3 τ τ)) = D / √(dot3 τ τ) := by field_simp
    refine ⟨?_, ?_, ?_⟩
    · show D ^ 2 / (D * d) * v 0 = _
      rw [hvs.1, ← e]; ring
    · show D ^ 2 / (D * d) * v 1 = _
      rw [hvs.2.1, ← e]; ring
    · show D ^ 2 / (D * d) * v 2 = _
      rw [hvs.2.2, ← e]; ring
  · rw [h1]
    unfold TwoBone.computeStart
    extract_lets e1 e2 rot
    have : e2 = j.setup.startMidSs + toStart j.startJoint j.midJoint w := by rw [← hw']; rfl
    have hl : 0 < len2 0 := by rw [hlen2]; positivity
    rw [if_pos (by simpa using hl)]
    show quatPositiveW (j.rotatePlane idealTrig j.setup (quatFromVectors e2 v) v len2) = _
    rw [this]

/-! ### C58: soft reach -/

/-- C58: at full weight the end joint ends up at the softened distance, within what the bones can span.
The end joint, turned by the middle correction in the space of the middle joint, is `ε'`, which is `p` in the space of the
start joint; turned by the start correction it is `x`. -/
theorem C58_distance {j j' : TwoBone ℝ} (hrun : j.run idealTrig = .ok j') (hw : 1 ≤ j.weight) {k : ℝ} {μ ε σ η τ π : F4 ℝ}
    (R : Rig j k μ ε σ η τ π) {ε' y p x : F4 ℝ} (hε' : Turns j'.midCorrection ε ε') (hy : SendsPoint j.midJoint ε' y)
    (hp : SendsPoint j.startJoint p y) (hx : Turns j'.startCorrection p x) :
    dot3 x x = reachDistance σ η τ j.soften ^ 2 := by
  obtain ⟨-, -, h, -, -⟩ := full_solve hrun hw R hε' hy hp
  have hu := (C52_unit hrun (by linarith) R.unit R.affineS R.detS R.targetS R.poleS R.pole).1
  rw [unitQuat_iff] at hu
  have := (turns_iff hu).mp hx
  rw [dot3_congr this this, dot3_transform _ _ _ hu, h]

/-- C58: and it ends up there in the direction of the target, unless the bent chain points almost opposite to the target or
the distances are tiny. -/
theorem C58_end {j j' : TwoBone ℝ} (hrun : j.run idealTrig = .ok j') (hw : 1 ≤ j.weight) {k : ℝ} {μ ε σ η τ π : F4 ℝ}
    (R : Rig j k μ ε σ η τ π) {ε' y p x : F4 ℝ} (hε' : Turns j'.midCorrection ε ε') (hy : SendsPoint j.midJoint ε' y)
    (hp : SendsPoint j.startJoint p y) (hx : Turns j'.startCorrection p x)
    (hfar : 1 / 1000000 ≤ reachDistance σ η τ j.soften * softDistance (√(dot3 σ σ) + √(dist2 η σ)) j.soften √(dot3 τ τ))
    (hnear : -(1 - 1 / 1000000) * √(dot3 p p * dot3 τ τ) ≤ dot3 p τ) :
    Same3 x (fun i => reachDistance σ η τ j.soften / √(dot3 τ τ) * τ i) := by
  obtain ⟨hd, -, -, -, h⟩ := full_solve hrun hw R hε' hy hp
  obtain ⟨rot, v, len2, u, w, hrot, hv, hl, hpos, hr, hc, -⟩ := h hfar hnear
  generalize reachDistance σ η τ j.soften = D at *
  generalize softDistance (√(dot3 σ σ) + √(dist2 η σ)) j.soften √(dot3 τ τ) = d at *
  have htp : 0 < √(dot3 τ τ) := Real.sqrt_pos.mpr R.apart
  obtain ⟨u1, q, u2, u3, u4⟩ := two_plane j j.setup hpos hl hrot
  have hcs : norm2 j'.startCorrection = 1 := by rw [hc, positiveW_norm2, u1]
  have a1 := (turns_iff hcs).mp hx
  rw [hc] at a1
  have hτv : Same3 (fun i => D / √(dot3 τ τ) * τ i) (fun i => D / d * v i) := by
    have e : D / √(dot3 τ τ) = D / d * (d / √(dot3 τ τ)) := by field_simp
    refine ⟨?_, ?_, ?_⟩
    · beta_reduce; rw [hv.1, e]; ring
    · beta_reduce; rw [hv.2.1, e]; ring
    · beta_reduce; rw [hv.2.2, e]; ring
  have a2 : Same3 (quatTransformVector q (fun i => D / d * v i)) (fun i => D / d * v i) := by
    have b := transform_smul q v (D / d)
    refine ⟨?_, ?_, ?_⟩
    · rw [b.1]; beta_reduce; rw [u3.1]
    · rw [b.2.1]; beta_reduce; rw [u3.2.1]
    · rw [b.2.2]; beta_reduce; rw [u3.2.2]
  exact Same3.trans a1 (Same3.trans (positiveW_transform _ _) (Same3.trans (u4 p) (Same3.trans (transform_congr q (Same3.trans hr hτv))
    (Same3.trans a2 (Same3.symm hτv)))))

/-- C58: up to the soft limit the softened distance is the target's. -/
theorem C58_soft_exact {chain soften t : ℝ} (h : t ≤ chain * min (max soften 0) 1) : softDistance chain soften t = t := by
  simp only [softDistance]
  rw [if_neg (fun h' => absurd h'.1 (not_lt.mpr h))]

/-- C58: a soften ratio of one or more softens nothing. -/
theorem C58_soft_off {chain soften : ℝ} (t : ℝ) (h : 1 ≤ soften) : softDistance chain soften t = t := by
  simp only [softDistance]
  rw [if_neg]
  rintro ⟨-, h'⟩
  rw [max_eq_left (by linarith), min_eq_right h] at h'
  linarith

private theorem soft_room {chain soften : ℝ} (hc : 0 ≤ chain) : chain * min (max soften 0) 1 ≤ chain :=
  mul_le_of_le_one_right hc (min_le_right _ _)

/-- C58: a soften ratio below one keeps the softened distance below the length of the chain, so that the chain is never stretched. -/
theorem C58_soft_below {chain soften : ℝ} (hc : 0 < chain) (hs : soften < 1) (t : ℝ) : softDistance chain soften t < chain := by
  simp only [softDistance]
  have hl : min (max soften 0) 1 < 1 := lt_of_le_of_lt (min_le_left _ _) (max_lt hs one_pos)
  have hr : 0 < chain - chain * min (max soften 0) 1 := by nlinarith
  split_ifs with h
  · have := div_pos (sub_pos.mpr h.1) hr
    have : 0 < (chain - chain * min (max soften 0) 1) * (3 / (3 + (t - chain * min (max soften 0) 1) / (chain - chain * min (max soften 0) 1))) ^ 4 := by
      positivity
    linarith
  · have : t ≤ chain * min (max soften 0) 1 := by
      by_contra h'
      exact h ⟨not_le.mp h', hr⟩
    linarith

/-- C58: a farther target has a larger softened distance. -/
theorem C58_soft_mono {chain soften : ℝ} (hc : 0 ≤ chain) : StrictMono (softDistance chain soften) := by
  intro t t' htt
  simp only [softDistance]
  have hl := soft_room (soften := soften) hc
  generalize chain * min (max soften 0) 1 = l at *
  by_cases hr : 0 < chain - l
  · by_cases h1 : l < t
    · have h2 : l < t' := by linarith
      rw [if_pos ⟨h1, hr⟩, if_pos ⟨h2, hr⟩]
      have g1 := div_pos (sub_pos.mpr h1) hr
      have g2 : (t - l) / (chain - l) < (t' - l) / (chain - l) := div_lt_div_of_pos_right (by linarith) hr
      have g3 : 3 / (3 + (t' - l) / (chain - l)) < 3 / (3 + (t - l) / (chain - l)) := div_lt_div_of_pos_left (by norm_num) (by positivity) (by linarith)
      have g4 : 0 ≤ 3 / (3 + (t' - l) / (chain - l)) := by
        have := g1.trans g2
        positivity
      have := mul_lt_mul_of_pos_left (pow_lt_pow_left₀ g3 g4 (by norm_num : 4 ≠ 0)) hr
      linarith
    · rw [if_neg (fun h => h1 h.1)]
      by_cases h2 : l < t'
      · rw [if_pos ⟨h2, hr⟩]
        have g1 := div_pos (sub_pos.mpr h2) hr
        have g3 : 3 / (3 + (t' - l) / (chain - l)) < 1 := by rw [div_lt_one (by positivity)]; linarith
        have := mul_lt_mul_of_pos_left (pow_lt_one₀ (by positivity) g3 (by norm_num : 4 ≠ 0)) hr
        linarith [not_lt.mp h1]
      · rw [if_neg (fun h => h2 h.1)]; exact htt
  · rw [if_neg (fun h => hr h.2), if_neg (fun h => hr h.2)]; exact htt

/-- C58: the softened distance does not jump. -/
theorem C58_soft_continuous {chain soften : ℝ} (hc : 0 ≤ chain) : Continuous (softDistance chain soften) := by
  unfold softDistance
  simp only
  have hl := soft_room (soften := soften) hc
  generalize chain * min (max soften 0) 1 = l at *
  by_cases hr : 0 < chain - l
  · have e : (fun t => if l < t ∧ 0 < chain - l then chain - (chain - l) * (3 / (3 + (t - l) / (chain - l))) ^ 4 else t) =
        fun t => if t ≤ l then t else chain - (chain - l) * (3 / (3 + (max t l - l) / (chain - l))) ^ 4 := by
      funext t
      by_cases h : l < t
      · rw [if_pos ⟨h, hr⟩, if_neg (not_le.mpr h), max_eq_left h.le]
      · rw [if_neg (fun h' => h h'.1), if_pos (not_lt.mp h)]
    rw [e]
    refine Continuous.if_le continuous_id ?_ continuous_id continuous_const ?_
    · refine continuous_const.sub (continuous_const.mul ((continuous_const.div ?_ ?_).pow 4))
      · exact continuous_const.add (((continuous_id.max continuous_const).sub continuous_const).div_const _)
      · intro t
        have : 0 ≤ (max t l - l) / (chain - l) := div_nonneg (sub_nonneg.mpr (le_max_right _ _)) hr.le
        positivity
    · intro t h
      have h' : t = l := h
      rw [h', max_self, sub_self, zero_div, add_zero, div_self (by norm_num)]
      simp
  · simp only [hr, and_false, if_false]
    exact continuous_id

/-- The softened distance is meant to fall behind the target's, but just beyond the soft limit it is ahead of it: its slope
there is 4/3. -/
theorem C58_soft_overshoots {chain soften t : ℝ} (h1 : chain * min (max soften 0) 1 < t)
    (h2 : t - chain * min (max soften 0) 1 ≤ 3 / 8 * (chain - chain * min (max soften 0) 1)) :
    t < softDistance chain soften t := by
  simp only [softDistance]
  generalize chain * min (max soften 0) 1 = l at *
  have hr : 0 < chain - l := by linarith
  rw [if_pos ⟨h1, hr⟩]
  have hx := div_pos (sub_pos.mpr h1) hr
  have hx2 : (t - l) / (chain - l) ≤ 3 / 8 := by rw [div_le_iff₀ hr]; exact h2
  have ht : t = l + (chain - l) * ((t - l) / (chain - l)) := by field_simp; ring
  generalize (t - l) / (chain - l) = a at *
  have key : (3 / (3 + a)) ^ 4 < 1 - a := by
    rw [div_pow, div_lt_iff₀ (by positivity)]
    have h3 : a ^ 2 ≤ 3 / 8 * a := by nlinarith
    have h4 : a ^ 3 ≤ 9 / 64 * a := by nlinarith
    have h5 : a ^ 4 ≤ 27 / 512 * a := by nlinarith [sq_nonneg a]
    have h6 : a ^ 5 ≤ 81 / 4096 * a := by nlinarith [sq_nonneg a]
    nlinarith
  have := mul_lt_mul_of_pos_left key hr
  linarith

/-- C58 says that softening keeps the end joint short of the target; the code moves it past the target where the distance is
just beyond the soft limit. The job then reports that it is not reached. -/
theorem C58_overshoot {j j' : TwoBone ℝ} (hrun : j.run idealTrig = .ok j') (hw : 1 ≤ j.weight) {k : ℝ} {μ ε σ η τ π : F4 ℝ}
    (R : Rig j k μ ε σ η τ π) {ε' y p x : F4 ℝ} (hε' : Turns j'.midCorrection ε ε') (hy : SendsPoint j.midJoint ε' y)
    (hp : SendsPoint j.startJoint p y) (hx : Turns j'.startCorrection p x)
    (h1 : (√(dot3 σ σ) + √(dist2 η σ)) * min (max j.soften 0) 1 < √(dot3 τ τ))
    (h2 : √(dot3 τ τ) - (√(dot3 σ σ) + √(dist2 η σ)) * min (max j.soften 0) 1 ≤
      3 / 8 * ((√(dot3 σ σ) + √(dist2 η σ)) - (√(dot3 σ σ) + √(dist2 η σ)) * min (max j.soften 0) 1)) :
    dot3 τ τ < dot3 x x ∧ j'.reached = false := by
  constructor
  · rw [C58_distance hrun hw R hε' hy hp hx]
    have ht := Real.sqrt_pos.mpr R.apart
    have hso := C58_soft_overshoots h1 h2
    have hlt : √(dot3 τ τ) < reachDistance σ η τ j.soften := by
      refine lt_min (lt_of_lt_of_le hso (le_max_left _ _)) ?_
      have hb := Real.sqrt_pos.mpr R.bone1
      have hb2 := Real.sqrt_pos.mpr R.bone2
      have : min (max j.soften 0) 1 ≤ 1 := min_le_right _ _
      nlinarith [mul_le_of_le_one_right (by positivity : 0 ≤ √(dot3 σ σ) + √(dist2 η σ)) this]
    calc dot3 τ τ = √(dot3 τ τ) ^ 2 := (Real.sq_sqrt R.apart.le).symm
      _ < _ := by gcongr
  · by_contra hn
    have := (C53_reached_iff hrun R.affineS R.detS R.midS R.endS R.targetS).mp (by simpa using hn)
    linarith [this.2.2]

/-! ### C59: the pole vector of the two-bone job -/

private theorem cross_same (a b : F4 ℝ) : Same3 (vec3Cross a b) (cross a b) := by
  obtain ⟨h0, h1, h2⟩ := cross_coords a b
  exact ⟨by rw [h0]; rfl, by rw [h1]; rfl, by rw [h2]; rfl⟩

private theorem axisQuat_scale {v τ : F4 ℝ} {s : ℝ} (hs : 0 < s) (hτ : 0 < dot3 τ τ) (h : Same3 v (fun i => s * τ i)) (φ : ℝ) :
    axisQuat v φ = axisQuat τ φ := by
  have hn : √(dot3 v v) = s * √(dot3 τ τ) := by
    rw [dot3_congr h h, show dot3 (fun i => s * τ i) (fun i => s * τ i) = s ^ 2 * dot3 τ τ by simp only [dot3]; ring,
      Real.sqrt_mul (sq_nonneg s), Real.sqrt_sq hs.le]
  have ht := Real.sqrt_pos.mpr hτ
  unfold axisQuat
  rw [hn, h.1, h.2.1, h.2.2]
  beta_reduce
  congr 1 <;> field_simp

private theorem axisQuat_unit {τ : F4 ℝ} (hτ : 0 < dot3 τ τ) (φ : ℝ) :
    norm2 (axisQuat τ φ) = 1 ∧ Same3 (quatTransformVector (axisQuat τ φ) τ) τ := by
  have ht := Real.sqrt_pos.mpr hτ
  have ht2 := Real.sq_sqrt hτ.le
  constructor
  · have e : norm2 (axisQuat τ φ) = dot3 τ τ / √(dot3 τ τ) ^ 2 * Real.sin (φ / 2) ^ 2 + Real.cos (φ / 2) ^ 2 := by
      have : dot3 τ τ = τ 0 ^ 2 + τ 1 ^ 2 + τ 2 ^ 2 := by simp only [dot3]; ring
      simp only [norm2, axisQuat, f4_0, f4_1, f4_2, f4_3, div_pow, mul_pow]
      generalize √(dot3 τ τ) = t at *
      rw [this]; ring
    rw [e, ht2, div_self hτ.ne', one_mul, Real.sin_sq_add_cos_sq]
  · exact transform_axis (k := Real.sin (φ / 2) / √(dot3 τ τ)) ⟨by simp only [axisQuat, f4_0]; ring, by simp only [axisQuat, f4_1]; ring,
      by simp only [axisQuat, f4_2]; ring⟩

/-- The turned axis, the turned middle joint and the turned end joint. -/
private theorem full_pole {j j' : TwoBone ℝ} (hrun : j.run idealTrig = .ok j') (hw : 1 ≤ j.weight) {k : ℝ} {μ ε σ η τ π : F4 ℝ}
    (R : Rig j k μ ε σ η τ π) {ε' y p : F4 ℝ} (hε' : Turns j'.midCorrection ε ε') (hy : SendsPoint j.midJoint ε' y)
    (hp : SendsPoint j.startJoint p y)
    (hfar : 1 / 1000000 ≤ reachDistance σ η τ j.soften * softDistance (√(dot3 σ σ) + √(dist2 η σ)) j.soften √(dot3 τ τ))
    (hnear : -(1 - 1 / 1000000) * √(dot3 p p * dot3 τ τ) ≤ dot3 p τ) {π' : F4 ℝ} (hπ' : Turns (axisQuat τ j.twistAngle) π π') :
    norm2 j'.startCorrection = 1 ∧ ∃ u w l, 0 < l ∧
      Same3 (quatTransformVector j'.startCorrection (toStart j.startJoint j.midJoint j.midAxis)) (fun i => l * vec3Cross τ π' i) ∧
      dot3 j.midAxis u = 0 ∧ 0 ≤ dot3 (vec3Cross u j.midAxis) w ∧
        Same3 p (toStart j.startJoint j.midJoint (u + w)) ∧ Same3 σ (toStart j.startJoint j.midJoint u) := by
  obtain ⟨hd, hD, hpp, -, h⟩ := full_solve hrun hw R hε' hy hp
  obtain ⟨rot, v, len2, u, w, hrot, hv, hl, hpos, hr, hc, hau, haw, hside, hpu, hσu⟩ := h hfar hnear
  generalize reachDistance σ η τ j.soften = D at *
  generalize softDistance (√(dot3 σ σ) + √(dist2 η σ)) j.soften √(dot3 τ τ) = d at *
  have htp : 0 < √(dot3 τ τ) := Real.sqrt_pos.mpr R.apart
  obtain ⟨u1, -⟩ := two_plane j j.setup hpos hl hrot
  have hcs : norm2 j'.startCorrection = 1 := by rw [hc, positiveW_norm2, u1]
  refine ⟨hcs, u, w, ?_⟩
  have hdot := toStart_dot R.affineS R.detS R.similar
  have hs0 : 0 < d / √(dot3 τ τ) := by positivity
  have hkp : 0 < k := by
    have h1 := R.bone1
    rw [dot3_congr hσu hσu, hdot] at h1
    by_contra hneg
    have := mul_nonpos_of_nonpos_of_nonneg (not_lt.mp hneg) (dot3_self_nonneg u)
    linarith
  have hpole : Same3 (j.setup.invStart.transformVector j.poleVector) π := vector_invert R.affineS R.detS R.poleS
  have haa : dot3 (toStart j.startJoint j.midJoint j.midAxis) (toStart j.startJoint j.midJoint j.midAxis) = k := by rw [hdot, R.unit, mul_one]
  have hperp : dot3 v (quatTransformVector rot (toStart j.startJoint j.midJoint j.midAxis)) = 0 := by
    have h1 := dot3_transform rot p (toStart j.startJoint j.midJoint j.midAxis) hrot
    rw [dot3_congr hpu (Same3.refl _), hdot] at h1
    have h2 : dot3 (u + w) j.midAxis = 0 := by
      have : dot3 (u + w) j.midAxis = dot3 j.midAxis u + dot3 j.midAxis w := by simp only [dot3, Pi.add_apply]; ring
      rw [this, hau, haw, add_zero]
    rw [h2, mul_zero, dot3_congr hr (Same3.refl _)] at h1
    generalize quatTransformVector rot (toStart j.startJoint j.midJoint j.midAxis) = b at *
    rw [dot3_congr hv (Same3.refl b)]
    have e1 : dot3 (fun i => D / √(dot3 τ τ) * τ i) b = D / √(dot3 τ τ) * dot3 τ b := by simp only [dot3]; ring
    have e2 : dot3 (fun i => d / √(dot3 τ τ) * τ i) b = d / √(dot3 τ τ) * dot3 τ b := by simp only [dot3]; ring
    rw [e1] at h1
    have h3 : dot3 τ b = 0 := by
      rcases mul_eq_zero.mp h1 with h | h
      · exact absurd h (by positivity)
      · exact h
    rw [e2, h3, mul_zero]
  have hcr : ∀ x z : F4 ℝ, Same3 x z → Same3 (vec3Cross v x) (fun i => d / √(dot3 τ τ) * vec3Cross τ z i) := by
    intro x z hxz
    obtain ⟨a0, a1, a2⟩ := cross_coords v x
    obtain ⟨b0, b1, b2⟩ := cross_coords τ z
    refine ⟨?_, ?_, ?_⟩
    · beta_reduce; rw [a0, b0, hv.2.1, hv.2.2, hxz.2.1, hxz.2.2]; ring
    · beta_reduce; rw [a1, b1, hv.1, hv.2.2, hxz.1, hxz.2.2]; ring
    · beta_reduce; rw [a2, b2, hv.1, hv.2.1, hxz.1, hxz.2.1]; ring
  have hcp : 0 < dot3 (vec3Cross v (j.setup.invStart.transformVector j.poleVector)) (vec3Cross v (j.setup.invStart.transformVector j.poleVector)) := by
    rw [dot3_congr (hcr _ _ hpole) (hcr _ _ hpole)]
    have e : dot3 (fun i => d / √(dot3 τ τ) * vec3Cross τ π i) (fun i => d / √(dot3 τ τ) * vec3Cross τ π i) =
        (d / √(dot3 τ τ)) ^ 2 * (dot3 τ τ * dot3 π π - dot3 τ π ^ 2) := by
      obtain ⟨b0, b1, b2⟩ := cross_coords τ π
      have : dot3 (fun i => d / √(dot3 τ τ) * vec3Cross τ π i) (fun i => d / √(dot3 τ τ) * vec3Cross τ π i) =
        (d / √(dot3 τ τ)) ^ 2 * dot3 (vec3Cross τ π) (vec3Cross τ π) := by simp only [dot3]; ring
      rw [this]
      congr 1
      simp only [dot3, b0, b1, b2]; ring
    rw [e]
    have := R.pole
    have h0 : 0 < dot3 τ τ * dot3 π π - dot3 τ π ^ 2 := by linarith
    positivity
  have htw := two_pole j j.setup hpos hl hrot hperp (by rw [show dot3 (j.setup.invStart.transformVector (j.midJoint.transformVector j.midAxis))
    (j.setup.invStart.transformVector (j.midJoint.transformVector j.midAxis)) = k from haa]; exact hkp) hcp
  rw [axisQuat_scale hs0 R.apart hv] at htw
  have hπ2 := (turns_iff (axisQuat_unit R.apart j.twistAngle).1).mp hπ'
  have hq : Same3 (quatTransformVector (axisQuat τ j.twistAngle) (j.setup.invStart.transformVector j.poleVector)) π' :=
    Same3.trans (transform_congr _ hpole) (Same3.symm hπ2)
  have hfin := hcr _ _ hq
  set A : ℝ := √(dot3 (j.setup.invStart.transformVector (j.midJoint.transformVector j.midAxis))
    (j.setup.invStart.transformVector (j.midJoint.transformVector j.midAxis))) /
    √(dot3 (vec3Cross v (j.setup.invStart.transformVector j.poleVector)) (vec3Cross v (j.setup.invStart.transformVector j.poleVector))) with hA
  have hAp : 0 < A := by
    refine div_pos (Real.sqrt_pos.mpr ?_) (Real.sqrt_pos.mpr hcp)
    rw [show dot3 (j.setup.invStart.transformVector (j.midJoint.transformVector j.midAxis))
      (j.setup.invStart.transformVector (j.midJoint.transformVector j.midAxis)) = k from haa]
    exact hkp
  refine ⟨A * (d / √(dot3 τ τ)), mul_pos hAp hs0, ?_, hau, hside, hpu, hσu⟩
  rw [hc]
  refine Same3.trans (positiveW_transform _ _) (Same3.trans htw ?_)
  refine ⟨?_, ?_, ?_⟩
  · beta_reduce; rw [hfin.1]; ring
  · beta_reduce; rw [hfin.2.1]; ring
  · beta_reduce; rw [hfin.2.2]; ring

/-- C59: at full weight the corrections turn the middle axis to the normal of the plane of the target and the pole vector,
the pole vector turned about the target's direction by the twist angle.
`α` is the middle axis in the space of the start joint, and `π'` the twisted pole vector; turned by the start correction the
axis is `α'`. -/
theorem C59_axis {j j' : TwoBone ℝ} (hrun : j.run idealTrig = .ok j') (hw : 1 ≤ j.weight) {k : ℝ} {μ ε σ η τ π : F4 ℝ}
    (R : Rig j k μ ε σ η τ π) {ε' y p : F4 ℝ} (hε' : Turns j'.midCorrection ε ε') (hy : SendsPoint j.midJoint ε' y)
    (hp : SendsPoint j.startJoint p y)
    (hfar : 1 / 1000000 ≤ reachDistance σ η τ j.soften * softDistance (√(dot3 σ σ) + √(dist2 η σ)) j.soften √(dot3 τ τ))
    (hnear : -(1 - 1 / 1000000) * √(dot3 p p * dot3 τ τ) ≤ dot3 p τ)
    {α a α' π' : F4 ℝ} (ha : SendsVector j.midJoint j.midAxis a) (hα : SendsVector j.startJoint α a) (hα' : Turns j'.startCorrection α α')
    (hπ' : Turns (axisQuat τ j.twistAngle) π π') :
    ∃ l, 0 < l ∧ Same3 α' (fun i => l * cross τ π' i) := by
  obtain ⟨hcs, u, w, l, hl, h, -⟩ := full_pole hrun hw R hε' hy hp hfar hnear hπ'
  have h1 : Same3 (toStart j.startJoint j.midJoint j.midAxis) α := by
    unfold toStart
    rw [← transformVector_congr _ (sendsVector_iff.mp ha)]
    exact vector_invert R.affineS R.detS hα
  have hx := cross_same τ π'
  refine ⟨l, hl, Same3.trans ((turns_iff hcs).mp hα') (Same3.trans (transform_congr _ (Same3.symm h1)) (Same3.trans h ?_))⟩
  exact ⟨by beta_reduce; rw [hx.1], by beta_reduce; rw [hx.2.1], by beta_reduce; rw [hx.2.2]⟩

/-- C59: and the middle joint ends up on the pole vector's side of the line to the target, if the start and the middle
joint's matrices are both mirrored or both not. `σ'` is the middle joint turned by the start correction. -/
theorem C59_middle {j j' : TwoBone ℝ} (hrun : j.run idealTrig = .ok j') (hw : 1 ≤ j.weight) {k : ℝ} {μ ε σ η τ π : F4 ℝ}
    (R : Rig j k μ ε σ η τ π) {ε' y p : F4 ℝ} (hε' : Turns j'.midCorrection ε ε') (hy : SendsPoint j.midJoint ε' y)
    (hp : SendsPoint j.startJoint p y)
    (hfar : 1 / 1000000 ≤ reachDistance σ η τ j.soften * softDistance (√(dot3 σ σ) + √(dist2 η σ)) j.soften √(dot3 τ τ))
    (hnear : -(1 - 1 / 1000000) * √(dot3 p p * dot3 τ τ) ≤ dot3 p τ)
    (hdet : 0 < (toMatrix j.startJoint).det * (toMatrix j.midJoint).det)
    {σ' π' : F4 ℝ} (hσ' : Turns j'.startCorrection σ σ') (hπ' : Turns (axisQuat τ j.twistAngle) π π') :
    ∃ a b, 0 ≤ a ∧ Same3 σ' (fun i => a * π' i + b * τ i) := by
  obtain ⟨hcs, u, w, l, hl, h, hau, hside, hpu, hσu⟩ := full_pole hrun hw R hε' hy hp hfar hnear hπ'
  have hx := C58_end hrun hw R hε' hy hp ((turns_iff hcs).mpr (Same3.refl _)) hfar hnear
  obtain ⟨-, hD, -⟩ := full_solve hrun hw R hε' hy hp
  generalize reachDistance σ η τ j.soften = D at *
  have htp : 0 < √(dot3 τ τ) := Real.sqrt_pos.mpr R.apart
  have hs' := (turns_iff hcs).mp hσ'
  obtain ⟨hau', hat⟩ := axisQuat_unit R.apart j.twistAngle
  have hp' := (turns_iff hau').mp hπ'
  have e1 : dot3 π' π' = dot3 π π := by rw [dot3_congr hp' hp', dot3_transform _ _ _ hau']
  have e2 : dot3 τ π' = dot3 τ π := by rw [dot3_congr (Same3.symm hat) hp', dot3_transform _ _ _ hau']
  have hG : dot3 τ π' ^ 2 < dot3 τ τ * dot3 π' π' := by rw [e1, e2]; exact R.pole
  have hdot := toStart_dot R.affineS R.detS R.similar
  have hperp : dot3 σ' (vec3Cross τ π') = 0 := by
    have h1 := dot3_transform j'.startCorrection σ (toStart j.startJoint j.midJoint j.midAxis) hcs
    rw [dot3_congr hσu (Same3.refl _), hdot, dot3_congr (Same3.symm hs') h] at h1
    have h2 : dot3 u j.midAxis = 0 := by rw [← hau]; simp only [dot3]; ring
    rw [h2, mul_zero] at h1
    have e : dot3 σ' (fun i => l * vec3Cross τ π' i) = l * dot3 σ' (vec3Cross τ π') := by simp only [dot3]; ring
    rw [e] at h1
    rcases mul_eq_zero.mp h1 with h | h
    · exact absurd h hl.ne'
    · exact h
  refine ⟨_, _, ?_, plane_span hperp hG⟩
  refine div_nonneg ?_ (by linarith)
  have htri := triple_transform hcs σ (toStart j.startJoint j.midJoint j.midAxis) p
  rw [triple_congr (Same3.symm hs') h hx, triple_congr hσu (Same3.refl _) hpu, triple_toStart R.affineS R.detS R.affineM] at htri
  have h3 : triple u j.midAxis (u + w) = dot3 (vec3Cross u j.midAxis) w := by
    obtain ⟨c0, c1, c2⟩ := cross_coords u j.midAxis
    simp only [triple, dot3, c0, c1, c2, Pi.add_apply]; ring
  have h4 : triple σ' (fun i => l * vec3Cross τ π' i) (fun i => D / √(dot3 τ τ) * τ i) =
      l * (D / √(dot3 τ τ)) * dot3 σ' (fun i => dot3 τ τ * π' i - dot3 τ π' * τ i) := by
    obtain ⟨c0, c1, c2⟩ := cross_coords τ π'
    simp only [triple, dot3, c0, c1, c2]; ring
  rw [h3, h4] at htri
  have hdd : 0 ≤ (toMatrix j.midJoint).det / (toMatrix j.startJoint).det := by
    have : (toMatrix j.midJoint).det / (toMatrix j.startJoint).det =
        ((toMatrix j.startJoint).det * (toMatrix j.midJoint).det) / (toMatrix j.startJoint).det ^ 2 := by
      have := R.detS
      field_simp
    rw [this]
    positivity
  have h5 : 0 ≤ l * (D / √(dot3 τ τ)) * dot3 σ' (fun i => dot3 τ τ * π' i - dot3 τ π' * τ i) := by
    rw [htri]; exact mul_nonneg hdd hside
  exact nonneg_of_mul_nonneg_right h5 (by positivity)

/-- C59: the bent chain stays at a right angle to the middle axis. -/
theorem C59_bend {j j' : TwoBone ℝ} (hrun : j.run idealTrig = .ok j') (hw : 1 ≤ j.weight) {k : ℝ} {μ ε σ η τ π : F4 ℝ}
    (R : Rig j k μ ε σ η τ π) {ε' y p α a : F4 ℝ} (hε' : Turns j'.midCorrection ε ε') (hy : SendsPoint j.midJoint ε' y)
    (hp : SendsPoint j.startJoint p y) (ha : SendsVector j.midJoint j.midAxis a) (hα : SendsVector j.startJoint α a) :
    dot3 p α = 0 := by
  obtain ⟨-, -, -, h, -⟩ := full_solve hrun hw R hε' hy hp
  have h1 : Same3 (toStart j.startJoint j.midJoint j.midAxis) α := by
    unfold toStart
    rw [← transformVector_congr _ (sendsVector_iff.mp ha)]
    exact vector_invert R.affineS R.detS hα
  rw [dot3_congr h1 (Same3.refl p)] at h
  rw [← h]; simp only [dot3]; ring

/-! ### C60: the pole vector of the aim job -/

/-- C60: at full weight the correction turns the up vector into the half plane of the target's direction and the pole vector,
the pole vector turned about the target's direction by the twist angle, unless up or the pole vector end up parallel to
the target's direction. `τ` and `π` are target and pole vector in the space of the joint, `x` is the turned up vector, and `π'`
the twisted pole vector. -/
theorem C60_up {j j' : Aim ℝ} (hrun : j.run idealTrig = .ok j') (hreached : j'.reached = true) (hw : 1 ≤ j.weight)
    (ha : AffineMat j.joint) (hd : (toMatrix j.joint).det ≠ 0) (hf : dot3 j.forward j.forward = 1) {τ π : F4 ℝ}
    (hτ : SendsPoint j.joint τ j.target) (hfar : 1 / 1000000 ≤ dot3 τ τ) (hπ : SendsVector j.joint π j.poleVector)
    {x π' : F4 ℝ} (hx : Turns j'.correction j.up x) (hπ' : Turns (axisQuat τ j.twistAngle) π π')
    (hup : dot3 τ x ^ 2 < dot3 τ τ * dot3 x x) (hpole : dot3 τ π ^ 2 < dot3 τ τ * dot3 π π) :
    ∃ a b, 0 < a ∧ Same3 x (fun i => a * π' i + b * τ i) := by
  have hv := point_invert ha hd hτ
  have hpi := vector_invert ha hd hπ
  have hcor : ∃ p, dot3 p p = dot3 (j.joint.invert.transformPoint j.target) (j.joint.invert.transformPoint j.target) ∧
      j'.correction = quatPositiveW (j.twisted idealTrig
          (j.rotatePlane j.joint.invert (j.joint.invert.transformPoint j.target)
            (quatFromVectors p (j.joint.invert.transformPoint j.target))).1
          (j.rotatePlane j.joint.invert (j.joint.invert.transformPoint j.target)
            (quatFromVectors p (j.joint.invert.transformPoint j.target))).2
          (quatFromVectors p (j.joint.invert.transformPoint j.target))) := by
    have hvv := dot3_congr hv hv
    unfold Aim.run at hrun
    split_ifs at hrun with hn
    simp only at hrun
    obtain ⟨o1, o2⟩ := offsetted (o := j.offset) (v := j.joint.invert.transformPoint j.target) hf
    cases ho : offsettedForward j.forward j.offset (j.joint.invert.transformPoint j.target) with
    | none =>
      simp only [ho] at hrun
      cases hrun
      cases hreached
    | some p =>
      have hne : ¬ dot3 τ τ = 0 := by linarith
      simp only [ho, vec3Length2S_zero, real_zero, real_eq, decide_eq_true_eq, hvv, hne, if_false] at hrun
      cases hrun
      have hle : dot3 j.offset j.offset - dot3 j.forward j.offset ^ 2 ≤ dot3 (j.joint.invert.transformPoint j.target) (j.joint.invert.transformPoint j.target) := by
        by_contra h
        rw [o1 (not_le.mp h)] at ho
        cases ho
      obtain ⟨p', hp', -, hpp⟩ := o2 hle
      rw [ho] at hp'
      cases hp'
      refine ⟨p, hpp, ?_⟩
      simp only [Aim.weighted, real_one, real_lt, decide_eq_true_eq]
      rw [if_neg (not_lt.mpr hw)]
  obtain ⟨p, hpp, hc⟩ := hcor
  generalize j.joint.invert.transformPoint j.target = v at *
  have hvv : dot3 v v = dot3 τ τ := dot3_congr hv hv
  have hpos : 0 < dot3 v v := by rw [hvv]; linarith
  obtain ⟨f1, -, -⟩ := fromVectors_same hpp (by rw [hvv]; exact hfar)
  obtain ⟨t1, q, t2, t3, t4⟩ := aim_twisted j j.joint.invert hpos f1
  have hu : norm2 j'.correction = 1 := by rw [hc, positiveW_norm2, t1]
  have hx1 := (turns_iff hu).mp hx
  rw [hc] at hx1
  have hx2 := Same3.trans hx1 (positiveW_transform _ _)
  have hx3 := Same3.trans hx2 (t4 j.up)
  generalize hrot : quatFromVectors p v = rot at *
  have hcl : ∀ a b : F4 ℝ, dot3 (vec3Cross a b) (vec3Cross a b) = dot3 a a * dot3 b b - dot3 a b ^ 2 := by
    intro a b
    obtain ⟨b0, b1, b2⟩ := cross_coords a b
    simp only [dot3, b0, b1, b2]; ring
  have h1 : 0 < dot3 (vec3Cross (quatTransformVector rot j.up) v) (vec3Cross (quatTransformVector rot j.up) v) := by
    rw [hcl]
    have e1 : dot3 x x = dot3 (quatTransformVector rot j.up) (quatTransformVector rot j.up) := by
      rw [dot3_congr hx3 hx3, dot3_transform _ _ _ t2]
    have e2 : dot3 τ x = dot3 (quatTransformVector rot j.up) v := by
      rw [← dot3_transform _ (quatTransformVector rot j.up) _ t2, dot3_congr (Same3.symm hx3) t3, dot3_congr (Same3.refl x) hv]
      simp only [dot3]; ring
    rw [← e1, ← e2, hvv]
    linarith
  have h2 : 0 < dot3 (vec3Cross (j.joint.invert.transformVector j.poleVector) v) (vec3Cross (j.joint.invert.transformVector j.poleVector) v) := by
    rw [hcl, dot3_congr hpi hpi, dot3_congr hpi hv, hvv]
    have : dot3 π τ = dot3 τ π := by simp only [dot3]; ring
    rw [this]; linarith
  obtain ⟨l, m, hl, hs⟩ := aim_pole j j.joint.invert hpos f1 h1 h2
  have hτp : 0 < dot3 τ τ := by linarith
  have hax : axisQuat v j.twistAngle = axisQuat τ j.twistAngle :=
    axisQuat_scale one_pos hτp ⟨by rw [hv.1]; simp, by rw [hv.2.1]; simp, by rw [hv.2.2]; simp⟩ _
  rw [hax] at hs
  have hp3 : Same3 (quatTransformVector (axisQuat τ j.twistAngle) (j.joint.invert.transformVector j.poleVector)) π' :=
    Same3.trans (transform_congr _ hpi) (Same3.symm ((turns_iff (axisQuat_unit hτp _).1).mp hπ'))
  refine ⟨l, m, hl, Same3.trans hx2 (Same3.trans hs ?_)⟩
  exact ⟨by beta_reduce; rw [hp3.1, hv.1], by beta_reduce; rw [hp3.2.1, hv.2.1], by beta_reduce; rw [hp3.2.2, hv.2.2]⟩

/-! ### Examples -/

private def poleDiag (d x y z : ℝ) : Mat4 ℝ := f4 (f4 d 0 0 0) (f4 0 d 0 0) (f4 0 0 d 0) (f4 x y z 1)

private theorem poleDiag_det (d x y z : ℝ) : (toMatrix (poleDiag d x y z)).det = d ^ 3 := by
  rw [Matrix.det_succ_row_zero]
  simp only [Fin.sum_univ_four, Matrix.det_fin_three, Matrix.submatrix_apply, toMatrix]
  simp [Fin.succAbove, poleDiag]
  ring

private theorem poleDiag_similar {d d' x y z x' y' z' : ℝ} (hd : d ≠ 0) : ∀ v w v' w' a b : F4 ℝ, SendsVector (poleDiag d' x' y' z') v a →
    SendsVector (poleDiag d x y z) v' a → SendsVector (poleDiag d' x' y' z') w b → SendsVector (poleDiag d x y z) w' b →
    dot3 v' w' = (d' / d) ^ 2 * dot3 v w := by
  intro v w v' w' a b h1 h2 h3 h4
  have e : ∀ v v' : F4 ℝ, ∀ a, SendsVector (poleDiag d' x' y' z') v a → SendsVector (poleDiag d x y z) v' a →
      Same3 v' (fun i => d' / d * v i) := by
    intro v v' a h1 h2
    have a0 := (h1 0).symm.trans (h2 0)
    have a1 := (h1 1).symm.trans (h2 1)
    have a2 := (h1 2).symm.trans (h2 2)
    simp [poleDiag] at a0 a1 a2
    refine ⟨?_, ?_, ?_⟩
    · beta_reduce
      rw [div_mul_eq_mul_div, eq_div_iff hd]; linarith
    · beta_reduce
      rw [div_mul_eq_mul_div, eq_div_iff hd]; linarith
    · beta_reduce
      rw [div_mul_eq_mul_div, eq_div_iff hd]; linarith
  rw [dot3_congr (e v v' a h1 h2) (e w w' b h3 h4)]
  simp only [dot3]; ring

/-- Bones of length 1 and 2, bent by a right angle; the target is at the distance 2, beyond the soft limit 3/2. -/
private noncomputable def poleJob : TwoBone ℝ where
  target := f4 1 2 7 1
  midAxis := f4 0 0 1 0
  poleVector := f4 0 1 0 0
  twistAngle := 1 / 3
  soften := 1 / 2
  weight := 1
  startJoint := poleDiag 2 1 2 3
  midJoint := poleDiag 4 1 4 3
  endJoint := poleDiag 1 5 4 3
  startCorrection := f4 0 0 0 1
  midCorrection := f4 0 0 0 1
  reached := false

private theorem poleRig : Rig poleJob ((4 / 2) ^ 2) (f4 0 (-1 / 2) 0 0) (f4 1 0 0 0) (f4 0 1 0 0) (f4 2 1 0 0) (f4 0 0 2 0) (f4 0 (1 / 2) 0 0) where
  affineS := by simp [AffineMat, poleJob, poleDiag]
  detS := by rw [show poleJob.startJoint = poleDiag 2 1 2 3 from rfl, poleDiag_det]; norm_num
  affineM := by simp [AffineMat, poleJob, poleDiag]
  detM := by rw [show poleJob.midJoint = poleDiag 4 1 4 3 from rfl, poleDiag_det]; norm_num
  similar := poleDiag_similar (by norm_num)
  unit := by norm_num [dot3, poleJob]
  startM := by intro i; fin_cases i <;> simp [poleJob, poleDiag] <;> norm_num
  endM := by intro i; fin_cases i <;> simp [poleJob, poleDiag] <;> norm_num
  axisS := by norm_num [dot3, poleJob]
  axisE := by norm_num [dot3, poleJob]
  midS := by intro i; fin_cases i <;> simp [poleJob, poleDiag] <;> norm_num
  endS := by intro i; fin_cases i <;> simp [poleJob, poleDiag] <;> norm_num
  targetS := by intro i; fin_cases i <;> simp [poleJob, poleDiag] <;> norm_num
  poleS := by intro i; fin_cases i <;> simp [poleJob, poleDiag]
  bone1 := by norm_num [dot3]
  bone2 := by norm_num [dist2]
  apart := by norm_num [dot3]
  pole := by norm_num [dot3]

private theorem sqrt_four : √(4 : ℝ) = 2 := by rw [show (4 : ℝ) = 2 ^ 2 by norm_num]; exact Real.sqrt_sq (by norm_num)

private theorem poleSoft : softDistance (√(dot3 (f4 0 1 0 0) (f4 0 1 0 0)) + √(dist2 (f4 2 1 0 0) (f4 0 1 0 0))) (1 / 2) √(dot3 (f4 0 0 2 0) (f4 0 0 2 0)) = 40317 / 20000 := by
  norm_num [dot3, dist2, sqrt_four, softDistance]

/-- The softened distance of this target is 2.01585, beyond the target. -/
private theorem poleReach : reachDistance (f4 0 1 0 0) (f4 2 1 0 0) (f4 0 0 2 0) (1 / 2) = 40317 / 20000 := by
  unfold reachDistance
  rw [poleSoft]
  norm_num [dot3, dist2, sqrt_four, clampReach]

/-- The end joint ends up past the target, the middle joint on the side of the pole vector, and the axis normal to the plane
of both. -/
example : ∃ j' ε' y p x α' σ' π', poleJob.run idealTrig = .ok j' ∧ Turns j'.midCorrection (f4 1 0 0 0) ε' ∧
    SendsPoint poleJob.midJoint ε' y ∧ SendsPoint poleJob.startJoint p y ∧ Turns j'.startCorrection p x ∧
    Same3 x (f4 0 0 (40317 / 20000) 0) ∧ j'.reached = false ∧
    Turns j'.startCorrection (f4 0 0 2 0) α' ∧ Turns (axisQuat (f4 0 0 2 0) (1 / 3)) (f4 0 (1 / 2) 0 0) π' ∧
    (∃ l, 0 < l ∧ Same3 α' (fun i => l * cross (f4 0 0 2 0) π' i)) ∧ Turns j'.startCorrection (f4 0 1 0 0) σ' ∧
    ∃ a b, 0 ≤ a ∧ Same3 σ' (fun i => a * π' i + b * (f4 0 0 2 0 : F4 ℝ) i) := by
  obtain ⟨a, b, r, hj⟩ := C52_runs idealTrig poleJob (by norm_num [vec3IsNormalized, poleJob])
  have R := poleRig
  have hw : 1 ≤ poleJob.weight := by norm_num [poleJob]
  obtain ⟨hu1, hu2⟩ := C52_unit hj (by norm_num [poleJob]) R.unit R.affineS R.detS R.targetS R.poleS R.pole
  rw [unitQuat_iff] at hu1 hu2
  have hg : SendsPoint poleJob.startJoint (poleJob.startJoint.invert.transformPoint (poleJob.midJoint.transformPoint (quatTransformVector b (f4 1 0 0 0))))
      (poleJob.midJoint.transformPoint (quatTransformVector b (f4 1 0 0 0))) := by
    rw [sendsPoint_iff]; exact Same3.symm (invert_point R.affineS R.detS _)
  have hε' := (turns_iff hu2).mpr (Same3.refl (quatTransformVector b (f4 1 0 0 0)))
  have hy := sendsPoint_iff.mpr (Same3.refl (poleJob.midJoint.transformPoint (quatTransformVector b (f4 1 0 0 0))))
  generalize poleJob.midJoint.transformPoint (quatTransformVector b (f4 1 0 0 0)) = y at *
  generalize poleJob.startJoint.invert.transformPoint y = p at *
  generalize quatTransformVector b (f4 1 0 0 0) = ε' at *
  have hx := (turns_iff hu1).mpr (Same3.refl (quatTransformVector a p))
  have hα' := (turns_iff hu1).mpr (Same3.refl (quatTransformVector a (f4 0 0 2 0)))
  have hσ' := (turns_iff hu1).mpr (Same3.refl (quatTransformVector a (f4 0 1 0 0)))
  have hπ' := (turns_iff (axisQuat_unit R.apart (1 / 3)).1).mpr (Same3.refl (quatTransformVector (axisQuat (f4 0 0 2 0) (1 / 3)) (f4 0 (1 / 2) 0 0)))
  have hma : SendsVector poleJob.midJoint poleJob.midAxis (f4 0 0 4 0) := by
    intro i; fin_cases i <;> simp [poleJob, poleDiag]
  have hαS : SendsVector poleJob.startJoint (f4 0 0 2 0) (f4 0 0 4 0) := by
    intro i; fin_cases i <;> simp [poleJob, poleDiag]
    norm_num
  have hperp := C59_bend hj hw R hε' hy hg hma hαS
  have hfar : 1 / 1000000 ≤ reachDistance (f4 0 1 0 0) (f4 2 1 0 0) (f4 0 0 2 0) poleJob.soften *
      softDistance (√(dot3 (f4 0 1 0 0) (f4 0 1 0 0)) + √(dist2 (f4 2 1 0 0) (f4 0 1 0 0))) poleJob.soften √(dot3 (f4 0 0 2 0) (f4 0 0 2 0)) := by
    rw [show poleJob.soften = 1 / 2 from rfl, poleReach, poleSoft]; norm_num
  have hnear : -(1 - 1 / 1000000) * √(dot3 p p * dot3 (f4 0 0 2 0) (f4 0 0 2 0)) ≤ dot3 p (f4 0 0 2 0) := by
    rw [hperp]
    have := Real.sqrt_nonneg (dot3 p p * dot3 (f4 0 0 2 0) (f4 0 0 2 0))
    nlinarith
  have hdet : 0 < (toMatrix poleJob.startJoint).det * (toMatrix poleJob.midJoint).det := by
    rw [show poleJob.startJoint = poleDiag 2 1 2 3 from rfl, show poleJob.midJoint = poleDiag 4 1 4 3 from rfl, poleDiag_det, poleDiag_det]; norm_num
  refine ⟨_, ε', y, p, _, _, _, _, hj, hε', hy, hg, hx, ?_, ?_, hα', hπ', C59_axis hj hw R hε' hy hg hfar hnear hma hαS hα' hπ', hσ',
    C59_middle hj hw R hε' hy hg hfar hnear hdet hσ' hπ'⟩
  · refine Same3.trans (C58_end hj hw R hε' hy hg hx hfar hnear) ?_
    rw [show poleJob.soften = 1 / 2 from rfl, poleReach]
    refine ⟨?_, ?_, ?_⟩ <;> norm_num [dot3, sqrt_four]
  · exact (C58_overshoot hj hw R hε' hy hg hx (by norm_num [dot3, dist2, sqrt_four, poleJob]) (by norm_num [dot3, dist2, sqrt_four, poleJob])).2

/-- Forward is x, from the offset (0, 0, 3); the target is (0, 5, 0) in the space of the joint. -/
private noncomputable def upJob : Aim ℝ where
  target := f4 1 12 3 0
  forward := f4 1 0 0 0
  offset := f4 0 0 3 0
  up := f4 0 1 0 0
  poleVector := f4 0 1 1 0
  twistAngle := 1 / 3
  weight := 1
  joint := poleDiag 2 1 2 3
  correction := f4 0 0 0 1
  reached := false

/-- Up is turned into the half plane of the target and the twisted pole vector. -/
example : ∃ j' x π', upJob.run idealTrig = .ok j' ∧ Turns j'.correction upJob.up x ∧
    Turns (axisQuat (f4 0 5 0 0) (1 / 3)) (f4 0 (1 / 2) (1 / 2) 0) π' ∧
    ∃ a b, 0 < a ∧ Same3 x (fun i => a * π' i + b * (f4 0 5 0 0 : F4 ℝ) i) := by
  obtain ⟨j', hj⟩ := C54_runs idealTrig upJob (by norm_num [dot3, upJob]) (by norm_num [dot3, upJob])
  have ha : AffineMat upJob.joint := by simp [AffineMat, upJob, poleDiag]
  have hd : (toMatrix upJob.joint).det ≠ 0 := by rw [show upJob.joint = poleDiag 2 1 2 3 from rfl, poleDiag_det]; norm_num
  have hf : dot3 upJob.forward upJob.forward = 1 := by norm_num [dot3, upJob]
  have hτ : SendsPoint upJob.joint (f4 0 5 0 0) upJob.target := by
    intro i
    fin_cases i <;> simp [upJob, poleDiag] <;> norm_num
  have hπ : SendsVector upJob.joint (f4 0 (1 / 2) (1 / 2) 0) upJob.poleVector := by
    intro i
    fin_cases i <;> simp [upJob, poleDiag]
  have hr : j'.reached = true := by
    by_contra hn
    have := (C54_unreached hj ha hd hf hτ).mp (by simpa using hn) 4
    norm_num [dot3, upJob] at this
  have hw : 1 ≤ upJob.weight := by norm_num [upJob]
  have hfar : 1 / 1000000 ≤ dot3 (f4 0 5 0 0) (f4 0 5 0 0) := by norm_num [dot3]
  obtain ⟨hu, s, z, hz, hz2, -⟩ := C54_aims_partial hj hr hw ha hd hf hτ hfar
  rw [unitQuat_iff] at hu
  have hx := (turns_iff hu).mpr (Same3.refl (quatTransformVector j'.correction upJob.up))
  have hτp : 0 < dot3 (f4 0 5 0 0) (f4 0 (5 : ℝ) 0 0) := by norm_num [dot3]
  have hπ' := (turns_iff (axisQuat_unit hτp (1 / 3)).1).mpr
    (Same3.refl (quatTransformVector (axisQuat (f4 0 5 0 0) (1 / 3)) (f4 0 (1 / 2) (1 / 2) 0)))
  have hzτ : Same3 z (f4 0 5 0 0) := by
    have h := hz2 (by norm_num [dot3, upJob])
    exact Same3.trans (Same3.symm (point_invert ha hd h)) (point_invert ha hd hτ)
  have h1 : dot3 (f4 0 5 0 0) (quatTransformVector j'.correction upJob.up) = 0 := by
    rw [dot3_congr (Same3.symm hzτ) (Same3.refl _), dot3_congr ((turns_iff hu).mp hz) (Same3.refl _), dot3_transform _ _ _ hu]
    norm_num [dot3, upJob]
  have h2 := dot3_transform j'.correction upJob.up upJob.up hu
  refine ⟨j', _, _, hj, hx, hπ', C60_up hj hr hw ha hd hf hτ hfar hπ hx hπ' ?_ (by norm_num [dot3])⟩
  rw [h1, h2]
  norm_num [dot3, upJob]

end Ozz.Props
