import Verif.Proofs.FloatBonesReach
import Verif.Proofs.FloatBonesAim
import Verif.Props.FloatTwoBone

/-! C87: the two-bone job in single precision brings the end joint to the target. -/

namespace Ozz.Props

open Ozz F32 Ieee Spec IK Blending Ozz.Trig

private theorem turn_short {q p x : F4 ℝ} (h : Turns (shortWay q) p x) : Turns q p x := by
  unfold Turns shortWay at *
  split at h
  · have e : toQuat (-q) = -toQuat q := by ext <;> simp
    rw [h, e, inv_neg, mul_neg, neg_mul, neg_mul, neg_neg]
  · exact h

private theorem end_real {j : TwoBone F32} {σ η τ π v y p : F4 ℝ} {ε T P : ℝ} (h : BonesInput32 j σ η τ π ε T P)
    (hy : SendsPoint (valMat j.midJoint) v y) (hp : SendsPoint (valMat j.startJoint) p y) :
    Same3 p (σ + toStart (valMat j.startJoint) (valMat j.midJoint) v) := by
  have rs := rigid_real h.start
  have rm := rigid_real h.middle
  have ds := rs.det_ne h.rigid
  have dm := rm.det_ne h.rigid
  obtain ⟨-, b2⟩ := bones rs.affine ds rm.affine dm y
  have p1 := point_invert rs.affine ds h.midS
  have p2 := point_invert rs.affine ds hp
  rw [toStart_congr _ _ (point_invert rm.affine dm hy)] at b2
  generalize toStart (valMat j.startJoint) (valMat j.midJoint) v = w at *
  generalize (valMat j.startJoint).invert.transformPoint y = Y at *
  have p1' : Same3 ((valMat j.startJoint).invert.transformPoint (valMat j.midJoint 3)) σ := p1
  generalize (valMat j.startJoint).invert.transformPoint (valMat j.midJoint 3) = Z at *
  have go : ∀ i : Fin 4, Y i = p i → Z i = σ i → Y i - Z i = w i → p i = σ i + w i := fun i a b c => by rw [← a, ← b, ← c]; ring
  exact ⟨go 0 p2.1 p1'.1 b2.1, go 1 p2.2.1 p1'.2.1 b2.2.1, go 2 p2.2.2 p1'.2.2 b2.2.2⟩

/-- What both theorems need: the corrections of a run at full weight. -/
private theorem corrections {j j' : TwoBone F32} {σ η τ π e v y p x : F4 ℝ} {ε T P : ℝ} (h : BonesInput32 j σ η τ π ε T P)
    (hrun : j.run polyTrig = .ok j') (hw : 1 ≤ val j.weight) (he : SendsPoint (valMat j.midJoint) e (valVec (j.endJoint 3)))
    (hv : Turns (valVec j'.midCorrection) e v) (hy : SendsPoint (valMat j.midJoint) v y) (hp : SendsPoint (valMat j.startJoint) p y)
    (hx : Turns (valVec j'.startCorrection) p x) :
    (∃ q : F4 F32, q = j.computeMid polyTrig j.setup (vec3Length2S (j.startJoint.invert.transformPoint j.target)) ∧ Turns (valVec q) e v) ∧
    mag3 (x - (mag3 p / mag3 τ) • τ) ≤ mag3 p / 200 + T / 1000 + T * mag3 p / (6000 * mag3 τ) ∧
    (-(1 / 2) * (mag3 p * mag3 τ) ≤ dot3 p τ →
      mag3 (x - (mag3 p / mag3 τ) • τ) ≤ mag3 p / 2 ^ 14 + T / 1000 + T * mag3 p / (6000 * mag3 τ)) := by
  have b := bones_seen h
  obtain ⟨V, q, E, rot, R, hV, hq, hE, hrot, run, fq, nq, -, -, fR, nR, lR, U, hU, dU⟩ := bones_ok h b
  have eq := hrun.symm.trans (run j.weight h.weight.1 h.weight.2)
  injection eq with eq
  obtain ⟨-, w1, -⟩ := weighted_ok (j := aimOf j) fR (nR.trans (by norm_num)) h.weight.1
  obtain ⟨-, w2, -⟩ := weighted_ok (j := aimOf j) fq (nq.trans (by norm_num)) h.weight.1
  rw [eq] at hv hx
  have hx' : Turns (valVec R) p x := turn_short (by rw [← w1 hw]; exact hx)
  have hv' : Turns (valVec q) e v := turn_short (by rw [← w2 hw]; exact hv)
  obtain ⟨fE, dE, lE, -⟩ := chain_end_ok h b fq nq he hv' hE
  have sp := end_real h hy hp
  have dE' : mag3 (valVec E - p) ≤ 6010 / 2 ^ 24 * T := by
    refine le_trans (le_of_eq (mag3_congr ?_)) dE
    exact ⟨congrArg (valVec E 0 - ·) sp.1, congrArg (valVec E 1 - ·) sp.2.1, congrArg (valVec E 2 - ·) sp.2.2⟩
  rw [hV, hq] at *
  refine ⟨⟨_, rfl, hv'⟩, ?_⟩
  rw [hrot] at dU
  exact direction_ok h.size_ge h.size_le fE b.target.1 dE' b.target.2 b.τ_ge b.τ_le lE hU dU lR hx'

private theorem toward {p τ x : F4 ℝ} : mag3 (x - (mag3 p / mag3 τ) • τ) =
    √(dist2 x (fun i => √(dot3 p p) / √(dot3 τ τ) * τ i)) := by
  have e : (fun i => √(dot3 p p) / √(dot3 τ τ) * τ i) = (mag3 p / mag3 τ) • τ := by
    funext i; rw [← mag3_eq, ← mag3_eq]; rfl
  rw [e, dist_mag, Real.sqrt_sq (mag3_nonneg _)]

/-- C87: at full weight the start correction turns the chain towards the target, for every target and every middle axis.
`e` is the end joint in the space of the middle joint; the middle correction turns it to `v`, which is `p` in the space of the
start joint; the start correction turns that to `x`. The second bound is for chains that do not point almost opposite to the
target. -/
theorem C87_direction {j j' : TwoBone F32} {σ η τ π e v y p x : F4 ℝ} {ε T P : ℝ} (h : BonesInput32 j σ η τ π ε T P)
    (hrun : j.run polyTrig = .ok j') (hw : 1 ≤ val j.weight) (he : SendsPoint (valMat j.midJoint) e (valVec (j.endJoint 3)))
    (hv : Turns (valVec j'.midCorrection) e v) (hy : SendsPoint (valMat j.midJoint) v y) (hp : SendsPoint (valMat j.startJoint) p y)
    (hx : Turns (valVec j'.startCorrection) p x) :
    √(dist2 x (fun i => √(dot3 p p) / √(dot3 τ τ) * τ i)) ≤
      √(dot3 p p) / 200 + T / 1000 + T * √(dot3 p p) / (6000 * √(dot3 τ τ)) ∧
    (-(1 / 2) * (√(dot3 p p) * √(dot3 τ τ)) ≤ dot3 p τ → √(dist2 x (fun i => √(dot3 p p) / √(dot3 τ τ) * τ i)) ≤
      √(dot3 p p) / 2 ^ 14 + T / 1000 + T * √(dot3 p p) / (6000 * √(dot3 τ τ))) := by
  obtain ⟨-, d⟩ := corrections h hrun hw he hv hy hp hx
  rw [← toward, ← mag3_eq, ← mag3_eq]
  exact d

/-- C87: at full weight the middle correction bends the chain to the distance of the target, if the target is within the
reach of the bones. `A` and `B` are the lengths of the bones. -/
theorem C87_length {j j' : TwoBone F32} {σ η τ π μ e v y p : F4 ℝ} {ε T P ν κ A B : ℝ} (h : BonesInput32 j σ η τ π ε T P)
    (hb : BonesBend32 j μ e ν κ) (hA : A = √(dot3 σ σ)) (hB : B = √(dist2 η σ))
    (near : |A - B| ≤ √(dot3 τ τ)) (far : √(dot3 τ τ) ≤ A + B) (hrun : j.run polyTrig = .ok j') (hw : 1 ≤ val j.weight)
    (hv : Turns (valVec j'.midCorrection) e v) (hy : SendsPoint (valMat j.midJoint) v y) (hp : SendsPoint (valMat j.startJoint) p y) :
    |dot3 τ τ - dot3 p p| ≤ (T * (A + B) / 300 + (50 * ε + 4 * ν ^ 2) * (A + B) ^ 2) / κ := by
  have b := bones_seen h
  obtain ⟨x, hx⟩ : ∃ x, Turns (valVec j'.startCorrection) p x := by
    obtain ⟨j2, h2, -, -, n, -⟩ := C86_runs h
    rw [hrun] at h2
    injection h2 with h2
    rw [h2]
    exact turns_exists (quat_ne (by norm_num) n) p
  obtain ⟨⟨q, hq, hv'⟩, -⟩ := corrections h hrun hw hb.endM hv hy hp hx
  rw [dist_mag, Real.sqrt_sq (mag3_nonneg _)] at hB
  rw [← mag3_eq] at hA near far
  rw [hA, hB] at near far ⊢
  have := chain_reach h b hb near far hq hv'
  rw [← mag3_congr (end_real h hy hp), mag3_sq, mag3_sq] at this
  exact this

/-- C87: with both, the corrections bring the end joint to the target. -/
theorem C87_reaches {j j' : TwoBone F32} {σ η τ π μ e v y p x : F4 ℝ} {ε T P ν κ A B : ℝ} (h : BonesInput32 j σ η τ π ε T P)
    (hb : BonesBend32 j μ e ν κ) (hA : A = √(dot3 σ σ)) (hB : B = √(dist2 η σ))
    (near : |A - B| ≤ √(dot3 τ τ)) (far : √(dot3 τ τ) ≤ A + B) (hrun : j.run polyTrig = .ok j') (hw : 1 ≤ val j.weight)
    (hv : Turns (valVec j'.midCorrection) e v) (hy : SendsPoint (valMat j.midJoint) v y) (hp : SendsPoint (valMat j.startJoint) p y)
    (hx : Turns (valVec j'.startCorrection) p x) :
    √(dist2 x τ) ≤ (T * (A + B) / 300 + (50 * ε + 4 * ν ^ 2) * (A + B) ^ 2) / (κ * √(dot3 τ τ)) +
      √(dot3 p p) / 200 + T / 1000 + T * √(dot3 p p) / (6000 * √(dot3 τ τ)) ∧
    (-(1 / 2) * (√(dot3 p p) * √(dot3 τ τ)) ≤ dot3 p τ →
      √(dist2 x τ) ≤ (T * (A + B) / 300 + (50 * ε + 4 * ν ^ 2) * (A + B) ^ 2) / (κ * √(dot3 τ τ)) +
        √(dot3 p p) / 2 ^ 14 + T / 1000 + T * √(dot3 p p) / (6000 * √(dot3 τ τ))) := by
  have b := bones_seen h
  have len := C87_length h hb hA hB near far hrun hw hv hy hp
  obtain ⟨-, d1, d2⟩ := corrections h hrun hw hb.endM hv hy hp hx
  rw [dist_mag, Real.sqrt_sq (mag3_nonneg _), ← mag3_eq, ← mag3_eq]
  rw [← mag3_sq, ← mag3_sq] at len
  generalize T * (A + B) / 300 + (50 * ε + 4 * ν ^ 2) * (A + B) ^ 2 = Δ at *
  have t0 : 0 < mag3 τ := by linarith [b.τ_ge, h.size_ge]
  have p0 := mag3_nonneg p
  have gap : mag3 ((mag3 p / mag3 τ) • τ - τ) ≤ Δ / (κ * mag3 τ) := by
    have e : (mag3 p / mag3 τ) • τ - τ = (mag3 p / mag3 τ - 1) • τ := by rw [sub_smul, one_smul]
    have e2 : |mag3 p / mag3 τ - 1| * mag3 τ = |mag3 p - mag3 τ| := by
      rw [← abs_of_pos t0, ← abs_mul, abs_of_pos t0, sub_mul, div_mul_cancel₀ _ t0.ne', one_mul]
    rw [e, mag3_smul, e2, ← div_div, le_div_iff₀ t0]
    refine le_trans ?_ len
    rw [show mag3 τ ^ 2 - mag3 p ^ 2 = -((mag3 p - mag3 τ) * (mag3 τ + mag3 p)) by ring, abs_neg, abs_mul,
      abs_of_nonneg (by linarith : 0 ≤ mag3 τ + mag3 p)]
    exact mul_le_mul_of_nonneg_left (by linarith) (abs_nonneg _)
  have tri := mag3_tri x ((mag3 p / mag3 τ) • τ) τ
  exact ⟨by linarith, fun hc => by linarith [d2 hc]⟩

/-! ### An example -/

/-- The bend of the arm: a right angle, the axis across both bones. -/
theorem arm32_bend (w : F32) : BonesBend32 (arm32 w) (f4 (-2) 0 0 0) (f4 0 2 0 0) 0 1 := by
  obtain ⟨vs, vm, ve, -, va, -⟩ := arm32_values w
  have e : valVec ((arm32 w).startJoint 3) = f4 1 2 3 1 := congrFun vs 3
  refine ⟨?_, ?_, ?_, ?_, ?_, by norm_num⟩
  · rw [vm, e]; intro i; fin_cases i <;> norm_num [f4]
  · rw [vm, ve]; intro i; fin_cases i <;> norm_num [f4]
  · rw [va]; norm_num [dot3]
  · rw [va]; norm_num [dot3]
  · rw [va, show dot3 (f4 (-2) 0 0 0) (f4 (-2) 0 0 0) = 2 ^ 2 by norm_num [dot3], show dot3 (f4 0 2 0 0) (f4 0 2 0 0) = 2 ^ 2 by norm_num [dot3],
      Real.sqrt_sq (by norm_num)]
    norm_num [dot3, cross]

/-- The arm's hand, two bones of length 2, ends up within 1/15 of the target three units away. -/
example : ∃ j' v y p x, (arm32 ⟨0x3f800000⟩).run polyTrig = .ok j' ∧ Turns (valVec j'.midCorrection) (f4 0 2 0 0) v ∧
    SendsPoint (valMat (arm32 ⟨0x3f800000⟩).midJoint) v y ∧ SendsPoint (valMat (arm32 ⟨0x3f800000⟩).startJoint) p y ∧
    Turns (valVec j'.startCorrection) p x ∧ √(dist2 x (f4 3 0 0 0)) ≤ 1 / 15 := by
  obtain ⟨-, o, -, -, -, -, -, -, -⟩ := arm32_numbers
  have h := arm32_ok (w := ⟨0x3f800000⟩) (show Finite32 (0x3f800000 : BitVec 32) by decide +kernel) (by rw [o]; norm_num)
  have hb := arm32_bend ⟨0x3f800000⟩
  obtain ⟨j', hrun, -, -, n1, n2, -⟩ := C86_runs h
  obtain ⟨v, hv⟩ := turns_exists (quat_ne (by norm_num) n2) (f4 0 2 0 0)
  have rs := rigid_real h.start
  have hg := invert_point rs.affine (rs.det_ne h.rigid) ((valMat (arm32 ⟨0x3f800000⟩).midJoint).transformPoint v)
  obtain ⟨x, hx⟩ := turns_exists (quat_ne (by norm_num) n1)
    ((valMat (arm32 ⟨0x3f800000⟩).startJoint).invert.transformPoint ((valMat (arm32 ⟨0x3f800000⟩).midJoint).transformPoint v))
  have sy : SendsPoint (valMat (arm32 ⟨0x3f800000⟩).midJoint) v ((valMat (arm32 ⟨0x3f800000⟩).midJoint).transformPoint v) :=
    sendsPoint_iff.mpr (Same3.refl _)
  have sp : SendsPoint (valMat (arm32 ⟨0x3f800000⟩).startJoint) _ ((valMat (arm32 ⟨0x3f800000⟩).midJoint).transformPoint v) :=
    sendsPoint_iff.mpr (Same3.symm hg)
  refine ⟨j', v, _, _, x, hrun, hv, sy, sp, hx, ?_⟩
  have r2 : √(dot3 (f4 2 0 0 0) (f4 2 0 0 0)) = 2 := by
    rw [show dot3 (f4 2 0 0 0) (f4 2 0 0 0) = 2 ^ 2 by norm_num [dot3], Real.sqrt_sq (by norm_num)]
  have r3 : √(dot3 (f4 3 0 0 0) (f4 3 0 0 0)) = 3 := by
    rw [show dot3 (f4 3 0 0 0) (f4 3 0 0 0) = 3 ^ 2 by norm_num [dot3], Real.sqrt_sq (by norm_num)]
  have rd : √(dist2 (f4 2 2 0 0) (f4 2 0 0 0)) = 2 := by
    rw [show dist2 (f4 2 2 0 0) (f4 2 0 0 0) = 2 ^ 2 by norm_num [dist2], Real.sqrt_sq (by norm_num)]
  have len := C87_length h hb r2.symm rd.symm (by rw [r3]; norm_num) (by rw [r3]; norm_num) hrun
    (show 1 ≤ val (⟨0x3f800000⟩ : F32) by rw [o]) hv sy sp
  have key := (C87_reaches h hb r2.symm rd.symm (by rw [r3]; norm_num) (by rw [r3]; norm_num) hrun
    (show 1 ≤ val (⟨0x3f800000⟩ : F32) by rw [o]) hv sy sp hx).1
  rw [show dot3 (f4 3 0 0 0) (f4 3 0 0 0) = 9 by norm_num [dot3]] at len
  rw [r3] at key
  generalize (valMat (arm32 ⟨0x3f800000⟩).startJoint).invert.transformPoint _ = p at *
  have len' := abs_le.mp len
  have p1 : √(dot3 p p) ≤ 3.02 := by
    rw [Real.sqrt_le_iff]
    exact ⟨by norm_num, by norm_num at len' ⊢; linarith [len'.1]⟩
  norm_num at key ⊢
  linarith

end Ozz.Props
