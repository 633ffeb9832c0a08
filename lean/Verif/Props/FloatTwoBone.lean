import Verif.Proofs.FloatBonesStart
import Mathlib.Tactic.FinCases

/-! C86: the two-bone job in single precision, with the code's own trigonometry. -/

namespace Ozz.Props

open Ozz F32 Ieee Spec IK Blending Ozz.Trig

private theorem run_ok {j : TwoBone F32} {σ η τ π : F4 ℝ} {ε T P : ℝ} (h : BonesInput32 j σ η τ π ε T P) : ∃ q R : F4 F32,
    (∀ w : F32, Finite32 w.bits → 0 < val w → ({ j with weight := w } : TwoBone F32).run polyTrig = .ok { j with
      weight := w, startCorrection := (aimOf { j with weight := w }).weighted R, midCorrection := (aimOf { j with weight := w }).weighted q,
      reached := (j.softenTarget j.setup).1 && NumOps.le NumOps.one w }) ∧
    (∀ c, Finite32 (q c).bits) ∧ |norm2 (valVec q) - 1| ≤ 1 / 2 ^ 16 ∧ (∀ c, Finite32 (R c).bits) ∧ |norm2 (valVec R) - 1| ≤ 1 / 2 ^ 16 := by
  obtain ⟨V, q, E, rot, R, -, -, -, -, run, fq, nq, -, -, fR, nR, -⟩ := bones_ok h (bones_seen h)
  exact ⟨q, R, run, fq, nq.trans (by norm_num), fR, nR⟩

private theorem weighted_all {j : Aim F32} {q : F4 F32} (hq : ∀ c, Finite32 (q c).bits) (hq1 : |norm2 (valVec q) - 1| ≤ 1 / 2 ^ 16)
    (hw : Finite32 j.weight.bits) : (∀ c, Finite32 (j.weighted q c).bits) ∧ |norm2 (valVec (j.weighted q)) - 1| ≤ 1 / 2 ^ 16 ∧
    (1 ≤ val j.weight → 0 ≤ val (j.weighted q 3)) := by
  obtain ⟨f, w1, w2⟩ := weighted_ok (j := j) hq (hq1.trans (by norm_num)) hw
  refine ⟨f, ?_, fun h => ?_⟩
  · rcases le_or_gt 1 (val j.weight) with h | h
    · rw [w1 h, shortWay_norm]; exact hq1
    · exact (w2 h).1.trans (by norm_num)
  · show 0 ≤ valVec (j.weighted q) 3
    rw [w1 h]
    exact shortWay_w _

/-- C86: the run succeeds; both corrections are finite and rotations up to `2^-16`, turning the shorter way at full weight. -/
theorem C86_runs {j : TwoBone F32} {σ η τ π : F4 ℝ} {ε T P : ℝ} (h : BonesInput32 j σ η τ π ε T P) : ∃ j', j.run polyTrig = .ok j' ∧
    (∀ c, Finite32 (j'.startCorrection c).bits) ∧ (∀ c, Finite32 (j'.midCorrection c).bits) ∧
    |norm2 (valVec j'.startCorrection) - 1| ≤ 1 / 2 ^ 16 ∧ |norm2 (valVec j'.midCorrection) - 1| ≤ 1 / 2 ^ 16 ∧
    (1 ≤ val j.weight → 0 ≤ val (j'.startCorrection 3) ∧ 0 ≤ val (j'.midCorrection 3)) := by
  obtain ⟨q, R, run, fq, nq, fR, nR⟩ := run_ok h
  obtain ⟨f1, n1, w1⟩ := weighted_all (j := aimOf j) fR nR h.weight.1
  obtain ⟨f2, n2, w2⟩ := weighted_all (j := aimOf j) fq nq h.weight.1
  exact ⟨_, run j.weight h.weight.1 h.weight.2, f1, f2, n1, n2, fun hw => ⟨w1 hw, w2 hw⟩⟩

/-- C86: reached is reported at full weight for targets within the reach of the bones, the far end shortened by the soften
ratio: decided correctly up to a margin of `T / 2^11`. -/
theorem C86_reached {j j' : TwoBone F32} {σ η τ π : F4 ℝ} {ε T P : ℝ} (h : BonesInput32 j σ η τ π ε T P) (hrun : j.run polyTrig = .ok j') :
    (j'.reached = true → 1 ≤ val j.weight ∧
      √(dot3 τ τ) ≤ (√(dot3 σ σ) + √(dist2 η σ)) * min (max (val j.soften) 0) 1 + T / 2 ^ 11 ∧
      |√(dot3 σ σ) - √(dist2 η σ)| ≤ √(dot3 τ τ) + T / 2 ^ 11) ∧
    (j'.reached = false → val j.weight < 1 ∨
      (√(dot3 σ σ) + √(dist2 η σ)) * min (max (val j.soften) 0) 1 ≤ √(dot3 τ τ) + T / 2 ^ 11 ∨
      √(dot3 τ τ) ≤ |√(dot3 σ σ) - √(dist2 η σ)| + T / 2 ^ 11) := by
  obtain ⟨q, R, run, -⟩ := run_ok h
  have e : Outcome.ok j' = Outcome.ok _ := hrun.symm.trans (run j.weight h.weight.1 h.weight.2)
  have hr : j'.reached = ((j.softenTarget j.setup).1 && NumOps.le NumOps.one j.weight) := by
    injection e with e
    rw [e]
  have le : NumOps.le NumOps.one j.weight = true ↔ 1 ≤ val j.weight := by
    have := le_val32 one_finite h.weight.1
    rw [valOne] at this
    exact this
  obtain ⟨-, s1, s2⟩ := soften_ok h (bones_seen h)
  rw [← mag3_eq, ← mag3_eq, dist_mag, Real.sqrt_sq (mag3_nonneg _), hr]
  constructor
  · intro hb
    rw [Bool.and_eq_true] at hb
    exact ⟨le.mp hb.2, s1 hb.1⟩
  · intro hb
    rw [Bool.and_eq_false_iff] at hb
    rcases hb with hb | hb
    · exact Or.inr (s2 hb)
    · left
      by_contra h'
      rw [le.mpr (not_lt.mp h')] at hb
      cases hb

private theorem partly_short (w : ℝ) (q : F4 ℝ) : partly w (shortWay q) = partly w q := by
  have hs : shortWay (shortWay q) = shortWay q := by
    rw [shortWay, if_neg (not_lt.mpr (shortWay_w _))]
  unfold partly
  rw [hs]

/-- C86: with a weight between zero and one each correction is that part of the correction at full weight, up to `30 / 2^24`. -/
theorem C86_weight {j j' j1 : TwoBone F32} {σ η τ π : F4 ℝ} {ε T P : ℝ} (h : BonesInput32 j σ η τ π ε T P) (hrun : j.run polyTrig = .ok j')
    (hw : val j.weight < 1) {w : F32} (hfin : Finite32 w.bits) (hfull : 1 ≤ val w)
    (hrun1 : ({ j with weight := w } : TwoBone F32).run polyTrig = .ok j1) :
    ‖toQuat (valVec j'.startCorrection) - partly (val j.weight) (valVec j1.startCorrection)‖ ≤ 30 / 2 ^ 24 ∧
    ‖toQuat (valVec j'.midCorrection) - partly (val j.weight) (valVec j1.midCorrection)‖ ≤ 30 / 2 ^ 24 := by
  obtain ⟨q, R, run, fq, nq, fR, nR⟩ := run_ok h
  have e : Outcome.ok j' = Outcome.ok _ := hrun.symm.trans (run j.weight h.weight.1 h.weight.2)
  have e1 := hrun1.symm.trans (run w hfin (by linarith))
  injection e with e
  injection e1 with e1
  rw [e, e1]
  have key : ∀ {q : F4 F32}, (∀ c, Finite32 (q c).bits) → |norm2 (valVec q) - 1| ≤ 1 / 2 ^ 16 →
      ‖toQuat (valVec ((aimOf j).weighted q)) - partly (val j.weight) (valVec ((aimOf { j with weight := w }).weighted q))‖ ≤ 30 / 2 ^ 24 := by
    intro q fq nq
    obtain ⟨-, -, w2⟩ := weighted_ok (j := aimOf j) fq (nq.trans (by norm_num)) h.weight.1
    obtain ⟨-, w1, -⟩ := weighted_ok (j := aimOf { j with weight := w }) fq (nq.trans (by norm_num)) hfin
    rw [w1 hfull, partly_short]
    have := (w2 hw).2
    rw [show (aimOf j).weight = j.weight from rfl, max_eq_left h.weight.2.le] at this
    exact this
  exact ⟨key fR nR, key fq nq⟩

/-! ### An example -/

/-- An arm: the start joint turned by a quarter about z at (1, 2, 3); bones of length 2, bent by a right angle about z; the
target three units away along the start joint's x axis, the pole along its y axis; softening from 7/8 of the reach, a twist of
one half. -/
def arm32 (weight : F32) : TwoBone F32 where
  target := f4 ⟨0x3f800000⟩ ⟨0x40a00000⟩ ⟨0x40400000⟩ ⟨0⟩
  midAxis := f4 ⟨0⟩ ⟨0⟩ ⟨0x3f800000⟩ ⟨0⟩
  poleVector := f4 ⟨0xbf800000⟩ ⟨0⟩ ⟨0⟩ ⟨0⟩
  twistAngle := ⟨0x3f000000⟩
  soften := ⟨0x3f600000⟩
  weight := weight
  startJoint := f4 (f4 ⟨0⟩ ⟨0x3f800000⟩ ⟨0⟩ ⟨0⟩) (f4 ⟨0xbf800000⟩ ⟨0⟩ ⟨0⟩ ⟨0⟩) (f4 ⟨0⟩ ⟨0⟩ ⟨0x3f800000⟩ ⟨0⟩)
    (f4 ⟨0x3f800000⟩ ⟨0x40000000⟩ ⟨0x40400000⟩ ⟨0x3f800000⟩)
  midJoint := f4 (f4 ⟨0⟩ ⟨0x3f800000⟩ ⟨0⟩ ⟨0⟩) (f4 ⟨0xbf800000⟩ ⟨0⟩ ⟨0⟩ ⟨0⟩) (f4 ⟨0⟩ ⟨0⟩ ⟨0x3f800000⟩ ⟨0⟩)
    (f4 ⟨0x3f800000⟩ ⟨0x40800000⟩ ⟨0x40400000⟩ ⟨0x3f800000⟩)
  endJoint := f4 (f4 ⟨0⟩ ⟨0x3f800000⟩ ⟨0⟩ ⟨0⟩) (f4 ⟨0xbf800000⟩ ⟨0⟩ ⟨0⟩ ⟨0⟩) (f4 ⟨0⟩ ⟨0⟩ ⟨0x3f800000⟩ ⟨0⟩)
    (f4 ⟨0xbf800000⟩ ⟨0x40800000⟩ ⟨0x40400000⟩ ⟨0x3f800000⟩)
  startCorrection := quatUnit
  midCorrection := quatUnit
  reached := false

theorem arm32_numbers : val (⟨0⟩ : F32) = 0 ∧ val (⟨0x3f800000⟩ : F32) = 1 ∧ val (⟨0xbf800000⟩ : F32) = -1 ∧ val (⟨0x40000000⟩ : F32) = 2 ∧
    val (⟨0x40400000⟩ : F32) = 3 ∧ val (⟨0x40800000⟩ : F32) = 4 ∧ val (⟨0x40a00000⟩ : F32) = 5 ∧ val (⟨0x3f000000⟩ : F32) = 1 / 2 ∧
    val (⟨0x3f600000⟩ : F32) = 7 / 8 := by
  have h0 : value32 0 = 0 := by decide +kernel
  have h1 : value32 0x3f800000 = 1 := by decide +kernel
  have h2 : value32 0xbf800000 = -1 := by decide +kernel
  have h3 : value32 0x40000000 = 2 := by decide +kernel
  have h4 : value32 0x40400000 = 3 := by decide +kernel
  have h5 : value32 0x40800000 = 4 := by decide +kernel
  have h6 : value32 0x40a00000 = 5 := by decide +kernel
  have h7 : value32 0x3f000000 = 1 / 2 := by decide +kernel
  have h8 : value32 0x3f600000 = 7 / 8 := by decide +kernel
  refine ⟨?_, ?_, ?_, ?_, ?_, ?_, ?_, ?_, ?_⟩ <;> simp only [val, real, h0, h1, h2, h3, h4, h5, h6, h7, h8] <;> norm_num

theorem arm32_values (w : F32) : valMat (arm32 w).startJoint = f4 (f4 0 1 0 0) (f4 (-1) 0 0 0) (f4 0 0 1 0) (f4 1 2 3 1) ∧
    valMat (arm32 w).midJoint = f4 (f4 0 1 0 0) (f4 (-1) 0 0 0) (f4 0 0 1 0) (f4 1 4 3 1) ∧
    valVec ((arm32 w).endJoint 3) = f4 (-1) 4 3 1 ∧ valVec (arm32 w).target = f4 1 5 3 0 ∧ valVec (arm32 w).midAxis = f4 0 0 1 0 ∧
    valVec (arm32 w).poleVector = f4 (-1) 0 0 0 := by
  obtain ⟨z, o, m, t, u, s, v, -, -⟩ := arm32_numbers
  refine ⟨?_, ?_, ?_, ?_, ?_, ?_⟩
  · funext c r
    revert c r
    apply four <;> apply four <;> simp only [valMat, arm32, f4_0, f4_1, f4_2, f4_3, z, o, m, t, u]
  · funext c r
    revert c r
    apply four <;> apply four <;> simp only [valMat, arm32, f4_0, f4_1, f4_2, f4_3, z, o, m, s, u]
  · apply ext4 <;> simp only [valVec, arm32, f4_0, f4_1, f4_2, f4_3, m, o, u, s]
  · apply ext4 <;> simp only [valVec, arm32, f4_0, f4_1, f4_2, f4_3, z, o, u, v]
  · apply ext4 <;> simp only [valVec, arm32, f4_0, f4_1, f4_2, f4_3, z, o]
  · apply ext4 <;> simp only [valVec, arm32, f4_0, f4_1, f4_2, f4_3, z, m]

theorem arm32_ok {w : F32} (hw : Finite32 w.bits) (hp : 0 < val w) :
    BonesInput32 (arm32 w) (f4 2 0 0 0) (f4 2 2 0 0) (f4 3 0 0 0) (f4 0 1 0 0) 0 8 1 := by
  obtain ⟨z, o, m, t, u, s, v, half, soft⟩ := arm32_numbers
  obtain ⟨vs, vm, ve, vt, va, vp⟩ := arm32_values w
  have bound : ∀ {v : F4 F32} {x : F4 ℝ} {B : ℝ}, valVec v = x → (∀ i, Finite32 (v i).bits) → (∀ i, |x i| ≤ B) → Within3 v B := by
    intro v x B hv hf hx i _
    refine ⟨hf i, ?_⟩
    show |valVec v i| ≤ B
    rw [hv]; exact hx i
  have rigid : ∀ {a : Mat4 F32} {p : F4 ℝ}, valMat a = f4 (f4 0 1 0 0) (f4 (-1) 0 0 0) (f4 0 0 1 0) p → p 3 = 1 →
      (∀ c r, Finite32 (a c r).bits) → (∀ r, |p r| ≤ 8) → Rigid32 a 0 8 := by
    intro a p ha p3 hf hp
    refine ⟨hf, ?_, ?_, ?_⟩
    · rw [ha]; simp [AffineMat, p3]
    · rw [ha]
      intro i j hi hj
      revert j
      revert i
      refine four_ne ?_ ?_ ?_ <;> refine four_ne ?_ ?_ ?_ <;> simp [dot3]
    · intro r _
      show |valMat a 3 r| ≤ 8
      rw [ha]; exact hp r
  have r2 : √(dot3 (f4 2 0 0 0) (f4 2 0 0 0)) = 2 := by
    rw [show dot3 (f4 2 0 0 0) (f4 2 0 0 0) = 2 ^ 2 by norm_num [dot3], Real.sqrt_sq (by norm_num)]
  have r3 : √(dot3 (f4 3 0 0 0) (f4 3 0 0 0)) = 3 := by
    rw [show dot3 (f4 3 0 0 0) (f4 3 0 0 0) = 3 ^ 2 by norm_num [dot3], Real.sqrt_sq (by norm_num)]
  have rd : √(dist2 (f4 2 2 0 0) (f4 2 0 0 0)) = 2 := by
    rw [show dist2 (f4 2 2 0 0) (f4 2 0 0 0) = 2 ^ 2 by norm_num [dist2], Real.sqrt_sq (by norm_num)]
  exact
  { start := rigid vs rfl (by apply four_all <;> apply four_all <;> simp only [arm32, f4_0, f4_1, f4_2, f4_3] <;> decide +kernel)
      (by apply four_all <;> norm_num)
    middle := rigid vm rfl (by apply four_all <;> apply four_all <;> simp only [arm32, f4_0, f4_1, f4_2, f4_3] <;> decide +kernel)
      (by apply four_all <;> norm_num)
    rigid := by norm_num
    size_ge := by norm_num
    size_le := by norm_num
    tip := bound ve (by apply four_all <;> simp only [arm32, f4_0, f4_1, f4_2, f4_3] <;> decide +kernel) (by apply four_all <;> norm_num)
    target := bound vt (by apply four_all <;> simp only [arm32, f4_0, f4_1, f4_2, f4_3] <;> decide +kernel) (by apply four_all <;> norm_num)
    pole := bound vp (by apply four_all <;> simp only [arm32, f4_0, f4_1, f4_2, f4_3] <;> decide +kernel) (by apply four_all <;> norm_num)
    pole_ge := by norm_num
    pole_le := by norm_num
    axis := by
      refine four_ne ?_ ?_ ?_ <;> simp only [arm32, f4_0, f4_1, f4_2, f4_3] <;> decide +kernel
    unit := by rw [va]; norm_num [dot3]
    twist := by
      refine ⟨show Finite32 (0x3f000000 : BitVec 32) by decide +kernel, ?_⟩
      show |val (⟨0x3f000000⟩ : F32)| ≤ 4095
      rw [half]; norm_num
    weight := ⟨hw, hp⟩
    softenFinite := show Finite32 (0x3f600000 : BitVec 32) by decide +kernel
    unsoftened := by
      right
      rw [r2, r3, rd, show val (arm32 w).soften = 7 / 8 from soft]
      norm_num
    midS := by
      have e : valVec ((arm32 w).midJoint 3) = f4 1 4 3 1 := congrFun vm 3
      rw [vs, e]
      intro i
      fin_cases i <;> norm_num [f4]
    endS := by
      rw [vs, ve]
      intro i
      fin_cases i <;> norm_num [f4]
    targetS := by
      rw [vs, vt]
      intro i
      fin_cases i <;> norm_num [f4]
    poleS := by
      rw [vs, vp]
      intro i
      fin_cases i <;> norm_num [f4]
    bone1 := by norm_num [dot3]
    bone2 := by norm_num [dist2]
    far := by norm_num [dot3]
    apart := by norm_num [dot3, cross] }

/-- At full weight the arm reports that it reaches the target. -/
example : ∃ j', (arm32 ⟨0x3f800000⟩).run polyTrig = .ok j' ∧ j'.reached = true ∧ |norm2 (valVec j'.startCorrection) - 1| ≤ 1 / 2 ^ 16 := by
  obtain ⟨-, o, -, -, -, -, -, -, soft⟩ := arm32_numbers
  have h := arm32_ok (w := ⟨0x3f800000⟩) (show Finite32 (0x3f800000 : BitVec 32) by decide +kernel) (by rw [o]; norm_num)
  obtain ⟨j', hrun, -, -, n, -⟩ := C86_runs h
  refine ⟨j', hrun, ?_, n⟩
  cases hj : j'.reached with
  | true => rfl
  | false =>
    have := (C86_reached h hrun).2 hj
    rw [show (arm32 ⟨0x3f800000⟩).weight = ⟨0x3f800000⟩ from rfl, show (arm32 ⟨0x3f800000⟩).soften = ⟨0x3f600000⟩ from rfl, o, soft,
      show dot3 (f4 2 0 0 0) (f4 2 0 0 0) = 2 ^ 2 by norm_num [dot3], show dot3 (f4 3 0 0 0) (f4 3 0 0 0) = 3 ^ 2 by norm_num [dot3],
      show dist2 (f4 2 2 0 0) (f4 2 0 0 0) = 2 ^ 2 by norm_num [dist2], Real.sqrt_sq (by norm_num), Real.sqrt_sq (by norm_num)] at this
    norm_num at this

/-- With half the weight: half of the corrections. -/
example : ∃ j' j1, (arm32 ⟨0x3f000000⟩).run polyTrig = .ok j' ∧ (arm32 ⟨0x3f800000⟩).run polyTrig = .ok j1 ∧
    ‖toQuat (valVec j'.startCorrection) - partly (1 / 2) (valVec j1.startCorrection)‖ ≤ 30 / 2 ^ 24 := by
  obtain ⟨-, o, -, -, -, -, -, half, -⟩ := arm32_numbers
  have h := arm32_ok (w := ⟨0x3f000000⟩) (show Finite32 (0x3f000000 : BitVec 32) by decide +kernel) (by rw [half]; norm_num)
  have h1 := arm32_ok (w := ⟨0x3f800000⟩) (show Finite32 (0x3f800000 : BitVec 32) by decide +kernel) (by rw [o]; norm_num)
  obtain ⟨j', hrun, -⟩ := C86_runs h
  obtain ⟨j1, hrun1, -⟩ := C86_runs h1
  refine ⟨j', j1, hrun, hrun1, ?_⟩
  have := (C86_weight h hrun (by show val (⟨0x3f000000⟩ : F32) < 1; rw [half]; norm_num) h1.weight.1
    (by show 1 ≤ val (⟨0x3f800000⟩ : F32); rw [o]) hrun1).1
  rw [show val (arm32 ⟨0x3f000000⟩).weight = 1 / 2 from half] at this
  exact this

end Ozz.Props
