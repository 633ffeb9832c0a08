import Verif.Proofs.FloatAimRun

/-! C85: the aim job in single precision, with the code's own trigonometry. -/

namespace Ozz.Props

open Ozz F32 Ieee Spec IK Blending Ozz.Trig

private theorem dist2_mag (a b : F4 ℝ) : dist2 a b = mag3 (a - b) ^ 2 := by
  rw [mag3_sq]; simp only [dist2, dot3, Pi.sub_apply]; ring

private theorem dist2_le {a b : F4 ℝ} {d : ℝ} (h : mag3 (a - b) ≤ d) : dist2 a b ≤ d ^ 2 := by
  rw [dist2_mag]; exact pow_le_pow_left₀ (mag3_nonneg _) h 2

/-- C85: the rotation from one vector to another. For vectors of ordinary sizes it is finite and has unit length up to
`2^-19`; it takes `a` to the direction of `b`, up to `1/200` of the length of `a`; and up to `1/2^17` of it if the angle
between them is at most 120 degrees. -/
theorem C85_from_vectors {a b : F4 F32} (ha : ∀ i, i ≠ 3 → Finite32 (a i).bits) (hb : ∀ i, i ≠ 3 → Finite32 (b i).bits)
    {A B : ℝ} (hA : A = √(dot3 (valVec a) (valVec a))) (hB : B = √(dot3 (valVec b) (valVec b))) (a0 : 1 / 2 ^ 30 ≤ A) (a1 : A ≤ 2 ^ 30)
    (b0 : 1 / 2 ^ 30 ≤ B) (b1 : B ≤ 2 ^ 30) (n0 : 1.001 / 1000000 ≤ A * B) (n1 : A * B ≤ 2 ^ 48) :
    (∀ c, Finite32 (quatFromVectors a b c).bits) ∧ |norm2 (valVec (quatFromVectors a b)) - 1| ≤ 1 / 2 ^ 19 ∧
    ∀ x, Turns (valVec (quatFromVectors a b)) (valVec a) x →
      dist2 x (fun i => A / B * val (b i)) ≤ (A / 200) ^ 2 ∧
      (-(1 / 2) * (A * B) ≤ dot3 (valVec a) (valVec b) → dist2 x (fun i => A / B * val (b i)) ≤ (A / 2 ^ 17) ^ 2) := by
  rw [← mag3_eq] at hA hB
  subst hA hB
  have A0 : 0 < mag3 (valVec a) := lt_of_lt_of_le (by positivity) a0
  have N0 : 0 < mag3 (valVec a) * mag3 (valVec b) := lt_of_lt_of_le (by norm_num) n0
  obtain ⟨f, n, ⟨U, hU, -, hT⟩, hS⟩ := fromVectors_ok ha hb a0 a1 b0 b1 n0 n1
  refine ⟨f, n, fun x hx => ?_⟩
  have ql := norm_near_one (q := valVec (quatFromVectors a b)) (c := 1 / 2 ^ 20) (by norm_num) (n.trans (by norm_num))
  have e : (mag3 (valVec a) / mag3 (valVec b)) • pureQuat (valVec b) = pureQuat (fun i => mag3 (valVec a) / mag3 (valVec b) * val (b i)) := by
    ext <;> simp [valVec]
  rw [e] at hT hS
  generalize (fun i => mag3 (valVec a) / mag3 (valVec b) * val (b i)) = y at *
  have main : ∀ {U : Quaternion ℝ} {δ : ℝ}, ‖U‖ = 1 → 2 * ‖toQuat (valVec (quatFromVectors a b)) - U‖ * mag3 (valVec a) +
      ‖U * pureQuat (valVec a) * U⁻¹ - pureQuat y‖ ≤ δ * mag3 (valVec a) → mag3 (x - y) ≤ (δ + 32.8 / 2 ^ 24) * mag3 (valVec a) := by
    intro U δ hU hδ
    have d := turn_almost (x := pureQuat (valVec a)) hU ql (by norm_num)
    rw [norm_pure] at d
    have t := norm_sub_le_norm_sub_add_norm_sub (pureQuat x) (U * pureQuat (valVec a) * U⁻¹) (pureQuat y)
    unfold Turns at hx
    rw [← hx] at d
    rw [← mag3_sub_norm]
    have : 2 * (‖toQuat (valVec (quatFromVectors a b)) - U‖ + 1.02 * (1 / 2 ^ 20)) * mag3 (valVec a) =
      2 * ‖toQuat (valVec (quatFromVectors a b)) - U‖ * mag3 (valVec a) + 2.04 / 2 ^ 20 * mag3 (valVec a) := by ring
    linarith
  refine ⟨dist2_le ?_, fun hang => dist2_le ?_⟩
  · have := main (δ := 1 / 215) hU (by linarith)
    linarith
  · obtain ⟨U', hU', d1, d2⟩ := hS (7 / 10) (by norm_num) (by linarith)
    have := main (δ := 81 / 2 ^ 24) hU' (by
      rw [d2, sub_self, norm_zero, add_zero]
      exact mul_le_mul_of_nonneg_right (by linarith) A0.le)
    linarith

/-- C85: the run succeeds; the correction is finite and a rotation up to `2^-16`, turning the shorter way at full weight;
reached and not reached are told apart correctly up to a margin. -/
theorem C85_runs {j : Aim F32} {τ : F4 ℝ} {ε T : ℝ} (h : AimInput32 j τ ε T) : ∃ j', j.run polyTrig = .ok j' ∧
    (∀ c, Finite32 (j'.correction c).bits) ∧ |norm2 (valVec j'.correction) - 1| ≤ 1 / 2 ^ 16 ∧
    (1 ≤ val j.weight → 0 ≤ val (j'.correction 3)) ∧
    (j'.reached = true → dot3 (valVec j.offset) (valVec j.offset) - dot3 (valVec j.forward) (valVec j.offset) ^ 2 ≤
      dot3 τ τ + dot3 τ τ / 2 ^ 16 + T * √(dot3 τ τ) / 2 ^ 12) ∧
    (j'.reached = false → dot3 τ τ ≤ dot3 (valVec j.offset) (valVec j.offset) - dot3 (valVec j.forward) (valVec j.offset) ^ 2 +
      dot3 τ τ / 2 ^ 16 + T * √(dot3 τ τ) / 2 ^ 12) := by
  obtain ⟨hn, hz, hc⟩ := aim_ok h
  rw [← mag3_eq]
  rcases hc with ⟨ho, hm⟩ | ⟨fwd, ho, hm, ff, fn, -⟩
  · refine ⟨_, aim_none hn ho, ?_, ?_, fun _ => ?_, fun hr => absurd hr (by simp), fun _ => hm⟩
    · apply four_all
      exacts [zero_finite, zero_finite, zero_finite, one_finite]
    · have e : valVec (quatUnit : F4 F32) = f4 0 0 0 1 := by
        apply ext4
        exacts [zero_real, zero_real, zero_real, one_real]
      show |norm2 (valVec (quatUnit : F4 F32)) - 1| ≤ _
      rw [e]
      norm_num [norm2]
    · show 0 ≤ val F32.one
      rw [valOne]; norm_num
  · obtain ⟨wf, w1, w2⟩ := weighted_ok (j := j) ff (fn.trans (by norm_num)) h.weight
    refine ⟨_, aim_some hn ho hz, wf, ?_, fun hw => ?_, fun _ => hm, fun hr => absurd hr (by simp)⟩
    · rcases le_or_gt 1 (val j.weight) with hw | hw
      · show |norm2 (valVec (j.weighted (fullTurn polyTrig j fwd))) - 1| ≤ _
        rw [w1 hw, shortWay_norm]
        exact fn
      · exact (w2 hw).1.trans (by norm_num)
    · show 0 ≤ valVec (j.weighted (fullTurn polyTrig j fwd)) 3
      rw [w1 hw]
      exact shortWay_w _

private theorem turn_shortWay {q p x : F4 ℝ} (h : Turns (shortWay q) p x) : Turns q p x := by
  unfold Turns shortWay at *
  split at h
  · have e : toQuat (-q) = -toQuat q := by ext <;> simp
    rw [h, e, inv_neg, mul_neg, neg_mul, neg_mul, neg_neg]
  · exact h

/-- C85: when the job reports reached at full weight, some point `p` of the forward line is turned onto the target: within
1/200 of the distance and `T / 2^13` always; within `2^-14` of the distance and `T / 2^13` if `p` was not almost opposite. -/
theorem C85_aims {j j' : Aim F32} {τ : F4 ℝ} {ε T : ℝ} (h : AimInput32 j τ ε T) (hrun : j.run polyTrig = .ok j')
    (hreached : j'.reached = true) (hw : 1 ≤ val j.weight) :
    ∃ s : ℝ, let p : F4 ℝ := fun i => val (j.offset i) + s * val (j.forward i)
      ∀ x, Turns (valVec j'.correction) p x →
        dist2 x τ ≤ (√(dot3 τ τ) / 200 + T / 2 ^ 13) ^ 2 ∧
        (-(1 / 2) * dot3 τ τ ≤ dot3 p τ → dist2 x τ ≤ (√(dot3 τ τ) / 2 ^ 14 + T / 2 ^ 13) ^ 2) := by
  obtain ⟨hn, hz, hc⟩ := aim_ok h
  rw [← mag3_eq]
  rcases hc with ⟨ho, hm⟩ | ⟨fwd, ho, -, ff, fn, s, hs⟩
  · rw [aim_none hn ho] at hrun
    cases hrun
    cases hreached
  · rw [aim_some hn ho hz] at hrun
    cases hrun
    obtain ⟨wf, w1, -⟩ := weighted_ok (j := j) ff (fn.trans (by norm_num)) h.weight
    refine ⟨s, fun x hx => ?_⟩
    have hx' : Turns (valVec (j.weighted (fullTurn polyTrig j fwd))) (fun i => val (j.offset i) + s * val (j.forward i)) x := hx
    rw [w1 hw] at hx'
    obtain ⟨g1, g2⟩ := hs x (turn_shortWay hx')
    exact ⟨dist2_le g1, fun hang => dist2_le (g2 hang)⟩

/-- C85: with a weight below one the correction is that part of the correction at full weight, up to `30 / 2^24`. -/
theorem C85_weight {j j' j1 : Aim F32} {τ : F4 ℝ} {ε T : ℝ} (h : AimInput32 j τ ε T) (hrun : j.run polyTrig = .ok j')
    (hw : val j.weight < 1) {w : F32} (hfin : Finite32 w.bits) (hfull : 1 ≤ val w)
    (hrun1 : ({ j with weight := w } : Aim F32).run polyTrig = .ok j1) :
    j'.reached = j1.reached ∧ ‖toQuat (valVec j'.correction) - partly (max (val j.weight) 0) (valVec j1.correction)‖ ≤ 30 / 2 ^ 24 := by
  obtain ⟨hn, hz, hc⟩ := aim_ok h
  rcases hc with ⟨ho, hm⟩ | ⟨fwd, ho, -, ff, fn, -⟩
  · rw [aim_none hn ho] at hrun
    rw [aim_none (j := { j with weight := w }) hn ho] at hrun1
    cases hrun
    cases hrun1
    refine ⟨rfl, ?_⟩
    have e : valVec (quatUnit : F4 F32) = identityQ := by
      apply ext4
      exacts [zero_real, zero_real, zero_real, one_real]
    show ‖toQuat (valVec (quatUnit : F4 F32)) - partly _ (valVec (quatUnit : F4 F32))‖ ≤ _
    rw [e]
    have : partly (max (val j.weight) 0) identityQ = toQuat identityQ := by
      unfold partly
      have hs : shortWay identityQ = identityQ := by
        unfold shortWay identityQ
        rw [if_neg (by simp)]
      rw [hs, sub_self, smul_zero, add_zero]
      have : norm2 identityQ = 1 := by norm_num [norm2, identityQ]
      rw [unitOf, this, Real.sqrt_one, inv_one, one_smul]
    rw [this, sub_self, norm_zero]
    positivity
  · rw [aim_some hn ho hz] at hrun
    rw [aim_some (j := { j with weight := w }) hn ho hz] at hrun1
    cases hrun
    cases hrun1
    refine ⟨rfl, ?_⟩
    obtain ⟨-, -, w2⟩ := weighted_ok (j := j) ff (fn.trans (by norm_num)) h.weight
    obtain ⟨-, w1, -⟩ := weighted_ok (j := { j with weight := w }) ff (fn.trans (by norm_num)) hfin
    show ‖toQuat (valVec (j.weighted (fullTurn polyTrig j fwd))) -
      partly (max (val j.weight) 0) (valVec (({ j with weight := w } : Aim F32).weighted (fullTurn polyTrig j fwd)))‖ ≤ _
    rw [w1 hfull]
    have : partly (max (val j.weight) 0) (shortWay (valVec (fullTurn polyTrig j fwd))) =
        partly (max (val j.weight) 0) (valVec (fullTurn polyTrig j fwd)) := by
      have hs : shortWay (shortWay (valVec (fullTurn polyTrig j fwd))) = shortWay (valVec (fullTurn polyTrig j fwd)) := by
        rw [shortWay, if_neg (not_lt.mpr (shortWay_w _))]
      unfold partly
      rw [hs]
    rw [this]
    exact (w2 hw).2

/-! ### An example -/

/-- A joint turned by a quarter about z at (1, 2, 3), with the target at (1, 6, 3): four units along its x axis. It aims its
y axis, from a point one unit up its z axis, with a twist of one half. -/
private def aimed (weight : F32) : Aim F32 where
  target := f4 ⟨0x3f800000⟩ ⟨0x40c00000⟩ ⟨0x40400000⟩ ⟨0⟩
  forward := f4 ⟨0⟩ ⟨0x3f800000⟩ ⟨0⟩ ⟨0⟩
  offset := f4 ⟨0⟩ ⟨0⟩ ⟨0x3f800000⟩ ⟨0⟩
  up := f4 ⟨0⟩ ⟨0⟩ ⟨0x3f800000⟩ ⟨0⟩
  poleVector := f4 ⟨0⟩ ⟨0⟩ ⟨0x3f800000⟩ ⟨0⟩
  twistAngle := ⟨0x3f000000⟩
  weight := weight
  joint := f4 (f4 ⟨0⟩ ⟨0x3f800000⟩ ⟨0⟩ ⟨0⟩) (f4 ⟨0xbf800000⟩ ⟨0⟩ ⟨0⟩ ⟨0⟩) (f4 ⟨0⟩ ⟨0⟩ ⟨0x3f800000⟩ ⟨0⟩)
    (f4 ⟨0x3f800000⟩ ⟨0x40000000⟩ ⟨0x40400000⟩ ⟨0x3f800000⟩)
  correction := quatUnit
  reached := false

private theorem numbers : val (⟨0⟩ : F32) = 0 ∧ val (⟨0x3f800000⟩ : F32) = 1 ∧ val (⟨0xbf800000⟩ : F32) = -1 ∧ val (⟨0x40000000⟩ : F32) = 2 ∧
    val (⟨0x40400000⟩ : F32) = 3 ∧ val (⟨0x40c00000⟩ : F32) = 6 ∧ val (⟨0x3f000000⟩ : F32) = 1 / 2 := by
  have h0 : value32 0 = 0 := by decide +kernel
  have h1 : value32 0x3f800000 = 1 := by decide +kernel
  have h2 : value32 0xbf800000 = -1 := by decide +kernel
  have h3 : value32 0x40000000 = 2 := by decide +kernel
  have h4 : value32 0x40400000 = 3 := by decide +kernel
  have h5 : value32 0x40c00000 = 6 := by decide +kernel
  have h6 : value32 0x3f000000 = 1 / 2 := by decide +kernel
  refine ⟨?_, ?_, ?_, ?_, ?_, ?_, ?_⟩ <;> simp only [val, real, h0, h1, h2, h3, h4, h5, h6] <;> norm_num

private theorem aimed_ok {w : F32} (hw : Finite32 w.bits) : AimInput32 (aimed w) (f4 4 0 0 0) 0 8 := by
  obtain ⟨z, o, m, t, u, s, half⟩ := numbers
  have vj : valMat (aimed w).joint = f4 (f4 0 1 0 0) (f4 (-1) 0 0 0) (f4 0 0 1 0) (f4 1 2 3 1) := by
    funext c r
    revert c r
    apply four <;> apply four <;> simp only [valMat, aimed, f4_0, f4_1, f4_2, f4_3, z, o, m, t, u]
  have vt : valVec (aimed w).target = f4 1 6 3 0 := by
    apply ext4 <;> simp only [valVec, aimed, f4_0, f4_1, f4_2, f4_3, z, o, u, s]
  have vf : valVec (aimed w).forward = f4 0 1 0 0 := by
    apply ext4 <;> simp only [valVec, aimed, f4_0, f4_1, f4_2, f4_3, z, o]
  have vo : valVec (aimed w).offset = f4 0 0 1 0 := by
    apply ext4 <;> simp only [valVec, aimed, f4_0, f4_1, f4_2, f4_3, z, o]
  have bound : ∀ {v : F4 F32} {x : F4 ℝ}, valVec v = x → (∀ i, Finite32 (v i).bits) → (∀ i, |x i| ≤ 8) → Within3 v 8 := by
    intro v x hv hf hx i _
    refine ⟨hf i, ?_⟩
    show |valVec v i| ≤ 8
    rw [hv]; exact hx i
  have ft : ∀ i, Finite32 ((aimed w).target i).bits := by apply four_all <;> simp only [aimed, f4_0, f4_1, f4_2, f4_3] <;> decide +kernel
  have fo : ∀ i, Finite32 ((aimed w).offset i).bits := by apply four_all <;> simp only [aimed, f4_0, f4_1, f4_2, f4_3] <;> decide +kernel
  exact
  { joint :=
      { finite := by
          apply four_all <;> apply four_all <;> simp only [aimed, f4_0, f4_1, f4_2, f4_3] <;> decide +kernel
        affine := by rw [vj]; simp [AffineMat]
        columns := by
          rw [vj]
          intro i j hi hj
          revert j
          revert i
          refine four_ne ?_ ?_ ?_ <;> refine four_ne ?_ ?_ ?_ <;> simp [dot3]
        translation := by
          intro r hr
          show |valMat (aimed w).joint 3 r| ≤ 8
          rw [vj]
          revert r
          refine four_ne ?_ ?_ ?_ <;> norm_num }
    rigid := by norm_num
    size_ge := by norm_num
    size_le := by norm_num
    target := bound vt ft (by apply four_all <;> norm_num)
    up := bound (v := (aimed w).up) vo fo (by apply four_all <;> norm_num)
    pole := bound (v := (aimed w).poleVector) vo fo (by apply four_all <;> norm_num)
    forward := by
      refine four_ne ?_ ?_ ?_ <;> simp only [aimed, f4_0, f4_1, f4_2, f4_3] <;> decide +kernel
    unit := by rw [vf]; norm_num [dot3]
    offset := fun i _ => fo i
    near := by rw [vo]; norm_num [dot3]
    far := by norm_num [dot3]
    twist := by
      refine ⟨show Finite32 (0x3f000000 : BitVec 32) by decide +kernel, ?_⟩
      show |val (⟨0x3f000000⟩ : F32)| ≤ 4095
      rw [half]; norm_num
    weight := hw
    space := by
      rw [vj, vt]
      intro i
      fin_cases i <;> norm_num [f4] }

/-- At full weight the y axis is turned onto the target: within a thousandth and a half of its distance of 4. -/
example : ∃ j', (aimed ⟨0x3f800000⟩).run polyTrig = .ok j' ∧ j'.reached = true ∧ ∃ s : ℝ, ∀ x,
    Turns (valVec j'.correction) (f4 0 s 1 0) x → dist2 x (f4 4 0 0 0) ≤ (3 / 2000) ^ 2 := by
  have h := aimed_ok (w := ⟨0x3f800000⟩) (show Finite32 (0x3f800000 : BitVec 32) by decide +kernel)
  obtain ⟨z, o, -, -, -, -, -⟩ := numbers
  have vo : valVec (aimed ⟨0x3f800000⟩).offset = f4 0 0 1 0 := by
    apply ext4 <;> simp only [valVec, aimed, f4_0, f4_1, f4_2, f4_3, z, o]
  have vf : valVec (aimed ⟨0x3f800000⟩).forward = f4 0 1 0 0 := by
    apply ext4 <;> simp only [valVec, aimed, f4_0, f4_1, f4_2, f4_3, z, o]
  have root : √(dot3 (f4 4 0 0 0) (f4 4 0 0 0)) = 4 := by
    rw [show dot3 (f4 4 0 0 0) (f4 4 0 0 0) = 4 ^ 2 by norm_num [dot3], Real.sqrt_sq (by norm_num)]
  obtain ⟨j', hrun, -, -, -, -, hno⟩ := C85_runs h
  have hr : j'.reached = true := by
    cases hj : j'.reached with
    | true => rfl
    | false =>
      have := hno hj
      rw [root, vo, vf] at this
      norm_num [dot3] at this
  obtain ⟨s, hs⟩ := C85_aims h hrun hr (by show 1 ≤ val (⟨0x3f800000⟩ : F32); rw [o])
  refine ⟨j', hrun, hr, s, fun x hx => ?_⟩
  have ep : (fun i => val ((aimed ⟨0x3f800000⟩).offset i) + s * val ((aimed ⟨0x3f800000⟩).forward i)) = f4 0 s 1 0 := by
    have h1 := fun i => congrFun vo i
    have h2 := fun i => congrFun vf i
    simp only [valVec] at h1 h2
    funext i
    rw [h1, h2]
    revert i
    apply four_all <;> norm_num
  simp only [ep, root] at hs
  refine ((hs x hx).2 ?_).trans (by norm_num)
  norm_num [dot3]

/-- With half the weight: half of the correction. -/
example : ∃ j' j1, (aimed ⟨0x3f000000⟩).run polyTrig = .ok j' ∧ (aimed ⟨0x3f800000⟩).run polyTrig = .ok j1 ∧
    ‖toQuat (valVec j'.correction) - partly (1 / 2) (valVec j1.correction)‖ ≤ 30 / 2 ^ 24 := by
  obtain ⟨-, o, -, -, -, -, half⟩ := numbers
  have h := aimed_ok (w := ⟨0x3f000000⟩) (show Finite32 (0x3f000000 : BitVec 32) by decide +kernel)
  have h1 := aimed_ok (w := ⟨0x3f800000⟩) (show Finite32 (0x3f800000 : BitVec 32) by decide +kernel)
  obtain ⟨j', hrun, -⟩ := C85_runs h
  obtain ⟨j1, hrun1, -⟩ := C85_runs h1
  refine ⟨j', j1, hrun, hrun1, ?_⟩
  have := (C85_weight h hrun (by show val (⟨0x3f000000⟩ : F32) < 1; rw [half]; norm_num) h1.weight
    (by show 1 ≤ val (⟨0x3f800000⟩ : F32); rw [o]) hrun1).2
  rw [show val (aimed ⟨0x3f000000⟩).weight = 1 / 2 from half, max_eq_left (by norm_num)] at this
  exact this

end Ozz.Props
