import Verif.Proofs.FloatAim
import Verif.Proofs.FloatAimPlane

/-! Helpers: whole runs of the aim job in single precision. -/

namespace Ozz.IK

open F32 Ieee Spec Blending Ozz.Trig

section
set_option linter.unusedSectionVars false
variable {α : Type} [Add α] [Sub α] [Mul α] [Div α] [Neg α] [NumOps α]

/-- The correction before the weight. -/
def fullTurn (t : Trig α) (j : Aim α) (fwd : F4 α) : F4 α :=
  j.twisted t (j.rotatePlane j.joint.invert (j.joint.invert.transformPoint j.target)
      (quatFromVectors fwd (j.joint.invert.transformPoint j.target))).1
    (j.rotatePlane j.joint.invert (j.joint.invert.transformPoint j.target)
      (quatFromVectors fwd (j.joint.invert.transformPoint j.target))).2
    (quatFromVectors fwd (j.joint.invert.transformPoint j.target))

theorem aim_none {t : Trig α} {j : Aim α} (hn : vec3IsNormalized j.forward = true)
    (h : offsettedForward j.forward j.offset (j.joint.invert.transformPoint j.target) = none) :
    j.run t = .ok { j with correction := quatUnit, reached := false } := by
  unfold Aim.run
  simp [hn, h]

theorem aim_some {t : Trig α} {j : Aim α} {fwd : F4 α} (hn : vec3IsNormalized j.forward = true)
    (h : offsettedForward j.forward j.offset (j.joint.invert.transformPoint j.target) = some fwd)
    (hz : NumOps.eq (vec3Length2S (j.joint.invert.transformPoint j.target) 0) NumOps.zero = false) :
    j.run t = .ok { j with correction := j.weighted (fullTurn t j fwd), reached := true } := by
  unfold Aim.run
  simp [hn, h, hz, fullTurn]

end

theorem normalized_ok {f : F4 F32} (hf : Fin3 f) (h : |dot3 (valVec f) (valVec f) - 1| ≤ 1 / 2 ^ 20) : vec3IsNormalized f = true := by
  have h' := abs_le.mp h
  obtain ⟨g, e⟩ := len2_ok hf (by linarith) (by linarith)
  have hlo : Finite32 (NumOps.lit 998 1000 : F32).bits ∧ val (NumOps.lit 998 1000 : F32) ≤ 0.999 := by
    refine ⟨by decide +kernel, ?_⟩
    have : value32 (NumOps.lit 998 1000 : F32).bits ≤ 999 / 1000 := by decide +kernel
    have : ((value32 (NumOps.lit 998 1000 : F32).bits : ℚ) : ℝ) ≤ ((999 / 1000 : ℚ) : ℝ) := by exact_mod_cast this
    rw [val, real]
    refine this.trans (by norm_num)
  have hhi : Finite32 (NumOps.lit 1002 1000 : F32).bits ∧ 1.001 ≤ val (NumOps.lit 1002 1000 : F32) := by
    refine ⟨by decide +kernel, ?_⟩
    have : 1001 / 1000 ≤ value32 (NumOps.lit 1002 1000 : F32).bits := by decide +kernel
    have : ((1001 / 1000 : ℚ) : ℝ) ≤ ((value32 (NumOps.lit 1002 1000 : F32).bits : ℚ) : ℝ) := by exact_mod_cast this
    rw [val, real]
    refine le_trans (by norm_num) this
  have hd : vec3IsNormalized f = (NumOps.lt (NumOps.lit 998 1000) (vec3Length2S f 0) && NumOps.lt (vec3Length2S f 0) (NumOps.lit 1002 1000)) := rfl
  rw [hd]
  generalize vec3Length2S f 0 = x at *
  generalize (NumOps.lit 998 1000 : F32) = lo at *
  generalize (NumOps.lit 1002 1000 : F32) = hi at *
  generalize dot3 (valVec f) (valVec f) = d at *
  have e' := abs_le.mp e
  rw [Bool.and_eq_true]
  exact ⟨(lt_val32 hlo.1 g).mpr (by linarith), (lt_val32 g hhi.1).mpr (by linarith)⟩

/-- Turning by a quaternion of almost unit length, compared with turning by a unit quaternion. -/
theorem turn_almost {Q W x : Quaternion ℝ} (hW : ‖W‖ = 1) {ν : ℝ} (hν : |‖Q‖ - 1| ≤ ν) (hν1 : ν ≤ 1 / 2) :
    ‖Q * x * Q⁻¹ - W * x * W⁻¹‖ ≤ 2 * (‖Q - W‖ + ν) * ‖x‖ := by
  have hp : 0 < ‖Q‖ := by have := (abs_le.mp hν).1; linarith
  have hQ : Q ≠ 0 := norm_pos_iff.mp hp
  have e : Q * x * Q⁻¹ = ((‖Q‖⁻¹) • Q) * x * ((‖Q‖⁻¹) • Q)⁻¹ := by
    have : ((‖Q‖⁻¹) • Q)⁻¹ = ‖Q‖ • Q⁻¹ := by
      apply inv_eq_of_mul_eq_one_right
      rw [smul_mul_smul_comm, inv_mul_cancel₀ hp.ne', mul_inv_cancel₀ hQ, one_smul]
    rw [this, smul_mul_assoc, smul_mul_smul_comm, inv_mul_cancel₀ hp.ne', one_smul]
  rw [e]
  refine (Frame.turn_near (norm_unit hQ) hW).trans ?_
  have h1 := norm_sub_le_norm_sub_add_norm_sub ((‖Q‖⁻¹) • Q) Q W
  rw [norm_sub_rev ((‖Q‖⁻¹) • Q) Q, norm_sub_unit hQ] at h1
  have : ‖(‖Q‖⁻¹) • Q - W‖ ≤ ‖Q - W‖ + ν := by linarith
  exact mul_le_mul_of_nonneg_right (by linarith) (norm_nonneg _)

/-- What an axial turn after another one does. -/
theorem axial_turn {U A x y : Quaternion ℝ} {V : F4 ℝ} {c : ℝ} (hA : Axial A V) (hy : y = c • pureQuat V) :
    ‖(A * U) * x * (A * U)⁻¹ - y‖ = ‖U * x * U⁻¹ - y‖ := by
  have hA0 : A ≠ 0 := by intro h; have := hA.1; rw [h, norm_zero] at this; exact zero_ne_one this
  have e : A * y * A⁻¹ = y := by
    rw [hy, mul_smul_comm, smul_mul_assoc, hA.2, mul_assoc, mul_inv_cancel₀ hA0, mul_one]
  have : (A * U) * x * (A * U)⁻¹ - y = A * (U * x * U⁻¹ - y) * A⁻¹ := by
    rw [mul_sub, sub_mul, e, mul_inv_rev]
    simp only [mul_assoc]
  rw [this, norm_mul, norm_mul, norm_inv, hA.1, one_mul, inv_one, mul_one]

theorem mag3_sub_norm (a b : F4 ℝ) : ‖pureQuat a - pureQuat b‖ = mag3 (a - b) := by
  have : pureQuat a - pureQuat b = pureQuat (a - b) := by ext <;> simp
  rw [this, norm_pure]

theorem mag3_diff (a b : F4 ℝ) : |mag3 a - mag3 b| ≤ mag3 (a - b) := by
  rw [← norm_pure, ← norm_pure, ← mag3_sub_norm]
  exact abs_norm_sub_norm_le _ _

/-- The target in the space of the joint. -/
structure Seen (V : F4 F32) (τ : F4 ℝ) (T : ℝ) : Prop where
  fin : Fin3 V
  err : mag3 (valVec V - τ) ≤ 1395 / 2 ^ 24 * T
  ge : 1 / 2 ^ 9 ≤ mag3 (valVec V)
  le : mag3 (valVec V) ≤ 2 ^ 20
  rel : |mag3 (valVec V) - mag3 τ| ≤ 22 / 1000 * mag3 τ

theorem target_seen {m : Mat4 F32} {x : F4 F32} {τ : F4 ℝ} {ε T : ℝ} (h : Rigid32 m ε T) (hε : ε ≤ 1 / 1000) (hT : 1 ≤ T) (hT2 : T ≤ 2 ^ 16)
    (hx : Within3 x T) (far : (T / 2 ^ 8) ^ 2 ≤ dot3 τ τ) (hs : SendsPoint (valMat m) τ (valVec x)) :
    Seen (m.invert.transformPoint x) τ T := by
  have app := fun r hr => rigid_point h hε hT hT2 (fun i hi => (hx i hi).1) (fun i hi => (hx i hi).2) r hr
  have hr := rigid_real h
  obtain ⟨p0, p1, p2⟩ := point_invert hr.affine (hr.det_ne hε) hs
  generalize (valMat m).invert.transformPoint (valVec x) = P at *
  generalize m.invert.transformPoint x = V at *
  have hP : ∀ r, r ≠ 3 → P r = τ r := four_ne p0 p1 p2
  have e : ∀ r, r ≠ 3 → |(valVec V - τ) r| ≤ 796 / 2 ^ 24 * T := fun r hr3 => by
    show |val (V r) - τ r| ≤ _
    rw [← hP r hr3]
    refine (app r hr3).err.trans ?_
    push_cast
    linarith
  have em := mag3_le_three e
  have t0 : T / 2 ^ 8 ≤ mag3 τ := by
    rw [mag3_eq]; exact Real.le_sqrt_of_sq_le far
  have t1 : mag3 τ ≤ 7 / 4 * (6.8 * T) := mag3_le_three fun r hr3 => by rw [← hP r hr3]; exact (app r hr3).mag
  have md := mag3_diff (valVec V) τ
  have md' := abs_le.mp md
  refine ⟨fun r hr3 => (app r hr3).fin, by linarith, by linarith, by linarith, md.trans (by linarith)⟩

set_option maxHeartbeats 1000000 in
/-- What the aim job comes to before the weight. -/
theorem aim_ok {j : Aim F32} {τ : F4 ℝ} {ε T : ℝ} (h : AimInput32 j τ ε T) :
    vec3IsNormalized j.forward = true ∧
    NumOps.eq (vec3Length2S (j.joint.invert.transformPoint j.target) 0) (NumOps.zero : F32) = false ∧
    ((offsettedForward j.forward j.offset (j.joint.invert.transformPoint j.target) = none ∧
      dot3 τ τ ≤ dot3 (valVec j.offset) (valVec j.offset) - dot3 (valVec j.forward) (valVec j.offset) ^ 2 + dot3 τ τ / 2 ^ 16 + T * mag3 τ / 2 ^ 12) ∨
    ∃ fwd, offsettedForward j.forward j.offset (j.joint.invert.transformPoint j.target) = some fwd ∧
      dot3 (valVec j.offset) (valVec j.offset) - dot3 (valVec j.forward) (valVec j.offset) ^ 2 ≤ dot3 τ τ + dot3 τ τ / 2 ^ 16 + T * mag3 τ / 2 ^ 12 ∧
      (∀ c, Finite32 (fullTurn polyTrig j fwd c).bits) ∧ |norm2 (valVec (fullTurn polyTrig j fwd)) - 1| ≤ 1 / 2 ^ 16 ∧
      ∃ s : ℝ, ∀ x : F4 ℝ, pureQuat x = toQuat (valVec (fullTurn polyTrig j fwd)) * pureQuat (valVec j.offset + s • valVec j.forward) *
          (toQuat (valVec (fullTurn polyTrig j fwd)))⁻¹ →
        mag3 (x - τ) ≤ mag3 τ / 200 + T / 2 ^ 13 ∧
        (-(1 / 2) * dot3 τ τ ≤ dot3 (valVec j.offset + s • valVec j.forward) τ → mag3 (x - τ) ≤ mag3 τ / 2 ^ 14 + T / 2 ^ 13)) := by
  have seen := target_seen h.joint h.rigid h.size_ge h.size_le h.target h.far h.space
  have pole : Within3 (j.joint.invert.transformVector j.poleVector) (4 * T) := by
    intro i hi
    obtain ⟨f, b⟩ := App.within (fun r hr => rigid_vector h.joint h.rigid h.size_ge h.size_le h.pole r hr) (by decide) i hi
    exact ⟨f, b.trans (by linarith [h.size_ge])⟩
  refine ⟨normalized_ok h.forward h.unit, ?_⟩
  have ft : ∀ fwd, fullTurn polyTrig j fwd = j.twisted polyTrig (j.rotatePlane j.joint.invert (j.joint.invert.transformPoint j.target)
      (quatFromVectors fwd (j.joint.invert.transformPoint j.target))).1 (j.rotatePlane j.joint.invert (j.joint.invert.transformPoint j.target)
      (quatFromVectors fwd (j.joint.invert.transformPoint j.target))).2 (quatFromVectors fwd (j.joint.invert.transformPoint j.target)) := fun _ => rfl
  generalize hV : j.joint.invert.transformPoint j.target = V at *
  obtain ⟨hT, hT2⟩ := h.size_ge, h.size_le
  have R0 : 0 < mag3 (valVec V) := lt_of_lt_of_le (by positivity) seen.ge
  have t2 := mag3_sq τ
  have τ0 := mag3_nonneg τ
  have τ1 : T / 2 ^ 8 ≤ mag3 τ := by rw [mag3_eq]; exact Real.le_sqrt_of_sq_le h.far
  have rel := abs_le.mp seen.rel
  have v2 := mag3_sq (valVec V)
  constructor
  · obtain ⟨fD, eD⟩ := len2_ok seen.fin (by rw [← v2]; exact le_trans (by norm_num) (pow_le_pow_left₀ (by positivity) seen.ge 2))
      (by rw [← v2]; exact (pow_le_pow_left₀ R0.le seen.le 2).trans (by norm_num))
    refine eq_zero_false fD fun h0 => ?_
    rw [h0, ← v2, zero_sub, abs_neg, abs_of_nonneg (sq_nonneg _)] at eD
    have : 0 < mag3 (valVec V) ^ 2 := by positivity
    linarith
  have om : mag3 (valVec j.offset) ≤ 4 * mag3 (valVec V) := by
    refine abs_le_of_sq_le_sq' ?_ (by positivity) |>.2
    rw [mag3_sq]
    have : 978 / 1000 * mag3 τ ≤ mag3 (valVec V) := by linarith
    have := pow_le_pow_left₀ (by positivity) this 2
    rw [mul_pow, t2] at this
    have n := h.near
    have := sq_nonneg (mag3 τ)
    rw [t2] at this
    rw [mul_pow]
    linarith
  -- squares
  have dsq : |mag3 (valVec V) ^ 2 - mag3 τ ^ 2| ≤ 2825 / 2 ^ 24 * (T * mag3 τ) := by
    rw [show mag3 (valVec V) ^ 2 - mag3 τ ^ 2 = (mag3 (valVec V) - mag3 τ) * (mag3 (valVec V) + mag3 τ) by ring, abs_mul,
      abs_of_nonneg (by linarith : 0 ≤ mag3 (valVec V) + mag3 τ)]
    have h1 : |mag3 (valVec V) - mag3 τ| ≤ 1395 / 2 ^ 24 * T := (mag3_diff _ _).trans seen.err
    refine (mul_le_mul h1 (show mag3 (valVec V) + mag3 τ ≤ 2.022 * mag3 τ by linarith) (by linarith) (by positivity)).trans ?_
    have : 0 ≤ T * mag3 τ := by positivity
    linarith
  have vsq : mag3 (valVec V) ^ 2 ≤ 1.05 * mag3 τ ^ 2 := by
    have : mag3 (valVec V) ≤ 1.022 * mag3 τ := by linarith
    have := pow_le_pow_left₀ R0.le this 2
    rw [mul_pow] at this
    linarith [sq_nonneg (mag3 τ)]
  have Tτ : 0 ≤ T * mag3 τ := by positivity
  have dsq' := abs_le.mp dsq
  rcases offsetted_ok h.forward h.offset seen.fin h.unit (le_trans (by norm_num) seen.ge) (seen.le.trans (by norm_num)) om with
    ⟨hn, hm⟩ | ⟨fwd, hs, ff, hm, s, hp, hF⟩
  · refine Or.inl ⟨hn, ?_⟩
    rw [← t2]
    linarith [sq_nonneg (mag3 τ)]
  refine Or.inr ⟨fwd, hs, ?_, ?_⟩
  · rw [← t2]
    linarith [sq_nonneg (mag3 τ)]
  rw [ft]
  generalize hpp : valVec j.offset + s • valVec j.forward = p at *
  have fd := abs_le.mp (mag3_diff (valVec fwd) p)
  have pd := abs_le.mp hp
  have F0 : 0.999 * mag3 (valVec V) ≤ mag3 (valVec fwd) := by linarith
  have F1 : mag3 (valVec fwd) ≤ 1.001 * mag3 (valVec V) := by linarith
  have Fd : |mag3 (valVec fwd) - mag3 (valVec V)| ≤ 356 / 2 ^ 24 * mag3 (valVec V) := by
    rw [abs_le]; constructor <;> linarith
  have F0' : 0 < mag3 (valVec fwd) := by linarith
  have N0 : 0.999 * mag3 (valVec V) ^ 2 ≤ mag3 (valVec fwd) * mag3 (valVec V) := by
    rw [pow_two, ← mul_assoc]; exact mul_le_mul_of_nonneg_right F0 R0.le
  have N1 : mag3 (valVec fwd) * mag3 (valVec V) ≤ 1.001 * mag3 (valVec V) ^ 2 := by
    rw [pow_two, ← mul_assoc]; exact mul_le_mul_of_nonneg_right F1 R0.le
  have vlo : 1 / 2 ^ 18 ≤ mag3 (valVec V) ^ 2 := le_trans (by norm_num) (pow_le_pow_left₀ (by positivity) seen.ge 2)
  have vhi : mag3 (valVec V) ^ 2 ≤ 2 ^ 40 := (pow_le_pow_left₀ R0.le seen.le 2).trans (by norm_num)
  have vge := seen.ge
  have vle := seen.le
  obtain ⟨rf, rn, ⟨U, hU, rU, rT⟩, rS⟩ := fromVectors_ok ff seen.fin (by linarith) (by linarith) (by linarith) (by linarith)
    (by linarith) (by linarith)
  generalize quatFromVectors fwd V = rot at *
  have pl := rotatePlane_ok (j := j) (axis := (j.rotatePlane j.joint.invert V rot).1) (plane := (j.rotatePlane j.joint.invert V rot).2)
    hT hT2 h.up pole seen.fin (le_trans (by norm_num) seen.ge) seen.le rf (rn.trans (by norm_num)) rfl
  obtain ⟨qf, A, hA, qA⟩ := twisted_ok (j := j) R0 pl.1 pl.2 rf rn h.twist.1 h.twist.2
  generalize j.twisted polyTrig (j.rotatePlane j.joint.invert V rot).1 (j.rotatePlane j.joint.invert V rot).2 rot = q at *
  have rl := norm_near_one (q := valVec rot) (c := 1 / 2 ^ 20) (by norm_num) (rn.trans (by norm_num))
  have ql : |‖toQuat (valVec q)‖ - 1| ≤ 122 / 2 ^ 24 := by
    have h1 := abs_norm_sub_norm_le (toQuat (valVec q)) (A * toQuat (valVec rot))
    rw [norm_mul, hA.1, one_mul] at h1
    have := abs_sub_le ‖toQuat (valVec q)‖ ‖toQuat (valVec rot)‖ 1
    linarith
  refine ⟨qf, ?_, s, fun x hx => ?_⟩
  rotate_left
  rw [hpp] at hx ⊢
  rotate_left
  · have e : norm2 (valVec q) = ‖toQuat (valVec q)‖ ^ 2 := by
      rw [norm_toQuat, Real.sq_sqrt]
      unfold norm2; positivity
    rw [e, show ‖toQuat (valVec q)‖ ^ 2 - 1 = (‖toQuat (valVec q)‖ - 1) * (‖toQuat (valVec q)‖ + 1) by ring, abs_mul]
    have h2 : |‖toQuat (valVec q)‖ + 1| ≤ 2.01 := by
      have := abs_le.mp ql
      rw [abs_le]; constructor <;> linarith
    refine (mul_le_mul ql h2 (abs_nonneg _) (by norm_num)).trans (by norm_num)
  -- the distance for any such turn
  have main : ∀ {U : Quaternion ℝ} {δ : ℝ}, ‖U‖ = 1 → 2 * ‖toQuat (valVec rot) - U‖ * mag3 (valVec fwd) +
      ‖U * pureQuat (valVec fwd) * U⁻¹ - (mag3 (valVec fwd) / mag3 (valVec V)) • pureQuat (valVec V)‖ ≤ δ * mag3 (valVec fwd) →
      mag3 (x - τ) ≤ (δ + 454 / 2 ^ 24) * (1.0001 * mag3 (valVec V)) + 382 / 2 ^ 24 * mag3 (valVec V) + 1395 / 2 ^ 24 * T := by
    intro U δ hU hδ
    have hAU : ‖A * U‖ = 1 := by rw [norm_mul, hA.1, hU, one_mul]
    have d1 : ‖toQuat (valVec q) - A * U‖ ≤ 105 / 2 ^ 24 + ‖toQuat (valVec rot) - U‖ := by
      have h1 := norm_sub_le_norm_sub_add_norm_sub (toQuat (valVec q)) (A * toQuat (valVec rot)) (A * U)
      rw [← mul_sub, norm_mul, hA.1, one_mul] at h1
      linarith
    have d2 := turn_almost (x := pureQuat (valVec fwd)) hAU ql (by norm_num)
    rw [norm_pure] at d2
    have d3 := axial_turn (U := U) (x := pureQuat (valVec fwd)) hA (y := (mag3 (valVec fwd) / mag3 (valVec V)) • pureQuat (valVec V)) rfl
    have d4 : ‖toQuat (valVec q) * pureQuat (valVec fwd) * (toQuat (valVec q))⁻¹ -
        (mag3 (valVec fwd) / mag3 (valVec V)) • pureQuat (valVec V)‖ ≤ (δ + 454 / 2 ^ 24) * mag3 (valVec fwd) := by
      have h1 := norm_sub_le_norm_sub_add_norm_sub (toQuat (valVec q) * pureQuat (valVec fwd) * (toQuat (valVec q))⁻¹)
        (A * U * pureQuat (valVec fwd) * (A * U)⁻¹) ((mag3 (valVec fwd) / mag3 (valVec V)) • pureQuat (valVec V))
      rw [d3] at h1
      have h2 : 2 * (‖toQuat (valVec q) - A * U‖ + 122 / 2 ^ 24) * mag3 (valVec fwd) ≤
          2 * (227 / 2 ^ 24 + ‖toQuat (valVec rot) - U‖) * mag3 (valVec fwd) :=
        mul_le_mul_of_nonneg_right (by linarith) F0'.le
      have : 2 * (227 / 2 ^ 24 + ‖toQuat (valVec rot) - U‖) * mag3 (valVec fwd) =
        454 / 2 ^ 24 * mag3 (valVec fwd) + 2 * ‖toQuat (valVec rot) - U‖ * mag3 (valVec fwd) := by ring
      linarith
    have q0 : toQuat (valVec q) ≠ 0 := by
      intro h0; rw [h0, norm_zero] at ql; norm_num at ql
    have d5 : ‖pureQuat x - toQuat (valVec q) * pureQuat (valVec fwd) * (toQuat (valVec q))⁻¹‖ ≤ 26 / 2 ^ 24 * mag3 (valVec V) := by
      rw [hx, ← sub_mul, ← mul_sub, norm_mul, norm_mul, norm_inv, mul_comm, ← mul_assoc, inv_mul_cancel₀ (norm_ne_zero_iff.mpr q0), one_mul,
        norm_sub_rev, mag3_sub_norm]
      exact hF
    have d6 : ‖(mag3 (valVec fwd) / mag3 (valVec V)) • pureQuat (valVec V) - pureQuat (valVec V)‖ ≤ 356 / 2 ^ 24 * mag3 (valVec V) := by
      have : (mag3 (valVec fwd) / mag3 (valVec V)) • pureQuat (valVec V) - pureQuat (valVec V) =
          ((mag3 (valVec fwd) - mag3 (valVec V)) / mag3 (valVec V)) • pureQuat (valVec V) := by
        rw [sub_div, div_self R0.ne', sub_smul, one_smul]
      rw [this, norm_smul, norm_pure, Real.norm_eq_abs, abs_div, abs_of_pos R0, div_mul_cancel₀ _ R0.ne']
      exact Fd
    have d7 : ‖pureQuat (valVec V) - pureQuat τ‖ ≤ 1395 / 2 ^ 24 * T := by rw [mag3_sub_norm]; exact seen.err
    rw [← mag3_sub_norm]
    have t1 := norm_sub_le_norm_sub_add_norm_sub (pureQuat x) (toQuat (valVec q) * pureQuat (valVec fwd) * (toQuat (valVec q))⁻¹) (pureQuat τ)
    have t2 := norm_sub_le_norm_sub_add_norm_sub (toQuat (valVec q) * pureQuat (valVec fwd) * (toQuat (valVec q))⁻¹)
      ((mag3 (valVec fwd) / mag3 (valVec V)) • pureQuat (valVec V)) (pureQuat τ)
    have t3 := norm_sub_le_norm_sub_add_norm_sub ((mag3 (valVec fwd) / mag3 (valVec V)) • pureQuat (valVec V)) (pureQuat (valVec V)) (pureQuat τ)
    have δ0 : 0 ≤ δ + 454 / 2 ^ 24 := by
      have : 0 ≤ (δ + 454 / 2 ^ 24) * mag3 (valVec fwd) := (norm_nonneg _).trans d4
      exact nonneg_of_mul_nonneg_left this F0'
    have t4 : (δ + 454 / 2 ^ 24) * mag3 (valVec fwd) ≤ (δ + 454 / 2 ^ 24) * (1.0001 * mag3 (valVec V)) :=
      mul_le_mul_of_nonneg_left (by linarith [(abs_le.mp Fd).2]) δ0
    linarith
  have vT : mag3 (valVec V) ≤ mag3 τ + 1395 / 2 ^ 24 * T := by
    have := (abs_le.mp (mag3_diff (valVec V) τ)).2
    linarith [seen.err]
  constructor
  · have := main (δ := 1 / 215) hU (by linarith)
    linarith
  · intro hang
    have hdot : -(0.545) * mag3 (valVec V) ^ 2 ≤ dot3 (valVec fwd) (valVec V) := by
      have e1 : dot3 (valVec fwd) (valVec V) = dot3 (valVec fwd - p) (valVec V) + dot3 p (valVec V - τ) + dot3 p τ := by
        simp only [dot3, Pi.sub_apply]; ring
      have h1 : |dot3 (valVec fwd - p) (valVec V)| ≤ mag3 (valVec fwd - p) * mag3 (valVec V) := dot_le_len
      have h2 : |dot3 p (valVec V - τ)| ≤ mag3 p * mag3 (valVec V - τ) := dot_le_len
      have h3 : mag3 (valVec fwd - p) * mag3 (valVec V) ≤ 26 / 2 ^ 24 * mag3 (valVec V) * mag3 (valVec V) :=
        mul_le_mul_of_nonneg_right hF R0.le
      have h4 : mag3 p * mag3 (valVec V - τ) ≤ 1.0001 * mag3 (valVec V) * (1395 / 2 ^ 16 * mag3 τ) :=
        mul_le_mul (by linarith) (by linarith [seen.err]) (mag3_nonneg _) (by positivity)
      have h5 : 1.0001 * mag3 (valVec V) * (1395 / 2 ^ 16 * mag3 τ) ≤ 1.0001 * mag3 (valVec V) * (1395 / 2 ^ 16 * (1.0225 * mag3 (valVec V))) :=
        mul_le_mul_of_nonneg_left (by linarith) (by positivity)
      have h6 : mag3 τ ^ 2 ≤ (1.0225 * mag3 (valVec V)) ^ 2 := pow_le_pow_left₀ τ0 (by linarith) 2
      have a1 := (abs_le.mp h1).1
      have a2 := (abs_le.mp h2).1
      rw [← t2] at hang
      rw [e1]
      rw [mul_pow] at h6
      rw [show 26 / 2 ^ 24 * mag3 (valVec V) * mag3 (valVec V) = 26 / 2 ^ 24 * mag3 (valVec V) ^ 2 by ring] at h3
      rw [show 1.0001 * mag3 (valVec V) * (1395 / 2 ^ 16 * (1.0225 * mag3 (valVec V))) =
        1.0001 * (1395 / 2 ^ 16) * 1.0225 * mag3 (valVec V) ^ 2 by ring] at h5
      generalize mag3 (valVec V) ^ 2 = X at *
      generalize mag3 τ ^ 2 = Y at *
      linarith
    obtain ⟨U', hU', rU', rT'⟩ := rS (2 / 3) (by norm_num) (by linarith)
    have := main (δ := 84.1 / 2 ^ 24) hU' (by
      rw [rT', sub_self, norm_zero, add_zero]
      exact mul_le_mul_of_nonneg_right (by linarith) F0'.le)
    linarith

end Ozz.IK
