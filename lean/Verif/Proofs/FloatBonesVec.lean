import Verif.Proofs.FloatBones
import Verif.Proofs.IKPole

/-! Helpers: nearly rigid joints and the vectors between their spaces, in single precision. -/

namespace Ozz.IK

open F32 Ieee Spec Blending Ozz.Trig

/-- A nearly rigid matrix hardly changes dot products. -/
theorem rigid_dot {M : Mat4 ℝ} {ε T : ℝ} (h : RigidR M ε T) (v w : F4 ℝ) :
    |dot3 (M.transformVector v) (M.transformVector w) - dot3 v w| ≤ 3 * ε * (mag3 v * mag3 w) := by
  have h00 := h.columns 0 0 (by decide) (by decide)
  have h11 := h.columns 1 1 (by decide) (by decide)
  have h22 := h.columns 2 2 (by decide) (by decide)
  have h01 := h.columns 0 1 (by decide) (by decide)
  have h02 := h.columns 0 2 (by decide) (by decide)
  have h12 := h.columns 1 2 (by decide) (by decide)
  simp only [if_true] at h00 h11 h22
  rw [if_neg (by decide), sub_zero] at h01 h02 h12
  have hε0 : 0 ≤ ε := (abs_nonneg _).trans h01
  have e : dot3 (M.transformVector v) (M.transformVector w) - dot3 v w =
      (dot3 (M 0) (M 0) - 1) * (v 0 * w 0) + (dot3 (M 1) (M 1) - 1) * (v 1 * w 1) + (dot3 (M 2) (M 2) - 1) * (v 2 * w 2) +
      (dot3 (M 0) (M 1) * (v 0 * w 1) + dot3 (M 0) (M 1) * (v 1 * w 0)) + (dot3 (M 0) (M 2) * (v 0 * w 2) + dot3 (M 0) (M 2) * (v 2 * w 0)) +
      (dot3 (M 1) (M 2) * (v 1 * w 2) + dot3 (M 1) (M 2) * (v 2 * w 1)) := by
    simp only [dot3, vector_shape]; ring
  have b : ∀ {g : ℝ} (a b : ℝ), |g| ≤ ε → |g * (a * b)| ≤ ε * (|a| * |b|) := by
    intro g a b hg
    rw [abs_mul, abs_mul]
    exact mul_le_mul_of_nonneg_right hg (by positivity)
  have t1 := b (v 0) (w 0) h00
  have t2 := b (v 1) (w 1) h11
  have t3 := b (v 2) (w 2) h22
  have t4 := b (v 0) (w 1) h01
  have t5 := b (v 1) (w 0) h01
  have t6 := b (v 0) (w 2) h02
  have t7 := b (v 2) (w 0) h02
  have t8 := b (v 1) (w 2) h12
  have t9 := b (v 2) (w 1) h12
  have sum : |dot3 (M.transformVector v) (M.transformVector w) - dot3 v w| ≤ ε * ((|v 0| + |v 1| + |v 2|) * (|w 0| + |w 1| + |w 2|)) := by
    rw [e]
    rw [abs_le] at *
    constructor <;> linarith [t1.1, t1.2, t2.1, t2.2, t3.1, t3.2, t4.1, t4.2, t5.1, t5.2, t6.1, t6.2, t7.1, t7.2, t8.1, t8.2, t9.1, t9.2]
  have one : ∀ x : F4 ℝ, |x 0| + |x 1| + |x 2| ≤ √3 * mag3 x := by
    intro x
    rw [mag3_eq, ← Real.sqrt_mul (by norm_num)]
    apply Real.le_sqrt_of_sq_le
    simp only [dot3]
    nlinarith [sq_nonneg (|x 0| - |x 1|), sq_nonneg (|x 0| - |x 2|), sq_nonneg (|x 1| - |x 2|), sq_abs (x 0), sq_abs (x 1), sq_abs (x 2)]
  refine sum.trans ?_
  rw [show 3 * ε * (mag3 v * mag3 w) = ε * ((√3 * √3) * (mag3 v * mag3 w)) by rw [Real.mul_self_sqrt (by norm_num)]; ring]
  refine mul_le_mul_of_nonneg_left ?_ hε0
  refine (mul_le_mul (one v) (one w) (by positivity) (mul_nonneg (Real.sqrt_nonneg _) (mag3_nonneg _))).trans (le_of_eq (by ring))

theorem rigid_mag {M : Mat4 ℝ} {ε T : ℝ} (h : RigidR M ε T) (hε : ε ≤ 1 / 1000) (v : F4 ℝ) :
    mag3 (M.transformVector v) ≤ 1.0016 * mag3 v ∧ mag3 v ≤ 1.0016 * mag3 (M.transformVector v) := by
  have e := abs_le.mp (rigid_dot h v v)
  rw [← mag3_sq, ← mag3_sq] at e
  have v0 := mag3_nonneg v
  have b : 3 * ε * (mag3 v * mag3 v) ≤ 0.003 * mag3 v ^ 2 := by
    rw [pow_two]; exact mul_le_mul_of_nonneg_right (by linarith) (by positivity)
  constructor
  · refine abs_le_of_sq_le_sq' ?_ (by positivity) |>.2
    rw [mul_pow]; nlinarith
  · refine abs_le_of_sq_le_sq' ?_ (mul_nonneg (by norm_num) (mag3_nonneg _)) |>.2
    rw [mul_pow]; nlinarith

theorem mag3_congr {a b : F4 ℝ} (h : Same3 a b) : mag3 a = mag3 b := by
  unfold mag3; rw [h.1, h.2.1, h.2.2]

theorem inverse_mag {M : Mat4 ℝ} {ε T : ℝ} (h : RigidR M ε T) (hε : ε ≤ 1 / 1000) (v : F4 ℝ) :
    mag3 (M.invert.transformVector v) ≤ 1.0016 * mag3 v ∧ mag3 v ≤ 1.0016 * mag3 (M.invert.transformVector v) := by
  have e := mag3_congr (invert_vector h.affine (h.det_ne hε) v)
  have := rigid_mag h hε (M.invert.transformVector v)
  rw [e] at this
  exact ⟨this.2, this.1⟩

theorem transformVector_sub (M : Mat4 ℝ) (v w : F4 ℝ) : M.transformVector (v - w) = M.transformVector v - M.transformVector w := by
  rw [sub_eq_add_neg, transformVector_add, transformVector_neg, ← sub_eq_add_neg]

/-- A vector through a joint. -/
theorem forward_vector {m : Mat4 F32} {ε T : ℝ} (h : Rigid32 m ε T) (hε : ε ≤ 1 / 1000) {x : F4 F32} {M : ℝ} (hx : Fin3 x)
    (hM : mag3 (valVec x) ≤ M) (h0 : 1 / 2 ^ 40 ≤ M) (h1 : M ≤ 2 ^ 40) :
    Fin3 (m.transformVector x) ∧ mag3 (valVec (m.transformVector x) - (valMat m).transformVector (valVec x)) ≤ 32 / 2 ^ 24 * M := by
  have hr := rigid_real h
  have ax : ∀ i, i ≠ 3 → App (x i) (val (x i)) M 0 40 := fun i hi =>
    App.exact_ (hx i hi) ((abs_le_mag3 (valVec x) i hi).trans hM) h0 h1
  have am : ∀ c r, c ≠ 3 → r ≠ 3 → App (m c r) (val (m c r)) 1.001 0 1 := fun c r hc hr3 =>
    App.exact_ (h.finite c r) (hr.entry hε c r hc hr3) (by norm_num) (by norm_num)
  have key : ∀ r, r ≠ 3 → Finite32 (m.transformVector x r).bits ∧
      |val (m.transformVector x r) - (valMat m).transformVector (valVec x) r| ≤ 18.1 / 2 ^ 24 * M := by
    intro r hr3
    have p := fun i hi => (ax i hi).mul (am i r hi hr3) (by decide) (by decide) (by decide)
    have s := (p 1 (by decide)).add ((p 2 (by decide)).add (p 0 (by decide)) (by decide) (by decide) (by decide)) (by decide) (by decide) (by decide)
    rw [vector_shape, vector_shape]
    refine ⟨s.fin, s.err.trans ?_⟩
    push_cast
    norm_num
    linarith
  refine ⟨fun r hr3 => (key r hr3).1, (mag3_le_three fun r hr3 => (key r hr3).2).trans (by linarith)⟩

/-- A vector back through a joint. -/
theorem back_vector {m : Mat4 F32} {ε T : ℝ} (h : Rigid32 m ε T) (hε : ε ≤ 1 / 1000) (hT : 1 ≤ T) (hT2 : T ≤ 2 ^ 16)
    {x : F4 F32} {M : ℝ} (hx : Within3 x M) (h0 : 1 / 2 ^ 40 ≤ M) (h1 : M ≤ 2 ^ 40) :
    Fin3 (m.invert.transformVector x) ∧
      mag3 (valVec (m.invert.transformVector x) - (valMat m).invert.transformVector (valVec x)) ≤ 706 / 2 ^ 24 * M := by
  obtain ⟨-, hi, -⟩ := rigid_inverse h hε hT hT2
  have ax : ∀ i, i ≠ 3 → App (x i) (val (x i)) M 0 40 := fun i hi => App.exact_ (hx i hi).1 (hx i hi).2 h0 h1
  have key : ∀ r, r ≠ 3 → Finite32 (m.invert.transformVector x r).bits ∧
      |val (m.invert.transformVector x r) - (valMat m).invert.transformVector (valVec x) r| ≤ 403.3 / 2 ^ 24 * M := by
    intro r hr3
    have p := fun i h3 => (ax i h3).mul (hi i r h3 hr3) (by decide) (by decide) (by decide)
    have s := (p 1 (by decide)).add ((p 2 (by decide)).add (p 0 (by decide)) (by decide) (by decide) (by decide)) (by decide) (by decide) (by decide)
    rw [vector_shape, vector_shape]
    refine ⟨s.fin, s.err.trans ?_⟩
    push_cast
    norm_num
    linarith
  refine ⟨fun r hr3 => (key r hr3).1, (mag3_le_three fun r hr3 => (key r hr3).2).trans (by linarith)⟩

theorem within_of_mag {v : F4 F32} {X : F4 ℝ} {B d : ℝ} (hf : Fin3 v) (hX : mag3 X ≤ B) (hd : mag3 (valVec v - X) ≤ d) :
    mag3 (valVec v) ≤ B + d ∧ Within3 v (B + d) := by
  have h := (mag3_sub_le (valVec v) X).trans (add_le_add hX hd)
  exact ⟨h, fun i hi => ⟨hf i hi, (abs_le_mag3 (valVec v) i hi).trans h⟩⟩

/-- A vector of the space of one joint, in the space of another. -/
theorem across_vector {s m : Mat4 F32} {ε T : ℝ} (hs : Rigid32 s ε T) (hm : Rigid32 m ε T) (hε : ε ≤ 1 / 1000) (hT : 1 ≤ T) (hT2 : T ≤ 2 ^ 16)
    {x : F4 F32} {M : ℝ} (hx : Fin3 x) (hM : mag3 (valVec x) ≤ M) (h0 : 1 / 2 ^ 30 ≤ M) (h1 : M ≤ 2 ^ 30) :
    Fin3 (s.invert.transformVector (m.transformVector x)) ∧
    mag3 (valVec (s.invert.transformVector (m.transformVector x)) -
      (valMat s).invert.transformVector ((valMat m).transformVector (valVec x))) ≤ 745 / 2 ^ 24 * M := by
  obtain ⟨f1, e1⟩ := forward_vector hm hε hx hM (le_trans (by norm_num) h0) (h1.trans (by norm_num))
  have M0 : 0 < M := lt_of_lt_of_le (by positivity) h0
  have b1 := (rigid_mag (rigid_real hm) hε (valVec x)).1
  obtain ⟨-, w1⟩ := within_of_mag f1 (b1.trans (mul_le_mul_of_nonneg_left hM (by norm_num))) e1
  have w2 : Within3 (m.transformVector x) (1.002 * M) := fun i hi => ⟨(w1 i hi).1, (w1 i hi).2.trans (by linarith)⟩
  obtain ⟨f2, e2⟩ := back_vector hs hε hT hT2 w2 (by linarith) (by linarith)
  refine ⟨f2, ?_⟩
  have e3 := (inverse_mag (rigid_real hs) hε (valVec (m.transformVector x) - (valMat m).transformVector (valVec x))).1
  rw [transformVector_sub] at e3
  have t := mag3_sub_le (valVec (s.invert.transformVector (m.transformVector x)) -
      (valMat s).invert.transformVector ((valMat m).transformVector (valVec x)))
    (valVec (s.invert.transformVector (m.transformVector x)) - (valMat s).invert.transformVector (valVec (m.transformVector x)))
  rw [sub_sub_sub_cancel_left] at t
  linarith

theorem across_mag {s m : Mat4 F32} {ε T : ℝ} (hs : Rigid32 s ε T) (hm : Rigid32 m ε T) (hε : ε ≤ 1 / 1000) (v : F4 ℝ) :
    mag3 ((valMat s).invert.transformVector ((valMat m).transformVector v)) ≤ 1.004 * mag3 v ∧
    mag3 v ≤ 1.004 * mag3 ((valMat s).invert.transformVector ((valMat m).transformVector v)) := by
  have a := inverse_mag (rigid_real hs) hε ((valMat m).transformVector v)
  have b := rigid_mag (rigid_real hm) hε v
  have := mag3_nonneg v
  have := mag3_nonneg ((valMat s).invert.transformVector ((valMat m).transformVector v))
  constructor <;> linarith

/-- A point in the space of a joint. -/
theorem point_seen {m : Mat4 F32} {x : F4 F32} {τ : F4 ℝ} {ε T : ℝ} (h : Rigid32 m ε T) (hε : ε ≤ 1 / 1000) (hT : 1 ≤ T) (hT2 : T ≤ 2 ^ 16)
    (hx : Within3 x T) (hs : SendsPoint (valMat m) τ (valVec x)) :
    Fin3 (m.invert.transformPoint x) ∧ mag3 (valVec (m.invert.transformPoint x) - τ) ≤ 1395 / 2 ^ 24 * T ∧ mag3 τ ≤ 3.5 * T := by
  have app := fun r hr => rigid_point h hε hT hT2 (fun i hi => (hx i hi).1) (fun i hi => (hx i hi).2) r hr
  have hr := rigid_real h
  obtain ⟨p0, p1, p2⟩ := point_invert hr.affine (hr.det_ne hε) hs
  have size : mag3 τ ≤ 3.5 * T := by
    have e : Same3 ((valMat m).transformVector τ) (valVec x - valMat m 3) := by
      have h0 := hs 0
      have h1 := hs 1
      have h2 := hs 2
      simp only [Fin.castSucc_zero, Fin.castSucc_one, Fin.reduceCastSucc] at h0 h1 h2
      refine ⟨?_, ?_, ?_⟩ <;> rw [vector_shape, Pi.sub_apply]
      · rw [h0]; ring
      · rw [h1]; ring
      · rw [h2]; ring
    have b := (rigid_mag hr hε τ).2
    rw [mag3_congr e] at b
    have c : mag3 (valVec x - valMat m 3) ≤ √12 * T := by
      rw [mag3_eq, ← Real.sqrt_sq (show 0 ≤ T by linarith), ← Real.sqrt_mul (by norm_num)]
      apply Real.sqrt_le_sqrt
      have sq : ∀ r, r ≠ 3 → (valVec x - valMat m 3) r ^ 2 ≤ 4 * T ^ 2 := fun r hr3 => by
        have h1 := (hx r hr3).2
        have h2 := h.translation r hr3
        have h3 : |(valVec x - valMat m 3) r| ≤ 2 * T := (abs_sub _ _).trans (by
          show |val (x r)| + |val (m 3 r)| ≤ _; linarith)
        rw [← sq_abs]
        exact (pow_le_pow_left₀ (abs_nonneg _) h3 2).trans (le_of_eq (by ring))
      have s0 := sq 0 (by decide)
      have s1 := sq 1 (by decide)
      have s2 := sq 2 (by decide)
      simp only [dot3]
      nlinarith
    have r12 : √12 ≤ 3.4642 := by rw [Real.sqrt_le_left (by norm_num)]; norm_num
    have : √12 * T ≤ 3.4642 * T := mul_le_mul_of_nonneg_right r12 (by linarith)
    linarith
  generalize (valMat m).invert.transformPoint (valVec x) = P at *
  generalize m.invert.transformPoint x = V at *
  have hP : ∀ r, r ≠ 3 → P r = τ r := four_ne p0 p1 p2
  have e : ∀ r, r ≠ 3 → |(valVec V - τ) r| ≤ 796 / 2 ^ 24 * T := fun r hr3 => by
    show |val (V r) - τ r| ≤ _
    rw [← hP r hr3]
    refine (app r hr3).err.trans ?_
    push_cast
    linarith
  have em := mag3_le_three e
  exact ⟨fun r hr3 => (app r hr3).fin, by linarith, size⟩

end Ozz.IK
