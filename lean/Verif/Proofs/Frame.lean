import Verif.Proofs.FloatAdditive
import Verif.Proofs.FloatModel
import Verif.Spec.Frame
import Mathlib.Algebra.Ring.GeomSum

/-! Poses close to each other move points to places close to each other. -/

namespace Ozz.Frame

open Spec F32

theorem quat_norm_sq (q : Quaternion ℝ) : ‖q‖ ^ 2 = q.re ^ 2 + q.imI ^ 2 + q.imJ ^ 2 + q.imK ^ 2 := by
  rw [pow_two, ← Quaternion.normSq_eq_norm_mul_self, Quaternion.normSq_def']

theorem pure_norm {q : Quaternion ℝ} (h : q.re = 0) : ‖q‖ = len q.imI q.imJ q.imK := by
  rw [← abs_of_nonneg (norm_nonneg q), ← abs_of_nonneg (len_nonneg (a := q.imI) (b := q.imJ) (c := q.imK)), ← sq_eq_sq_iff_abs_eq_abs,
    quat_norm_sq, len_sq, h]
  ring

/-- The part of a quaternion a joint scales. -/
noncomputable def scaled (j : JointPose) (v : Quaternion ℝ) : Quaternion ℝ :=
  ⟨0, j.scale.1 * v.imI, j.scale.2.1 * v.imJ, j.scale.2.2 * v.imK⟩

theorem scaled_at (j : JointPose) (v : Quaternion ℝ) : (scaled j v).re = 0 ∧ (scaled j v).imI = j.scale.1 * v.imI ∧
    (scaled j v).imJ = j.scale.2.1 * v.imJ ∧ (scaled j v).imK = j.scale.2.2 * v.imK := ⟨rfl, rfl, rfl, rfl⟩

theorem diag_norm {x v : Quaternion ℝ} {a b c s : ℝ} (h0 : x.re = 0) (h1 : x.imI = a * v.imI) (h2 : x.imJ = b * v.imJ)
    (h3 : x.imK = c * v.imK) (hs : 0 ≤ s) (ha : |a| ≤ s) (hb : |b| ≤ s) (hc : |c| ≤ s) : ‖x‖ ≤ s * ‖v‖ := by
  apply abs_le_of_sq_le_sq' _ (by positivity) |>.2
  rw [mul_pow, quat_norm_sq, quat_norm_sq, h0, h1, h2, h3]
  have a2 : a ^ 2 ≤ s ^ 2 := sq_le_sq.mpr (ha.trans (le_abs_self s))
  have b2 : b ^ 2 ≤ s ^ 2 := sq_le_sq.mpr (hb.trans (le_abs_self s))
  have c2 : c ^ 2 ≤ s ^ 2 := sq_le_sq.mpr (hc.trans (le_abs_self s))
  have e1 := mul_le_mul_of_nonneg_right a2 (sq_nonneg v.imI)
  have e2 := mul_le_mul_of_nonneg_right b2 (sq_nonneg v.imJ)
  have e3 := mul_le_mul_of_nonneg_right c2 (sq_nonneg v.imK)
  have e4 := mul_nonneg (sq_nonneg s) (sq_nonneg v.re)
  linarith [mul_pow a v.imI 2, mul_pow b v.imJ 2, mul_pow c v.imK 2]

/-- Turning by nearby unit quaternions. -/
theorem turn_near {u w x : Quaternion ℝ} (hu : ‖u‖ = 1) (hw : ‖w‖ = 1) : ‖u * x * u⁻¹ - w * x * w⁻¹‖ ≤ 2 * ‖u - w‖ * ‖x‖ := by
  have hn : ∀ q : Quaternion ℝ, ‖q‖ = 1 → q⁻¹ = star q := by
    intro q hq
    rw [Quaternion.inv_def, Quaternion.normSq_eq_norm_mul_self, hq]
    simp
  rw [hn u hu, hn w hw, show u * x * star u - w * x * star w = (u - w) * x * star u + w * x * (star u - star w) by noncomm_ring]
  refine (norm_add_le _ _).trans ?_
  rw [norm_mul, norm_mul, norm_mul, norm_mul, ← star_sub, Quaternion.norm_star, Quaternion.norm_star, hu, hw]
  linarith

/-- Pose `j` is close to pose `e`, which takes points at most `s` times as far from each other and the origin at most `B`
away: they take a point to places at most `η` times as far apart as `e` takes points. -/
structure PoseClose (j e : JointPose) (s B η : ℝ) : Prop where
  close : ∀ v, ‖j.move v - e.move v‖ ≤ η * (s * ‖v‖ + B)
  lipschitz : ∀ v w, ‖e.move v - e.move w‖ ≤ s * ‖v - w‖
  origin : ‖e.move 0‖ ≤ B

/-- How far the exact poses of a path of `d` joints take a point at distance `x` from the origin. -/
noncomputable def far (s B x : ℝ) (d : ℕ) : ℝ := s ^ d * x + B * ∑ k ∈ Finset.range d, s ^ k

theorem far_succ (s B x : ℝ) (d : ℕ) : far s B x (d + 1) = s * far s B x d + B := by
  unfold far
  rw [geom_sum_succ]
  ring

theorem along_close {p e : Nat → JointPose} {s B η : ℝ} (hs : 0 ≤ s) (hη : 0 ≤ η) (hB : 0 ≤ B) (path : List Nat)
    (h : ∀ k ∈ path, PoseClose (p k) (e k) s B η) (v : Quaternion ℝ) :
    ‖moveAlong e path v‖ ≤ far s B ‖v‖ path.length ∧
    ‖moveAlong p path v - moveAlong e path v‖ ≤ far s B ‖v‖ path.length * ((1 + η) ^ path.length - 1) := by
  induction path with
  | nil => simp [moveAlong, far]
  | cons k l ih =>
    obtain ⟨i1, i2⟩ := ih (fun i hi => h i (by simp [hi]))
    have hk := h k (by simp)
    simp only [moveAlong, List.foldr_cons, List.length_cons] at i1 i2 ⊢
    set x := List.foldr (fun k v => (p k).move v) v l
    set y := List.foldr (fun k v => (e k).move v) v l
    rw [far_succ, pow_succ]
    set X := far s B ‖v‖ l.length
    set G := (1 + η) ^ l.length
    have G1 : 1 ≤ G := one_le_pow₀ (by linarith)
    constructor
    · have h1 := hk.lipschitz y 0
      rw [sub_zero] at h1
      have h2 := norm_add_le ((e k).move y - (e k).move 0) ((e k).move 0)
      rw [sub_add_cancel] at h2
      have h3 := mul_le_mul_of_nonneg_left i1 hs
      linarith [hk.origin]
    · have h1 := hk.close x
      have h2 := hk.lipschitz x y
      have h3 : ‖x‖ ≤ X * G := by
        have := norm_add_le (x - y) y
        rw [sub_add_cancel] at this
        linarith
      have h4 := norm_add_le ((p k).move x - (e k).move x) ((e k).move x - (e k).move y)
      rw [sub_add_sub_cancel] at h4
      have h5 := mul_le_mul_of_nonneg_left h3 (mul_nonneg hη hs)
      have h6 := mul_le_mul_of_nonneg_left i2 hs
      have h7 : 0 ≤ B * (1 + η) * (G - 1) := by
        have : 0 ≤ G - 1 := by linarith
        positivity
      have e1 : (s * X + B) * (G * (1 + η) - 1) = η * (s * (X * G)) + η * B + s * (X * (G - 1)) + B * (1 + η) * (G - 1) := by ring
      rw [e1]
      linarith

/-- Poses with close parts. -/
theorem poseNear_norm {j e : JointPose} {s B M d δ κ : ℝ} (hs : 1 ≤ s) (hκ : 0 ≤ κ) (hM : 2 * M ≤ B) (hJ : |‖j.rotation‖ - 1| ≤ δ) (hδ : δ < 1)
    (he : Quaternion.normSq e.rotation = 1) (hd : ‖j.rotation - e.rotation‖ ≤ d)
    (s1 : |j.scale.1 - e.scale.1| ≤ κ * s) (s2 : |j.scale.2.1 - e.scale.2.1| ≤ κ * s)
    (s3 : |j.scale.2.2 - e.scale.2.2| ≤ κ * s)
    (r1 : |j.scale.1| ≤ s) (r2 : |j.scale.2.1| ≤ s) (r3 : |j.scale.2.2| ≤ s)
    (q1 : |e.scale.1| ≤ s) (q2 : |e.scale.2.1| ≤ s) (q3 : |e.scale.2.2| ≤ s)
    (t0 : j.translation.re = 0) (t0' : e.translation.re = 0)
    (t1 : |j.translation.imI - e.translation.imI| ≤ κ * M) (t2 : |j.translation.imJ - e.translation.imJ| ≤ κ * M)
    (t3 : |j.translation.imK - e.translation.imK| ≤ κ * M)
    (m1 : |e.translation.imI| ≤ M) (m2 : |e.translation.imJ| ≤ M) (m3 : |e.translation.imK| ≤ M) :
    PoseClose j e s B (2 * (d + δ) + κ) := by
  have d0 : 0 ≤ d := (norm_nonneg _).trans hd
  have δ0 : 0 ≤ δ := (abs_nonneg _).trans hJ
  have s0 : 0 ≤ s := by linarith
  have hw : ‖e.rotation‖ = 1 := by
    rw [← Real.sqrt_mul_self (norm_nonneg e.rotation), ← Quaternion.normSq_eq_norm_mul_self, he, Real.sqrt_one]
  have hmove : ∀ (q : JointPose) v, q.move v = q.rotation * scaled q v * q.rotation⁻¹ + q.translation := fun _ _ => rfl
  have hn : ‖j.rotation‖ ^ 2 = Quaternion.normSq j.rotation := by rw [pow_two, Quaternion.normSq_eq_norm_mul_self]
  have hnz : Quaternion.normSq j.rotation ≠ 0 := by
    intro h
    rw [← hn, pow_eq_zero_iff two_ne_zero] at h
    rw [h, zero_sub, abs_neg, abs_one] at hJ
    linarith
  -- the normalised rotation
  obtain ⟨u, hu⟩ : ∃ u, u = (normPose j).rotation := ⟨_, rfl⟩
  have hu1 : ‖u‖ = 1 := by
    rw [hu, ← Real.sqrt_mul_self (norm_nonneg _), ← Quaternion.normSq_eq_norm_mul_self, normPose_unit hnz, Real.sqrt_one]
  have hju : ∀ v, j.move v = u * scaled j v * u⁻¹ + j.translation := by
    intro v
    rw [← normPose_move hnz, hu]
    rfl
  have huj : j.rotation = ‖j.rotation‖ • u := by
    rw [hu]
    simp only [normPose]
    rw [← hn, Real.sqrt_sq (norm_nonneg _), smul_smul, mul_inv_cancel₀, one_smul]
    intro h; apply hnz; rw [← hn, h]; norm_num
  have huw : ‖u - e.rotation‖ ≤ d + δ := by
    have g1 : ‖u - j.rotation‖ ≤ δ := by
      have e0 : u - j.rotation = (1 - ‖j.rotation‖) • u := by rw [sub_smul, one_smul, ← huj]
      rw [e0, norm_smul, hu1, mul_one, Real.norm_eq_abs, abs_sub_comm]
      exact hJ
    have g2 := norm_add_le (u - j.rotation) (j.rotation - e.rotation)
    rw [sub_add_sub_cancel] at g2
    linarith
  have hinv : ‖e.rotation⁻¹‖ = 1 := by rw [norm_inv, hw, inv_one]
  have hsc : ∀ v w, e.move v - e.move w = e.rotation * (scaled e v - scaled e w) * e.rotation⁻¹ := by
    intro v w
    rw [hmove, hmove, mul_sub, sub_mul]
    abel
  refine ⟨fun v => ?_, fun v w => ?_, ?_⟩
  · -- scale, rotation, translation
    have a1 : ‖scaled j v‖ ≤ s * ‖v‖ := diag_norm rfl rfl rfl rfl s0 r1 r2 r3
    have a2 : ‖scaled j v - scaled e v‖ ≤ κ * s * ‖v‖ := by
      refine diag_norm (a := j.scale.1 - e.scale.1) (b := j.scale.2.1 - e.scale.2.1) (c := j.scale.2.2 - e.scale.2.2) ?_ ?_ ?_ ?_
        (by positivity) s1 s2 s3
      · rw [Quaternion.re_sub, (scaled_at j v).1, (scaled_at e v).1, sub_zero]
      · rw [Quaternion.imI_sub, (scaled_at j v).2.1, (scaled_at e v).2.1, sub_mul]
      · rw [Quaternion.imJ_sub, (scaled_at j v).2.2.1, (scaled_at e v).2.2.1, sub_mul]
      · rw [Quaternion.imK_sub, (scaled_at j v).2.2.2, (scaled_at e v).2.2.2, sub_mul]
    have a3 : ‖j.translation - e.translation‖ ≤ κ * B := by
      rw [pure_norm (by rw [Quaternion.re_sub, t0, t0', sub_zero])]
      simp only [Quaternion.imI_sub, Quaternion.imJ_sub, Quaternion.imK_sub]
      have hM0 : 0 ≤ M := (abs_nonneg _).trans m1
      refine (len_le_three t1 t2 t3).trans ?_
      have := mul_le_mul_of_nonneg_left hM hκ
      have := mul_nonneg hκ hM0
      linarith
    have a4 := turn_near (x := scaled j v) hu1 hw
    have a5 : ‖e.rotation * scaled j v * e.rotation⁻¹ - e.rotation * scaled e v * e.rotation⁻¹‖ ≤ κ * s * ‖v‖ := by
      rw [← sub_mul, ← mul_sub, norm_mul, norm_mul, hw, hinv]
      linarith
    have e1 : j.move v - e.move v = (u * scaled j v * u⁻¹ - e.rotation * scaled j v * e.rotation⁻¹) +
        ((e.rotation * scaled j v * e.rotation⁻¹ - e.rotation * scaled e v * e.rotation⁻¹) + (j.translation - e.translation)) := by
      rw [hju, hmove]
      abel
    rw [e1]
    refine (norm_add_le _ _).trans ((add_le_add a4 ((norm_add_le _ _).trans (add_le_add a5 a3))).trans ?_)
    have a6 : 2 * ‖u - e.rotation‖ * ‖scaled j v‖ ≤ 2 * (d + δ) * (s * ‖v‖) := by gcongr
    have B0 : 0 ≤ B := by
      have hM0 : 0 ≤ M := (abs_nonneg _).trans m1
      linarith
    have hv : 0 ≤ s * ‖v‖ := by positivity
    have e3 : (2 * (d + δ) + κ) * (s * ‖v‖ + B) = 2 * (d + δ) * (s * ‖v‖) + (κ * s * ‖v‖ + κ * B) +
        2 * (d + δ) * B := by ring
    rw [e3]
    have : 0 ≤ 2 * (d + δ) * B := by positivity
    linarith
  · rw [hsc, norm_mul, norm_mul, hw, hinv, one_mul, mul_one]
    refine diag_norm (a := e.scale.1) (b := e.scale.2.1) (c := e.scale.2.2) ?_ ?_ ?_ ?_ s0 q1 q2 q3
    · rw [Quaternion.re_sub, (scaled_at e v).1, (scaled_at e w).1, sub_zero]
    · rw [Quaternion.imI_sub, Quaternion.imI_sub, (scaled_at e v).2.1, (scaled_at e w).2.1, mul_sub]
    · rw [Quaternion.imJ_sub, Quaternion.imJ_sub, (scaled_at e v).2.2.1, (scaled_at e w).2.2.1, mul_sub]
    · rw [Quaternion.imK_sub, Quaternion.imK_sub, (scaled_at e v).2.2.2, (scaled_at e w).2.2.2, mul_sub]
  · rw [move_zero, pure_norm t0']
    have hM0 : 0 ≤ M := (abs_nonneg _).trans m1
    exact (len_le_three m1 m2 m3).trans (by linarith)

theorem poseNear {j e : JointPose} {s B M ε κ : ℝ} (hs : 1 ≤ s) (hκ : 0 ≤ κ) (hM : 2 * M ≤ B) (hr : |Quaternion.normSq j.rotation - 1| ≤ 1 / 2 ^ 19)
    (he : Quaternion.normSq e.rotation = 1)
    (h0 : |j.rotation.re - e.rotation.re| ≤ ε) (h1 : |j.rotation.imI - e.rotation.imI| ≤ ε)
    (h2 : |j.rotation.imJ - e.rotation.imJ| ≤ ε) (h3 : |j.rotation.imK - e.rotation.imK| ≤ ε)
    (s1 : |j.scale.1 - e.scale.1| ≤ κ * s) (s2 : |j.scale.2.1 - e.scale.2.1| ≤ κ * s)
    (s3 : |j.scale.2.2 - e.scale.2.2| ≤ κ * s)
    (r1 : |j.scale.1| ≤ s) (r2 : |j.scale.2.1| ≤ s) (r3 : |j.scale.2.2| ≤ s)
    (q1 : |e.scale.1| ≤ s) (q2 : |e.scale.2.1| ≤ s) (q3 : |e.scale.2.2| ≤ s)
    (t0 : j.translation.re = 0) (t0' : e.translation.re = 0)
    (t1 : |j.translation.imI - e.translation.imI| ≤ κ * M) (t2 : |j.translation.imJ - e.translation.imJ| ≤ κ * M)
    (t3 : |j.translation.imK - e.translation.imK| ≤ κ * M)
    (m1 : |e.translation.imI| ≤ M) (m2 : |e.translation.imJ| ≤ M) (m3 : |e.translation.imK| ≤ M) :
    PoseClose j e s B (4 * ε + 2 / 2 ^ 19 + κ) := by
  have ε0 : 0 ≤ ε := (abs_nonneg _).trans h0
  have hn : ‖j.rotation‖ ^ 2 = Quaternion.normSq j.rotation := by rw [pow_two, Quaternion.normSq_eq_norm_mul_self]
  have hJ : |‖j.rotation‖ - 1| ≤ 1 / 2 ^ 19 := by
    rw [← hn] at hr
    have hp := norm_nonneg j.rotation
    rw [abs_le] at hr ⊢
    constructor <;> nlinarith [hr.1, hr.2]
  have hd : ‖j.rotation - e.rotation‖ ≤ 2 * ε := by
    apply abs_le_of_sq_le_sq' _ (by positivity) |>.2
    rw [quat_norm_sq]
    simp only [Quaternion.re_sub, Quaternion.imI_sub, Quaternion.imJ_sub, Quaternion.imK_sub]
    have g : ∀ z : ℝ, |z| ≤ ε → z ^ 2 ≤ ε ^ 2 := fun z hz => sq_le_sq.mpr (hz.trans (le_abs_self _))
    linarith [g _ h0, g _ h1, g _ h2, g _ h3]
  have e1 : 4 * ε + 2 / 2 ^ 19 + κ = 2 * (2 * ε + 1 / 2 ^ 19) + κ := by ring
  rw [e1]
  exact poseNear_norm hs hκ hM hJ (by norm_num) he hd s1 s2 s3 r1 r2 r3 q1 q2 q3 t0 t0' t1 t2 t3 m1 m2 m3

theorem poseClose {j e : JointPose} {s B M : ℝ} (hs : 1 ≤ s) (hM : 2 * M ≤ B) (hr : |Quaternion.normSq j.rotation - 1| ≤ 1 / 2 ^ 19)
    (he : Quaternion.normSq e.rotation = 1)
    (h0 : |j.rotation.re - e.rotation.re| ≤ 1 / 2 ^ 17) (h1 : |j.rotation.imI - e.rotation.imI| ≤ 1 / 2 ^ 17)
    (h2 : |j.rotation.imJ - e.rotation.imJ| ≤ 1 / 2 ^ 17) (h3 : |j.rotation.imK - e.rotation.imK| ≤ 1 / 2 ^ 17)
    (s1 : |j.scale.1 - e.scale.1| ≤ s / 2 ^ 19) (s2 : |j.scale.2.1 - e.scale.2.1| ≤ s / 2 ^ 19)
    (s3 : |j.scale.2.2 - e.scale.2.2| ≤ s / 2 ^ 19)
    (r1 : |j.scale.1| ≤ s) (r2 : |j.scale.2.1| ≤ s) (r3 : |j.scale.2.2| ≤ s)
    (q1 : |e.scale.1| ≤ s) (q2 : |e.scale.2.1| ≤ s) (q3 : |e.scale.2.2| ≤ s)
    (t0 : j.translation.re = 0) (t0' : e.translation.re = 0)
    (t1 : |j.translation.imI - e.translation.imI| ≤ M / 2 ^ 19) (t2 : |j.translation.imJ - e.translation.imJ| ≤ M / 2 ^ 19)
    (t3 : |j.translation.imK - e.translation.imK| ≤ M / 2 ^ 19)
    (m1 : |e.translation.imI| ≤ M) (m2 : |e.translation.imJ| ≤ M) (m3 : |e.translation.imK| ≤ M) :
    PoseClose j e s B (19 / 2 ^ 19) := by
  have h := poseNear (κ := 1 / 2 ^ 19) hs (by norm_num) hM hr he h0 h1 h2 h3 (by linarith) (by linarith) (by linarith) r1 r2 r3 q1 q2 q3
    t0 t0' (by linarith) (by linarith) (by linarith) m1 m2 m3
  have e : (19:ℝ) / 2 ^ 19 = 4 * (1 / 2 ^ 17) + 2 / 2 ^ 19 + 1 / 2 ^ 19 := by norm_num
  rw [e]
  exact h

/-- Two relative errors per joint add up. -/
theorem compound_add {a b c : ℝ} (ha : 0 ≤ a) (hb : 0 ≤ b) (hc : a + b ≤ c) (d : ℕ) :
    ((1 + a) ^ d - 1) + ((1 + b) ^ d - 1) ≤ (1 + c) ^ d - 1 := by
  induction d with
  | zero => norm_num
  | succ d ih =>
    have c0 : 0 ≤ c := by linarith
    have ga : 1 ≤ (1 + a) ^ d := one_le_pow₀ (by linarith)
    have gb : 1 ≤ (1 + b) ^ d := one_le_pow₀ (by linarith)
    rw [pow_succ, pow_succ, pow_succ]
    generalize (1 + a) ^ d = A at *
    generalize (1 + b) ^ d = D at *
    generalize (1 + c) ^ d = C at *
    have h1 : (A + D - 1) * (1 + c) ≤ C * (1 + c) := mul_le_mul_of_nonneg_right (by linarith) (by linarith)
    have h2 : 0 ≤ (A - 1) * (c - a) := mul_nonneg (by linarith) (by linarith)
    have h3 : 0 ≤ (D - 1) * (c - b) := mul_nonneg (by linarith) (by linarith)
    linarith

theorem compound14 {d : ℕ} (hd : d ≤ 1024) : (1 + 1 / 2 ^ 14 : ℝ) ^ d - 1 ≤ d / 2 ^ 13 := by
  have key : ∀ n : ℕ, n ≤ 1024 → (1 + 1 / 2 ^ 14 : ℝ) ^ n ≤ 1 + 11 / 10 * n * (1 / 2 ^ 14) := by
    intro n
    induction n with
    | zero => intro _; norm_num
    | succ n ih =>
      intro hn
      have h := ih (by omega)
      have hn' : (n:ℝ) ≤ 1024 := by exact_mod_cast (by omega : n ≤ 1024)
      rw [pow_succ]
      push_cast
      refine (mul_le_mul_of_nonneg_right h (by positivity)).trans ?_
      norm_num
      linarith
  have h := key d hd
  have h0 : (0:ℝ) ≤ d := by positivity
  norm_num at h ⊢
  linarith

end Ozz.Frame
