import Verif.Proofs.FloatBonesVec
import Verif.Proofs.FloatAimRun

/-! Helpers: whole runs of the two-bone job in single precision. -/

namespace Ozz.IK

open F32 Ieee Spec Blending Ozz.Trig

theorem len_ok {v : F4 F32} (hv : Fin3 v) (v0 : 1 / 2 ^ 20 ≤ mag3 (valVec v)) (v1 : mag3 (valVec v) ≤ 2 ^ 20) {D : F32} (hD : D = vec3Length2S v 0) :
    Finite32 D.bits ∧ |val D - mag3 (valVec v) ^ 2| ≤ 3.02 / 2 ^ 24 * mag3 (valVec v) ^ 2 ∧
    Finite32 (F32.sqrt D).bits ∧ |val (F32.sqrt D) - mag3 (valVec v)| ≤ 2.6 / 2 ^ 24 * mag3 (valVec v) := by
  subst hD
  have s := mag3_sq (valVec v)
  obtain ⟨f, e⟩ := len2_ok hv (by rw [← s]; exact le_trans (by norm_num) (pow_le_pow_left₀ (by positivity) v0 2))
    (by rw [← s]; exact (pow_le_pow_left₀ (mag3_nonneg _) v1 2).trans (by norm_num))
  rw [← s] at e
  generalize mag3 (valVec v) = r at *
  generalize vec3Length2S v 0 = D at *
  have r0 : 0 < r := lt_of_lt_of_le (by positivity) v0
  have r2 : 0 < r ^ 2 := by positivity
  have e' := abs_le.mp e
  have D0 : 0 ≤ val D := by linarith
  have e1 : |√(val D) - r| ≤ 1.52 / 2 ^ 24 * r := by
    rw [abs_le]
    constructor
    · have : (1 - 1.52 / 2 ^ 24) * r ≤ √(val D) := by
        apply Real.le_sqrt_of_sq_le
        rw [mul_pow]
        have : (1 - 1.52 / 2 ^ 24 : ℝ) ^ 2 ≤ 1 - 3.02 / 2 ^ 24 := by norm_num
        nlinarith
      linarith
    · have : √(val D) ≤ (1 + 1.52 / 2 ^ 24) * r := by
        apply Real.sqrt_le_iff.mpr ⟨by positivity, ?_⟩
        rw [mul_pow]
        have : 1 + 3.02 / 2 ^ 24 ≤ (1 + 1.52 / 2 ^ 24 : ℝ) ^ 2 := by norm_num
        nlinarith
      linarith
  have e1' := abs_le.mp e1
  obtain ⟨g, e2⟩ := sqrt_ok f D0 (by linarith)
  refine ⟨f, by linarith, g, ?_⟩
  have t := abs_sub_le (val (F32.sqrt D)) √(val D) r
  linarith

theorem mag_ge {x : F4 ℝ} {a : ℝ} (h : a ^ 2 ≤ dot3 x x) : a ≤ mag3 x := by
  rw [mag3_eq]; exact Real.le_sqrt_of_sq_le h

theorem dist_mag (a b : F4 ℝ) : dist2 a b = mag3 (a - b) ^ 2 := by
  rw [mag3_sq]; simp only [dist2, dot3, Pi.sub_apply]; ring

theorem mag3_tri (a b c : F4 ℝ) : mag3 (a - c) ≤ mag3 (a - b) + mag3 (b - c) := by
  rw [← mag3_sub_norm, ← mag3_sub_norm, ← mag3_sub_norm]
  exact norm_sub_le_norm_sub_add_norm_sub _ _ _

theorem mag3_add_le (a b : F4 ℝ) : mag3 (a + b) ≤ mag3 a + mag3 b := by
  have := mag3_sub_le (a + b) a
  rwa [add_sub_cancel_left] at this

theorem mag3_neg (a : F4 ℝ) : mag3 (-a) = mag3 a := by
  rw [mag3_eq, mag3_eq]; congr 1; simp [dot3]

/-- Differences of vectors. -/
theorem sub3_ok {a b : F4 F32} (ha : Fin3 a) (hb : Fin3 b) {M : ℝ} (hM : mag3 (valVec a - valVec b) ≤ M) (h1 : M ≤ 2 ^ 40) :
    Fin3 (a - b) ∧ mag3 (valVec (a - b) - (valVec a - valVec b)) ≤ 1.75 / 2 ^ 24 * M := by
  have key : ∀ i, i ≠ 3 → Finite32 (a i - b i).bits ∧ |val (a i - b i) - (val (a i) - val (b i))| ≤ 1 / 2 ^ 24 * M := fun i hi => by
    have hi' : |val (a i) - val (b i)| ≤ M := (abs_le_mag3 (valVec a - valVec b) i hi).trans hM
    obtain ⟨f, e⟩ := sub_ok (ha i hi) (hb i hi) (hi'.trans (h1.trans (by norm_num)))
    exact ⟨f, e.trans (by linarith)⟩
  exact ⟨fun i hi => (key i hi).1, (mag3_le_three fun i hi => (key i hi).2).trans (by linarith)⟩

theorem add3_ok {a b : F4 F32} (ha : Fin3 a) (hb : Fin3 b) {M : ℝ} (hM : mag3 (valVec a + valVec b) ≤ M) (h1 : M ≤ 2 ^ 40) :
    Fin3 (fun i => a i + b i) ∧ mag3 (valVec (fun i => a i + b i) - (valVec a + valVec b)) ≤ 1.75 / 2 ^ 24 * M := by
  have key : ∀ i, i ≠ 3 → Finite32 (a i + b i).bits ∧ |val (a i + b i) - (val (a i) + val (b i))| ≤ 1 / 2 ^ 24 * M := fun i hi => by
    have hi' : |val (a i) + val (b i)| ≤ M := (abs_le_mag3 (valVec a + valVec b) i hi).trans hM
    obtain ⟨f, e⟩ := add_ok (ha i hi) (hb i hi) (hi'.trans (h1.trans (by norm_num)))
    exact ⟨f, e.trans (by linarith)⟩
  exact ⟨fun i hi => (key i hi).1, (mag3_le_three fun i hi => (key i hi).2).trans (by linarith)⟩

/-- What the setup sees. -/
structure Bones (j : TwoBone F32) (σ η τ : F4 ℝ) (T : ℝ) : Prop where
  mid : Fin3 j.setup.startMidSs ∧ mag3 (valVec j.setup.startMidSs - σ) ≤ 1395 / 2 ^ 24 * T
  σ_ge : T / 2 ^ 7 ≤ mag3 σ
  σ_le : mag3 σ ≤ 3.5 * T
  bone_ge : T / 2 ^ 7 ≤ mag3 (η - σ)
  bone_le : mag3 (η - σ) ≤ 7 * T
  η_le : mag3 η ≤ 3.5 * T
  τ_ge : T / 2 ^ 7 ≤ mag3 τ
  τ_le : mag3 τ ≤ 3.5 * T
  D1 : Finite32 (j.setup.startMidLen2 0).bits ∧ |val (j.setup.startMidLen2 0) - mag3 σ ^ 2| ≤ 2847 / 2 ^ 24 * (T * mag3 σ)
  D2 : Finite32 (j.setup.midEndLen2 0).bits ∧ |val (j.setup.midEndLen2 0) - mag3 (η - σ) ^ 2| ≤ 5721 / 2 ^ 24 * (T * mag3 (η - σ))
  D3 : Finite32 (j.setup.startEndLen2 0).bits ∧ 0 ≤ val (j.setup.startEndLen2 0) ∧ |val (j.setup.startEndLen2 0) - mag3 η ^ 2| ≤ 9820 / 2 ^ 24 * T ^ 2
  L1 : Finite32 (F32.sqrt (j.setup.startMidLen2 0)).bits ∧ |val (F32.sqrt (j.setup.startMidLen2 0)) - mag3 σ| ≤ 1405 / 2 ^ 24 * T
  L2 : Finite32 (F32.sqrt (j.setup.midEndLen2 0)).bits ∧ |val (F32.sqrt (j.setup.midEndLen2 0)) - mag3 (η - σ)| ≤ 2822 / 2 ^ 24 * T
  target : Fin3 (j.startJoint.invert.transformPoint j.target) ∧ mag3 (valVec (j.startJoint.invert.transformPoint j.target) - τ) ≤ 1395 / 2 ^ 24 * T
  D4 : Finite32 (vec3Length2S (j.startJoint.invert.transformPoint j.target) 0).bits ∧
    |val (vec3Length2S (j.startJoint.invert.transformPoint j.target) 0) - mag3 τ ^ 2| ≤ 2847 / 2 ^ 24 * (T * mag3 τ)
  L4 : Finite32 (F32.sqrt (vec3Length2S (j.startJoint.invert.transformPoint j.target) 0)).bits ∧
    |val (F32.sqrt (vec3Length2S (j.startJoint.invert.transformPoint j.target) 0)) - mag3 τ| ≤ 1405 / 2 ^ 24 * T

theorem seen_len {v : F4 F32} {X : F4 ℝ} {T d b : ℝ} (hT : 1 ≤ T) (hT2 : T ≤ 2 ^ 16) (hv : Fin3 v) (he : mag3 (valVec v - X) ≤ d * T)
    (h0 : T / 2 ^ 7 ≤ mag3 X) (h1 : mag3 X ≤ b * T) (hd : d ≤ 1 / 4000) (hb0 : 1 ≤ b) (hb : b ≤ 7) {D : F32} (hD : D = vec3Length2S v 0) :
    Finite32 D.bits ∧ |val D - mag3 X ^ 2| ≤ (2.0325 * d + 3.3 / 2 ^ 24 * b) * (T * mag3 X) ∧
    Finite32 (F32.sqrt D).bits ∧ |val (F32.sqrt D) - mag3 X| ≤ (d + 2.61 / 2 ^ 24 * b) * T := by
  have md := (mag3_diff (valVec v) X).trans he
  have md' := abs_le.mp md
  have dT : d * T ≤ 1 / 4000 * T := mul_le_mul_of_nonneg_right hd (by linarith)
  have d0 : 0 ≤ d * T := (mag3_nonneg _).trans he
  have d1 : 0 ≤ d := nonneg_of_mul_nonneg_left d0 (by linarith)
  have bT : b * T ≤ 7 * T := mul_le_mul_of_nonneg_right hb (by linarith)
  obtain ⟨f, e, g, e2⟩ := len_ok hv (by linarith) (by linarith) hD
  have k : mag3 (valVec v) ≤ 1.0321 * mag3 X := by linarith
  have X0 : 0 ≤ mag3 X := mag3_nonneg X
  have v0 := mag3_nonneg (valVec v)
  refine ⟨f, ?_, g, ?_⟩
  · have e3 : |mag3 (valVec v) ^ 2 - mag3 X ^ 2| ≤ 2.0321 * d * (T * mag3 X) := by
      rw [show mag3 (valVec v) ^ 2 - mag3 X ^ 2 = (mag3 (valVec v) - mag3 X) * (mag3 (valVec v) + mag3 X) by ring, abs_mul,
        abs_of_nonneg (by linarith : 0 ≤ mag3 (valVec v) + mag3 X)]
      refine (mul_le_mul md (show mag3 (valVec v) + mag3 X ≤ 2.0321 * mag3 X by linarith) (by linarith) d0).trans (le_of_eq (by ring))
    have sq : mag3 (valVec v) ^ 2 ≤ 1.0653 * (b * (T * mag3 X)) := by
      have h2 := pow_le_pow_left₀ v0 k 2
      rw [mul_pow] at h2
      have : mag3 X ^ 2 ≤ b * (T * mag3 X) := by
        rw [pow_two, ← mul_assoc]; exact mul_le_mul_of_nonneg_right h1 X0
      nlinarith
    have t := abs_sub_le (val D) (mag3 (valVec v) ^ 2) (mag3 X ^ 2)
    have p1 : 0 ≤ d * (T * mag3 X) := mul_nonneg d1 (mul_nonneg (by linarith) X0)
    have p2 : 0 ≤ b * (T * mag3 X) := mul_nonneg (by linarith) (mul_nonneg (by linarith) X0)
    rw [show (2.0325 * d + 3.3 / 2 ^ 24 * b) * (T * mag3 X) = 2.0325 * (d * (T * mag3 X)) + 3.3 / 2 ^ 24 * (b * (T * mag3 X)) by ring]
    rw [show 2.0321 * d * (T * mag3 X) = 2.0321 * (d * (T * mag3 X)) by ring] at e3
    linarith
  · have t := abs_sub_le (val (F32.sqrt D)) (mag3 (valVec v)) (mag3 X)
    have : T ≤ b * T := le_mul_of_one_le_left (by linarith) hb0
    rw [show (d + 2.61 / 2 ^ 24 * b) * T = d * T + 2.61 / 2 ^ 24 * (b * T) by ring]
    linarith

theorem len2_nonneg32 {v : F4 F32} (hv : Fin3 v) {B : ℝ} (hB : mag3 (valVec v) ≤ B) (h0 : 1 / 2 ^ 20 ≤ B) (h1 : B ≤ 2 ^ 20) :
    Finite32 (vec3Length2S v 0).bits ∧ 0 ≤ val (vec3Length2S v 0) ∧ |val (vec3Length2S v 0) - mag3 (valVec v) ^ 2| ≤ 3.02 / 2 ^ 24 * B ^ 2 := by
  have B2 : B ^ 2 ≤ 2 ^ 40 := (pow_le_pow_left₀ (by linarith [mag3_nonneg (valVec v)]) h1 2).trans (by norm_num)
  have B3 : 1 / 2 ^ 40 ≤ B ^ 2 := le_trans (by norm_num) (pow_le_pow_left₀ (by positivity) h0 2)
  obtain ⟨f, e⟩ := dotS_ok hv hv (S := B ^ 2) (by rw [← pow_two]; exact pow_le_pow_left₀ (mag3_nonneg _) hB 2) (by linarith) (by linarith)
  refine ⟨f, ?_, ?_⟩
  · have sq : ∀ i, i ≠ 3 → Finite32 (v i * v i).bits ∧ |val (v i * v i) - val (v i) ^ 2| ≤ val (v i) ^ 2 / 2 ^ 24 + 1 / 2 ^ 150 ∧
        0 ≤ val (v i * v i) := fun i hi => by
      refine square_ok (hv i hi) (B := 2 ^ 100) ?_ (by norm_num)
      rw [← sq_abs]
      exact (pow_le_pow_left₀ (abs_nonneg _) ((abs_le_mag3 (valVec v) i hi).trans hB) 2).trans (by linarith)
    have b : ∀ i, i ≠ 3 → val (v i) ^ 2 ≤ 2 ^ 40 := fun i hi => by
      rw [← sq_abs]
      exact (pow_le_pow_left₀ (abs_nonneg _) ((abs_le_mag3 (valVec v) i hi).trans hB) 2).trans B2
    obtain ⟨f0, e0, p0⟩ := sq 0 (by decide)
    obtain ⟨f1, e1, p1⟩ := sq 1 (by decide)
    obtain ⟨f2, e2, p2⟩ := sq 2 (by decide)
    have b0 := b 0 (by decide)
    have b1 := b 1 (by decide)
    have b2 := b 2 (by decide)
    have sh : vec3Length2S v 0 = v 0 * v 0 + v 1 * v 1 + v 2 * v 2 := rfl
    have f' : Finite32 (vec3Length2S v 0).bits := f
    rw [sh] at f' ⊢
    generalize v 0 * v 0 = x at *
    generalize v 1 * v 1 = y at *
    generalize v 2 * v 2 = z at *
    have c0 := (abs_le.mp e0).2
    have c1 := (abs_le.mp e1).2
    obtain ⟨g, d, -⟩ := add_bound f0 f1 (X := 2 ^ 41) (Y := 2 ^ 41) (by rw [abs_of_nonneg p0]; linarith) (by rw [abs_of_nonneg p1]; linarith) (by norm_num)
    have q := add_nonneg32 f0 f1 g (by linarith)
    exact add_nonneg32 g f2 f' (by linarith)
  · rw [mag3_sq]
    exact e.trans (le_of_eq (by ring))

theorem bones_seen {j : TwoBone F32} {σ η τ π : F4 ℝ} {ε T P : ℝ} (h : BonesInput32 j σ η τ π ε T P) : Bones j σ η τ T := by
  have hT := h.size_ge
  have hT2 := h.size_le
  have wm : Within3 (j.midJoint 3) T := fun i hi => ⟨h.middle.finite 3 i, h.middle.translation i hi⟩
  obtain ⟨fm, em, σ1⟩ := point_seen h.start h.rigid hT hT2 wm h.midS
  obtain ⟨fe, ee, η1⟩ := point_seen h.start h.rigid hT hT2 h.tip h.endS
  obtain ⟨ft, et, τ1⟩ := point_seen h.start h.rigid hT hT2 h.target h.targetS
  have σ0 := mag_ge h.bone1
  have τ0 := mag_ge h.far
  have b0 : T / 2 ^ 7 ≤ mag3 (η - σ) := by
    refine abs_le_of_sq_le_sq' ?_ (mag3_nonneg _) |>.2
    rw [← dist_mag]; exact h.bone2
  have b1 : mag3 (η - σ) ≤ 7 * T := by
    rw [sub_eq_add_neg]
    refine (mag3_add_le _ _).trans ?_
    rw [mag3_neg]; linarith
  have s1 : j.setup.startMidSs = j.startJoint.invert.transformPoint (j.midJoint 3) := rfl
  have s2 : j.setup.startMidLen2 0 = vec3Length2S (j.startJoint.invert.transformPoint (j.midJoint 3)) 0 := rfl
  have s3 : j.setup.midEndLen2 0 = vec3Length2S (j.startJoint.invert.transformPoint (j.endJoint 3) - j.startJoint.invert.transformPoint (j.midJoint 3)) 0 := rfl
  have s4 : j.setup.startEndLen2 0 = vec3Length2S (j.startJoint.invert.transformPoint (j.endJoint 3)) 0 := rfl
  obtain ⟨d1, d1e, l1, l1e⟩ := seen_len hT hT2 fm em σ0 σ1 (by norm_num) (by norm_num) (by norm_num) s2
  have hdiff : mag3 ((valVec (j.startJoint.invert.transformPoint (j.endJoint 3)) - valVec (j.startJoint.invert.transformPoint (j.midJoint 3))) - (η - σ)) ≤
      2790 / 2 ^ 24 * T := by
    rw [show ∀ a b c d : F4 ℝ, (a - b) - (c - d) = (a - c) + -(b - d) from fun a b c d => by abel]
    refine (mag3_add_le _ _).trans ?_
    rw [mag3_neg]; linarith
  have hsum := (mag3_sub_le (valVec (j.startJoint.invert.transformPoint (j.endJoint 3)) - valVec (j.startJoint.invert.transformPoint (j.midJoint 3))) (η - σ)).trans
    (add_le_add b1 hdiff)
  obtain ⟨fd, ed⟩ := sub3_ok fe fm (M := 7.001 * T) (hsum.trans (by linarith)) (by linarith)
  obtain ⟨d2, d2e, l2, l2e⟩ := seen_len (d := 2803 / 2 ^ 24) (b := 7) hT hT2 fd ((mag3_tri _ _ _).trans ((add_le_add ed hdiff).trans (by linarith))) b0 b1
    (by norm_num) (by norm_num) (by norm_num) s3
  obtain ⟨d4, d4e, l4, l4e⟩ := seen_len hT hT2 ft et τ0 τ1 (by norm_num) (by norm_num) (by norm_num) rfl
  have e1 := (mag3_sub_le _ _).trans (add_le_add η1 ee)
  obtain ⟨d3, d3p, d3e⟩ := len2_nonneg32 fe (B := 3.501 * T) (e1.trans (by linarith)) (by linarith) (by linarith)
  have p1 : 0 ≤ T * mag3 σ := mul_nonneg (by linarith) (mag3_nonneg _)
  have p2 : 0 ≤ T * mag3 (η - σ) := mul_nonneg (by linarith) (mag3_nonneg _)
  have p3 : 0 ≤ T * mag3 τ := mul_nonneg (by linarith) (mag3_nonneg _)
  refine ⟨?_, σ0, σ1, b0, b1, η1, τ0, τ1, ⟨d1, d1e.trans ?_⟩, ⟨d2, d2e.trans ?_⟩, ?_, ⟨l1, l1e.trans ?_⟩, ⟨l2, l2e.trans ?_⟩, ⟨ft, et⟩, ⟨d4, d4e.trans ?_⟩, ⟨l4, l4e.trans ?_⟩⟩
  · rw [s1]; exact ⟨fm, em⟩
  · linarith
  · linarith
  · rw [s4]
    refine ⟨d3, d3p, ?_⟩
    have md := (mag3_diff _ _).trans ee
    have e3 : |mag3 (valVec (j.startJoint.invert.transformPoint (j.endJoint 3))) ^ 2 - mag3 η ^ 2| ≤ 1395 / 2 ^ 24 * T * (7.001 * T) := by
      generalize mag3 (valVec (j.startJoint.invert.transformPoint (j.endJoint 3))) = x at *
      rw [show x ^ 2 - mag3 η ^ 2 = (x - mag3 η) * (x + mag3 η) by ring, abs_mul]
      have a := abs_le.mp md
      have n := mag3_nonneg η
      refine mul_le_mul md ?_ (abs_nonneg _) (by linarith)
      rw [abs_le]; constructor <;> linarith
    have t := abs_sub_le (val (vec3Length2S (j.startJoint.invert.transformPoint (j.endJoint 3)) 0))
      (mag3 (valVec (j.startJoint.invert.transformPoint (j.endJoint 3))) ^ 2) (mag3 η ^ 2)
    have q : 0 ≤ T ^ 2 := sq_nonneg T
    rw [show 1395 / 2 ^ 24 * T * (7.001 * T) = 1395 / 2 ^ 24 * 7.001 * T ^ 2 by ring] at e3
    rw [mul_pow] at d3e
    linarith
  · linarith
  · linarith
  · linarith
  · linarith

theorem abs_ok32 {x : F32} (hx : Finite32 x.bits) : Finite32 (NumOps.abs x).bits ∧ val (NumOps.abs x) = |val x| := by
  obtain ⟨f, e⟩ := near_abs hx
  exact ⟨f, sub_eq_zero.mp (abs_nonpos_iff.mp e)⟩

/-- The soft limit, and whether the target is within reach. -/
theorem soften_ok {j : TwoBone F32} {σ η τ π : F4 ℝ} {ε T P : ℝ} (h : BonesInput32 j σ η τ π ε T P) (b : Bones j σ η τ T) :
    (j.softenTarget j.setup).2 = (j.startJoint.invert.transformPoint j.target, vec3Length2S (j.startJoint.invert.transformPoint j.target)) ∧
    ((j.softenTarget j.setup).1 = true → mag3 τ ≤ (mag3 σ + mag3 (η - σ)) * min (max (val j.soften) 0) 1 + T / 2 ^ 11 ∧
      |mag3 σ - mag3 (η - σ)| ≤ mag3 τ + T / 2 ^ 11) ∧
    ((j.softenTarget j.setup).1 = false → (mag3 σ + mag3 (η - σ)) * min (max (val j.soften) 0) 1 ≤ mag3 τ + T / 2 ^ 11 ∨
      mag3 τ ≤ |mag3 σ - mag3 (η - σ)| + T / 2 ^ 11) := by
  have hT := h.size_ge
  have hT2 := h.size_le
  obtain ⟨f1, x, f2⟩ := soften_shape j j.setup (V := j.startJoint.invert.transformPoint j.target) rfl rfl rfl rfl rfl
  obtain ⟨fa, ea⟩ := b.L1
  obtain ⟨fb, eb⟩ := b.L2
  obtain ⟨ft, et⟩ := b.L4
  have σ0 := b.σ_ge
  have σ1 := b.σ_le
  have η0 := b.bone_ge
  have η1 := b.bone_le
  have τ0 := b.τ_ge
  have τ1 := b.τ_le
  have us := h.unsoftened
  rw [← mag3_eq, ← mag3_eq, dist_mag, Real.sqrt_sq (mag3_nonneg _)] at us
  have zz : (NumOps.min (NumOps.max NumOps.zero NumOps.zero) NumOps.one : F32) = F32.zero := by decide +kernel
  rw [zz] at f2
  change _ = (!F32.lt ((F32.sqrt (j.setup.startMidLen2 0) + F32.sqrt (j.setup.midEndLen2 0)) * F32.fmin (F32.fmax j.soften F32.zero) F32.one)
    (F32.sqrt (vec3Length2S (j.startJoint.invert.transformPoint j.target) 0)) &&
    F32.lt (NumOps.abs (F32.sqrt (j.setup.startMidLen2 0) - F32.sqrt (j.setup.midEndLen2 0)))
      (F32.sqrt (vec3Length2S (j.startJoint.invert.transformPoint j.target) 0))) at f1
  change F32.lt ((F32.sqrt (j.setup.startMidLen2 0) + F32.sqrt (j.setup.midEndLen2 0)) * F32.fmin (F32.fmax j.soften F32.zero) F32.one)
    (F32.sqrt (vec3Length2S (j.startJoint.invert.transformPoint j.target) 0)) = false ∨
    F32.lt (x * F32.zero) (F32.sqrt (j.setup.startMidLen2 0) + F32.sqrt (j.setup.midEndLen2 0) -
      (F32.sqrt (j.setup.startMidLen2 0) + F32.sqrt (j.setup.midEndLen2 0)) * F32.fmin (F32.fmax j.soften F32.zero) F32.one) = false → _ at f2
  generalize (j.softenTarget j.setup).1 = fl at *
  generalize (j.softenTarget j.setup).2 = out at *
  generalize F32.sqrt (j.setup.startMidLen2 0) = a at *
  generalize F32.sqrt (j.setup.midEndLen2 0) = c at *
  generalize F32.sqrt (vec3Length2S (j.startJoint.invert.transformPoint j.target) 0) = t at *
  obtain ⟨g1, m1⟩ := fmax_val32 h.softenFinite zero_finite
  obtain ⟨g2, m2⟩ := fmin_val32 g1 one_finite
  rw [m1, valZero, valOne] at m2
  generalize F32.fmin (F32.fmax j.soften F32.zero) F32.one = k at *
  have k0 : 0 ≤ val k := by rw [m2]; exact le_min (le_max_right _ _) zero_le_one
  have k1 : val k ≤ 1 := by rw [m2]; exact min_le_right _ _
  rw [← m2]
  generalize mag3 σ = A at *
  generalize mag3 (η - σ) = B at *
  generalize mag3 τ = R at *
  have ea' := abs_le.mp ea
  have eb' := abs_le.mp eb
  have et' := abs_le.mp et
  obtain ⟨fs, es, bs⟩ := add_bound fa fb (X := 3.501 * T) (Y := 7.001 * T) (by rw [abs_le]; constructor <;> linarith)
    (by rw [abs_le]; constructor <;> linarith) (by linarith)
  have es' : |val (a + c) - (A + B)| ≤ 4238 / 2 ^ 24 * T := by
    have := abs_le.mp es
    rw [abs_le]; constructor <;> linarith
  obtain ⟨fd, ed⟩ := sub_ok fa fb (by rw [abs_le]; constructor <;> linarith)
  have ed2 : |val (a - c) - (A - B)| ≤ 4238 / 2 ^ 24 * T := by
    have h1 : |val a - val c| ≤ 10.51 * T := by rw [abs_le]; constructor <;> linarith
    have := abs_le.mp (ed.trans (div_le_div_of_nonneg_right h1 (by positivity)))
    rw [abs_le]; constructor <;> linarith
  obtain ⟨fu, vu⟩ := abs_ok32 fd
  have eu : |val (NumOps.abs (a - c)) - (|A - B|)| ≤ 4238 / 2 ^ 24 * T := by
    rw [vu]; exact (abs_abs_sub_abs_le _ _).trans ed2
  have eu' := abs_le.mp eu
  generalize NumOps.abs (a - c) = u at *
  generalize a + c = s at *
  have es2 := abs_le.mp es'
  have sb : |val s| ≤ 10.51 * T := by rw [abs_le]; constructor <;> linarith
  have pk : |val s * val k| ≤ 10.51 * T := by
    rw [abs_mul, abs_of_nonneg k0]
    exact (mul_le_mul sb k1 k0 (by linarith)).trans (by linarith)
  obtain ⟨fp, ep, -⟩ := mul_bound fs g2 pk (by linarith)
  have ep2 : |val (s * k) - (A + B) * val k| ≤ 4250 / 2 ^ 24 * T := by
    have h1 : |val s * val k - (A + B) * val k| ≤ 4238 / 2 ^ 24 * T := by
      rw [← sub_mul, abs_mul, abs_of_nonneg k0]
      exact (mul_le_mul es' k1 k0 (by linarith)).trans (by linarith)
    have := abs_sub_le (val (s * k)) (val s * val k) ((A + B) * val k)
    linarith
  have ep3 := abs_le.mp ep2
  refine ⟨f2 ?_, ?_, ?_⟩
  · rcases le_or_gt 1 (val j.soften) with hs | hs
    · right
      have k2 : val k = 1 := by rw [m2, max_eq_left (by linarith), min_eq_right hs]
      obtain ⟨fm, vm⟩ := mul_one32 fs g2 k2 (by linarith)
      obtain ⟨fz, ez⟩ := sub_ok fs fm (by rw [vm, sub_self, abs_zero]; positivity)
      apply not_lt_zero32 _ _ fz
      rw [vm, sub_self, abs_zero, zero_div, sub_zero] at ez
      exact (le_abs_self _).trans ez
    · left
      rw [Bool.eq_false_iff]
      intro hl
      have hl := (lt_val32 fp ft).mp hl
      have us := us.resolve_left (not_le.mpr hs)
      have k2 : val j.soften ≤ val k := by
        rw [m2, min_eq_left (max_le hs.le zero_le_one)]; exact le_max_left _ _
      have := mul_le_mul_of_nonneg_left k2 (show 0 ≤ A + B by linarith)
      linarith
  · intro hf
    rw [f1, Bool.and_eq_true, Bool.not_eq_true', Bool.eq_false_iff] at hf
    have h1 : val t ≤ val (s * k) := not_lt.mp fun h' => hf.1 ((lt_val32 fp ft).mpr h')
    have h2 := (lt_val32 fu ft).mp hf.2
    constructor <;> linarith
  · intro hf
    by_cases h1 : val (s * k) < val t
    · left; linarith
    · right
      have h2 : ¬ val u < val t := by
        intro h2
        rw [f1, Bool.and_eq_false_iff, (lt_val32 fu ft).mpr h2] at hf
        rcases hf with hf | hf
        · rw [Bool.not_eq_false'] at hf
          exact h1 ((lt_val32 fp ft).mp hf)
        · cases hf
      linarith

end Ozz.IK
