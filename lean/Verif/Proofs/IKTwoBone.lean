import Verif.Proofs.IKAim

/-! Helper lemmas about the two-bone job. -/

namespace Ozz.IK

open Spec

/-! ### Vectors under matrices -/

theorem transformVector_add (m : Mat4 ℝ) (v w : F4 ℝ) : m.transformVector (v + w) = m.transformVector v + m.transformVector w := by
  apply ext4 <;> simp [Mat4.transformVector, swz] <;> ring

theorem transformVector_neg (m : Mat4 ℝ) (v : F4 ℝ) : m.transformVector (-v) = -m.transformVector v := by
  apply ext4 <;> simp [Mat4.transformVector, swz] <;> ring

theorem invert_vector {m : Mat4 ℝ} (ha : AffineMat m) (hd : (toMatrix m).det ≠ 0) (v : F4 ℝ) :
    Same3 (m.transformVector (m.invert.transformVector v)) v := by
  have h0 := invert_point ha hd (fun _ => 0)
  have h1 := invert_point ha hd ((fun _ => 0) + v)
  rw [transformPoint_add, transformPoint_add] at h1
  refine ⟨?_, ?_, ?_⟩
  · have a := h0.1; have b := h1.1
    simp only [Pi.add_apply] at b; linarith
  · have a := h0.2.1; have b := h1.2.1
    simp only [Pi.add_apply] at b; linarith
  · have a := h0.2.2; have b := h1.2.2
    simp only [Pi.add_apply] at b; linarith

/-- Directions from the middle joint's space to the start joint's. -/
noncomputable def toStart (s m : Mat4 ℝ) (v : F4 ℝ) : F4 ℝ := s.invert.transformVector (m.transformVector v)

theorem toStart_add (s m : Mat4 ℝ) (v w : F4 ℝ) : toStart s m (v + w) = toStart s m v + toStart s m w := by
  simp only [toStart, transformVector_add]

theorem toStart_neg (s m : Mat4 ℝ) (v : F4 ℝ) : toStart s m (-v) = -toStart s m v := by
  simp only [toStart, transformVector_neg]

theorem toStart_congr (s m : Mat4 ℝ) {v w : F4 ℝ} (h : Same3 v w) : toStart s m v = toStart s m w := by
  unfold toStart; rw [transformVector_congr _ h]

/-- The middle joint, seen from the start joint, keeps angles and scales squared lengths by `k`. -/
theorem toStart_dot {s m : Mat4 ℝ} (ha : AffineMat s) (hd : (toMatrix s).det ≠ 0) {k : ℝ}
    (hk : ∀ v w v' w' x y, SendsVector m v x → SendsVector s v' x → SendsVector m w y → SendsVector s w' y → dot3 v' w' = k * dot3 v w)
    (v w : F4 ℝ) : dot3 (toStart s m v) (toStart s m w) = k * dot3 v w :=
  hk v w _ _ (m.transformVector v) (m.transformVector w) (sendsVector_iff.mpr (Same3.refl _))
    (sendsVector_iff.mpr (Same3.symm (invert_vector ha hd _))) (sendsVector_iff.mpr (Same3.refl _))
    (sendsVector_iff.mpr (Same3.symm (invert_vector ha hd _)))

/-- The bones in the space of the start joint. -/
theorem bones {s m : Mat4 ℝ} (hs : AffineMat s) (hds : (toMatrix s).det ≠ 0) (hm : AffineMat m) (hdm : (toMatrix m).det ≠ 0)
    (e : F4 ℝ) :
    Same3 (s.invert.transformPoint (m 3)) (toStart s m (-(m.invert.transformPoint (s 3)))) ∧
    Same3 (s.invert.transformPoint e - s.invert.transformPoint (m 3)) (toStart s m (m.invert.transformPoint e)) := by
  have key : ∀ p, Same3 (s.invert.transformPoint p) (s.invert.transformPoint (m 3) + toStart s m (m.invert.transformPoint p)) := by
    intro p
    have h := invert_point hm hdm p
    have h1 : m.transformPoint (m.invert.transformPoint p) = m 3 + m.transformVector (m.invert.transformPoint p) := by
      have := transformPoint_add m (fun _ => 0) (m.invert.transformPoint p)
      rw [transformPoint_zero] at this
      rw [← this]
      congr 1
      funext i; simp
    rw [← transformPoint_congr s.invert h, h1, transformPoint_add]
    exact Same3.refl _
  refine ⟨?_, ?_⟩
  · have h0 : Same3 (s.invert.transformPoint (s 3)) (fun _ => 0) := by
      apply point_invert hs hds
      rw [sendsPoint_iff, transformPoint_zero]
      exact Same3.refl _
    have h1 := key (s 3)
    rw [toStart_neg]
    refine ⟨?_, ?_, ?_⟩
    · have a := h0.1; have b := h1.1
      simp only [Pi.add_apply] at b; rw [Pi.neg_apply]; linarith
    · have a := h0.2.1; have b := h1.2.1
      simp only [Pi.add_apply] at b; rw [Pi.neg_apply]; linarith
    · have a := h0.2.2; have b := h1.2.2
      simp only [Pi.add_apply] at b; rw [Pi.neg_apply]; linarith
  · have h1 := key e
    refine ⟨?_, ?_, ?_⟩
    · have b := h1.1
      simp only [Pi.add_apply] at b; rw [Pi.sub_apply]; linarith
    · have b := h1.2.1
      simp only [Pi.add_apply] at b; rw [Pi.sub_apply]; linarith
    · have b := h1.2.2
      simp only [Pi.add_apply] at b; rw [Pi.sub_apply]; linarith

/-! ### Turning a bone about the middle axis -/

theorem cross_coords (a b : F4 ℝ) : vec3Cross a b 0 = a 1 * b 2 - a 2 * b 1 ∧ vec3Cross a b 1 = a 2 * b 0 - a 0 * b 2 ∧
    vec3Cross a b 2 = a 0 * b 1 - a 1 * b 0 := by
  refine ⟨?_, ?_, ?_⟩ <;> simp [vec3Cross, swz] <;> ring

/-- A vector at a right angle to the axis. -/
theorem turn_perp {a v : F4 ℝ} (angle : F4 ℝ) (ha : dot3 a a = 1) (hv : dot3 a v = 0) :
    Same3 (quatTransformVector (quatFromAxisAngle idealTrig.sinCos a angle) v)
      (fun i => Real.cos (angle 0) * v i + Real.sin (angle 0) * vec3Cross a v i) := by
  obtain ⟨e0, e1, e2⟩ := quatTransform_coords (quatFromAxisAngle idealTrig.sinCos a angle) v
  obtain ⟨c0, c1, c2⟩ := cross_coords a v
  have hc : Real.cos (angle 0) = 1 - 2 * Real.sin (angle 0 / 2) ^ 2 := by
    have h := Real.cos_two_mul (angle 0 / 2)
    have h' := Real.sin_sq_add_cos_sq (angle 0 / 2)
    rw [show 2 * (angle 0 / 2) = angle 0 by ring] at h
    linarith
  have hs : Real.sin (angle 0) = 2 * Real.sin (angle 0 / 2) * Real.cos (angle 0 / 2) := by
    rw [← Real.sin_two_mul]; congr 1; ring
  rw [quatFromAxisAngle_eq] at *
  simp only [f4_0, f4_1, f4_2, f4_3] at e0 e1 e2
  unfold dot3 at ha hv
  refine ⟨?_, ?_, ?_⟩
  · rw [e0, hc, hs]
    beta_reduce
    rw [c0]
    generalize Real.sin (angle 0 / 2) = x
    generalize Real.cos (angle 0 / 2) = y
    linear_combination 2 * x ^ 2 * a 0 * hv - 2 * x ^ 2 * v 0 * ha
  · rw [e1, hc, hs]
    beta_reduce
    rw [c1]
    generalize Real.sin (angle 0 / 2) = x
    generalize Real.cos (angle 0 / 2) = y
    linear_combination 2 * x ^ 2 * a 1 * hv - 2 * x ^ 2 * v 1 * ha
  · rw [e2, hc, hs]
    beta_reduce
    rw [c2]
    generalize Real.sin (angle 0 / 2) = x
    generalize Real.cos (angle 0 / 2) = y
    linear_combination 2 * x ^ 2 * a 2 * hv - 2 * x ^ 2 * v 2 * ha

/-- Two vectors at a right angle to a unit axis: Pythagoras in their plane. -/
theorem plane_pythagoras {a u v : F4 ℝ} (ha : dot3 a a = 1) (hu : dot3 a u = 0) (hv : dot3 a v = 0) :
    dot3 u v ^ 2 + dot3 (vec3Cross u a) v ^ 2 = dot3 u u * dot3 v v := by
  obtain ⟨c0, c1, c2⟩ := cross_coords u a
  obtain ⟨d0, d1, d2⟩ := cross_coords u v
  have h1 := lagrange u v
  have h2 := lagrange (vec3Cross u v) a
  have hd : dot3 (vec3Cross u a) v = -dot3 (vec3Cross u v) a := by
    simp only [dot3, c0, c1, c2, d0, d1, d2]; ring
  have g0 : vec3Cross u v 1 * a 2 - vec3Cross u v 2 * a 1 = 0 := by
    rw [d1, d2]
    unfold dot3 at hu hv
    linear_combination v 0 * hu - u 0 * hv
  have g1 : vec3Cross u v 2 * a 0 - vec3Cross u v 0 * a 2 = 0 := by
    rw [d0, d2]
    unfold dot3 at hu hv
    linear_combination v 1 * hu - u 1 * hv
  have g2 : vec3Cross u v 0 * a 1 - vec3Cross u v 1 * a 0 = 0 := by
    rw [d0, d1]
    unfold dot3 at hu hv
    linear_combination v 2 * hu - u 2 * hv
  rw [g0, g1, g2, ha] at h2
  have h3 : dot3 (vec3Cross u v) (vec3Cross u v) = dot3 u u * dot3 v v - dot3 u v ^ 2 := by
    rw [← h1]; simp only [dot3, d0, d1, d2]; ring
  rw [hd]
  linarith

/-- The law of cosines: turning `v` by the difference of the wanted and the signed present angle makes `u + v` as long as wanted. -/
theorem bend {a u v : F4 ℝ} (ha : dot3 a a = 1) (hu : dot3 a u = 0) (hv : dot3 a v = 0) (hpu : 0 < dot3 u u) (hpv : 0 < dot3 v v)
    {c1 : ℝ} (hc1 : -1 ≤ c1) (hc1' : c1 ≤ 1) {angle : F4 ℝ}
    (hangle : angle 0 = Real.arccos c1 - flip (decide (dot3 (vec3Cross u a) v < 0)) (Real.arccos (-(dot3 u v) / √(dot3 u u * dot3 v v)))) :
    dot3 u (quatTransformVector (quatFromAxisAngle idealTrig.sinCos a angle) v) = -√(dot3 u u * dot3 v v) * c1 := by
  have hpos : 0 < dot3 u u * dot3 v v := mul_pos hpu hpv
  have hn : 0 < √(dot3 u u * dot3 v v) := Real.sqrt_pos.mpr hpos
  have hn2 : √(dot3 u u * dot3 v v) ^ 2 = dot3 u u * dot3 v v := Real.sq_sqrt hpos.le
  have hpy := plane_pythagoras ha hu hv
  have hcs : |dot3 u v| ≤ √(dot3 u u * dot3 v v) := dot3_le u v
  obtain ⟨hl, hr⟩ := abs_le.mp hcs
  rw [← hn2] at hpy
  have htriple : dot3 u (vec3Cross a v) = dot3 (vec3Cross u a) v := by
    obtain ⟨x0, x1, x2⟩ := cross_coords a v
    obtain ⟨y0, y1, y2⟩ := cross_coords u a
    simp only [dot3, x0, x1, x2, y0, y1, y2]; ring
  rw [dot3_congr (Same3.refl u) (turn_perp angle ha hv)]
  have e : dot3 u (fun i => Real.cos (angle 0) * v i + Real.sin (angle 0) * vec3Cross a v i) =
      Real.cos (angle 0) * dot3 u v + Real.sin (angle 0) * dot3 u (vec3Cross a v) := by simp only [dot3]; ring
  rw [e, htriple]
  generalize √(dot3 u u * dot3 v v) = n at *
  generalize dot3 u v = p at *
  generalize dot3 (vec3Cross u a) v = d at *
  have hcos0 : Real.cos (flip (decide (d < 0)) (Real.arccos (-p / n))) = -p / n := by
    have : Real.cos (Real.arccos (-p / n)) = -p / n := Real.cos_arccos (by rw [le_div_iff₀ hn]; linarith)
      (by rw [div_le_iff₀ hn]; linarith)
    unfold flip
    split_ifs
    · rw [Real.cos_neg, this]
    · exact this
  have hsin0 : Real.sin (flip (decide (d < 0)) (Real.arccos (-p / n))) = d / n := by
    have h : Real.sin (Real.arccos (-p / n)) = |d| / n := by
      rw [Real.sin_arccos]
      have : 1 - (-p / n) ^ 2 = (|d| / n) ^ 2 := by
        rw [div_pow, div_pow, sq_abs]
        field_simp
        linarith
      rw [this, Real.sqrt_sq (by positivity)]
    unfold flip
    by_cases hd : d < 0
    · simp only [hd, decide_true, if_true]
      rw [Real.sin_neg, h, abs_of_neg hd]; ring
    · simp only [hd, decide_false, Bool.false_eq_true, if_false]
      rw [h, abs_of_nonneg (not_lt.mp hd)]
  rw [hangle, Real.cos_sub, Real.sin_sub, hcos0, hsin0, Real.cos_arccos hc1 hc1']
  generalize Real.sin (Real.arccos c1) = s1
  field_simp
  linear_combination -c1 * hpy

/-! ### The plane of the joints -/

theorem two_plane (j : TwoBone ℝ) (s : Setup ℝ) {v len2 rot : F4 ℝ} (hv : 0 < dot3 v v) (hl : len2 0 = dot3 v v) (hrot : norm2 rot = 1) :
    norm2 (j.rotatePlane idealTrig s rot v len2) = 1 ∧ ∃ p, norm2 p = 1 ∧ Same3 (quatTransformVector p v) v ∧
      ∀ a, Same3 (quatTransformVector (j.rotatePlane idealTrig s rot v len2) a) (quatTransformVector p (quatTransformVector rot a)) := by
  have key : ∀ (n r : F4 ℝ) (s : Bool), (∀ i, (v * Mat4.splatX (recip4 (sqrt4 (setZ (setY len2 n) r)))) i =
      (√(dot3 v v))⁻¹ * v i) ∧ ∀ i, xor4 (v * Mat4.splatX (recip4 (sqrt4 (setZ (setY len2 n) r)))) (fun _ => s) i =
      ((if s then -1 else 1) * (√(dot3 v v))⁻¹) * v i := by
    intro n r s
    have e : ∀ i, (v * Mat4.splatX (recip4 (sqrt4 (setZ (setY len2 n) r)))) i = (√(dot3 v v))⁻¹ * v i := by
      have e0 : recip4 (sqrt4 (setZ (setY len2 n) r)) 0 = (√(dot3 v v))⁻¹ := by
        simp [recip4, recip, sqrt4, setZ, setY, swz2, pick, hl]
      intro i
      rw [Pi.mul_apply, mul_comm]
      congr 1
      rw [← e0]
      revert i
      apply four <;> rfl
    refine ⟨e, fun i => ?_⟩
    simp only [xor4, e]
    cases s <;> simp [flip]
  have hflip : ∀ x : F4 ℝ, ∃ s, sign4 (Mat4.splatX x) = fun _ => s := by
    intro x
    refine ⟨NumOps.lt (x 0) NumOps.zero, ?_⟩
    apply ext4 <;> rfl
  unfold TwoBone.rotatePlane
  extract_lets pole refN midAxis normal rsq cosA axis fl plane
  have hk1 : ∀ i, axis i = (√(dot3 v v))⁻¹ * v i := (key (vec3Length2S refN) (vec3Length2S normal) true).1
  have ha : dot3 axis axis = 1 := axis_unit (s := 1) hv (Or.inl rfl) (one_mul _).symm hk1
  obtain ⟨sg, hs⟩ := hflip (vec3DotS normal pole)
  have hk2 : ∀ i, xor4 axis (fun _ => sg) i = ((if sg then -1 else 1) * (√(dot3 v v))⁻¹) * v i :=
    (key (vec3Length2S refN) (vec3Length2S normal) sg).2
  have hfl : xor4 axis fl = xor4 axis (fun _ => sg) := congrArg _ hs
  have hu : dot3 (xor4 axis fl) (xor4 axis fl) = 1 := by
    rw [hfl]
    exact axis_unit (s := if sg then -1 else 1) hv (by cases sg <;> simp) rfl hk2
  obtain ⟨h1, k, h2, h3, h4⟩ := quatFromCosAngle_unit hu (clamp4_mem cosA).1 (clamp4_mem cosA).2
  have hpl : norm2 plane = 1 := h1
  have hfix : Same3 (quatTransformVector plane v) v := by
    apply transform_axis (k := k * ((if sg then -1 else 1) * (√(dot3 v v))⁻¹))
    refine ⟨h2.trans ?_, h3.trans ?_, h4.trans ?_⟩
    · rw [hfl, mul_assoc]
      exact congrArg _ (hk2 0)
    · rw [hfl, mul_assoc]
      exact congrArg _ (hk2 1)
    · rw [hfl, mul_assoc]
      exact congrArg _ (hk2 2)
  clear_value plane
  by_cases ht : NumOps.eq j.twistAngle NumOps.zero = true
  · rw [if_pos ht]
    exact ⟨by rw [norm2_quatMul, hpl, hrot, one_mul], plane, hpl, hfix, fun a => transform_mul a hpl hrot⟩
  · rw [if_neg ht]
    obtain ⟨t1, kt, t2, t3, t4⟩ := quatFromAxisAngle_unit (splat j.twistAngle) ha
    have t5 : Same3 (quatTransformVector (quatFromAxisAngle idealTrig.sinCos axis (splat j.twistAngle)) v) v := by
      apply transform_axis (k := kt * (√(dot3 v v))⁻¹)
      rw [hk1] at t2 t3 t4
      exact ⟨by rw [t2]; ring, by rw [t3]; ring, by rw [t4]; ring⟩
    generalize quatFromAxisAngle idealTrig.sinCos axis (splat j.twistAngle) = tw at *
    have h5 : norm2 (quatMul tw plane) = 1 := by rw [norm2_quatMul, t1, hpl, one_mul]
    refine ⟨by rw [norm2_quatMul, h5, hrot, one_mul], quatMul tw plane, h5, ?_, fun a => transform_mul a h5 hrot⟩
    exact Same3.trans (transform_mul v t1 hpl) (Same3.trans (transform_congr _ hfix) t5)

/-! ### The target -/

/-- Soft reach: the squared length is that of the returned target, which is the original one when reached is reported;
then the target is within reach of the bones. -/
theorem soften_cases (j : TwoBone ℝ) (s : Setup ℝ) (h1 : 0 ≤ s.startMidLen2 0) (h2 : 0 ≤ s.midEndLen2 0) :
    let r := j.softenTarget s
    let orig := s.invStart.transformPoint j.target
    r.2.2 0 = dot3 r.2.1 r.2.1 ∧
    (r.1 = true ↔ |√(s.startMidLen2 0) - √(s.midEndLen2 0)| < √(dot3 orig orig) ∧
      √(dot3 orig orig) ≤ (√(s.startMidLen2 0) + √(s.midEndLen2 0)) * min (max j.soften 0) 1) ∧
    (r.1 = true → r.2.1 = orig ∧ r.2.2 0 = dot3 orig orig ∧ |√(s.startMidLen2 0) - √(s.midEndLen2 0)| < √(dot3 orig orig) ∧
      √(dot3 orig orig) ≤ √(s.startMidLen2 0) + √(s.midEndLen2 0)) := by
  intro r orig
  have hr : r = j.softenTarget s := rfl
  clear_value r
  unfold TwoBone.softenTarget at hr
  extract_lets origLen2 lengths startMidLen midEndLen origLen diffAbs chainLen da ds left right gt alpha op op2 op4 ratio len result at hr
  have l0 : lengths 0 = √(s.startMidLen2 0) := by simp [lengths, sqrt4, setZ, setY, swz2, pick]
  have l1 : lengths 1 = √(s.midEndLen2 0) := by simp [lengths, sqrt4, setZ, setY, swz2, pick]
  have l2 : lengths 2 = √(dot3 orig orig) := by
    simp only [lengths, sqrt4, setZ, setY, swz2, pick, origLen2, f4_2, real_sqrt]
    exact congrArg _ (vec3Length2S_zero orig)
  have hda0 : da 0 = (√(s.startMidLen2 0) + √(s.midEndLen2 0)) * min (max j.soften 0) 1 := by
    simp [da, chainLen, startMidLen, midEndLen, clampOrMin4, min4, max4, zero4, one4, splat, l0, l1, swz]
  have hda1 : da 1 = 0 := by simp [da, clampOrMin4, min4, max4, zero4, one4, splat]
  have g0 : gt 0 = decide (da 0 < √(dot3 orig orig)) := by
    simp [gt, left, right, setW, setZ, swz2, pick, origLen, swz, l2]
    congr
  have g1 : gt 1 = decide (0 < √(dot3 orig orig)) := by
    simp [gt, left, right, setW, setZ, swz2, pick, origLen, swz, l2, hda1]
  have g2 : gt 2 = decide (|√(s.startMidLen2 0) - √(s.midEndLen2 0)| < √(dot3 orig orig)) := by
    simp [gt, left, right, setW, setZ, swz2, pick, origLen, swz, l2, diffAbs, abs4, startMidLen, midEndLen, l0, l1]
    congr
  have ho : origLen2 0 = dot3 orig orig := vec3Length2S_zero orig
  clear_value gt
  refine ⟨?_, ?_, ?_⟩
  · rw [hr]
    simp only [result]
    split_ifs with hg
    · simp only [Bool.and_eq_true] at hg
      have hpos : 0 < √(dot3 orig orig) := by simpa [g1] using hg.1.2
      have hx : ∀ i, (orig * Mat4.splatX (len * recip4 origLen)) i = orig i * (len 0 * (√(dot3 orig orig))⁻¹) := by
        intro i
        have : ∀ i, Mat4.splatX (len * recip4 origLen) i = len 0 * (√(dot3 orig orig))⁻¹ := by
          apply four <;> simp [Mat4.splatX, swz, recip4, recip, origLen, l2]
        rw [Pi.mul_apply, this]
      have hsq : √(dot3 orig orig) ^ 2 = dot3 orig orig := Real.sq_sqrt (dot3_self_nonneg _)
      have e : dot3 (orig * Mat4.splatX (len * recip4 origLen)) (orig * Mat4.splatX (len * recip4 origLen)) =
          dot3 orig orig * (len 0 * (√(dot3 orig orig))⁻¹) ^ 2 := by
        simp only [dot3, hx]; ring
      rw [e]
      have hne := hpos.ne'
      show len 0 * len 0 = _
      generalize √(dot3 orig orig) = y at *
      rw [← hsq]
      field_simp
    · exact ho
  · rw [hr]
    simp only [Bool.and_eq_true, Bool.not_eq_true', g0, g2, decide_eq_false_iff_not, decide_eq_true_eq, not_lt, hda0]
    exact And.comm
  · intro hreach
    rw [hr] at hreach
    simp only [Bool.and_eq_true, Bool.not_eq_true'] at hreach
    obtain ⟨hg0, hg2⟩ := hreach
    rw [hr]
    simp only [result, hg0, Bool.false_and, Bool.false_eq_true, if_false]
    refine ⟨trivial, ho, by simpa [g2] using hg2, ?_⟩
    rw [g0, decide_eq_false_iff_not, not_lt, hda0] at hg0
    have hm : min (max j.soften 0) 1 ≤ 1 := min_le_right _ _
    have hc : 0 ≤ √(s.startMidLen2 0) + √(s.midEndLen2 0) := by positivity
    nlinarith

/-! ### The middle joint -/

/-- With the target within reach of both bones, the bones bend so that the chain is as long as the target is far. -/
theorem mid_bend (j : TwoBone ℝ) (hs : AffineMat j.startJoint) (hds : (toMatrix j.startJoint).det ≠ 0) (hm : AffineMat j.midJoint)
    (hdm : (toMatrix j.midJoint).det ≠ 0) {k : ℝ}
    (hk : ∀ v w v' w' x y, SendsVector j.midJoint v x → SendsVector j.startJoint v' x → SendsVector j.midJoint w y →
      SendsVector j.startJoint w' y → dot3 v' w' = k * dot3 v w)
    (ha : dot3 j.midAxis j.midAxis = 1) (hau : dot3 j.midAxis j.setup.startMidMs = 0) (hav : dot3 j.midAxis j.setup.midEndMs = 0)
    {len2 : F4 ℝ} (hlen : 0 ≤ len2 0) (hlo : |√(j.setup.startMidLen2 0) - √(j.setup.midEndLen2 0)| < √(len2 0))
    (hhi : √(len2 0) ≤ √(j.setup.startMidLen2 0) + √(j.setup.midEndLen2 0)) :
    let e := j.setup.startMidSs + toStart j.startJoint j.midJoint (quatTransformVector (j.computeMid idealTrig j.setup len2) j.setup.midEndMs)
    dot3 e e = len2 0 := by
  intro e
  have hee : e = j.setup.startMidSs +
    toStart j.startJoint j.midJoint (quatTransformVector (j.computeMid idealTrig j.setup len2) j.setup.midEndMs) := rfl
  clear_value e
  obtain ⟨b1, b2⟩ := bones hs hds hm hdm (j.endJoint 3)
  have hdot := toStart_dot hs hds hk
  have q1 : j.setup.startMidLen2 0 = k * dot3 j.setup.startMidMs j.setup.startMidMs := by
    rw [← hdot]
    exact (vec3Length2S_zero _).trans (dot3_congr b1 b1)
  have q2 : j.setup.midEndLen2 0 = k * dot3 j.setup.midEndMs j.setup.midEndMs := by
    rw [← hdot]
    exact (vec3Length2S_zero _).trans (dot3_congr b2 b2)
  have q3 : j.setup.startEndLen2 0 =
      k * (dot3 j.setup.startMidMs j.setup.startMidMs + 2 * dot3 j.setup.startMidMs j.setup.midEndMs + dot3 j.setup.midEndMs j.setup.midEndMs) := by
    have h : Same3 (j.startJoint.invert.transformPoint (j.endJoint 3)) (toStart j.startJoint j.midJoint (j.setup.startMidMs + j.setup.midEndMs)) := by
      rw [toStart_add]
      have c1 := b1.1; have c2 := b1.2.1; have c3 := b1.2.2
      have d1 := b2.1; have d2 := b2.2.1; have d3 := b2.2.2
      rw [Pi.sub_apply] at d1 d2 d3
      refine ⟨?_, ?_, ?_⟩
      · rw [Pi.add_apply]
        show _ = toStart j.startJoint j.midJoint (-(j.midJoint.invert.transformPoint (j.startJoint 3))) 0 +
          toStart j.startJoint j.midJoint (j.midJoint.invert.transformPoint (j.endJoint 3)) 0
        linarith
      · rw [Pi.add_apply]
        show _ = toStart j.startJoint j.midJoint (-(j.midJoint.invert.transformPoint (j.startJoint 3))) 1 +
          toStart j.startJoint j.midJoint (j.midJoint.invert.transformPoint (j.endJoint 3)) 1
        linarith
      · rw [Pi.add_apply]
        show _ = toStart j.startJoint j.midJoint (-(j.midJoint.invert.transformPoint (j.startJoint 3))) 2 +
          toStart j.startJoint j.midJoint (j.midJoint.invert.transformPoint (j.endJoint 3)) 2
        linarith
    have h1 : j.setup.startEndLen2 0 = dot3 (j.startJoint.invert.transformPoint (j.endJoint 3)) (j.startJoint.invert.transformPoint (j.endJoint 3)) :=
      vec3Length2S_zero _
    rw [h1, dot3_congr h h, hdot]
    congr 1
    simp only [dot3, Pi.add_apply]; ring
  have b1' : Same3 j.setup.startMidSs (toStart j.startJoint j.midJoint j.setup.startMidMs) := b1
  generalize hs' : j.setup = s at *
  clear hs' b1 b2
  set u := s.startMidMs with hu
  set v := s.midEndMs with hv
  clear_value u v
  -- lengths
  have a1 : 0 < √(s.startMidLen2 0) := by
    obtain ⟨x, y⟩ := abs_lt.mp hlo; linarith
  have a2 : 0 < √(s.midEndLen2 0) := by
    obtain ⟨x, y⟩ := abs_lt.mp hlo; linarith
  have p1 := Real.sqrt_pos.mp a1
  have p2 := Real.sqrt_pos.mp a2
  have s1 := Real.sq_sqrt p1.le
  have s2 := Real.sq_sqrt p2.le
  have s3 := Real.sq_sqrt hlen
  have huu : 0 ≤ dot3 u u := dot3_self_nonneg u
  have hvv : 0 ≤ dot3 v v := dot3_self_nonneg v
  have hkp : 0 < k := by
    by_contra hneg
    have : k * dot3 u u ≤ 0 := mul_nonpos_of_nonpos_of_nonneg (not_lt.mp hneg) huu
    rw [q1] at p1; linarith
  have hup : 0 < dot3 u u := by
    rcases huu.lt_or_eq with h | h
    · exact h
    · rw [q1, ← h, mul_zero] at p1; exact absurd p1 (lt_irrefl _)
  have hvp : 0 < dot3 v v := by
    rcases hvv.lt_or_eq with h | h
    · exact h
    · rw [q2, ← h, mul_zero] at p2; exact absurd p2 (lt_irrefl _)
  have hn : √(s.startMidLen2 0 * s.midEndLen2 0) = k * √(dot3 u u * dot3 v v) := by
    rw [q1, q2, show k * dot3 u u * (k * dot3 v v) = k ^ 2 * (dot3 u u * dot3 v v) by ring, Real.sqrt_mul (sq_nonneg k),
      Real.sqrt_sq hkp.le]
  have hnp : 0 < √(dot3 u u * dot3 v v) := Real.sqrt_pos.mpr (mul_pos hup hvp)
  have hn2 : √(s.startMidLen2 0 * s.midEndLen2 0) = √(s.startMidLen2 0) * √(s.midEndLen2 0) := Real.sqrt_mul p1.le _
  -- the wanted cosine
  set c1 : ℝ := (s.startMidLen2 0 + s.midEndLen2 0 - len2 0) * (1 / 2 * (√(s.startMidLen2 0 * s.midEndLen2 0))⁻¹) with hc1
  have hc1e : c1 = (s.startMidLen2 0 + s.midEndLen2 0 - len2 0) / (2 * (√(s.startMidLen2 0) * √(s.midEndLen2 0))) := by
    rw [hc1, hn2]; field_simp
  have hlo' := abs_lt.mp hlo
  have c1lo : -1 ≤ c1 := by
    rw [hc1e, le_div_iff₀ (by positivity)]
    have h0 := pow_le_pow_left₀ (Real.sqrt_nonneg (len2 0)) hhi 2
    linarith [add_sq √(s.startMidLen2 0) √(s.midEndLen2 0)]
  have c1hi : c1 ≤ 1 := by
    rw [hc1e, div_le_iff₀ (by positivity)]
    have h0 := sq_le_sq' hlo'.1.le hlo'.2.le
    linarith [sub_sq √(s.startMidLen2 0) √(s.midEndLen2 0)]
  have hcs : |dot3 u v| ≤ √(dot3 u u * dot3 v v) := dot3_le u v
  obtain ⟨hl, hr⟩ := abs_le.mp hcs
  have hc0 : (s.startMidLen2 0 + s.midEndLen2 0 - s.startEndLen2 0) * (1 / 2 * (√(s.startMidLen2 0 * s.midEndLen2 0))⁻¹) =
      -(dot3 u v) / √(dot3 u u * dot3 v v) := by
    rw [hn, q1, q2, q3]
    field_simp
    ring
  have hq : ∃ angle, j.computeMid idealTrig s len2 = quatFromAxisAngle idealTrig.sinCos j.midAxis angle ∧
      angle 0 = Real.arccos c1 - flip (decide (dot3 (vec3Cross u j.midAxis) v < 0)) (Real.arccos (-(dot3 u v) / √(dot3 u u * dot3 v v))) := by
    unfold TwoBone.computeMid
    extract_lets sumLen2 halfRlen cosU cosA corrected ref fl initial
    refine ⟨corrected - initial, rfl, ?_⟩
    have u0 : cosU 0 = c1 := by
      simp [cosU, sumLen2, halfRlen, Mat4.splatX, swz, setY, swz2, pick, half4, splat, recip4, recip, sqrt4, hc1]
    have u1 : cosU 1 = -(dot3 u v) / √(dot3 u u * dot3 v v) := by
      rw [← hc0]
      simp [cosU, sumLen2, halfRlen, Mat4.splatX, swz, setY, swz2, pick, half4, splat, recip4, recip, sqrt4]
    have v0 : cosA 0 = c1 := by
      simp only [cosA, clampOrMin4, min4, max4, negOne4, one4, splat, u0]
      simp [max_eq_left c1lo, min_eq_left c1hi]
    have v1 : cosA 1 = -(dot3 u v) / √(dot3 u u * dot3 v v) := by
      have g1 : -1 ≤ -(dot3 u v) / √(dot3 u u * dot3 v v) := by rw [le_div_iff₀ hnp]; linarith
      have g2 : -(dot3 u v) / √(dot3 u u * dot3 v v) ≤ 1 := by rw [div_le_iff₀ hnp]; linarith
      simp only [cosA, clampOrMin4, min4, max4, negOne4, one4, splat, u1]
      simp [max_eq_left g1, min_eq_left g2]
    have hfl : fl 0 = decide (dot3 (vec3Cross u j.midAxis) v < 0) := by
      simp only [fl, sign4, real_lt, real_zero]
      have : vec3DotS ref s.midEndMs 0 = dot3 (vec3Cross u j.midAxis) v := by
        rw [hv]
        simp [vec3DotS, dot3, ref, hu, swz]
      rw [this]
    have w0 : corrected 0 = Real.arccos c1 := by rw [← v0]; rfl
    have w1 : initial 0 = flip (decide (dot3 (vec3Cross u j.midAxis) v < 0)) (Real.arccos (-(dot3 u v) / √(dot3 u u * dot3 v v))) := by
      rw [← v1, ← hfl]; rfl
    rw [Pi.sub_apply, w0, w1]
  obtain ⟨angle, hq, hangle⟩ := hq
  have hb := bend ha hau hav hup hvp c1lo c1hi hangle
  rw [← hq] at hb
  have hunit : norm2 (j.computeMid idealTrig s len2) = 1 := by rw [hq]; exact (quatFromAxisAngle_unit angle ha).1
  have hvv' := dot3_transform (j.computeMid idealTrig s len2) v v hunit
  have he : Same3 e (toStart j.startJoint j.midJoint (u + quatTransformVector (j.computeMid idealTrig s len2) v)) := by
    rw [toStart_add]
    exact ⟨by simp only [hee, Pi.add_apply, b1'.1], by simp only [hee, Pi.add_apply, b1'.2.1], by simp only [hee, Pi.add_apply, b1'.2.2]⟩
  rw [dot3_congr he he, hdot]
  generalize quatTransformVector (j.computeMid idealTrig s len2) v = w at *
  have : dot3 (u + w) (u + w) = dot3 u u + 2 * dot3 u w + dot3 w w := by simp only [dot3, Pi.add_apply]; ring
  rw [this, hb, hvv']
  have hfin : 2 * (k * √(dot3 u u * dot3 v v)) * c1 = s.startMidLen2 0 + s.midEndLen2 0 - len2 0 := by
    rw [← hn, hc1]
    have : √(s.startMidLen2 0 * s.midEndLen2 0) ≠ 0 := by rw [hn2]; positivity
    field_simp
  rw [q1, q2] at hfin
  linarith

end Ozz.IK
