import Verif.Proofs.IKTwoBone

/-! Helper lemmas about pole vectors and soft reach. -/

namespace Ozz.IK

open Spec

/-! ### Rotations of the plane -/

theorem cosAngle_turn {a c n : F4 ℝ} (ha : dot3 a a = 1) (hn : dot3 a n = 0) (h1 : -1 ≤ c 0) (h2 : c 0 ≤ 1) :
    Same3 (quatTransformVector (quatFromCosAngle a c) n) (fun i => c 0 * n i + √(1 - c 0 ^ 2) * vec3Cross a n i) := by
  have e0 : quatFromCosAngle a c 0 = a 0 * √(1 - (1 + c 0) * (1 / 2)) := by
    simp [quatFromCosAngle, setW, setY, swz2, pick, swz, sqrt4, one4, half4, splat]
  have e1 : quatFromCosAngle a c 1 = a 1 * √(1 - (1 + c 0) * (1 / 2)) := by
    simp [quatFromCosAngle, setW, setY, swz2, pick, swz, sqrt4, one4, half4, splat]
  have e2 : quatFromCosAngle a c 2 = a 2 * √(1 - (1 + c 0) * (1 / 2)) := by
    simp [quatFromCosAngle, setW, setY, swz2, pick, swz, sqrt4, one4, half4, splat]
  have e3 : quatFromCosAngle a c 3 = √((1 + c 0) * (1 / 2)) := by
    simp [quatFromCosAngle, setW, setY, swz2, pick, swz, sqrt4, one4, half4, splat]
  have s1 : √(1 - (1 + c 0) * (1 / 2)) ^ 2 = 1 - (1 + c 0) * (1 / 2) := Real.sq_sqrt (by linarith)
  have s2 : √(1 - c 0 ^ 2) = 2 * √(1 - (1 + c 0) * (1 / 2)) * √((1 + c 0) * (1 / 2)) := by
    rw [mul_assoc, ← Real.sqrt_mul (by linarith), show (1 - c 0 ^ 2) = 2 ^ 2 * ((1 - (1 + c 0) * (1 / 2)) * ((1 + c 0) * (1 / 2))) by ring,
      Real.sqrt_mul (by norm_num), Real.sqrt_sq (by norm_num)]
  obtain ⟨t0, t1, t2⟩ := quatTransform_coords (quatFromCosAngle a c) n
  obtain ⟨c0, c1, c2⟩ := cross_coords a n
  rw [e0, e1, e2, e3] at t0 t1 t2
  rw [s2]
  unfold dot3 at ha hn
  generalize √(1 - (1 + c 0) * (1 / 2)) = x at *
  generalize √((1 + c 0) * (1 / 2)) = y at *
  refine ⟨?_, ?_, ?_⟩
  · rw [t0]; beta_reduce; rw [c0]
    linear_combination 2 * x ^ 2 * a 0 * hn - 2 * x ^ 2 * n 0 * ha - 2 * n 0 * s1
  · rw [t1]; beta_reduce; rw [c1]
    linear_combination 2 * x ^ 2 * a 1 * hn - 2 * x ^ 2 * n 1 * ha - 2 * n 1 * s1
  · rw [t2]; beta_reduce; rw [c2]
    linear_combination 2 * x ^ 2 * a 2 * hn - 2 * x ^ 2 * n 2 * ha - 2 * n 2 * s1

/-- A vector at a right angle to `v` in terms of two others. -/
theorem plane_basis {v n r : F4 ℝ} (hn : dot3 v n = 0) (hr : dot3 v r = 0) :
    Same3 (fun i => dot3 v v * dot3 n n * r i) (fun i => dot3 v v * dot3 n r * n i + dot3 r (vec3Cross v n) * vec3Cross v n i) := by
  obtain ⟨c0, c1, c2⟩ := cross_coords v n
  simp only [dot3] at hn hr
  refine ⟨?_, ?_, ?_⟩
  · simp only [dot3, c0, c1, c2]
    linear_combination (r 0 * (v 0 * n 0 + v 1 * n 1 + v 2 * n 2) - (n 0 * r 0 + n 1 * r 1 + n 2 * r 2) * v 0) * hn -
      (n 0 * (v 0 * n 0 + v 1 * n 1 + v 2 * n 2) - v 0 * (n 0 * n 0 + n 1 * n 1 + n 2 * n 2)) * hr
  · simp only [dot3, c0, c1, c2]
    linear_combination (r 1 * (v 0 * n 0 + v 1 * n 1 + v 2 * n 2) - (n 0 * r 0 + n 1 * r 1 + n 2 * r 2) * v 1) * hn -
      (n 1 * (v 0 * n 0 + v 1 * n 1 + v 2 * n 2) - v 1 * (n 0 * n 0 + n 1 * n 1 + n 2 * n 2)) * hr
  · simp only [dot3, c0, c1, c2]
    linear_combination (r 2 * (v 0 * n 0 + v 1 * n 1 + v 2 * n 2) - (n 0 * r 0 + n 1 * r 1 + n 2 * r 2) * v 2) * hn -
      (n 2 * (v 0 * n 0 + v 1 * n 1 + v 2 * n 2) - v 2 * (n 0 * n 0 + n 1 * n 1 + n 2 * n 2)) * hr

/-- Turning `n` about `v` by the angle between `n` and `r`, on the right side, gives the direction of `r`. -/
theorem plane_turn {v n r a c : F4 ℝ} (hv : 0 < dot3 v v) (hn : dot3 v n = 0) (hr : dot3 v r = 0) (hnp : 0 < dot3 n n) (hrp : 0 < dot3 r r)
    {s : Bool} (hs : s = decide (dot3 r (vec3Cross v n) < 0)) (ha : ∀ i, a i = ((if s then -1 else 1) * (√(dot3 v v))⁻¹) * v i)
    (hc : c 0 = dot3 n r / (√(dot3 n n) * √(dot3 r r))) :
    Same3 (quatTransformVector (quatFromCosAngle a c) n) (fun i => √(dot3 n n) / √(dot3 r r) * r i) := by
  have ha1 : dot3 a a = 1 := axis_unit (s := if s then -1 else 1) hv (by cases s <;> simp) rfl ha
  have han : dot3 a n = 0 := by
    have : dot3 a n = ((if s then -1 else 1) * (√(dot3 v v))⁻¹) * dot3 v n := by simp only [dot3, ha]; ring
    rw [this, hn, mul_zero]
  have har : dot3 a r = 0 := by
    have : dot3 a r = ((if s then -1 else 1) * (√(dot3 v v))⁻¹) * dot3 v r := by simp only [dot3, ha]; ring
    rw [this, hr, mul_zero]
  have hN : 0 < √(dot3 n n) := Real.sqrt_pos.mpr hnp
  have hR : 0 < √(dot3 r r) := Real.sqrt_pos.mpr hrp
  have hV : 0 < √(dot3 v v) := Real.sqrt_pos.mpr hv
  have sN := Real.sq_sqrt hnp.le
  have sR := Real.sq_sqrt hrp.le
  have sV := Real.sq_sqrt hv.le
  have hcs : |dot3 n r| ≤ √(dot3 n n) * √(dot3 r r) := by
    rw [← Real.sqrt_mul hnp.le]; exact dot3_le n r
  obtain ⟨hl, hh⟩ := abs_le.mp hcs
  have h1 : -1 ≤ c 0 := by rw [hc, le_div_iff₀ (by positivity)]; linarith
  have h2 : c 0 ≤ 1 := by rw [hc, div_le_iff₀ (by positivity)]; linarith
  refine Same3.trans (cosAngle_turn ha1 han h1 h2) ?_
  have hpy := plane_pythagoras ha1 han har
  -- the signed area
  have hd : dot3 (vec3Cross n a) r = -((if s then -1 else 1) * (√(dot3 v v))⁻¹) * dot3 r (vec3Cross v n) := by
    obtain ⟨x0, x1, x2⟩ := cross_coords n a
    obtain ⟨y0, y1, y2⟩ := cross_coords v n
    simp only [dot3, x0, x1, x2, y0, y1, y2, ha]
    ring
  have hsq : √(1 - c 0 ^ 2) = |dot3 r (vec3Cross v n)| / (√(dot3 v v) * √(dot3 n n) * √(dot3 r r)) := by
    have : 1 - c 0 ^ 2 = (|dot3 r (vec3Cross v n)| / (√(dot3 v v) * √(dot3 n n) * √(dot3 r r))) ^ 2 := by
      rw [hd] at hpy
      rw [hc, div_pow, div_pow, sq_abs]
      have hss : (if s then (-1 : ℝ) else 1) ^ 2 = 1 := by cases s <;> norm_num
      have hpy' : dot3 n r ^ 2 + ((√(dot3 v v))⁻¹) ^ 2 * dot3 r (vec3Cross v n) ^ 2 = √(dot3 n n) ^ 2 * √(dot3 r r) ^ 2 := by
        rw [sN, sR, ← hpy]
        linear_combination (-((√(dot3 v v))⁻¹) ^ 2 * dot3 r (vec3Cross v n) ^ 2) * hss
      generalize √(dot3 n n) = N at *
      generalize √(dot3 r r) = R at *
      generalize √(dot3 v v) = V at *
      field_simp at hpy' ⊢
      linarith
    rw [this, Real.sqrt_sq (by positivity)]
  have hab : (if s then (-1 : ℝ) else 1) * |dot3 r (vec3Cross v n)| = dot3 r (vec3Cross v n) := by
    rw [hs]
    by_cases h : dot3 r (vec3Cross v n) < 0
    · simp only [h, decide_true, if_true]; rw [abs_of_neg h]; ring
    · simp only [h, decide_false, Bool.false_eq_true, if_false]; rw [abs_of_nonneg (not_lt.mp h)]; ring
  have hcross : ∀ i, (i = 0 ∨ i = 1 ∨ i = 2) → vec3Cross a n i = ((if s then -1 else 1) * (√(dot3 v v))⁻¹) * vec3Cross v n i := by
    obtain ⟨x0, x1, x2⟩ := cross_coords a n
    obtain ⟨y0, y1, y2⟩ := cross_coords v n
    intro i hi
    rcases hi with rfl | rfl | rfl
    · rw [x0, y0, ha, ha]; ring
    · rw [x1, y1, ha, ha]; ring
    · rw [x2, y2, ha, ha]; ring
  obtain ⟨b0, b1, b2⟩ := plane_basis hn hr
  have key : ∀ i : Fin 4, (i = 0 ∨ i = 1 ∨ i = 2) → dot3 v v * dot3 n n * r i = dot3 v v * dot3 n r * n i + dot3 r (vec3Cross v n) * vec3Cross v n i →
      c 0 * n i + √(1 - c 0 ^ 2) * vec3Cross a n i = √(dot3 n n) / √(dot3 r r) * r i := by
    intro i hi hb
    rw [hcross i hi, hsq, hc]
    rw [show |dot3 r (vec3Cross v n)| / (√(dot3 v v) * √(dot3 n n) * √(dot3 r r)) * ((if s then (-1 : ℝ) else 1) * (√(dot3 v v))⁻¹ * vec3Cross v n i)
      = ((if s then (-1 : ℝ) else 1) * |dot3 r (vec3Cross v n)|) / (√(dot3 v v) * √(dot3 n n) * √(dot3 r r)) * ((√(dot3 v v))⁻¹ * vec3Cross v n i) by ring, hab]
    rw [← sN, ← sV] at hb
    generalize √(dot3 n n) = N at *
    generalize √(dot3 r r) = R at *
    generalize √(dot3 v v) = V at *
    field_simp
    linarith
  exact ⟨key 0 (by simp) b0, key 1 (by simp) b1, key 2 (by simp) b2⟩

/-! ### The reach of the bones -/

/-- The bent side: the bones bend with the axis. -/
theorem bend_side {a u v : F4 ℝ} (ha : dot3 a a = 1) (hu : dot3 a u = 0) (hv : dot3 a v = 0) (hpu : 0 < dot3 u u) (hpv : 0 < dot3 v v)
    {c1 : ℝ} {angle : F4 ℝ}
    (hangle : angle 0 = Real.arccos c1 - flip (decide (dot3 (vec3Cross u a) v < 0)) (Real.arccos (-(dot3 u v) / √(dot3 u u * dot3 v v)))) :
    0 ≤ dot3 (vec3Cross u a) (quatTransformVector (quatFromAxisAngle idealTrig.sinCos a angle) v) := by
  have hpos : 0 < dot3 u u * dot3 v v := mul_pos hpu hpv
  have hn : 0 < √(dot3 u u * dot3 v v) := Real.sqrt_pos.mpr hpos
  have hn2 : √(dot3 u u * dot3 v v) ^ 2 = dot3 u u * dot3 v v := Real.sq_sqrt hpos.le
  have hpy := plane_pythagoras ha hu hv
  have hcs : |dot3 u v| ≤ √(dot3 u u * dot3 v v) := dot3_le u v
  obtain ⟨hl, hr⟩ := abs_le.mp hcs
  rw [← hn2] at hpy
  have htriple : dot3 (vec3Cross u a) (vec3Cross a v) = -dot3 u v := by
    obtain ⟨x0, x1, x2⟩ := cross_coords a v
    obtain ⟨y0, y1, y2⟩ := cross_coords u a
    simp only [dot3] at ha hu hv
    simp only [dot3, x0, x1, x2, y0, y1, y2]
    linear_combination (a 0 * v 0 + a 1 * v 1 + a 2 * v 2) * hu - (u 0 * v 0 + u 1 * v 1 + u 2 * v 2) * ha
  rw [dot3_congr (Same3.refl (vec3Cross u a)) (turn_perp angle ha hv)]
  have e : dot3 (vec3Cross u a) (fun i => Real.cos (angle 0) * v i + Real.sin (angle 0) * vec3Cross a v i) =
      Real.cos (angle 0) * dot3 (vec3Cross u a) v + Real.sin (angle 0) * dot3 (vec3Cross u a) (vec3Cross a v) := by simp only [dot3]; ring
  rw [e, htriple]
  generalize √(dot3 u u * dot3 v v) = n at *
  generalize dot3 u v = p at *
  generalize dot3 (vec3Cross u a) v = d at *
  have hcos0 : Real.cos (flip (decide (d < 0)) (Real.arccos (-p / n))) = -p / n := by
    have : Real.cos (Real.arccos (-p / n)) = -p / n := Real.cos_arccos (by rw [le_div_iff₀ hn]; linarith)
      (by rw [div_le_iff₀ hn]; linarith)
    unfold flip
    split_ifs
    · rw [Real.cos_neg, this]
    · exact this
  have hsin0 : Real.sin (flip (decide (d < 0)) (Real.arccos (-p / n))) = d / n := by
    have h : Real.sin (Real.arccos (-p / n)) = |d| / n := by
      rw [Real.sin_arccos]
      have : 1 - (-p / n) ^ 2 = (|d| / n) ^ 2 := by
        rw [div_pow, div_pow, sq_abs]
        field_simp
        linarith
      rw [this, Real.sqrt_sq (by positivity)]
    unfold flip
    by_cases hd : d < 0
    · simp only [hd, decide_true, if_true]
      rw [Real.sin_neg, h, abs_of_neg hd]; ring
    · simp only [hd, decide_false, Bool.false_eq_true, if_false]
      rw [h, abs_of_nonneg (not_lt.mp hd)]
  have hs1 : 0 ≤ Real.sin (Real.arccos c1) := Real.sin_nonneg_of_nonneg_of_le_pi (Real.arccos_nonneg _) (Real.arccos_le_pi _)
  rw [hangle, Real.cos_sub, Real.sin_sub, hcos0, hsin0]
  generalize Real.sin (Real.arccos c1) = s1 at *
  generalize Real.cos (Real.arccos c1) = k1 at *
  have : (k1 * (-p / n) + s1 * (d / n)) * d + (s1 * (-p / n) - k1 * (d / n)) * -p = s1 * n := by
    field_simp
    linear_combination s1 * hpy
  rw [this]
  positivity

/-- The law of cosines with a clamped cosine. -/
theorem clamped_cosine {a b t : ℝ} (ha : 0 < a) (hb : 0 < b) (ht : 0 ≤ t) :
    a ^ 2 + b ^ 2 - 2 * (a * b) * min (max ((a ^ 2 + b ^ 2 - t ^ 2) / (2 * (a * b))) (-1)) 1 = (min (max t |a - b|) (a + b)) ^ 2 := by
  have hab : 0 < 2 * (a * b) := by positivity
  have hle : |a - b| ≤ a + b := by rw [abs_le]; constructor <;> linarith
  rcases le_or_gt t |a - b| with h1 | h1
  · have h : 1 ≤ (a ^ 2 + b ^ 2 - t ^ 2) / (2 * (a * b)) := by
      rw [le_div_iff₀ hab]
      have := sq_le_sq' (by linarith [abs_nonneg (a - b)]) h1
      rw [sq_abs] at this
      nlinarith
    rw [max_eq_left (by linarith), min_eq_right h, max_eq_right h1, min_eq_left hle, sq_abs]
    ring
  · rcases le_or_gt (a + b) t with h2 | h2
    · have h : (a ^ 2 + b ^ 2 - t ^ 2) / (2 * (a * b)) ≤ -1 := by
        rw [div_le_iff₀ hab]
        have := pow_le_pow_left₀ (by positivity) h2 2
        nlinarith
      rw [max_eq_right h, min_eq_left (by norm_num), max_eq_left h1.le, min_eq_right h2]
      ring
    · have h3 : -1 ≤ (a ^ 2 + b ^ 2 - t ^ 2) / (2 * (a * b)) := by
        rw [le_div_iff₀ hab]
        have := pow_le_pow_left₀ ht h2.le 2
        nlinarith
      have h4 : (a ^ 2 + b ^ 2 - t ^ 2) / (2 * (a * b)) ≤ 1 := by
        rw [div_le_iff₀ hab]
        have := sq_le_sq' (by linarith [abs_nonneg (a - b)] : -t ≤ |a - b|) h1.le
        rw [sq_abs] at this
        nlinarith
      rw [max_eq_left h3, min_eq_left h4, max_eq_left h1.le, min_eq_left h2.le]
      field_simp
      ring

/-- How the bones bend for any target. -/
theorem mid_reach (j : TwoBone ℝ) (hs : AffineMat j.startJoint) (hds : (toMatrix j.startJoint).det ≠ 0) (hm : AffineMat j.midJoint)
    (hdm : (toMatrix j.midJoint).det ≠ 0) {k : ℝ}
    (hk : ∀ v w v' w' x y, SendsVector j.midJoint v x → SendsVector j.startJoint v' x → SendsVector j.midJoint w y →
      SendsVector j.startJoint w' y → dot3 v' w' = k * dot3 v w)
    (ha : dot3 j.midAxis j.midAxis = 1) (hau : dot3 j.midAxis j.setup.startMidMs = 0) (hav : dot3 j.midAxis j.setup.midEndMs = 0)
    {len2 : F4 ℝ} {len : ℝ} (hlen : 0 ≤ len) (hlen2 : len2 0 = len ^ 2) (p1 : 0 < j.setup.startMidLen2 0) (p2 : 0 < j.setup.midEndLen2 0) :
    let w := quatTransformVector (j.computeMid idealTrig j.setup len2) j.setup.midEndMs
    let e := j.setup.startMidSs + toStart j.startJoint j.midJoint w
    dot3 e e = (min (max len |√(j.setup.startMidLen2 0) - √(j.setup.midEndLen2 0)|) (√(j.setup.startMidLen2 0) + √(j.setup.midEndLen2 0))) ^ 2 ∧
    dot3 j.midAxis w = 0 ∧ 0 ≤ dot3 (vec3Cross j.setup.startMidMs j.midAxis) w ∧
    Same3 j.setup.startMidSs (toStart j.startJoint j.midJoint j.setup.startMidMs) := by
  intro w e
  have hww : w = quatTransformVector (j.computeMid idealTrig j.setup len2) j.setup.midEndMs := rfl
  have hee : e = j.setup.startMidSs + toStart j.startJoint j.midJoint w := rfl
  clear_value e
  clear_value w
  obtain ⟨b1, b2⟩ := bones hs hds hm hdm (j.endJoint 3)
  have hdot := toStart_dot hs hds hk
  have q1 : j.setup.startMidLen2 0 = k * dot3 j.setup.startMidMs j.setup.startMidMs := by
    rw [← hdot]
    exact (vec3Length2S_zero _).trans (dot3_congr b1 b1)
  have q2 : j.setup.midEndLen2 0 = k * dot3 j.setup.midEndMs j.setup.midEndMs := by
    rw [← hdot]
    exact (vec3Length2S_zero _).trans (dot3_congr b2 b2)
  have q3 : j.setup.startEndLen2 0 =
      k * (dot3 j.setup.startMidMs j.setup.startMidMs + 2 * dot3 j.setup.startMidMs j.setup.midEndMs + dot3 j.setup.midEndMs j.setup.midEndMs) := by
    have h : Same3 (j.startJoint.invert.transformPoint (j.endJoint 3)) (toStart j.startJoint j.midJoint (j.setup.startMidMs + j.setup.midEndMs)) := by
      rw [toStart_add]
      have c1 := b1.1; have c2 := b1.2.1; have c3 := b1.2.2
      have d1 := b2.1; have d2 := b2.2.1; have d3 := b2.2.2
      rw [Pi.sub_apply] at d1 d2 d3
      refine ⟨?_, ?_, ?_⟩
      · rw [Pi.add_apply]
        show _ = toStart j.startJoint j.midJoint (-(j.midJoint.invert.transformPoint (j.startJoint 3))) 0 +
          toStart j.startJoint j.midJoint (j.midJoint.invert.transformPoint (j.endJoint 3)) 0
        linarith
      · rw [Pi.add_apply]
        show _ = toStart j.startJoint j.midJoint (-(j.midJoint.invert.transformPoint (j.startJoint 3))) 1 +
          toStart j.startJoint j.midJoint (j.midJoint.invert.transformPoint (j.endJoint 3)) 1
        linarith
      · rw [Pi.add_apply]
        show _ = toStart j.startJoint j.midJoint (-(j.midJoint.invert.transformPoint (j.startJoint 3))) 2 +
          toStart j.startJoint j.midJoint (j.midJoint.invert.transformPoint (j.endJoint 3)) 2
        linarith
    have h1 : j.setup.startEndLen2 0 = dot3 (j.startJoint.invert.transformPoint (j.endJoint 3)) (j.startJoint.invert.transformPoint (j.endJoint 3)) :=
      vec3Length2S_zero _
    rw [h1, dot3_congr h h, hdot]
    congr 1
    simp only [dot3, Pi.add_apply]; ring
  have b1' : Same3 j.setup.startMidSs (toStart j.startJoint j.midJoint j.setup.startMidMs) := b1
  generalize hs' : j.setup = s at *
  clear hs' b1 b2
  set u := s.startMidMs with hu
  set v := s.midEndMs with hv
  clear_value u v
  -- lengths
  have a1 : 0 < √(s.startMidLen2 0) := Real.sqrt_pos.mpr p1
  have a2 : 0 < √(s.midEndLen2 0) := Real.sqrt_pos.mpr p2
  have s1 := Real.sq_sqrt p1.le
  have s2 := Real.sq_sqrt p2.le
  have huu : 0 ≤ dot3 u u := dot3_self_nonneg u
  have hvv : 0 ≤ dot3 v v := dot3_self_nonneg v
  have hkp : 0 < k := by
    by_contra hneg
    have : k * dot3 u u ≤ 0 := mul_nonpos_of_nonpos_of_nonneg (not_lt.mp hneg) huu
    rw [q1] at p1; linarith
  have hup : 0 < dot3 u u := by
    rcases huu.lt_or_eq with h | h
    · exact h
    · rw [q1, ← h, mul_zero] at p1; exact absurd p1 (lt_irrefl _)
  have hvp : 0 < dot3 v v := by
    rcases hvv.lt_or_eq with h | h
    · exact h
    · rw [q2, ← h, mul_zero] at p2; exact absurd p2 (lt_irrefl _)
  have hn : √(s.startMidLen2 0 * s.midEndLen2 0) = k * √(dot3 u u * dot3 v v) := by
    rw [q1, q2, show k * dot3 u u * (k * dot3 v v) = k ^ 2 * (dot3 u u * dot3 v v) by ring, Real.sqrt_mul (sq_nonneg k),
      Real.sqrt_sq hkp.le]
  have hnp : 0 < √(dot3 u u * dot3 v v) := Real.sqrt_pos.mpr (mul_pos hup hvp)
  have hn2 : √(s.startMidLen2 0 * s.midEndLen2 0) = √(s.startMidLen2 0) * √(s.midEndLen2 0) := Real.sqrt_mul p1.le _
  -- the wanted cosine
  set c1 : ℝ := min (max ((√(s.startMidLen2 0) ^ 2 + √(s.midEndLen2 0) ^ 2 - len ^ 2) / (2 * (√(s.startMidLen2 0) * √(s.midEndLen2 0)))) (-1)) 1
    with hc1
  have c1lo : -1 ≤ c1 := le_min (le_max_right _ _) (by norm_num)
  have c1hi : c1 ≤ 1 := min_le_right _ _
  have hcs : |dot3 u v| ≤ √(dot3 u u * dot3 v v) := dot3_le u v
  obtain ⟨hl, hr⟩ := abs_le.mp hcs
  have hc0 : (s.startMidLen2 0 + s.midEndLen2 0 - s.startEndLen2 0) * (1 / 2 * (√(s.startMidLen2 0 * s.midEndLen2 0))⁻¹) =
      -(dot3 u v) / √(dot3 u u * dot3 v v) := by
    rw [hn, q1, q2, q3]
    field_simp
    ring
  have hq : ∃ angle, j.computeMid idealTrig s len2 = quatFromAxisAngle idealTrig.sinCos j.midAxis angle ∧
      angle 0 = Real.arccos c1 - flip (decide (dot3 (vec3Cross u j.midAxis) v < 0)) (Real.arccos (-(dot3 u v) / √(dot3 u u * dot3 v v))) := by
    unfold TwoBone.computeMid
    extract_lets sumLen2 halfRlen cosU cosA corrected ref fl initial
    refine ⟨corrected - initial, rfl, ?_⟩
    have u0 : cosU 0 = (√(s.startMidLen2 0) ^ 2 + √(s.midEndLen2 0) ^ 2 - len ^ 2) / (2 * (√(s.startMidLen2 0) * √(s.midEndLen2 0))) := by
      have : cosU 0 = (s.startMidLen2 0 + s.midEndLen2 0 - len2 0) * (1 / 2 * (√(s.startMidLen2 0 * s.midEndLen2 0))⁻¹) := by
        simp [cosU, sumLen2, halfRlen, Mat4.splatX, swz, setY, swz2, pick, half4, splat, recip4, recip, sqrt4]
      rw [this, hn2, s1, s2, hlen2]
      field_simp
    have u1 : cosU 1 = -(dot3 u v) / √(dot3 u u * dot3 v v) := by
      rw [← hc0]
      simp [cosU, sumLen2, halfRlen, Mat4.splatX, swz, setY, swz2, pick, half4, splat, recip4, recip, sqrt4]
    have v0 : cosA 0 = c1 := by
      simp only [cosA, clampOrMin4, min4, max4, negOne4, one4, splat, u0]
      simp [hc1]
    have v1 : cosA 1 = -(dot3 u v) / √(dot3 u u * dot3 v v) := by
      have g1 : -1 ≤ -(dot3 u v) / √(dot3 u u * dot3 v v) := by rw [le_div_iff₀ hnp]; linarith
      have g2 : -(dot3 u v) / √(dot3 u u * dot3 v v) ≤ 1 := by rw [div_le_iff₀ hnp]; linarith
      simp only [cosA, clampOrMin4, min4, max4, negOne4, one4, splat, u1]
      simp [max_eq_left g1, min_eq_left g2]
    have hfl : fl 0 = decide (dot3 (vec3Cross u j.midAxis) v < 0) := by
      simp only [fl, sign4, real_lt, real_zero]
      have : vec3DotS ref s.midEndMs 0 = dot3 (vec3Cross u j.midAxis) v := by
        rw [hv]
        simp [vec3DotS, dot3, ref, hu, swz]
      rw [this]
    have w0 : corrected 0 = Real.arccos c1 := by rw [← v0]; rfl
    have w1 : initial 0 = flip (decide (dot3 (vec3Cross u j.midAxis) v < 0)) (Real.arccos (-(dot3 u v) / √(dot3 u u * dot3 v v))) := by
      rw [← v1, ← hfl]; rfl
    rw [Pi.sub_apply, w0, w1]
  obtain ⟨angle, hq, hangle⟩ := hq
  have hb := bend ha hau hav hup hvp c1lo c1hi hangle
  have hb' := bend_side ha hau hav hup hvp hangle
  rw [← hq, ← hww] at hb hb'
  obtain ⟨hunit, kq, k0, k1, k2⟩ := quatFromAxisAngle_unit angle ha
  rw [← hq] at hunit k0 k1 k2
  have hvv' := dot3_transform (j.computeMid idealTrig s len2) v v hunit
  have hav' := dot3_transform (j.computeMid idealTrig s len2) j.midAxis v hunit
  rw [dot3_congr (transform_axis (k := kq) ⟨k0, k1, k2⟩) (Same3.refl _), hav, ← hww] at hav'
  rw [← hww] at hvv'
  have he : Same3 e (toStart j.startJoint j.midJoint (u + w)) := by
    rw [toStart_add]
    exact ⟨by simp only [hee, Pi.add_apply, b1'.1], by simp only [hee, Pi.add_apply, b1'.2.1], by simp only [hee, Pi.add_apply, b1'.2.2]⟩
  refine ⟨?_, hav', hb', b1'⟩
  rw [dot3_congr he he, hdot, ← clamped_cosine a1 a2 hlen, ← hc1]
  have : dot3 (u + w) (u + w) = dot3 u u + 2 * dot3 u w + dot3 w w := by simp only [dot3, Pi.add_apply]; ring
  rw [this, hb, hvv', ← hn2, hn, s1, s2, q1, q2]
  ring

/-! ### The softened target -/

theorem soften_value (j : TwoBone ℝ) (s : Setup ℝ) (h1 : 0 ≤ s.startMidLen2 0) (h2 : 0 ≤ s.midEndLen2 0) :
    let r := j.softenTarget s
    let orig := s.invStart.transformPoint j.target
    let t := √(dot3 orig orig)
    let d := softDistance (√(s.startMidLen2 0) + √(s.midEndLen2 0)) j.soften t
    0 < t → 0 < d ∧ r.2.2 0 = d ^ 2 ∧ ∀ i, r.2.1 i = d / t * orig i := by
  intro r orig t d htpos
  have hr : r = j.softenTarget s := rfl
  clear_value r
  unfold TwoBone.softenTarget at hr
  extract_lets origLen2 lengths startMidLen midEndLen origLen diffAbs chainLen da ds left right gt alpha op op2 op4 ratio len result at hr
  have l0 : lengths 0 = √(s.startMidLen2 0) := by simp [lengths, sqrt4, setZ, setY, swz2, pick]
  have l1 : lengths 1 = √(s.midEndLen2 0) := by simp [lengths, sqrt4, setZ, setY, swz2, pick]
  have l2 : lengths 2 = t := by
    simp only [lengths, sqrt4, setZ, setY, swz2, pick, origLen2, f4_2, real_sqrt]
    exact congrArg _ (vec3Length2S_zero orig)
  set chain := √(s.startMidLen2 0) + √(s.midEndLen2 0) with hchain
  have hchain0 : 0 ≤ chain := by positivity
  have hc0 : chainLen 0 = chain := by
    simp [chainLen, startMidLen, midEndLen, l0, l1, swz, hchain]
  have hda0 : da 0 = chain * min (max j.soften 0) 1 := by
    rw [← hc0]
    simp [da, clampOrMin4, min4, max4, zero4, one4, splat]
  have hda1 : da 1 = 0 := by simp [da, clampOrMin4, min4, max4, zero4, one4, splat]
  have hda3 : da 3 = 0 := by simp [da, clampOrMin4, min4, max4, zero4, one4, splat]
  have hds0 : ds 0 = chain - da 0 := by rw [← hc0]; rfl
  have g0 : gt 0 = decide (da 0 < t) := by
    simp [gt, left, right, setW, setZ, swz2, pick, origLen, swz, l2]
    congr
  have g1 : gt 1 = decide (0 < t) := by
    simp [gt, left, right, setW, setZ, swz2, pick, origLen, swz, l2, hda1]
    congr
  have g3 : gt 3 = decide (0 < ds 0) := by
    simp [gt, left, right, setW, setZ, swz2, pick, hda3]
    congr
  have ho : origLen2 0 = dot3 orig orig := vec3Length2S_zero orig
  have hor : origLen 0 = t := by simp [origLen, swz, l2]
  have hda : 0 ≤ da 0 := by
    rw [hda0]
    exact mul_nonneg hchain0 (le_min (le_max_right _ _) (by norm_num))
  have ht2 : t ^ 2 = dot3 orig orig := Real.sq_sqrt (dot3_self_nonneg _)
  clear_value gt
  have hd : d = if da 0 < t ∧ 0 < ds 0 then chain - ds 0 * (3 / (3 + (t - da 0) / ds 0)) ^ 4 else t := by
    rw [hds0, hda0]
    rfl
  clear_value d
  by_cases hg : da 0 < t ∧ 0 < ds 0
  · rw [if_pos hg] at hd
    have hcond : (gt 0 && gt 1 && gt 3) = true := by simp [g0, g1, g3, hg, htpos]
    have hA : 0 < (t - da 0) / ds 0 := div_pos (by linarith [hg.1]) hg.2
    have hlen : len 0 = d := by
      have h4 : op4 0 = 81 := by simp [op4, op2, op, setY, swz2, pick, three4, splat]; norm_num
      have h5 : op4 1 = (3 + (t - da 0) / ds 0) ^ 4 := by
        have : op 1 = 3 + (t - da 0) / ds 0 := by
          simp [op, setY, swz2, pick, three4, splat, alpha, hor, recip4, recip]
          rw [div_eq_mul_inv]; ring
        simp only [op4, op2, Pi.mul_apply, this]; ring
      have h6 : ratio 0 = (3 / (3 + (t - da 0) / ds 0)) ^ 4 := by
        simp only [ratio, Pi.mul_apply, h4]
        simp only [recip4, recip, swz, f4_0, h5, real_one]
        rw [div_pow]
        ring
      simp only [len, Pi.sub_apply, Pi.add_apply, Pi.mul_apply, h6]
      rw [hd, hds0]; ring
    have hq : (3 / (3 + (t - da 0) / ds 0)) ^ 4 ≤ 1 := by
      apply pow_le_one₀ (by positivity)
      rw [div_le_one (by positivity)]
      linarith
    have hpos3 : 0 < (3 / (3 + (t - da 0) / ds 0)) ^ 4 := by positivity
    have hq' : (3 / (3 + (t - da 0) / ds 0)) ^ 4 < 1 := by
      apply pow_lt_one₀ (by positivity) _ (by norm_num)
      rw [div_lt_one (by positivity)]
      linarith
    have hdpos : 0 < d := by
      rw [hd]
      have : ds 0 * (3 / (3 + (t - da 0) / ds 0)) ^ 4 < ds 0 * 1 := mul_lt_mul_of_pos_left hq' hg.2
      have h7 : ds 0 ≤ chain := by rw [hds0]; linarith
      linarith
    refine ⟨hdpos, ?_, ?_⟩
    · rw [hr]
      simp only [result, hcond, if_true, Pi.mul_apply, hlen]
      ring
    · intro i
      rw [hr]
      simp only [result, hcond, if_true, Pi.mul_apply]
      have : ∀ i, Mat4.splatX (len * recip4 origLen) i = d * t⁻¹ := by
        apply four <;> simp [Mat4.splatX, swz, recip4, recip, hor, hlen]
      rw [this]
      ring
  · rw [if_neg hg] at hd
    have hcond : (gt 0 && gt 1 && gt 3) = false := by
      simp only [g0, g1, g3]
      by_contra h
      simp only [Bool.not_eq_false, Bool.and_eq_true, decide_eq_true_eq] at h
      exact hg ⟨h.1.1, h.2⟩
    refine ⟨by rw [hd]; exact htpos, ?_, ?_⟩
    · rw [hr]
      simp only [result, hcond, Bool.false_eq_true, if_false]
      rw [ho, hd, ht2]
    · intro i
      rw [hr]
      simp only [result, hcond, Bool.false_eq_true, if_false]
      rw [hd, div_self htpos.ne', one_mul]

/-! ### Pole vectors -/

theorem transform_add (q v w : F4 ℝ) : Same3 (quatTransformVector q (v + w)) (quatTransformVector q v + quatTransformVector q w) := by
  obtain ⟨a0, a1, a2⟩ := quatTransform_coords q (v + w)
  obtain ⟨b0, b1, b2⟩ := quatTransform_coords q v
  obtain ⟨c0, c1, c2⟩ := quatTransform_coords q w
  refine ⟨?_, ?_, ?_⟩
  · rw [Pi.add_apply, a0, b0, c0]; simp only [Pi.add_apply]; ring
  · rw [Pi.add_apply, a1, b1, c1]; simp only [Pi.add_apply]; ring
  · rw [Pi.add_apply, a2, b2, c2]; simp only [Pi.add_apply]; ring

theorem transform_smul (q v : F4 ℝ) (k : ℝ) : Same3 (quatTransformVector q (fun i => k * v i)) (fun i => k * quatTransformVector q v i) := by
  obtain ⟨a0, a1, a2⟩ := quatTransform_coords q (fun i => k * v i)
  obtain ⟨b0, b1, b2⟩ := quatTransform_coords q v
  refine ⟨?_, ?_, ?_⟩
  · beta_reduce; rw [a0, b0]; ring
  · beta_reduce; rw [a1, b1]; ring
  · beta_reduce; rw [a2, b2]; ring

/-- A rotation about `v` commutes with the cross product by `v`. -/
theorem transform_cross {q v : F4 ℝ} {k : ℝ} (hq : q 0 = k * v 0 ∧ q 1 = k * v 1 ∧ q 2 = k * v 2) (n : F4 ℝ) :
    Same3 (quatTransformVector q (vec3Cross v n)) (vec3Cross v (quatTransformVector q n)) := by
  obtain ⟨a0, a1, a2⟩ := quatTransform_coords q (vec3Cross v n)
  obtain ⟨b0, b1, b2⟩ := quatTransform_coords q n
  obtain ⟨c0, c1, c2⟩ := cross_coords v n
  obtain ⟨d0, d1, d2⟩ := cross_coords v (quatTransformVector q n)
  obtain ⟨h0, h1, h2⟩ := hq
  refine ⟨?_, ?_, ?_⟩
  · rw [a0, d0, b1, b2, c0, c1, c2, h0, h1, h2]; ring
  · rw [a1, d1, b0, b2, c0, c1, c2, h0, h1, h2]; ring
  · rw [a2, d2, b0, b1, c0, c1, c2, h0, h1, h2]; ring

theorem dot3_cross_self (v w : F4 ℝ) : dot3 v (vec3Cross v w) = 0 := by
  obtain ⟨c0, c1, c2⟩ := cross_coords v w
  simp only [dot3, c0, c1, c2]; ring

/-- The rotation of the plane and the twist of the two-bone job take the turned middle axis to the normal of the pole plane. -/
theorem two_pole (j : TwoBone ℝ) (s : Setup ℝ) {v len2 rot : F4 ℝ} (hv : 0 < dot3 v v) (hl : len2 0 = dot3 v v) (hrot : norm2 rot = 1) :
    let a := s.invStart.transformVector (j.midJoint.transformVector j.midAxis)
    let π := s.invStart.transformVector j.poleVector
    dot3 v (quatTransformVector rot a) = 0 → 0 < dot3 a a → 0 < dot3 (vec3Cross v π) (vec3Cross v π) →
    Same3 (quatTransformVector (j.rotatePlane idealTrig s rot v len2) a)
      (fun i => √(dot3 a a) / √(dot3 (vec3Cross v π) (vec3Cross v π)) * vec3Cross v (quatTransformVector (axisQuat v j.twistAngle) π) i) := by
  intro a π hn0 hap hrp
  have hlen := dot3_transform rot a a hrot
  unfold TwoBone.rotatePlane
  extract_lets refN normal rsq cosA axis fl plane
  have hN : dot3 normal normal = dot3 a a := hlen
  have hn : dot3 v normal = 0 := hn0
  have hr : dot3 v refN = 0 := dot3_cross_self v π
  have hrp' : 0 < dot3 refN refN := hrp
  have hV : 0 < √(dot3 v v) := Real.sqrt_pos.mpr hv
  have r0 : rsq 0 = (√(dot3 v v))⁻¹ := by simp [rsq, recip4, recip, sqrt4, setZ, setY, swz2, pick, hl]
  have r1 : rsq 1 = (√(dot3 refN refN))⁻¹ := by simp [rsq, recip4, recip, sqrt4, setZ, setY, swz2, pick, vec3Length2S_zero]
  have r2 : rsq 2 = (√(dot3 normal normal))⁻¹ := by simp [rsq, recip4, recip, sqrt4, setZ, setY, swz2, pick, vec3Length2S_zero]
  have hax : ∀ i, axis i = (√(dot3 v v))⁻¹ * v i := by
    intro i
    rw [← r0]
    show v i * Mat4.splatX rsq i = _
    rw [mul_comm]
    congr 1
    revert i
    apply four <;> rfl
  have hcos : cosA 0 = dot3 normal refN / (√(dot3 normal normal) * √(dot3 refN refN)) := by
    have : cosA 0 = dot3 (fun i => refN i * rsq 1) (fun i => normal i * rsq 2) := by
      simp only [cosA, vec3DotS_zero]
      apply dot3_congr <;> exact ⟨rfl, rfl, rfl⟩
    rw [this, r1, r2]
    have : dot3 (fun i => refN i * (√(dot3 refN refN))⁻¹) (fun i => normal i * (√(dot3 normal normal))⁻¹) =
        dot3 normal refN * ((√(dot3 refN refN))⁻¹ * (√(dot3 normal normal))⁻¹) := by simp only [dot3]; ring
    rw [this, div_eq_mul_inv, mul_inv]; ring
  have htri : dot3 refN (vec3Cross v normal) = dot3 v v * dot3 normal π := by
    obtain ⟨c0, c1, c2⟩ := cross_coords v π
    obtain ⟨d0, d1, d2⟩ := cross_coords v normal
    simp only [dot3] at hn
    simp only [dot3, refN, c0, c1, c2, d0, d1, d2]
    linear_combination -(π 0 * v 0 + π 1 * v 1 + π 2 * v 2) * hn
  have hsgn : fl = fun _ => decide (dot3 refN (vec3Cross v normal) < 0) := by
    have : decide (dot3 refN (vec3Cross v normal) < 0) = decide (dot3 normal π < 0) := by
      rw [decide_eq_decide, htri]
      constructor
      · intro h
        by_contra hc
        linarith [mul_nonneg hv.le (not_lt.mp hc)]
      · intro h
        exact mul_neg_of_pos_of_neg hv h
    rw [this]
    apply ext4 <;> simp [fl, sign4, Mat4.splatX, swz, vec3DotS_zero]
  have hNp : 0 < dot3 normal normal := by rw [hN]; exact hap
  have hcs : |dot3 normal refN| ≤ √(dot3 normal normal) * √(dot3 refN refN) := by
    rw [← Real.sqrt_mul hNp.le]; exact dot3_le _ _
  have hprod : 0 < √(dot3 normal normal) * √(dot3 refN refN) := mul_pos (Real.sqrt_pos.mpr hNp) (Real.sqrt_pos.mpr hrp')
  obtain ⟨hlo, hhi⟩ := abs_le.mp hcs
  have hclamp : clamp4 cosA negOne4 one4 0 = cosA 0 := by
    have g1 : -1 ≤ cosA 0 := by rw [hcos, le_div_iff₀ hprod]; linarith
    have g2 : cosA 0 ≤ 1 := by rw [hcos, div_le_iff₀ hprod]; linarith
    simp [clamp4, negOne4, one4, splat, not_lt.mpr g1, not_lt.mpr g2]
  have hxa : ∀ i, xor4 axis fl i = ((if decide (dot3 refN (vec3Cross v normal) < 0) then -1 else 1) * (√(dot3 v v))⁻¹) * v i := by
    intro i
    rw [hsgn]
    simp only [xor4, hax, flip]
    split_ifs <;> ring
  have hpt := plane_turn (s := decide (dot3 refN (vec3Cross v normal) < 0)) hv hn hr hNp hrp' rfl hxa (hclamp.trans hcos)
  have hpt' : Same3 (quatTransformVector plane normal) (fun i => √(dot3 a a) / √(dot3 refN refN) * refN i) := by rw [← hN]; exact hpt
  obtain ⟨hpn, -⟩ := two_plane j s hv hl hrot
  have hplane : norm2 plane = 1 := by
    have hu : dot3 (xor4 axis fl) (xor4 axis fl) = 1 :=
      axis_unit (s := if decide (dot3 refN (vec3Cross v normal) < 0) then -1 else 1) hv (by split_ifs <;> simp) rfl hxa
    exact (quatFromCosAngle_unit hu (clamp4_mem cosA).1 (clamp4_mem cosA).2).1
  have hau : dot3 axis axis = 1 := axis_unit (s := 1) hv (Or.inl rfl) (one_mul _).symm hax
  -- the twist
  have htw : axisQuat v j.twistAngle = quatFromAxisAngle idealTrig.sinCos axis (splat j.twistAngle) := by
    rw [quatFromAxisAngle_eq]
    apply ext4 <;> simp only [axisQuat, hax, splat, div_eq_mul_inv, f4_0, f4_1, f4_2, f4_3] <;> ring
  have htwk : axisQuat v j.twistAngle 0 = ((√(dot3 v v))⁻¹ * Real.sin (j.twistAngle / 2)) * v 0 ∧
      axisQuat v j.twistAngle 1 = ((√(dot3 v v))⁻¹ * Real.sin (j.twistAngle / 2)) * v 1 ∧
      axisQuat v j.twistAngle 2 = ((√(dot3 v v))⁻¹ * Real.sin (j.twistAngle / 2)) * v 2 := by
    refine ⟨?_, ?_, ?_⟩ <;> simp only [axisQuat, div_eq_mul_inv, f4_0, f4_1, f4_2] <;> ring
  have hfin : Same3 (quatTransformVector (axisQuat v j.twistAngle) (fun i => √(dot3 a a) / √(dot3 refN refN) * refN i))
      (fun i => √(dot3 a a) / √(dot3 refN refN) * vec3Cross v (quatTransformVector (axisQuat v j.twistAngle) π) i) := by
    refine Same3.trans (transform_smul _ _ _) ?_
    obtain ⟨x0, x1, x2⟩ := transform_cross htwk π
    refine ⟨?_, ?_, ?_⟩
    · exact congrArg _ x0
    · exact congrArg _ x1
    · exact congrArg _ x2
  by_cases ht : NumOps.eq j.twistAngle NumOps.zero = true
  · rw [if_pos ht]
    have h0 : j.twistAngle = 0 := by simpa using ht
    refine Same3.trans (transform_mul a hplane hrot) (Same3.trans hpt' (Same3.trans (Same3.symm ?_) hfin))
    have hone : axisQuat v j.twistAngle = f4 0 0 0 1 := by
      apply ext4 <;> simp [axisQuat, h0]
    rw [hone]
    obtain ⟨y0, y1, y2⟩ := quatTransform_coords (f4 0 0 0 1) (fun i => √(dot3 a a) / √(dot3 refN refN) * refN i)
    refine ⟨?_, ?_, ?_⟩
    · rw [y0]; simp
    · rw [y1]; simp
    · rw [y2]; simp
  · rw [if_neg ht, ← htw]
    have t1 : norm2 (axisQuat v j.twistAngle) = 1 := by rw [htw]; exact (quatFromAxisAngle_unit _ hau).1
    have t2 : norm2 (quatMul (axisQuat v j.twistAngle) plane) = 1 := by rw [norm2_quatMul, t1, hplane, one_mul]
    exact Same3.trans (transform_mul a t2 hrot) (Same3.trans (transform_mul _ t1 hplane) (Same3.trans (transform_congr _ hpt') hfin))

/-- The aim job brings up into the half plane of the pole vector. -/
theorem aim_pole (j : Aim ℝ) (inv : Mat4 ℝ) {v rot : F4 ℝ} (hv : 0 < dot3 v v) (hrot : norm2 rot = 1) :
    let π := inv.transformVector j.poleVector
    let up := quatTransformVector rot j.up
    0 < dot3 (vec3Cross up v) (vec3Cross up v) → 0 < dot3 (vec3Cross π v) (vec3Cross π v) →
    ∃ l μ, 0 < l ∧ Same3 (quatTransformVector (j.twisted idealTrig (j.rotatePlane inv v rot).1 (j.rotatePlane inv v rot).2 rot) j.up)
      (fun i => l * quatTransformVector (axisQuat v j.twistAngle) π i + μ * v i) := by
  intro π up hnp0 hrp0
  have hdef : j.rotatePlane inv v rot = j.rotatePlane inv v rot := rfl
  obtain ⟨-, ⟨-, -⟩, hplane, -⟩ := aim_plane j inv rot hv
  generalize hP : j.rotatePlane inv v rot = P at *
  unfold Aim.rotatePlane at hP
  extract_lets refN normal denoms rsq axis cosA fl at hP
  have hn : dot3 v normal = 0 := by
    obtain ⟨c0, c1, c2⟩ := cross_coords up v
    simp only [dot3, normal, c0, c1, c2]; ring
  have hr : dot3 v refN = 0 := by
    obtain ⟨c0, c1, c2⟩ := cross_coords π v
    simp only [dot3, refN, c0, c1, c2]; ring
  have hNp : 0 < dot3 normal normal := hnp0
  have hrp' : 0 < dot3 refN refN := hrp0
  have d0 : denoms 0 = dot3 v v := by simp [denoms, setZ, setY, swz2, pick, vec3Length2S_zero]
  have d1 : denoms 1 = dot3 normal normal := by simp [denoms, setZ, setY, swz2, pick, vec3Length2S_zero]
  have d2 : denoms 2 = dot3 refN refN := by simp [denoms, setZ, setY, swz2, pick, vec3Length2S_zero]
  have hz : allNonZero denoms = true := by simp [allNonZero, d0, d1, d2, hv.ne', hNp.ne', hrp'.ne']
  rw [if_pos hz] at hP
  have r0 : rsq 0 = (√(dot3 v v))⁻¹ := by rw [← d0]; simp [rsq, recip4, recip, sqrt4]
  have r1 : rsq 1 = (√(dot3 normal normal))⁻¹ := by rw [← d1]; simp [rsq, recip4, recip, sqrt4]
  have r2 : rsq 2 = (√(dot3 refN refN))⁻¹ := by rw [← d2]; simp [rsq, recip4, recip, sqrt4]
  have hax : ∀ i, axis i = (√(dot3 v v))⁻¹ * v i := by
    intro i
    rw [← r0]
    show v i * Mat4.splatX rsq i = _
    rw [mul_comm]
    congr 1
    revert i
    apply four <;> rfl
  have hcos : cosA 0 = dot3 normal refN / (√(dot3 normal normal) * √(dot3 refN refN)) := by
    have : cosA 0 = dot3 (fun i => normal i * rsq 1) (fun i => refN i * rsq 2) := by
      simp only [cosA, vec3DotS_zero]
      apply dot3_congr <;> exact ⟨rfl, rfl, rfl⟩
    rw [this, r1, r2]
    have : dot3 (fun i => normal i * (√(dot3 normal normal))⁻¹) (fun i => refN i * (√(dot3 refN refN))⁻¹) =
        dot3 normal refN * ((√(dot3 normal normal))⁻¹ * (√(dot3 refN refN))⁻¹) := by simp only [dot3]; ring
    rw [this, div_eq_mul_inv, mul_inv]
  have htri : dot3 refN (vec3Cross v normal) = dot3 v v * dot3 refN up := by
    obtain ⟨c0, c1, c2⟩ := cross_coords π v
    obtain ⟨e0, e1, e2⟩ := cross_coords v normal
    obtain ⟨n0, n1, n2⟩ := cross_coords up v
    simp only [dot3, e0, e1, e2]
    simp only [refN, normal, c0, c1, c2, n0, n1, n2]
    ring
  have hsgn : fl = fun _ => decide (dot3 refN (vec3Cross v normal) < 0) := by
    have : decide (dot3 refN (vec3Cross v normal) < 0) = decide (dot3 refN up < 0) := by
      rw [decide_eq_decide, htri]
      constructor
      · intro h
        by_contra hc
        linarith [mul_nonneg hv.le (not_lt.mp hc)]
      · intro h
        exact mul_neg_of_pos_of_neg hv h
    rw [this]
    apply ext4 <;> simp [fl, sign4, Mat4.splatX, swz, vec3DotS_zero]
  have hcs : |dot3 normal refN| ≤ √(dot3 normal normal) * √(dot3 refN refN) := by
    rw [← Real.sqrt_mul hNp.le]; exact dot3_le _ _
  have hprod : 0 < √(dot3 normal normal) * √(dot3 refN refN) := mul_pos (Real.sqrt_pos.mpr hNp) (Real.sqrt_pos.mpr hrp')
  obtain ⟨hlo, hhi⟩ := abs_le.mp hcs
  have hclamp : clamp4 cosA negOne4 one4 0 = cosA 0 := by
    have g1 : -1 ≤ cosA 0 := by rw [hcos, le_div_iff₀ hprod]; linarith
    have g2 : cosA 0 ≤ 1 := by rw [hcos, div_le_iff₀ hprod]; linarith
    simp [clamp4, negOne4, one4, splat, not_lt.mpr g1, not_lt.mpr g2]
  set sg : Bool := decide (dot3 refN (vec3Cross v normal) < 0) with hsg
  have hxa : ∀ i, xor4 axis fl i = ((if sg then -1 else 1) * (√(dot3 v v))⁻¹) * v i := by
    intro i
    rw [hsgn]
    simp only [xor4, hax, flip]
    split_ifs <;> ring
  have hpt := plane_turn (s := sg) hv hn hr hNp hrp' hsg hxa (hclamp.trans hcos)
  have hP1 : P.1 = axis := by rw [← hP]
  have hP2 : P.2 = quatFromCosAngle (xor4 axis fl) (clamp4 cosA negOne4 one4) := by rw [← hP]
  rw [← hP2] at hpt
  have hu : dot3 (xor4 axis fl) (xor4 axis fl) = 1 := axis_unit (s := if sg then -1 else 1) hv (by split_ifs <;> simp) rfl hxa
  obtain ⟨-, kp, kp0, kp1, kp2⟩ := quatFromCosAngle_unit hu (clamp4_mem cosA).1 (clamp4_mem cosA).2
  rw [← hP2, hxa] at kp0 kp1 kp2
  have hpk : P.2 0 = (kp * ((if sg then -1 else 1) * (√(dot3 v v))⁻¹)) * v 0 ∧ P.2 1 = (kp * ((if sg then -1 else 1) * (√(dot3 v v))⁻¹)) * v 1 ∧
      P.2 2 = (kp * ((if sg then -1 else 1) * (√(dot3 v v))⁻¹)) * v 2 := ⟨by rw [kp0]; ring, by rw [kp1]; ring, by rw [kp2]; ring⟩
  have hau : dot3 axis axis = 1 := axis_unit (s := 1) hv (Or.inl rfl) (one_mul _).symm hax
  -- the twist
  have htw : axisQuat v j.twistAngle = quatFromAxisAngle idealTrig.sinCos axis (splat j.twistAngle) := by
    rw [quatFromAxisAngle_eq]
    apply ext4 <;> simp only [axisQuat, hax, splat, div_eq_mul_inv, f4_0, f4_1, f4_2, f4_3] <;> ring
  have htwk : axisQuat v j.twistAngle 0 = ((√(dot3 v v))⁻¹ * Real.sin (j.twistAngle / 2)) * v 0 ∧
      axisQuat v j.twistAngle 1 = ((√(dot3 v v))⁻¹ * Real.sin (j.twistAngle / 2)) * v 1 ∧
      axisQuat v j.twistAngle 2 = ((√(dot3 v v))⁻¹ * Real.sin (j.twistAngle / 2)) * v 2 := by
    refine ⟨?_, ?_, ?_⟩ <;> simp only [axisQuat, div_eq_mul_inv, f4_0, f4_1, f4_2] <;> ring
  -- up after the rotation of the plane
  set L : ℝ := √(dot3 normal normal) / √(dot3 refN refN) with hL
  have hLp : 0 < L := div_pos (Real.sqrt_pos.mpr hNp) (Real.sqrt_pos.mpr hrp')
  have hplane_up : Same3 (quatTransformVector P.2 up) (fun i => L * π i + ((dot3 v up - L * dot3 v π) / dot3 v v) * v i) := by
    -- up in terms of v and the normal
    have hup : Same3 up ((fun i => (dot3 v up / dot3 v v) * v i) + fun i => (dot3 v v)⁻¹ * vec3Cross v normal i) := by
      obtain ⟨e0, e1, e2⟩ := cross_coords v normal
      obtain ⟨n0, n1, n2⟩ := cross_coords up v
      have hne := hv.ne'
      refine ⟨?_, ?_, ?_⟩
      · simp only [Pi.add_apply, e0, normal, n1, n2]; field_simp; simp only [dot3]; ring
      · simp only [Pi.add_apply, e1, normal, n0, n2]; field_simp; simp only [dot3]; ring
      · simp only [Pi.add_apply, e2, normal, n0, n1]; field_simp; simp only [dot3]; ring
    have t1 := transform_add P.2 (fun i => (dot3 v up / dot3 v v) * v i) (fun i => (dot3 v v)⁻¹ * vec3Cross v normal i)
    have t2 := transform_smul P.2 v (dot3 v up / dot3 v v)
    have t3 := transform_smul P.2 (vec3Cross v normal) (dot3 v v)⁻¹
    have t4 := transform_axis hpk
    have t5 := transform_cross hpk normal
    refine Same3.trans (transform_congr P.2 hup) (Same3.trans t1 ?_)
    obtain ⟨x0, x1, x2⟩ := cross_coords v (quatTransformVector P.2 normal)
    obtain ⟨c0, c1, c2⟩ := cross_coords π v
    have hne := hv.ne'
    have p0 := hpt.1
    have p1 := hpt.2.1
    have p2 := hpt.2.2
    simp only [refN, c0, c1, c2] at p0 p1 p2
    have y0 := t2.1; have y1 := t2.2.1; have y2 := t2.2.2
    have z0 := t3.1; have z1 := t3.2.1; have z2 := t3.2.2
    beta_reduce at y0 y1 y2 z0 z1 z2
    refine ⟨?_, ?_, ?_⟩
    · rw [Pi.add_apply, y0, z0, t4.1, t5.1, x0, p1, p2]; field_simp; simp only [dot3]; ring
    · rw [Pi.add_apply, y1, z1, t4.2.1, t5.2.1, x1, p0, p2]; field_simp; simp only [dot3]; ring
    · rw [Pi.add_apply, y2, z2, t4.2.2, t5.2.2, x2, p0, p1]; field_simp; simp only [dot3]; ring
  refine ⟨L, (dot3 v up - L * dot3 v π) / dot3 v v, hLp, ?_⟩
  unfold Aim.twisted
  have hfin : Same3 (quatTransformVector (axisQuat v j.twistAngle) (fun i => L * π i + ((dot3 v up - L * dot3 v π) / dot3 v v) * v i))
      (fun i => L * quatTransformVector (axisQuat v j.twistAngle) π i + ((dot3 v up - L * dot3 v π) / dot3 v v) * v i) := by
    have t1 := transform_add (axisQuat v j.twistAngle) (fun i => L * π i) (fun i => ((dot3 v up - L * dot3 v π) / dot3 v v) * v i)
    have t2 := transform_smul (axisQuat v j.twistAngle) π L
    have t3 := transform_smul (axisQuat v j.twistAngle) v ((dot3 v up - L * dot3 v π) / dot3 v v)
    have t4 := transform_axis htwk
    refine Same3.trans t1 ?_
    have y0 := t2.1; have y1 := t2.2.1; have y2 := t2.2.2
    have z0 := t3.1; have z1 := t3.2.1; have z2 := t3.2.2
    beta_reduce at y0 y1 y2 z0 z1 z2
    refine ⟨?_, ?_, ?_⟩
    · rw [Pi.add_apply, y0, z0, t4.1]
    · rw [Pi.add_apply, y1, z1, t4.2.1]
    · rw [Pi.add_apply, y2, z2, t4.2.2]
  by_cases ht : NumOps.eq j.twistAngle NumOps.zero = true
  · rw [if_pos ht]
    have h0 : j.twistAngle = 0 := by simpa using ht
    refine Same3.trans (transform_mul j.up hplane hrot) (Same3.trans hplane_up (Same3.trans (Same3.symm ?_) hfin))
    have hone : axisQuat v j.twistAngle = f4 0 0 0 1 := by
      apply ext4 <;> simp [axisQuat, h0]
    rw [hone]
    obtain ⟨y0, y1, y2⟩ := quatTransform_coords (f4 0 0 0 1) (fun i => L * π i + ((dot3 v up - L * dot3 v π) / dot3 v v) * v i)
    refine ⟨?_, ?_, ?_⟩
    · rw [y0]; simp
    · rw [y1]; simp
    · rw [y2]; simp
  · rw [if_neg ht, hP1, ← htw]
    have t1 : norm2 (axisQuat v j.twistAngle) = 1 := by rw [htw]; exact (quatFromAxisAngle_unit _ hau).1
    have t2 : norm2 (quatMul (axisQuat v j.twistAngle) P.2) = 1 := by rw [norm2_quatMul, t1, hplane, one_mul]
    exact Same3.trans (transform_mul _ t2 hrot) (Same3.trans (transform_mul _ t1 hplane) (Same3.trans (transform_congr _ hplane_up) hfin))

/-! ### Orientation -/

/-- Scalar triple product. -/
def triple (a b c : F4 ℝ) : ℝ :=
  a 0 * (b 1 * c 2 - b 2 * c 1) + a 1 * (b 2 * c 0 - b 0 * c 2) + a 2 * (b 0 * c 1 - b 1 * c 0)

theorem triple_congr {a a' b b' c c' : F4 ℝ} (ha : Same3 a a') (hb : Same3 b b') (hc : Same3 c c') : triple a b c = triple a' b' c' := by
  simp only [triple, ha.1, ha.2.1, ha.2.2, hb.1, hb.2.1, hb.2.2, hc.1, hc.2.1, hc.2.2]

theorem triple_transform {q : F4 ℝ} (hq : norm2 q = 1) (a b c : F4 ℝ) :
    triple (quatTransformVector q a) (quatTransformVector q b) (quatTransformVector q c) = triple a b c := by
  obtain ⟨a0, a1, a2⟩ := quatTransform_coords q a
  obtain ⟨b0, b1, b2⟩ := quatTransform_coords q b
  obtain ⟨c0, c1, c2⟩ := quatTransform_coords q c
  unfold norm2 at hq
  have key : triple (quatTransformVector q a) (quatTransformVector q b) (quatTransformVector q c) =
      ((1 - 2 * (q 0 ^ 2 + q 1 ^ 2 + q 2 ^ 2)) ^ 2 + 4 * q 3 ^ 2 * (q 0 ^ 2 + q 1 ^ 2 + q 2 ^ 2)) * triple a b c := by
    simp only [triple, a0, a1, a2, b0, b1, b2, c0, c1, c2]
    ring
  have h : (1 - 2 * (q 0 ^ 2 + q 1 ^ 2 + q 2 ^ 2)) ^ 2 + 4 * q 3 ^ 2 * (q 0 ^ 2 + q 1 ^ 2 + q 2 ^ 2) = 1 := by
    linear_combination 4 * (q 0 ^ 2 + q 1 ^ 2 + q 2 ^ 2) * hq
  rw [key, h, one_mul]

theorem triple_matrix {m : Mat4 ℝ} (hm : AffineMat m) (a b c : F4 ℝ) :
    triple (m.transformVector a) (m.transformVector b) (m.transformVector c) = (toMatrix m).det * triple a b c := by
  have hd : (toMatrix m).det = triple (m 0) (m 1) (m 2) := by
    obtain ⟨h0, h1, h2, h3⟩ := hm
    rw [Matrix.det_succ_row_zero]
    simp only [Fin.sum_univ_four, Matrix.det_fin_three, Matrix.submatrix_apply, toMatrix]
    simp [Fin.succAbove, h0, h1, h2, h3, triple]
    ring
  rw [hd]
  simp only [triple, Mat4.transformVector, swz, Pi.add_apply, Pi.mul_apply, f4_0, f4_1, f4_2]
  ring

/-- The space of the middle joint seen from the start joint keeps orientation if both do, or neither. -/
theorem triple_toStart {s m : Mat4 ℝ} (hs : AffineMat s) (hds : (toMatrix s).det ≠ 0) (hm : AffineMat m) (a b c : F4 ℝ) :
    triple (toStart s m a) (toStart s m b) (toStart s m c) = (toMatrix m).det / (toMatrix s).det * triple a b c := by
  have h := triple_matrix hs (toStart s m a) (toStart s m b) (toStart s m c)
  have e : ∀ v, Same3 (s.transformVector (toStart s m v)) (m.transformVector v) := fun v => invert_vector hs hds _
  rw [triple_congr (e a) (e b) (e c), triple_matrix hm] at h
  rw [div_mul_eq_mul_div, eq_div_iff hds, h]
  ring

theorem vector_invert {m : Mat4 ℝ} (ha : AffineMat m) (hd : (toMatrix m).det ≠ 0) {v x : F4 ℝ} (h : SendsVector m v x) :
    Same3 (m.invert.transformVector x) v := by
  have h0 := point_invert ha hd (p := fun _ => 0) (x := m.transformPoint (fun _ => 0)) (sendsPoint_iff.mpr (Same3.refl _))
  have h1 := point_invert ha hd (p := (fun _ => 0) + v) (x := m.transformPoint ((fun _ => 0) + v)) (sendsPoint_iff.mpr (Same3.refl _))
  rw [transformPoint_add, transformPoint_add] at h1
  rw [transformVector_congr _ (sendsVector_iff.mp h)]
  refine ⟨?_, ?_, ?_⟩
  · have a := h0.1; have b := h1.1
    simp only [Pi.add_apply] at b; linarith
  · have a := h0.2.1; have b := h1.2.1
    simp only [Pi.add_apply] at b; linarith
  · have a := h0.2.2; have b := h1.2.2
    simp only [Pi.add_apply] at b; linarith

/-- A vector in the plane of two others. -/
theorem plane_span {m a b : F4 ℝ} (hm : dot3 m (vec3Cross a b) = 0) (hab : dot3 a b ^ 2 < dot3 a a * dot3 b b) :
    Same3 m (fun i => (dot3 m (fun i => dot3 a a * b i - dot3 a b * a i) / (dot3 a a * dot3 b b - dot3 a b ^ 2)) * b i +
      (dot3 m (fun i => dot3 b b * a i - dot3 a b * b i) / (dot3 a a * dot3 b b - dot3 a b ^ 2)) * a i) := by
  have hG : dot3 a a * dot3 b b - dot3 a b ^ 2 ≠ 0 := by linarith
  have key : ∀ x y z : ℝ, (dot3 a a * dot3 b b - dot3 a b ^ 2) * x =
      dot3 m (fun i => dot3 a a * b i - dot3 a b * a i) * y + dot3 m (fun i => dot3 b b * a i - dot3 a b * b i) * z →
      x = dot3 m (fun i => dot3 a a * b i - dot3 a b * a i) / (dot3 a a * dot3 b b - dot3 a b ^ 2) * y +
        dot3 m (fun i => dot3 b b * a i - dot3 a b * b i) / (dot3 a a * dot3 b b - dot3 a b ^ 2) * z := by
    intro x y z h
    rw [div_mul_eq_mul_div, div_mul_eq_mul_div, ← add_div, eq_div_iff hG, ← h]
    ring
  obtain ⟨c0, c1, c2⟩ := cross_coords a b
  simp only [dot3, c0, c1, c2] at hm
  refine ⟨key _ _ _ ?_, key _ _ _ ?_, key _ _ _ ?_⟩
  · simp only [dot3]
    linear_combination (a 1 * b 2 - a 2 * b 1) * hm
  · simp only [dot3]
    linear_combination (a 2 * b 0 - a 0 * b 2) * hm
  · simp only [dot3]
    linear_combination (a 0 * b 1 - a 1 * b 0) * hm

end Ozz.IK
