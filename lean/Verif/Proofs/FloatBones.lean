import Verif.Proofs.FloatTurn

/-! Helpers: the pieces of the two-bone job in single precision. -/

namespace Ozz.IK

open F32 Ieee Spec Blending Ozz.Trig

/-! ### Shapes -/

section
set_option linter.unusedSectionVars false
variable {α : Type} [Add α] [Sub α] [Mul α] [Div α] [Neg α] [NumOps α]

/-- An aim job with the same twist and weight. -/
def aimOf (j : TwoBone α) : Aim α where
  target := j.target
  forward := j.midAxis
  offset := j.target
  up := j.poleVector
  poleVector := j.poleVector
  twistAngle := j.twistAngle
  weight := j.weight
  joint := j.startJoint
  correction := j.startCorrection
  reached := j.reached

theorem weightOutput_shape (j : TwoBone α) (a b : F4 α) : j.weightOutput a b = ((aimOf j).weighted a, (aimOf j).weighted b) := by
  unfold TwoBone.weightOutput Aim.weighted
  simp only
  have e : (aimOf j).weight = j.weight := rfl
  rw [e]
  split
  · refine Prod.ext ?_ ?_
    · funext i
      revert i
      apply four_all <;> rfl
    · funext i
      revert i
      apply four_all <;> rfl
  · rfl

theorem twoPlane_shape (t : Trig α) (j : TwoBone α) (s : Setup α) (rot V L : F4 α) : ∃ axis plane axis' c : F4 α, ∃ b : Bool,
    j.rotatePlane t s rot V L = (aimOf j).twisted t axis plane rot ∧
    (∀ i, axis i = V i * (NumOps.one / NumOps.sqrt (L 0))) ∧
    plane = quatFromCosAngle axis' (clamp4 c negOne4 one4) ∧
    (∀ i, i ≠ 3 → axis' i = flip b (axis i)) ∧
    c 0 = vec3DotS
        (fun i => vec3Cross V (s.invStart.transformVector j.poleVector) i *
          (NumOps.one / NumOps.sqrt (vec3Length2S (vec3Cross V (s.invStart.transformVector j.poleVector)) 0)))
        (fun i => quatTransformVector rot (s.invStart.transformVector (j.midJoint.transformVector j.midAxis)) i *
          (NumOps.one / NumOps.sqrt (vec3Length2S
            (quatTransformVector rot (s.invStart.transformVector (j.midJoint.transformVector j.midAxis))) 0))) 0 := by
  refine ⟨_, _, _, _, NumOps.lt (vec3DotS (quatTransformVector rot (s.invStart.transformVector (j.midJoint.transformVector j.midAxis)))
      (s.invStart.transformVector j.poleVector) 0) NumOps.zero, rfl, ?_, rfl, ?_, rfl⟩
  · apply four_all <;> rfl
  · refine four_ne ?_ ?_ ?_ <;> rfl

theorem soften_shape (j : TwoBone α) (s : Setup α) {V : F4 α} (hV : V = s.invStart.transformPoint j.target) {a b t d : α}
    (ha : a = NumOps.sqrt (s.startMidLen2 0)) (hb : b = NumOps.sqrt (s.midEndLen2 0)) (ht : t = NumOps.sqrt (vec3Length2S V 0))
    (hd : d = (a + b) * NumOps.min (NumOps.max j.soften NumOps.zero) NumOps.one) :
    (j.softenTarget s).1 = (!NumOps.lt d t && NumOps.lt (NumOps.abs (a - b)) t) ∧
    ∃ x : α, NumOps.lt d t = false ∨ NumOps.lt (x * NumOps.min (NumOps.max NumOps.zero NumOps.zero) NumOps.one) (a + b - d) = false →
      (j.softenTarget s).2 = (V, vec3Length2S V) := by
  subst ha hb ht hd hV
  refine ⟨rfl, NumOps.sqrt (s.startMidLen2 3) + NumOps.sqrt (s.midEndLen2 0), fun h => ?_⟩
  have e : ∀ (c : Bool) (x y : F4 α × F4 α), c = false → (if c then x else y) = y := by
    intro c x y h; rw [h]; rfl
  refine e _ _ _ ?_
  rcases h with h | h
  · have : ∀ {p q r : Bool}, p = false → (p && q && r) = false := by intro p q r h; rw [h]; rfl
    exact this h
  · have : ∀ {p q r : Bool}, r = false → (p && q && r) = false := by intro p q r h; rw [h, Bool.and_false]
    exact this h

theorem computeMid_shape [IntOps α] (j : TwoBone α) (s : Setup α) (L : F4 α) : ∃ angle : F4 α,
    j.computeMid polyTrig s L = quatFromAxisAngle (polyTrig (α := α)).sinCos j.midAxis angle ∧
    angle 0 =
      acos (NumOps.min (NumOps.max ((s.startMidLen2 0 + s.midEndLen2 0 - L 0) *
        (NumOps.half * (NumOps.one / NumOps.sqrt (s.startMidLen2 0 * s.midEndLen2 0)))) (-NumOps.one)) NumOps.one) -
      flip (NumOps.lt (vec3DotS (vec3Cross s.startMidMs j.midAxis) s.midEndMs 0) NumOps.zero)
        (acos (NumOps.min (NumOps.max ((s.startMidLen2 0 + s.midEndLen2 0 - s.startEndLen2 0) *
          (NumOps.half * (NumOps.one / NumOps.sqrt (s.startMidLen2 0 * s.midEndLen2 0)))) (-NumOps.one)) NumOps.one)) :=
  ⟨_, rfl, rfl⟩

theorem computeStart_shape (t : Trig α) (j : TwoBone α) (s : Setup α) (midRot V L : F4 α) (h : NumOps.lt NumOps.zero (L 0) = true) :
    j.computeStart t s midRot V L = j.rotatePlane t s
      (quatFromVectors (fun i => s.startMidSs i +
        s.invStart.transformVector (j.midJoint.transformVector (quatTransformVector midRot s.midEndMs)) i) V) V L := by
  unfold TwoBone.computeStart
  simp only [h, if_true]
  rfl

end

/-! ### Floats -/

theorem fmin_val32 {x y : F32} (hx : Finite32 x.bits) (hy : Finite32 y.bits) :
    Finite32 (F32.fmin x y).bits ∧ val (F32.fmin x y) = min (val x) (val y) := by
  have hlt := lt_val32 hy hx
  unfold F32.fmin
  rw [(finite_cases hx).1, (finite_cases hy).1]
  simp only [Bool.false_eq_true, if_false]
  split
  · next h => exact ⟨hy, by rw [min_eq_right (hlt.mp h).le]⟩
  · next h => exact ⟨hx, by rw [min_eq_left (not_lt.mp fun h' => h (hlt.mpr h'))]⟩

theorem mul_one32 {x y : F32} (hx : Finite32 x.bits) (hy : Finite32 y.bits) (h1 : val y = 1) (hB : |val x| ≤ 2 ^ 100) :
    Finite32 (x * y).bits ∧ val (x * y) = val x := by
  have f := (mul_ok hx hy (by rw [h1, mul_one]; exact hB.trans (by norm_num))).1
  exact ⟨f, rounds_exact (mul_roundsTo hx hy) f hx (by
    have : real y.bits = 1 := h1
    rw [this, mul_one])⟩

theorem mul_zero32 (x : F32) : F32.isNaN (x * F32.zero) = true ∨ (Finite32 (x * F32.zero).bits ∧ val (x * F32.zero) = 0) := by
  by_cases hx : Finite32 x.bits
  · right
    have z : val F32.zero = 0 := zero_real
    obtain ⟨f, e⟩ := mul_ok hx zero_finite (by rw [z, mul_zero, abs_zero]; positivity)
    refine ⟨f, ?_⟩
    rw [z, mul_zero, abs_zero, zero_div, zero_add, sub_zero] at e
    by_contra hn
    have := val_ge_tiny hn
    norm_num at this e
    linarith
  · left
    have hc : x.isNaN = true ∨ x.isInf = true := by
      by_contra hc
      apply hx
      rw [not_or, Bool.not_eq_true, Bool.not_eq_true] at hc
      rw [finite32_iff]
      unfold F32.isNaN F32.isInf at hc
      simp only [decide_eq_false_iff_not] at hc
      omega
    have nn : F32.isNaN F32.nan = true := by decide +kernel
    have zl : F32.zero.low = 0 := by decide +kernel
    show F32.isNaN (F32.mul x F32.zero) = true
    unfold F32.mul
    simp only
    rcases hc with h | h
    · rw [h]; exact nn
    · rw [h, zl]
      simp only [if_true]
      split <;> exact nn

theorem not_lt_zero32 (x y : F32) (hy : Finite32 y.bits) (h : val y ≤ 0) : F32.lt (x * F32.zero) y = false := by
  rcases mul_zero32 x with h1 | ⟨f, e⟩
  · unfold F32.lt; rw [h1]; rfl
  · rw [Bool.eq_false_iff]
    intro h'
    have := (lt_val32 f hy).mp h'
    linarith

/-- Clamping to `[-1, 1]`. -/
noncomputable def clamp1 (x : ℝ) : ℝ := min (max x (-1)) 1

theorem clamp1_near (x y : ℝ) : |clamp1 x - clamp1 y| ≤ |x - y| := by
  unfold clamp1
  refine (abs_min_sub_min_le_max _ _ _ _).trans ?_
  rw [sub_self, abs_zero, max_eq_left (abs_nonneg _)]
  refine (abs_max_sub_max_le_max _ _ _ _).trans ?_
  rw [sub_self, abs_zero, max_eq_left (abs_nonneg _)]

theorem clamp1_abs (x : ℝ) : |clamp1 x| ≤ 1 := by
  unfold clamp1
  rw [abs_le]
  exact ⟨le_min (le_max_right _ _) (by norm_num), min_le_right _ _⟩

/-- The cosine of the angle opposite to a side, by the law of cosines. -/
theorem cosine_ok {D1 D2 L : F32} (h1 : Finite32 D1.bits) (h2 : Finite32 D2.bits) (h3 : Finite32 L.bits)
    (l1 : 1 / 2 ^ 20 ≤ val D1) (u1 : val D1 ≤ 2 ^ 50) (l2 : 1 / 2 ^ 20 ≤ val D2) (u2 : val D2 ≤ 2 ^ 50) (l3 : 0 ≤ val L) (u3 : val L ≤ 2 ^ 50) {c : F32}
    (hc : c = NumOps.min (NumOps.max ((D1 + D2 - L) * (NumOps.half * (NumOps.one / NumOps.sqrt (D1 * D2)))) (-NumOps.one)) NumOps.one) :
    Finite32 c.bits ∧ |val c| ≤ 1 ∧ |val c - clamp1 ((val D1 + val D2 - val L) / (2 * √(val D1 * val D2)))| ≤
      11 / 2 ^ 24 * ((val D1 + val D2 + val L) / (2 * √(val D1 * val D2))) := by
  have S0 : 1 / 2 ^ 40 ≤ val D1 * val D2 := le_trans (by norm_num) (mul_le_mul l1 l2 (by positivity) (by linarith))
  have S1 : val D1 * val D2 ≤ 2 ^ 100 := (mul_le_mul u1 u2 (by linarith) (by positivity)).trans (by norm_num)
  have Sp : 0 < val D1 * val D2 := lt_of_lt_of_le (by positivity) S0
  obtain ⟨f1, e1⟩ := mul_ok h1 h2 (by rw [abs_of_pos Sp]; exact S1.trans (by norm_num))
  rw [abs_of_pos Sp] at e1
  obtain ⟨f2, e2⟩ := recip_sqrt_ok f1 (le_trans (by norm_num) S0) S1 (e1.trans (by linarith))
  change Finite32 (NumOps.one / NumOps.sqrt (D1 * D2) : F32).bits at f2
  change |val (NumOps.one / NumOps.sqrt (D1 * D2) : F32) - _| ≤ _ at e2
  have q0 : 0 < √(val D1 * val D2) := Real.sqrt_pos.mpr Sp
  have am : 2 * √(val D1 * val D2) ≤ val D1 + val D2 := by
    have h := Real.mul_self_sqrt Sp.le
    nlinarith [sq_nonneg (val D1 - val D2)]
  have q1 : √(val D1 * val D2) ≤ 2 ^ 50 := by linarith
  have q2 : 1 / 2 ^ 20 ≤ √(val D1 * val D2) := Real.le_sqrt_of_sq_le (by norm_num at S0 ⊢; exact S0)
  obtain ⟨hf, hv⟩ : Finite32 (NumOps.half : F32).bits ∧ val (NumOps.half : F32) = 1 / 2 := by
    refine ⟨by decide +kernel, ?_⟩
    have : value32 (NumOps.half : F32).bits = 1 / 2 := by decide +kernel
    rw [val, real, this]; norm_num
  obtain ⟨of, ov⟩ : Finite32 (NumOps.one : F32).bits ∧ val (NumOps.one : F32) = 1 := ⟨one_finite, one_real⟩
  obtain ⟨nf, nv⟩ : Finite32 (-NumOps.one : F32).bits ∧ val (-NumOps.one : F32) = -1 :=
    ⟨neg_finite.mpr one_finite, by rw [show val (-NumOps.one : F32) = -val (NumOps.one : F32) from neg_real _, ov]⟩
  generalize (NumOps.one / NumOps.sqrt (D1 * D2) : F32) = r at *
  set R := 1 / √(val D1 * val D2) with hR
  have R0 : 1 / 2 ^ 50 ≤ R := one_div_le_one_div_of_le q0 q1
  have R1 : R ≤ 2 ^ 20 := by rw [hR, div_le_iff₀ q0]; linarith
  have Rp : 0 < R := by positivity
  have e2' := abs_le.mp e2
  have rb : |val r| ≤ 1.001 * R := by rw [abs_le]; constructor <;> linarith
  obtain ⟨f3, e3, b3⟩ := mul_bound hf f2 (P := 1.001 * R / 2) (by rw [hv, abs_mul]; norm_num; linarith) (by linarith)
  rw [hv] at e3
  generalize (NumOps.half * r : F32) = h at *
  have e3' := abs_le.mp e3
  have eh : |val h - R / 2| ≤ 3.8 / 2 ^ 24 * R := by rw [abs_le]; constructor <;> linarith
  have b3' : |val h| ≤ 0.501 * R := by linarith
  -- the numerator
  obtain ⟨f4, e4, b4⟩ := add_bound h1 h2 (X := val D1) (Y := val D2) (by rw [abs_of_nonneg (by linarith)]) (by rw [abs_of_nonneg (by linarith)]) (by linarith)
  generalize D1 + D2 = n at *
  obtain ⟨f5, e5, b5⟩ := sub_bound2 f4 h3 b4 (Y := val L) (by rw [abs_of_nonneg l3]) (by linarith)
  generalize n - L = x at *
  set W := val D1 + val D2 + val L with hW
  have W0 : 0 < W := by linarith
  have ex : |val x - (val D1 + val D2 - val L)| ≤ 2.01 / 2 ^ 24 * W := by
    have e4' := abs_le.mp e4
    have e5' := abs_le.mp e5
    rw [abs_le]; constructor <;> linarith
  have bx : |val x| ≤ 1.001 * W := by linarith
  have bX : |val D1 + val D2 - val L| ≤ W := by rw [abs_le]; constructor <;> linarith
  have WR : 0 < W * R := by positivity
  have WR2 : 2 ≤ W * R := by
    rw [hR, mul_one_div, le_div_iff₀ q0]; linarith
  have bp : |val x * val h| ≤ 0.502 * (W * R) := by
    rw [abs_mul]
    refine (mul_le_mul bx b3' (abs_nonneg _) (by positivity)).trans ?_
    linarith
  have WRu : W * R ≤ 2 ^ 80 := (mul_le_mul (show W ≤ 2 ^ 52 by linarith) R1 Rp.le (by positivity)).trans (by norm_num)
  obtain ⟨f6, e6, -⟩ := mul_bound f5 f3 bp (by linarith)
  have e7 : |val x * val h - (val D1 + val D2 - val L) * (R / 2)| ≤ 4.9 / 2 ^ 24 * (W * R) := by
    have : val x * val h - (val D1 + val D2 - val L) * (R / 2) =
      (val x - (val D1 + val D2 - val L)) * val h + (val D1 + val D2 - val L) * (val h - R / 2) := by ring
    rw [this]
    refine (abs_add_le _ _).trans ?_
    rw [abs_mul, abs_mul]
    have a1 := mul_le_mul ex b3' (abs_nonneg _) (by positivity)
    have a2 := mul_le_mul bX eh (abs_nonneg _) W0.le
    linarith
  generalize x * h = y at *
  obtain ⟨g1, v1⟩ := fmax_val32 f6 nf
  obtain ⟨g2, v2⟩ := fmin_val32 g1 of
  have hc' : c = F32.fmin (F32.fmax y (-NumOps.one)) NumOps.one := hc
  have vc : val c = clamp1 (val y) := by rw [hc', v2, v1, nv, ov]; rfl
  refine ⟨by rw [hc']; exact g2, by rw [vc]; exact clamp1_abs _, ?_⟩
  rw [vc]
  refine (clamp1_near _ _).trans ?_
  have k1 : (val D1 + val D2 - val L) / (2 * √(val D1 * val D2)) = (val D1 + val D2 - val L) * (R / 2) := by rw [hR]; field_simp
  have k2 : W / (2 * √(val D1 * val D2)) = W * R / 2 := by rw [hR]; field_simp
  rw [k1, k2]
  have := abs_sub_le (val y) (val x * val h) ((val D1 + val D2 - val L) * (R / 2))
  linarith

/-- The correction of the middle joint before the weight. -/
theorem computeMid_ok {j : TwoBone F32} {s : Setup F32} {L : F4 F32} (hax : Fin3 j.midAxis)
    (hu : |dot3 (valVec j.midAxis) (valVec j.midAxis) - 1| ≤ 1 / 2 ^ 20) {D1 D2 D3 : F32} (g1 : s.startMidLen2 0 = D1) (g2 : s.midEndLen2 0 = D2)
    (g3 : s.startEndLen2 0 = D3) (h1 : Finite32 D1.bits) (h2 : Finite32 D2.bits) (h3 : Finite32 D3.bits) (h4 : Finite32 (L 0).bits)
    (l1 : 1 / 2 ^ 20 ≤ val D1) (u1 : val D1 ≤ 2 ^ 50) (l2 : 1 / 2 ^ 20 ≤ val D2) (u2 : val D2 ≤ 2 ^ 50) (l3 : 0 ≤ val D3) (u3 : val D3 ≤ 2 ^ 50)
    (l4 : 0 ≤ val (L 0)) (u4 : val (L 0) ≤ 2 ^ 50) :
    (∀ c, Finite32 (j.computeMid polyTrig s L c).bits) ∧ |norm2 (valVec (j.computeMid polyTrig s L)) - 1| ≤ 1 / 2 ^ 18 ∧
    ∃ C0 C1 φ : ℝ, |C0| ≤ 1 ∧ |C1| ≤ 1 ∧
      |C0 - clamp1 ((val D1 + val D2 - val (L 0)) / (2 * √(val D1 * val D2)))| ≤
        11 / 2 ^ 24 * ((val D1 + val D2 + val (L 0)) / (2 * √(val D1 * val D2))) ∧
      |C1 - clamp1 ((val D1 + val D2 - val D3) / (2 * √(val D1 * val D2)))| ≤
        11 / 2 ^ 24 * ((val D1 + val D2 + val D3) / (2 * √(val D1 * val D2))) ∧
      |φ - (Real.arccos C0 - if NumOps.lt (vec3DotS (vec3Cross s.startMidMs j.midAxis) s.midEndMs 0) (NumOps.zero : F32) then
        -Real.arccos C1 else Real.arccos C1)| ≤ 29 / 2 ^ 24 ∧
      (∀ i, i ≠ 3 → |val (j.computeMid polyTrig s L i) - val (j.midAxis i) * Real.sin (φ / 2)| ≤ 8 / 2 ^ 24) ∧
      |val (j.computeMid polyTrig s L 3) - Real.cos (φ / 2)| ≤ 8 / 2 ^ 24 := by
  obtain ⟨angle, hq, ha⟩ := computeMid_shape j s L
  rw [g1, g2, g3] at ha
  rw [hq]
  have k0 := cosine_ok h1 h2 h4 l1 u1 l2 u2 l4 u4 rfl
  have k1 := cosine_ok h1 h2 h3 l1 u1 l2 u2 l3 u3 rfl
  generalize (NumOps.min (NumOps.max ((D1 + D2 - L 0) * (NumOps.half * (NumOps.one / NumOps.sqrt (D1 * D2)))) (-NumOps.one)) NumOps.one : F32) = c0 at *
  generalize (NumOps.min (NumOps.max ((D1 + D2 - D3) * (NumOps.half * (NumOps.one / NumOps.sqrt (D1 * D2)))) (-NumOps.one)) NumOps.one : F32) = c1 at *
  obtain ⟨n0, e0⟩ := acos_near k0.1
  obtain ⟨n1, e1⟩ := acos_near k1.1
  have p := Real.pi_lt_d2
  have a0 := Real.arccos_nonneg (val c0)
  have a1 := Real.arccos_nonneg (val c1)
  have a0' := Real.arccos_le_pi (val c0)
  have a1' := Real.arccos_le_pi (val c1)
  generalize NumOps.lt (vec3DotS (vec3Cross s.startMidMs j.midAxis) s.midEndMs 0) (NumOps.zero : F32) = b at *
  obtain ⟨nb, eb⟩ := flip_ok b n1
  generalize acos c0 = x0 at *
  generalize acos c1 = x1 at *
  have e0' := abs_le.mp e0
  have e1' := abs_le.mp e1
  obtain ⟨na, ea, ba⟩ := sub_bound2 n0 nb (X := 3.16) (Y := 3.16) (by rw [abs_le]; constructor <;> linarith)
    (by rw [eb]; cases b <;> simp only [if_true, if_false, Bool.false_eq_true, abs_neg] <;> rw [abs_le] <;> constructor <;> linarith) (by norm_num)
  rw [← ha] at na ea ba
  have hax' : ∀ i, i ≠ 3 → Finite32 (j.midAxis i).bits := hax
  have hu' : |val (j.midAxis 0) ^ 2 + val (j.midAxis 1) ^ 2 + val (j.midAxis 2) ^ 2 - 1| ≤ 1 / 2 ^ 20 := by
    have : dot3 (valVec j.midAxis) (valVec j.midAxis) = val (j.midAxis 0) ^ 2 + val (j.midAxis 1) ^ 2 + val (j.midAxis 2) ^ 2 := by
      simp only [dot3, valVec]; ring
    rw [← this]; exact hu
  have hA : |val (angle 0)| ≤ 4095 := ba.trans (by norm_num)
  obtain ⟨q1, q2⟩ := fromAxisAngle_near hax' (by norm_num) hu' na hA
  have qn := fromAxisAngle_unit hax' (by norm_num) hu' na hA
  refine ⟨?_, ?_, val c0, val c1, val (angle 0), k0.2.1, k1.2.1, k0.2.2, k1.2.2, ?_, fun i hi => (q1 i hi).2, q2.2⟩
  · apply four_all
    exacts [(q1 0 (by decide)).1, (q1 1 (by decide)).1, (q1 2 (by decide)).1, q2.1]
  · have : norm2 (valVec (quatFromAxisAngle (polyTrig (α := F32)).sinCos j.midAxis angle)) =
        Ozz.Sampling.sumSq (fun i => val (quatFromAxisAngle (polyTrig (α := F32)).sinCos j.midAxis angle i)) := by
      unfold norm2 Ozz.Sampling.sumSq valVec; ring
    rw [this]
    exact qn.trans (by norm_num)
  · rw [eb] at ea
    have ea' := abs_le.mp ea
    cases b <;> simp only [if_true, if_false, Bool.false_eq_true] at ea' ⊢ <;> rw [abs_le] <;> constructor <;> linarith

end Ozz.IK
