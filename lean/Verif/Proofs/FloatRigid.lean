import Verif.Proofs.FloatInvert
import Verif.Proofs.IK
import Verif.Spec.FloatIK

/-! Helper lemmas: the inverse of a matrix of weighted bounds, and of a nearly rigid matrix, in single precision. -/

namespace Ozz
open F32 Ieee Spec IK

/-! ### Weighted bounds -/

theorem permMinors_weights (α β : Fin 4 → ℝ) (c r : Fin 4) :
    α c * β r * (permMinors fun c r => α r * β c).2 c r = 6 * (α 0 * α 1 * α 2 * α 3 * (β 0 * β 1 * β 2 * β 3)) := by
  revert c r
  apply four <;> apply four <;>
    simp only [permMinors, swz, swz2, pick, f4_0, f4_1, f4_2, f4_3, Pi.add_apply, Pi.mul_apply] <;> ring

theorem permDet_weights (α β : Fin 4 → ℝ) :
    permDet (fun c r => α r * β c) = 24 * (α 0 * α 1 * α 2 * α 3 * (β 0 * β 1 * β 2 * β 3)) := by
  simp only [permDet, permMinors, swz, swz2, pick, f4_0, f4_1, f4_2, f4_3, Pi.add_apply, Pi.mul_apply]
  ring

/-- The exact inverse. -/
theorem inv_entry (M : Mat4 ℝ) (h : (toMatrix M).det ≠ 0) (c r : Fin 4) :
    (toMatrix M)⁻¹ r c = M.minors.2 c r / detOf M := by
  have h1 : (toMatrix M)⁻¹ = toMatrix M.invert := Matrix.inv_eq_right_inv (invert_mul M h).1
  rw [h1]
  show M.invert c r = _
  rw [invert_eq]
  ring

/-! ### Nearly rigid matrices -/

/-- The other two of three indices. -/
def oth : Fin 4 → Fin 4 := f4 1 0 0 0
def oth' : Fin 4 → Fin 4 := f4 2 2 1 1

theorem perm_rot (B : Mat4 ℝ) (c r : Fin 4) (hc : c ≠ 3) (hr : r ≠ 3) :
    (permMinors B).2 c r =
      B 3 3 * (B (oth r) (oth c) * B (oth' r) (oth' c) + B (oth r) (oth' c) * B (oth' r) (oth c)) +
      B (oth r) 3 * (B 3 (oth c) * B (oth' r) (oth' c) + B 3 (oth' c) * B (oth' r) (oth c)) +
      B (oth' r) 3 * (B 3 (oth c) * B (oth r) (oth' c) + B 3 (oth' c) * B (oth r) (oth c)) := by
  revert r
  revert c
  refine four_ne ?_ ?_ ?_ <;> refine four_ne ?_ ?_ ?_ <;>
    simp only [permMinors, swz, swz2, pick, f4_0, f4_1, f4_2, f4_3, Pi.add_apply, Pi.mul_apply, oth, oth'] <;> ring

theorem perm_trans (B : Mat4 ℝ) (r : Fin 4) (hr : r ≠ 3) :
    (permMinors B).2 3 r =
      B 3 0 * (B (oth r) 1 * B (oth' r) 2 + B (oth r) 2 * B (oth' r) 1) +
      B 3 1 * (B (oth r) 0 * B (oth' r) 2 + B (oth r) 2 * B (oth' r) 0) +
      B 3 2 * (B (oth r) 0 * B (oth' r) 1 + B (oth r) 1 * B (oth' r) 0) := by
  revert r
  refine four_ne ?_ ?_ ?_ <;>
    simp only [permMinors, swz, swz2, pick, f4_0, f4_1, f4_2, f4_3, Pi.add_apply, Pi.mul_apply, oth, oth'] <;> ring

theorem perm_det (B : Mat4 ℝ) :
    permDet B = B 0 0 * (permMinors B).2 0 0 + B 1 0 * (permMinors B).2 0 1 + B 2 0 * (permMinors B).2 0 2 +
      B 3 0 * (B 0 3 * (B 1 1 * B 2 2 + B 1 2 * B 2 1) + B 1 3 * (B 0 1 * B 2 2 + B 0 2 * B 2 1) +
        B 2 3 * (B 0 1 * B 1 2 + B 0 2 * B 1 1)) := by
  simp only [permDet, permMinors, swz, swz2, pick, f4_0, f4_1, f4_2, f4_3, Pi.add_apply, Pi.mul_apply]
  ring

/-- Real matrices behind `Rigid32`. -/
structure RigidR (M : Mat4 ℝ) (ε T : ℝ) : Prop where
  affine : AffineMat M
  columns : ∀ i j, i ≠ 3 → j ≠ 3 → |dot3 (M i) (M j) - if i = j then 1 else 0| ≤ ε
  translation : ∀ r, r ≠ 3 → |M 3 r| ≤ T

theorem rigid_real {m : Mat4 F32} {ε T : ℝ} (h : Rigid32 m ε T) : RigidR (valMat m) ε T :=
  ⟨h.affine, h.columns, h.translation⟩

namespace RigidR
variable {M : Mat4 ℝ} {ε T : ℝ}

theorem col_sq (h : RigidR M ε T) (hε : ε ≤ 1 / 1000) (c : Fin 4) (hc : c ≠ 3) :
    M c 0 ^ 2 + M c 1 ^ 2 + M c 2 ^ 2 ≤ 1.001 := by
  have := h.columns c c hc hc
  rw [if_pos rfl, abs_le] at this
  simp only [dot3] at this
  norm_num at hε ⊢
  nlinarith [this.1, this.2]

theorem entry (h : RigidR M ε T) (hε : ε ≤ 1 / 1000) (c r : Fin 4) (hc : c ≠ 3) (hr : r ≠ 3) : |M c r| ≤ 1.001 := by
  have := h.col_sq hε c hc
  apply abs_le_of_sq_le_sq _ (by norm_num)
  revert r
  refine four_ne ?_ ?_ ?_ <;> norm_num at this ⊢ <;> nlinarith [sq_nonneg (M c 0), sq_nonneg (M c 1), sq_nonneg (M c 2)]

theorem det_sq (h : RigidR M ε T) (hε : ε ≤ 1 / 1000) : |detOf M ^ 2 - 1| ≤ 0.004 := by
  obtain ⟨a0, a1, a2, a3⟩ := h.affine
  have e : detOf M ^ 2 = dot3 (M 0) (M 0) * dot3 (M 1) (M 1) * dot3 (M 2) (M 2) +
      2 * dot3 (M 0) (M 1) * dot3 (M 0) (M 2) * dot3 (M 1) (M 2) - dot3 (M 0) (M 0) * dot3 (M 1) (M 2) ^ 2 -
      dot3 (M 1) (M 1) * dot3 (M 0) (M 2) ^ 2 - dot3 (M 2) (M 2) * dot3 (M 0) (M 1) ^ 2 := by
    simp only [detOf, Mat4.minors, swz, swz2, pick, f4_0, f4_1, f4_2, f4_3, Pi.add_apply, Pi.mul_apply, Pi.sub_apply, a0, a1, a2, a3, dot3]
    ring
  have h00 := h.columns 0 0 (by decide) (by decide)
  have h11 := h.columns 1 1 (by decide) (by decide)
  have h22 := h.columns 2 2 (by decide) (by decide)
  have h01 := h.columns 0 1 (by decide) (by decide)
  have h02 := h.columns 0 2 (by decide) (by decide)
  have h12 := h.columns 1 2 (by decide) (by decide)
  simp only [if_true] at h00 h11 h22
  rw [if_neg (by decide), sub_zero] at h01 h02 h12
  rw [e]
  generalize dot3 (M 0) (M 0) = p at *
  generalize dot3 (M 1) (M 1) = q at *
  generalize dot3 (M 2) (M 2) = r at *
  generalize dot3 (M 0) (M 1) = u at *
  generalize dot3 (M 0) (M 2) = v at *
  generalize dot3 (M 1) (M 2) = w at *
  have small : ∀ {x y X Y : ℝ}, |x| ≤ X → |y| ≤ Y → |x * y| ≤ X * Y := fun {x y X Y} hx hy => by
    rw [abs_mul]; exact mul_le_mul hx hy (abs_nonneg _) ((abs_nonneg _).trans hx)
  have p1 : |p| ≤ 1.001 := by rw [abs_le] at h00 ⊢; norm_num at *; constructor <;> linarith
  have q1 : |q| ≤ 1.001 := by rw [abs_le] at h11 ⊢; norm_num at *; constructor <;> linarith
  have r1 : |r| ≤ 1.001 := by rw [abs_le] at h22 ⊢; norm_num at *; constructor <;> linarith
  have p0 : |p - 1| ≤ 0.001 := h00.trans (by norm_num at hε ⊢; linarith)
  have q0 : |q - 1| ≤ 0.001 := h11.trans (by norm_num at hε ⊢; linarith)
  have r0 : |r - 1| ≤ 0.001 := h22.trans (by norm_num at hε ⊢; linarith)
  have u0 : |u| ≤ 0.001 := h01.trans (by norm_num at hε ⊢; linarith)
  have v0 : |v| ≤ 0.001 := h02.trans (by norm_num at hε ⊢; linarith)
  have w0 : |w| ≤ 0.001 := h12.trans (by norm_num at hε ⊢; linarith)
  have t1 := small (small p0 q1) r1
  have t2 := small q0 r1
  have t3 := small u0 (small v0 w0)
  have t4 := small p1 (small w0 w0)
  have t5 := small q1 (small v0 v0)
  have t6 := small r1 (small u0 u0)
  have e2 : p * q * r + 2 * u * v * w - p * w ^ 2 - q * v ^ 2 - r * u ^ 2 - 1 =
      (p - 1) * q * r + (q - 1) * r + (r - 1) + 2 * (u * (v * w)) - p * (w * w) - q * (v * v) - r * (u * u) := by ring
  rw [e2]
  rw [abs_le] at *
  norm_num at *
  constructor <;> linarith [t1.1, t1.2, t2.1, t2.2, t3.1, t3.2, t4.1, t4.2, t5.1, t5.2, t6.1, t6.2]

theorem det_bounds (h : RigidR M ε T) (hε : ε ≤ 1 / 1000) : 0.99 ≤ |detOf M| ∧ |detOf M| ≤ 1.01 := by
  have := h.det_sq hε
  rw [← sq_abs, abs_le] at this
  have h0 := abs_nonneg (detOf M)
  generalize |detOf M| = d at *
  norm_num at *
  constructor
  · by_contra hn
    nlinarith
  · by_contra hn
    nlinarith

theorem det_ne (h : RigidR M ε T) (hε : ε ≤ 1 / 1000) : (toMatrix M).det ≠ 0 := by
  have := (h.det_bounds hε).1
  rw [← detOf_eq]
  intro h0
  rw [h0, abs_zero] at this
  norm_num at this

end RigidR

theorem oth_ne {c : Fin 4} : oth c ≠ 3 ∧ oth' c ≠ 3 := by
  revert c
  decide

theorem RigidR.pair_sq {M : Mat4 ℝ} {ε T : ℝ} (h : RigidR M ε T) (hε : ε ≤ 1 / 1000) (c k : Fin 4) (hk : k ≠ 3) (hc : c ≠ 3) :
    M k (oth c) ^ 2 + M k (oth' c) ^ 2 ≤ 1.001 := by
  have := h.col_sq hε k hk
  revert c
  refine four_ne ?_ ?_ ?_ <;> simp only [oth, oth', f4_0, f4_1, f4_2] <;>
    nlinarith [sq_nonneg (M k 0), sq_nonneg (M k 1), sq_nonneg (M k 2)]

/-- The bounds used: absolute values, and a little more so that nothing is zero. -/
noncomputable def rigidBound (M : Mat4 ℝ) (T : ℝ) : Mat4 ℝ := fun c r =>
  |M c r| + 1 / 2 ^ 8 * ((if r = 3 then 1 / T else 1) * (if c = 3 then T else 1))


section
variable {M : Mat4 ℝ} {ε T : ℝ}

theorem rb_rot (h : RigidR M ε T) (hε : ε ≤ 1 / 1000) (c r : Fin 4) (hc : c ≠ 3) (hr : r ≠ 3) :
    rigidBound M T c r = |M c r| + 1 / 2 ^ 8 ∧ 0 ≤ rigidBound M T c r ∧ rigidBound M T c r ≤ 1.005 := by
  have := h.entry hε c r hc hr
  have e : rigidBound M T c r = |M c r| + 1 / 2 ^ 8 := by simp [rigidBound, hc, hr]
  refine ⟨e, ?_, ?_⟩
  · rw [e]; positivity
  · rw [e]; norm_num at this ⊢; linarith

theorem rb_bottom (h : RigidR M ε T) (c : Fin 4) (hc : c ≠ 3) : rigidBound M T c 3 = 1 / 2 ^ 8 * (1 / T) := by
  obtain ⟨a0, a1, a2, -⟩ := h.affine
  have : M c 3 = 0 := four_ne (P := fun c => M c 3 = 0) a0 a1 a2 c hc
  simp [rigidBound, hc, this]

theorem rb_corner (h : RigidR M ε T) (hT : 1 ≤ T) : rigidBound M T 3 3 = 1 + 1 / 2 ^ 8 := by
  obtain ⟨-, -, -, a3⟩ := h.affine
  have : T ≠ 0 := by linarith
  simp [rigidBound, a3, this]

theorem rb_trans (h : RigidR M ε T) (hT : 1 ≤ T) (r : Fin 4) (hr : r ≠ 3) :
    rigidBound M T 3 r = |M 3 r| + 1 / 2 ^ 8 * T ∧ 0 ≤ rigidBound M T 3 r ∧ rigidBound M T 3 r ≤ 1.004 * T := by
  have := h.translation r hr
  have e : rigidBound M T 3 r = |M 3 r| + 1 / 2 ^ 8 * T := by simp [rigidBound, hr]
  refine ⟨e, ?_, ?_⟩
  · rw [e]; positivity
  · rw [e]; norm_num; linarith

theorem rb_pair (h : RigidR M ε T) (hε : ε ≤ 1 / 1000) (c k l : Fin 4) (hc : c ≠ 3) (hk : k ≠ 3) (hl : l ≠ 3) :
    rigidBound M T k (oth c) * rigidBound M T l (oth' c) + rigidBound M T k (oth' c) * rigidBound M T l (oth c) ≤ 1.02 := by
  have s1 := h.pair_sq hε c k hk hc
  have s2 := h.pair_sq hε c l hl hc
  have o := oth_ne (c := c)
  rw [(rb_rot h hε k _ hk o.1).1, (rb_rot h hε l _ hl o.1).1, (rb_rot h hε k _ hk o.2).1, (rb_rot h hε l _ hl o.2).1]
  have e1 := h.entry hε k _ hk o.1
  have e2 := h.entry hε k _ hk o.2
  have e3 := h.entry hε l _ hl o.1
  have e4 := h.entry hε l _ hl o.2
  rw [← sq_abs (M k (oth c)), ← sq_abs (M k (oth' c))] at s1
  rw [← sq_abs (M l (oth c)), ← sq_abs (M l (oth' c))] at s2
  generalize |M k (oth c)| = x at *
  generalize |M k (oth' c)| = x' at *
  generalize |M l (oth c)| = y at *
  generalize |M l (oth' c)| = y' at *
  norm_num at *
  nlinarith [sq_nonneg (x - y'), sq_nonneg (x' - y)]

theorem rb_mixed (h : RigidR M ε T) (hT : 1 ≤ T) (k i : Fin 4) (hk : k ≠ 3) (hi : i ≠ 3) {x : ℝ} (hx0 : 0 ≤ x) (hx : x ≤ 1.03) :
    rigidBound M T k 3 * (rigidBound M T 3 i * x) ≤ 0.0041 := by
  obtain ⟨-, h0, h1⟩ := rb_trans h hT i hi
  rw [rb_bottom h k hk]
  have hT0 : (0 : ℝ) < T := by linarith
  have a : rigidBound M T 3 i * x ≤ 1.004 * T * 1.03 := mul_le_mul h1 hx hx0 (by positivity)
  calc _ ≤ 1 / 2 ^ 8 * (1 / T) * (1.004 * T * 1.03) := mul_le_mul_of_nonneg_left a (by positivity)
    _ = 1 / 2 ^ 8 * (1.004 * 1.03) := by field_simp
    _ ≤ _ := by norm_num

theorem rb_perm_rot (h : RigidR M ε T) (hε : ε ≤ 1 / 1000) (hT : 1 ≤ T) (c r : Fin 4) (hc : c ≠ 3) (hr : r ≠ 3) :
    (permMinors (rigidBound M T)).2 c r ≤ 1.042 := by
  have p := rb_pair h hε c (oth r) (oth' r) hc oth_ne.1 oth_ne.2
  have q := fun k i => rb_rot (T := T) h hε k i
  have z := rb_corner h hT
  have m1 := rb_mixed h hT (oth r) (oth c) oth_ne.1 oth_ne.1 (q (oth' r) (oth' c) oth_ne.2 oth_ne.2).2.1
    ((q (oth' r) (oth' c) oth_ne.2 oth_ne.2).2.2.trans (by norm_num))
  have m2 := rb_mixed h hT (oth r) (oth' c) oth_ne.1 oth_ne.2 (q (oth' r) (oth c) oth_ne.2 oth_ne.1).2.1
    ((q (oth' r) (oth c) oth_ne.2 oth_ne.1).2.2.trans (by norm_num))
  have m3 := rb_mixed h hT (oth' r) (oth c) oth_ne.2 oth_ne.1 (q (oth r) (oth' c) oth_ne.1 oth_ne.2).2.1
    ((q (oth r) (oth' c) oth_ne.1 oth_ne.2).2.2.trans (by norm_num))
  have m4 := rb_mixed h hT (oth' r) (oth' c) oth_ne.2 oth_ne.2 (q (oth r) (oth c) oth_ne.1 oth_ne.1).2.1
    ((q (oth r) (oth c) oth_ne.1 oth_ne.1).2.2.trans (by norm_num))
  rw [perm_rot _ c r hc hr, z, mul_add (rigidBound M T (oth r) 3), mul_add (rigidBound M T (oth' r) 3)]
  have : (1 + 1 / 2 ^ 8 : ℝ) * (rigidBound M T (oth r) (oth c) * rigidBound M T (oth' r) (oth' c) +
      rigidBound M T (oth r) (oth' c) * rigidBound M T (oth' r) (oth c)) ≤ (1 + 1 / 2 ^ 8) * 1.02 :=
    mul_le_mul_of_nonneg_left p (by positivity)
  norm_num at *
  linarith

theorem rb_perm_trans (h : RigidR M ε T) (hε : ε ≤ 1 / 1000) (hT : 1 ≤ T) (r : Fin 4) (hr : r ≠ 3) :
    (permMinors (rigidBound M T)).2 3 r ≤ 3.08 * T := by
  have p := fun c hc => rb_pair h hε c (oth r) (oth' r) hc oth_ne.1 oth_ne.2
  have p0 := p 0 (by decide)
  have p1 := p 1 (by decide)
  have p2 := p 2 (by decide)
  simp only [oth, oth', f4_0, f4_1, f4_2] at p0 p1 p2
  have q := fun k i => rb_rot (T := T) h hε k i
  have nn : ∀ k k' i i' : Fin 4, k ≠ 3 → k' ≠ 3 → i ≠ 3 → i' ≠ 3 → 0 ≤ rigidBound M T k i * rigidBound M T k' i' + rigidBound M T k i' * rigidBound M T k' i := by
    intro k k' i i' a b c d
    have := (q k i a c).2.1
    have := (q k' i' b d).2.1
    have := (q k i' a d).2.1
    have := (q k' i b c).2.1
    positivity
  rw [perm_trans _ r hr]
  simp only [oth, oth']
  have g : ∀ i : Fin 4, i ≠ 3 → ∀ {x : ℝ}, 0 ≤ x → x ≤ 1.02 → rigidBound M T 3 i * x ≤ 1.004 * T * 1.02 := fun i hi x h0 h1 =>
    mul_le_mul (rb_trans h hT i hi).2.2 h1 h0 (by positivity)
  have o1 : f4 (1 : Fin 4) 0 0 0 r ≠ 3 := oth_ne.1
  have o2 : f4 (2 : Fin 4) 2 1 1 r ≠ 3 := oth_ne.2
  have g0 := g 0 (by decide) (nn (f4 1 0 0 0 r) (f4 2 2 1 1 r) 1 2 o1 o2 (by decide) (by decide)) p0
  have g1 := g 1 (by decide) (nn (f4 1 0 0 0 r) (f4 2 2 1 1 r) 0 2 o1 o2 (by decide) (by decide)) p1
  have g2 := g 2 (by decide) (nn (f4 1 0 0 0 r) (f4 2 2 1 1 r) 0 1 o1 o2 (by decide) (by decide)) p2
  norm_num at *
  linarith

theorem rb_perm_det (h : RigidR M ε T) (hε : ε ≤ 1 / 1000) (hT : 1 ≤ T) :
    permDet (rigidBound M T) ≤ 3.2 * |detOf M| := by
  have d := (h.det_bounds hε).1
  have q := fun k hk => rb_rot (T := T) h hε k 0 hk (by decide)
  have r := fun k hk => rb_perm_rot h hε hT 0 k (by decide) hk
  have g : ∀ k : Fin 4, k ≠ 3 → rigidBound M T k 0 * (permMinors (rigidBound M T)).2 0 k ≤ 1.005 * 1.042 := by
    intro k hk
    exact (mul_le_mul_of_nonneg_left (r k hk) (q k hk).2.1).trans (mul_le_mul_of_nonneg_right (q k hk).2.2 (by norm_num))
  have g0 := g 0 (by decide)
  have g1 := g 1 (by decide)
  have g2 := g 2 (by decide)
  have nn : ∀ k k' i i' : Fin 4, k ≠ 3 → k' ≠ 3 → i ≠ 3 → i' ≠ 3 → 0 ≤ rigidBound M T k i * rigidBound M T k' i' + rigidBound M T k i' * rigidBound M T k' i := by
    intro k k' i i' a b c d
    have := (rb_rot (T := T) h hε k i a c).2.1
    have := (rb_rot (T := T) h hε k' i' b d).2.1
    have := (rb_rot (T := T) h hε k i' a d).2.1
    have := (rb_rot (T := T) h hε k' i b c).2.1
    positivity
  have p := fun k l hk hl => rb_pair h hε 0 k l (by decide) hk hl
  simp only [oth, oth', f4_0] at p
  have m0 := rb_mixed h hT 0 0 (by decide) (by decide) (nn 1 2 1 2 (by decide) (by decide) (by decide) (by decide))
    ((p 1 2 (by decide) (by decide)).trans (by norm_num))
  have m1 := rb_mixed h hT 1 0 (by decide) (by decide) (nn 0 2 1 2 (by decide) (by decide) (by decide) (by decide))
    ((p 0 2 (by decide) (by decide)).trans (by norm_num))
  have m2 := rb_mixed h hT 2 0 (by decide) (by decide) (nn 0 1 1 2 (by decide) (by decide) (by decide) (by decide))
    ((p 0 1 (by decide) (by decide)).trans (by norm_num))
  rw [perm_det]
  generalize |detOf M| = D at *
  norm_num at *
  linarith

end


theorem rigid_app {m : Mat4 F32} {ε T : ℝ} (h : Rigid32 m ε T) (hε : ε ≤ 1 / 1000) (hT : 1 ≤ T) (hT2 : T ≤ 2 ^ 16) (c : Fin 4) :
    AppV (m c) (valMat m c) (rigidBound (valMat m) T c) 0 24 := by
  have hr := rigid_real h
  have hT0 : (0 : ℝ) < T := by linarith
  intro r
  refine App.exact_ (h.finite c r) ?_ ?_ ?_
  · show |valMat m c r| ≤ |valMat m c r| + _
    have : (0 : ℝ) ≤ 1 / 2 ^ 8 * ((if r = 3 then 1 / T else 1) * (if c = 3 then T else 1)) := by
      split <;> split <;> positivity
    linarith
  · have h1 : 1 / 2 ^ 16 ≤ 1 / T := one_div_le_one_div_of_le hT0 hT2
    have : (1 : ℝ) / 2 ^ 24 ≤ 1 / 2 ^ 8 * ((if r = 3 then 1 / T else 1) * (if c = 3 then T else 1)) := by
      split <;> split <;> (try field_simp) <;> norm_num at * <;> linarith
    show _ ≤ |valMat m c r| + _
    linarith [abs_nonneg (valMat m c r)]
  · by_cases hc : c = 3
    · subst hc
      by_cases hr3 : r = 3
      · subst hr3; rw [rb_corner hr hT]; norm_num
      · refine (rb_trans hr hT r hr3).2.2.trans ?_
        norm_num at *; linarith
    · by_cases hr3 : r = 3
      · subst hr3
        rw [rb_bottom hr c hc]
        have : 1 / T ≤ 1 := by rw [div_le_one hT0]; exact hT
        norm_num at *; linarith
      · exact (rb_rot hr hε c r hc hr3).2.2.trans (by norm_num)

/-- The entries of the computed inverse of a nearly rigid matrix. -/
theorem rigid_inverse {m : Mat4 F32} {ε T : ℝ} (h : Rigid32 m ε T) (hε : ε ≤ 1 / 1000) (hT : 1 ≤ T) (hT2 : T ≤ 2 ^ 16) :
    (∀ c r, Finite32 (m.invert c r).bits) ∧
    (∀ c r, c ≠ 3 → r ≠ 3 → App (m.invert c r) ((valMat m).invert c r) 1.2 102 1) ∧
    (∀ r, r ≠ 3 → App (m.invert 3 r) ((valMat m).invert 3 r) (3.2 * T) 113 18) := by
  have hr := rigid_real h
  have ha := rigid_app h hε hT hT2
  obtain ⟨d1, d2⟩ := hr.det_bounds hε
  have hd : 0 < |detOf (valMat m)| := by norm_num at d1; linarith
  have near := inverse_near ha (κ := 3.2) (by norm_num) (rb_perm_det hr hε hT) (by norm_num at *; linarith) (by norm_num at *; linarith)
  have minors := (minors_app ha).2
  have mag : ∀ c r, |(valMat m).minors.2 c r| ≤ (permMinors (rigidBound (valMat m) T)).2 c r := by
    intro c r
    revert c
    exact four (minors.1 r).mag (minors.2.1 r).mag (minors.2.2.1 r).mag (minors.2.2.2 r).mag
  have e : ∀ c r, (valMat m).invert c r = (valMat m).minors.2 c r / detOf (valMat m) := by
    intro c r; rw [invert_eq]; ring
  have inv : 1 / |detOf (valMat m)| ≤ 1.0102 := by
    rw [div_le_iff₀ hd]; norm_num at *; linarith
  have q : ∀ c r, (permMinors (rigidBound (valMat m) T)).2 c r / |detOf (valMat m)| ≤ (permMinors (rigidBound (valMat m) T)).2 c r * 1.0102 := by
    intro c r
    rw [div_eq_mul_one_div]
    exact mul_le_mul_of_nonneg_left inv ((abs_nonneg _).trans (mag c r))
  refine ⟨fun c r => (near c r).1, fun c r hc hr3 => ⟨(near c r).1, ?_, ?_, by norm_num, by norm_num⟩,
    fun r hr3 => ⟨(near 3 r).1, ?_, ?_, ?_, ?_⟩⟩
  · rw [e, abs_div]
    refine (div_le_div_of_nonneg_right (mag c r) hd.le).trans ((q c r).trans ?_)
    have := rb_perm_rot hr hε hT c r hc hr3
    norm_num at *; linarith
  · rw [e]
    refine (near c r).2.trans ?_
    refine (mul_le_mul_of_nonneg_right ((q c r).trans (mul_le_mul_of_nonneg_right (rb_perm_rot hr hε hT c r hc hr3) (by norm_num))) (by norm_num)).trans ?_
    norm_num
  · rw [e, abs_div]
    refine (div_le_div_of_nonneg_right (mag 3 r) hd.le).trans ((q 3 r).trans ?_)
    have := rb_perm_trans hr hε hT r hr3
    norm_num at *; linarith
  · rw [e]
    refine (near 3 r).2.trans ?_
    refine (mul_le_mul_of_nonneg_right ((q 3 r).trans (mul_le_mul_of_nonneg_right (rb_perm_trans hr hε hT r hr3) (by norm_num))) (by norm_num)).trans ?_
    norm_num
    linarith
  · norm_num; linarith
  · norm_num at *; linarith

section
variable {α : Type} [Add α] [Mul α]

/-- A row of `transformPoint`. -/
theorem point_shape (m : Mat4 α) (p : F4 α) (r : Fin 4) :
    m.transformPoint p r = (p 1 * m 1 r + p 0 * m 0 r) + (p 2 * m 2 r + m 3 r) := by
  revert r
  apply four <;> rfl

theorem vector_shape (m : Mat4 α) (p : F4 α) (r : Fin 4) :
    m.transformVector p r = p 1 * m 1 r + (p 2 * m 2 r + p 0 * m 0 r) := by
  revert r
  apply four <;> rfl
end

/-- A point through the computed inverse. -/
theorem rigid_point {m : Mat4 F32} {ε T : ℝ} (h : Rigid32 m ε T) (hε : ε ≤ 1 / 1000) (hT : 1 ≤ T) (hT2 : T ≤ 2 ^ 16)
    {x : F4 F32} (hx : ∀ i, i ≠ 3 → Finite32 (x i).bits) (hX : ∀ i, i ≠ 3 → |val (x i)| ≤ T) (r : Fin 4) (hr : r ≠ 3) :
    App (m.invert.transformPoint x r) ((valMat m).invert.transformPoint (valVec x) r) (6.8 * T) 117 21 := by
  obtain ⟨-, h1, h2⟩ := rigid_inverse h hε hT hT2
  have ax : ∀ i, i ≠ 3 → App (x i) (val (x i)) T 0 16 := fun i hi =>
    App.exact_ (hx i hi) (hX i hi) (by norm_num; linarith) hT2
  rw [point_shape, point_shape]
  have p := fun i hi => (ax i hi).mul (h1 i r hi hr) (by decide) (by decide) (by decide)
  have s := ((p 1 (by decide)).add (p 0 (by decide)) (by decide) (by decide) (by decide)).add
    ((p 2 (by decide)).add (h2 r hr) (by decide) (by decide) (by decide)) (by decide) (by decide) (by decide)
  refine s.mono rfl (le_of_eq ?_) (by decide) (by decide) ?_
  · ring
  · norm_num at *; linarith

/-- A nearly rigid matrix hardly changes the length of a vector. -/
theorem rigid_length {M : Mat4 ℝ} {ε T : ℝ} (h : RigidR M ε T) (v x : F4 ℝ) (hx : SendsVector M v x) :
    |dot3 x x - dot3 v v| ≤ 3 * ε * dot3 v v := by
  have h0 := hx 0
  have h1 := hx 1
  have h2 := hx 2
  simp only [Fin.castSucc_zero, Fin.castSucc_one, Fin.reduceCastSucc] at h0 h1 h2
  have h00 := h.columns 0 0 (by decide) (by decide)
  have h11 := h.columns 1 1 (by decide) (by decide)
  have h22 := h.columns 2 2 (by decide) (by decide)
  have h01 := h.columns 0 1 (by decide) (by decide)
  have h02 := h.columns 0 2 (by decide) (by decide)
  have h12 := h.columns 1 2 (by decide) (by decide)
  simp only [if_true] at h00 h11 h22
  rw [if_neg (by decide), sub_zero] at h01 h02 h12
  have hε0 : 0 ≤ ε := (abs_nonneg _).trans h01
  have e : dot3 x x - dot3 v v = (dot3 (M 0) (M 0) - 1) * v 0 ^ 2 + (dot3 (M 1) (M 1) - 1) * v 1 ^ 2 + (dot3 (M 2) (M 2) - 1) * v 2 ^ 2 +
      dot3 (M 0) (M 1) * (2 * v 0 * v 1) + dot3 (M 0) (M 2) * (2 * v 0 * v 2) + dot3 (M 1) (M 2) * (2 * v 1 * v 2) := by
    simp only [dot3, h0, h1, h2]; ring
  have b : ∀ {g : ℝ} (a b : ℝ), |g| ≤ ε → |g * (2 * a * b)| ≤ ε * (a ^ 2 + b ^ 2) := by
    intro g a b hg
    rw [abs_mul]
    refine mul_le_mul hg ?_ (abs_nonneg _) hε0
    rw [abs_le]; constructor <;> nlinarith [sq_nonneg (a - b), sq_nonneg (a + b)]
  have c : ∀ {g : ℝ} (a : ℝ), |g| ≤ ε → |g * a ^ 2| ≤ ε * a ^ 2 := by
    intro g a hg
    rw [abs_mul, abs_of_nonneg (sq_nonneg a)]
    exact mul_le_mul_of_nonneg_right hg (sq_nonneg a)
  have t1 := c (v 0) h00
  have t2 := c (v 1) h11
  have t3 := c (v 2) h22
  have t4 := b (v 0) (v 1) h01
  have t5 := b (v 0) (v 2) h02
  have t6 := b (v 1) (v 2) h12
  rw [e, show dot3 v v = v 0 ^ 2 + v 1 ^ 2 + v 2 ^ 2 by simp only [dot3]; ring]
  rw [abs_le] at *
  constructor <;> linarith [t1.1, t1.2, t2.1, t2.2, t3.1, t3.2, t4.1, t4.2, t5.1, t5.2, t6.1, t6.2]

/-- The point back through the matrix. -/
theorem rigid_back {m : Mat4 F32} {ε T : ℝ} (h : Rigid32 m ε T) (hε : ε ≤ 1 / 1000) (hT : 1 ≤ T) (hT2 : T ≤ 2 ^ 16)
    {x : F4 F32} (hx : ∀ i, i ≠ 3 → Finite32 (x i).bits) (hX : ∀ i, i ≠ 3 → |val (x i)| ≤ T) {y : F4 ℝ}
    (hy : SendsPoint (valMat m) (valVec (m.invert.transformPoint x)) y) : dist2 y (valVec x) ≤ (T / 2 ^ 13) ^ 2 := by
  have hr := rigid_real h
  have app := fun r hr => (rigid_point h hε hT hT2 hx hX r hr).err
  obtain ⟨b0, b1, b2⟩ := invert_point hr.affine (hr.det_ne hε) (valVec x)
  generalize hP : (valMat m).invert.transformPoint (valVec x) = P at *
  set p := valVec (m.invert.transformPoint x) with hp
  have ge : ∀ r, r ≠ 3 → |p r - P r| ≤ 796 * T / 2 ^ 24 := by
    intro r hr3
    refine (app r hr3).trans ?_
    push_cast
    norm_num
    linarith
  have e0 := ge 0 (by decide)
  have e1 := ge 1 (by decide)
  have e2 := ge 2 (by decide)
  have hs : SendsVector (valMat m) (fun i => p i - P i) (fun i => y i - valVec x i) := by
    rw [point_shape] at b0 b1 b2
    have h0 := hy 0
    have h1 := hy 1
    have h2 := hy 2
    simp only [Fin.castSucc_zero, Fin.castSucc_one, Fin.reduceCastSucc] at h0 h1 h2
    intro i
    fin_cases i
    · show y 0 - valVec x 0 = valMat m 0 0 * (p 0 - P 0) + valMat m 1 0 * (p 1 - P 1) + valMat m 2 0 * (p 2 - P 2)
      rw [h0, ← b0]; ring
    · show y 1 - valVec x 1 = valMat m 0 1 * (p 0 - P 0) + valMat m 1 1 * (p 1 - P 1) + valMat m 2 1 * (p 2 - P 2)
      rw [h1, ← b1]; ring
    · show y 2 - valVec x 2 = valMat m 0 2 * (p 0 - P 0) + valMat m 1 2 * (p 1 - P 1) + valMat m 2 2 * (p 2 - P 2)
      rw [h2, ← b2]; ring
  have hl := rigid_length hr _ _ hs
  have hd : dist2 y (valVec x) = dot3 (fun i => y i - valVec x i) (fun i => y i - valVec x i) := by
    simp only [dist2, dot3]; ring
  have hq : dot3 (fun i => p i - P i) (fun i => p i - P i) ≤ 3 * (796 * T / 2 ^ 24) ^ 2 := by
    have sq : ∀ {a E : ℝ}, |a| ≤ E → a ^ 2 ≤ E ^ 2 := fun {a E} ha => by
      rw [← sq_abs]; exact pow_le_pow_left₀ (abs_nonneg _) ha 2
    have := sq e0
    have := sq e1
    have := sq e2
    simp only [dot3]
    linarith
  have h0 : 0 ≤ dot3 (fun i => p i - P i) (fun i => p i - P i) := by
    simp only [dot3]
    nlinarith [sq_nonneg (p 0 - P 0), sq_nonneg (p 1 - P 1), sq_nonneg (p 2 - P 2)]
  rw [hd]
  generalize dot3 (fun i => y i - valVec x i) (fun i => y i - valVec x i) = A at *
  generalize dot3 (fun i => p i - P i) (fun i => p i - P i) = B at *
  rw [abs_le] at hl
  have : A ≤ 1.003 * B := by
    have : 3 * ε * B ≤ 0.003 * B := mul_le_mul_of_nonneg_right (by norm_num at hε ⊢; linarith) h0
    linarith
  refine this.trans ((mul_le_mul_of_nonneg_left hq (by norm_num)).trans ?_)
  have hT3 := sq_nonneg T
  norm_num
  rw [div_pow, mul_pow, div_pow]
  norm_num
  linarith

end Ozz
