import Verif.Proofs.FloatApp
import Verif.Proofs.FloatBlend
import Verif.Proofs.Math

/-! Helper lemmas: the inverse of a matrix in single precision. -/

namespace Ozz
open F32 Ieee Spec

/-- `Mat4.minors` with every subtraction an addition: bounds for what the code computes. -/
def permMinors (m : Mat4 ℝ) : F4 ℝ × Mat4 ℝ :=
  let b1 := fun v : F4 ℝ => swz v 1 0 3 2
  let e4 := fun v : F4 ℝ => swz v 2 3 0 1
  let t0 := swz2 (m 0) (m 1) 0 1 4 5
  let t1 := swz2 (m 2) (m 3) 0 1 4 5
  let t2 := swz2 (m 0) (m 1) 2 3 6 7
  let t3 := swz2 (m 2) (m 3) 2 3 6 7
  let c0 := swz2 t0 t1 0 2 4 6
  let c1 := swz2 t1 t0 1 3 5 7
  let c2 := swz2 t2 t3 0 2 4 6
  let c3 := swz2 t3 t2 1 3 5 7
  let tmp1 := b1 (c2 * c3)
  let minor0 := c1 * tmp1
  let minor1 := c0 * tmp1
  let tmp1 := e4 tmp1
  let minor0 := c1 * tmp1 + minor0
  let minor1 := c0 * tmp1 + minor1
  let minor1 := e4 minor1
  let tmp1 := b1 (c1 * c2)
  let minor0 := c3 * tmp1 + minor0
  let minor3 := c0 * tmp1
  let tmp1 := e4 tmp1
  let minor0 := minor0 + c3 * tmp1
  let minor3 := c0 * tmp1 + minor3
  let minor3 := e4 minor3
  let tmp1 := e4 c1 * c3
  let tmp1 := b1 tmp1
  let tmp2 := e4 c2
  let minor0 := tmp2 * tmp1 + minor0
  let minor2 := c0 * tmp1
  let tmp1 := e4 tmp1
  let minor0 := minor0 + tmp2 * tmp1
  let minor2 := c0 * tmp1 + minor2
  let minor2 := e4 minor2
  let tmp1 := b1 (c0 * c1)
  let minor2 := c3 * tmp1 + minor2
  let minor3 := tmp2 * tmp1 + minor3
  let tmp1 := e4 tmp1
  let minor2 := c3 * tmp1 + minor2
  let minor3 := minor3 + tmp2 * tmp1
  let tmp1 := b1 (c0 * c3)
  let minor1 := minor1 + tmp2 * tmp1
  let minor2 := c1 * tmp1 + minor2
  let tmp1 := e4 tmp1
  let minor1 := tmp2 * tmp1 + minor1
  let minor2 := minor2 + c1 * tmp1
  let tmp1 := b1 (c0 * tmp2)
  let minor1 := c3 * tmp1 + minor1
  let minor3 := minor3 + c1 * tmp1
  let tmp1 := e4 tmp1
  let minor1 := minor1 + c3 * tmp1
  let minor3 := c1 * tmp1 + minor3
  (c0, f4 minor0 minor1 minor2 minor3)

theorem minors_app {m : Mat4 F32} {M B : Mat4 ℝ} (h : ∀ c, AppV (m c) (M c) (B c) 0 24) :
    AppV m.minors.1 M.minors.1 (permMinors B).1 0 24 ∧
    (AppV (m.minors.2 0) (M.minors.2 0) ((permMinors B).2 0) 14 77 ∧ AppV (m.minors.2 1) (M.minors.2 1) ((permMinors B).2 1) 14 77 ∧
      AppV (m.minors.2 2) (M.minors.2 2) ((permMinors B).2 2) 14 77 ∧ AppV (m.minors.2 3) (M.minors.2 3) ((permMinors B).2 3) 14 77) := by
  have t0 := AppV.swz2 (h 0) (h 1) 0 1 4 5
  have t1 := AppV.swz2 (h 2) (h 3) 0 1 4 5
  have t2 := AppV.swz2 (h 0) (h 1) 2 3 6 7
  have t3 := AppV.swz2 (h 2) (h 3) 2 3 6 7
  have c0 := AppV.swz2 t0 t1 0 2 4 6
  have c1 := AppV.swz2 t1 t0 1 3 5 7
  have c2 := AppV.swz2 t2 t3 0 2 4 6
  have c3 := AppV.swz2 t3 t2 1 3 5 7
  have p1 := (c2.mul c3 (by decide) (by decide) (by decide)).swz 1 0 3 2
  have a0 := c1.mul p1 (by decide) (by decide) (by decide)
  have a1 := c0.mul p1 (by decide) (by decide) (by decide)
  have p2 := p1.swz 2 3 0 1
  have a0 := (c1.mul p2 (by decide) (by decide) (by decide)).sub a0 (by decide) (by decide) (by decide)
  have a1 := (c0.mul p2 (by decide) (by decide) (by decide)).sub a1 (by decide) (by decide) (by decide)
  have a1 := a1.swz 2 3 0 1
  have p1 := (c1.mul c2 (by decide) (by decide) (by decide)).swz 1 0 3 2
  have a0 := (c3.mul p1 (by decide) (by decide) (by decide)).add a0 (by decide) (by decide) (by decide)
  have a3 := c0.mul p1 (by decide) (by decide) (by decide)
  have p1 := p1.swz 2 3 0 1
  have a0 := a0.sub (c3.mul p1 (by decide) (by decide) (by decide)) (by decide) (by decide) (by decide)
  have a3 := (c0.mul p1 (by decide) (by decide) (by decide)).sub a3 (by decide) (by decide) (by decide)
  have a3 := a3.swz 2 3 0 1
  have p1 := ((c1.swz 2 3 0 1).mul c3 (by decide) (by decide) (by decide)).swz 1 0 3 2
  have q := c2.swz 2 3 0 1
  have a0 := (q.mul p1 (by decide) (by decide) (by decide)).add a0 (by decide) (by decide) (by decide)
  have a2 := c0.mul p1 (by decide) (by decide) (by decide)
  have p1 := p1.swz 2 3 0 1
  have a0 := a0.sub (q.mul p1 (by decide) (by decide) (by decide)) (by decide) (by decide) (by decide)
  have a2 := (c0.mul p1 (by decide) (by decide) (by decide)).sub a2 (by decide) (by decide) (by decide)
  have a2 := a2.swz 2 3 0 1
  have p1 := (c0.mul c1 (by decide) (by decide) (by decide)).swz 1 0 3 2
  have a2 := (c3.mul p1 (by decide) (by decide) (by decide)).add a2 (by decide) (by decide) (by decide)
  have a3 := (q.mul p1 (by decide) (by decide) (by decide)).sub a3 (by decide) (by decide) (by decide)
  have p1 := p1.swz 2 3 0 1
  have a2 := (c3.mul p1 (by decide) (by decide) (by decide)).sub a2 (by decide) (by decide) (by decide)
  have a3 := a3.sub (q.mul p1 (by decide) (by decide) (by decide)) (by decide) (by decide) (by decide)
  have p1 := (c0.mul c3 (by decide) (by decide) (by decide)).swz 1 0 3 2
  have a1 := a1.sub (q.mul p1 (by decide) (by decide) (by decide)) (by decide) (by decide) (by decide)
  have a2 := (c1.mul p1 (by decide) (by decide) (by decide)).add a2 (by decide) (by decide) (by decide)
  have p1 := p1.swz 2 3 0 1
  have a1 := (q.mul p1 (by decide) (by decide) (by decide)).add a1 (by decide) (by decide) (by decide)
  have a2 := a2.sub (c1.mul p1 (by decide) (by decide) (by decide)) (by decide) (by decide) (by decide)
  have p1 := (c0.mul q (by decide) (by decide) (by decide)).swz 1 0 3 2
  have a1 := (c3.mul p1 (by decide) (by decide) (by decide)).add a1 (by decide) (by decide) (by decide)
  have a3 := a3.sub (c1.mul p1 (by decide) (by decide) (by decide)) (by decide) (by decide) (by decide)
  have p1 := p1.swz 2 3 0 1
  have a1 := a1.sub (c3.mul p1 (by decide) (by decide) (by decide)) (by decide) (by decide) (by decide)
  have a3 := (c1.mul p1 (by decide) (by decide) (by decide)).add a3 (by decide) (by decide) (by decide)
  exact ⟨c0, a0, a1, a2, a3⟩

/-- The reciprocal and one Newton step. -/
theorem newton_ok {d : F32} (hd : Finite32 d.bits) (lo : 1 / 2 ^ 20 ≤ |val d|) (hi : |val d| ≤ 2 ^ 20) :
    Finite32 ((F32.one / d + F32.one / d) - d * (F32.one / d * (F32.one / d))).bits ∧
      |val ((F32.one / d + F32.one / d) - d * (F32.one / d * (F32.one / d))) - 1 / val d| ≤ 30 / 2 ^ 24 / |val d| := by
  have hp : 0 < |val d| := lt_of_lt_of_le (by positivity) lo
  have h0 : val d ≠ 0 := abs_pos.mp hp
  have hr : |1 / val d| = 1 / |val d| := by rw [abs_div, abs_one]
  have r1 : 1 / 2 ^ 20 ≤ 1 / |val d| := one_div_le_one_div_of_le hp hi
  have r2 : 1 / |val d| ≤ 2 ^ 20 := by
    have := one_div_le_one_div_of_le (by positivity) lo
    rwa [one_div_one_div] at this
  obtain ⟨f, e⟩ := div_ok one_finite hd h0 (by
    rw [show val F32.one = 1 from one_real, hr]; norm_num at r2 ⊢; linarith)
  rw [show val F32.one = 1 from one_real, hr] at e
  have ad : App d (val d) |val d| 0 20 := App.exact_ hd le_rfl lo hi
  have ar : App (F32.one / d) (1 / val d) (1 / |val d|) 2 20 := by
    refine ⟨f, hr.le, e.trans ?_, r1, r2⟩
    have := App.pow_small (e := 20) (by norm_num) r1
    push_cast
    linarith [show (0 : ℝ) < 1 / |val d| by positivity]
  have h := (ar.add ar (by decide) (by decide) (by decide)).sub (ad.mul (ar.mul ar (by decide) (by decide) (by decide))
    (by decide) (by decide) (by decide)) (by decide) (by decide) (by decide)
  refine ⟨h.fin, ?_⟩
  have e1 := h.err
  have e2 : 1 / val d + 1 / val d - val d * (1 / val d * (1 / val d)) = 1 / val d := by field_simp; ring
  have e3 : 1 / |val d| + 1 / |val d| + |val d| * (1 / |val d| * (1 / |val d|)) = 3 / |val d| := by field_simp; ring
  rw [e2, e3] at e1
  refine e1.trans (le_of_eq ?_)
  push_cast
  norm_num
  ring

/-- The determinant of the bounds with all signs positive. -/
def permDet (B : Mat4 ℝ) : ℝ :=
  (permMinors B).1 2 * (permMinors B).2 0 2 + (permMinors B).1 0 * (permMinors B).2 0 0 +
  ((permMinors B).1 3 * (permMinors B).2 0 3 + (permMinors B).1 1 * (permMinors B).2 0 1)

section
variable {α : Type} [Add α] [Sub α] [Mul α] [Div α] [Neg α] [NumOps α]

/-- The determinant in the code's order, lane 0. -/
def codeDet (m : Mat4 α) : α :=
  let c := m.minors.1
  let n := m.minors.2 0
  (c 3 * n 3 + c 1 * n 1) + (c 2 * n 2 + c 0 * n 0)

def codeInv (m : Mat4 α) : α :=
  let r := if NumOps.eq (codeDet m) NumOps.zero then NumOps.zero else recip (codeDet m)
  (r + r) - codeDet m * (r * r)

omit [Neg α] in
theorem invert_shape (m : Mat4 α) (c r : Fin 4) : m.invert c r = codeInv m * m.minors.2 c r := by
  revert c r
  apply four <;> apply four <;> rfl
end

theorem eq_val32 {x y : F32} (hx : Finite32 x.bits) (hy : Finite32 y.bits) : F32.eq x y = true ↔ val x = val y := by
  have h1 := Blending.le_val32 hx hy
  have h2 := Blending.le_val32 hy hx
  rw [le_iff_rank (finite_cases hx).1 (finite_cases hy).1] at h1
  rw [le_iff_rank (finite_cases hy).1 (finite_cases hx).1] at h2
  unfold F32.eq
  rw [(finite_cases hx).1, (finite_cases hy).1]
  simp only [Bool.not_false, Bool.true_and, decide_eq_true_eq]
  constructor
  · intro h; exact le_antisymm (h1.mp h.le) (h2.mp h.ge)
  · intro h; exact le_antisymm (h1.mpr h.le) (h2.mpr h.ge)

theorem eq_zero_false {x : F32} (hx : Finite32 x.bits) (h : val x ≠ 0) : NumOps.eq x (NumOps.zero : F32) = false := by
  have := eq_val32 hx zero_finite
  rw [show val F32.zero = 0 from zero_real] at this
  show F32.eq x F32.zero = false
  rw [Bool.eq_false_iff]
  exact fun h' => h (this.mp h')

theorem recip32 (d : F32) : recip d = F32.one / d := rfl

theorem codeInv_of {α : Type} [Add α] [Sub α] [Mul α] [Div α] [Neg α] [NumOps α] {m : Mat4 α} {d r : α} (h : codeDet m = d)
    (hz : NumOps.eq d NumOps.zero = false) (hr : recip d = r) : codeInv m = (r + r) - d * (r * r) := by
  simp only [codeInv, h, hz, hr, Bool.false_eq_true, if_false]

theorem codeDet_real (M : Mat4 ℝ) : codeDet M = detOf M := by
  have h0 : M.minors.1 0 = M 0 0 := rfl
  have h1 : M.minors.1 1 = M 1 0 := rfl
  have h2 : M.minors.1 2 = M 2 0 := rfl
  have h3 : M.minors.1 3 = M 3 0 := rfl
  simp only [codeDet, detOf, ← h0, ← h1, ← h2, ← h3]
  ring

theorem codeDet_app {m : Mat4 F32} {M B : Mat4 ℝ} (h : ∀ c, AppV (m c) (M c) (B c) 0 24) :
    App (codeDet m) (detOf M) (permDet B) 20 103 := by
  obtain ⟨h0, h1, -⟩ := minors_app h
  rw [← codeDet_real]
  have t := fun l => (h0 l).mul (h1 l) (by decide) (by decide) (by decide)
  have s := ((t 3).add (t 1) (by decide) (by decide) (by decide)).add ((t 2).add (t 0) (by decide) (by decide) (by decide))
    (by decide) (by decide) (by decide)
  refine s.mono rfl (le_of_eq ?_) (by decide) (by decide) ?_
  · simp only [permDet]; ring
  · refine le_trans (le_of_eq ?_) s.hi
    simp only [permDet]; ring

/-- Every entry of the computed inverse, against the exact cofactor over the exact determinant. -/
theorem inverse_near {m : Mat4 F32} {M B : Mat4 ℝ} (h : ∀ c, AppV (m c) (M c) (B c) 0 24) {κ : ℝ} (hκ : κ ≤ 1000)
    (hP : permDet B ≤ κ * |detOf M|) (lo : 1 / 2 ^ 18 ≤ |detOf M|) (hi : |detOf M| ≤ 2 ^ 18) (c r : Fin 4) :
    Finite32 (m.invert c r).bits ∧
      |val (m.invert c r) - M.minors.2 c r / detOf M| ≤ (permMinors B).2 c r / |detOf M| * ((48 + 21 * κ) / 2 ^ 24) := by
  have hd := codeDet_app h
  have hm : App (m.minors.2 c r) (M.minors.2 c r) ((permMinors B).2 c r) 14 77 := by
    obtain ⟨-, h0, h1, h2, h3⟩ := minors_app h
    revert c
    apply four
    · exact h0 r
    · exact h1 r
    · exact h2 r
    · exact h3 r
  rw [invert_shape]
  generalize hdd : codeDet m = d at *
  generalize m.minors.2 c r = mi at *
  generalize M.minors.2 c r = Mi at *
  generalize (permMinors B).2 c r = Bm at *
  generalize detOf M = D at *
  generalize permDet B = P at *
  have hDp : 0 < |D| := lt_of_lt_of_le (by positivity) lo
  have hD0 : D ≠ 0 := abs_pos.mp hDp
  have hBp := hm.pos
  have hPp := hd.pos
  have hκp : 0 < κ := by
    by_contra hn
    have : κ * |D| ≤ 0 := mul_nonpos_of_nonpos_of_nonneg (not_lt.mp hn) hDp.le
    linarith
  have hPD : |D| ≤ P := hd.mag
  have hκ1 : 1 ≤ κ := by
    by_contra hn
    have : κ * |D| < 1 * |D| := mul_lt_mul_of_pos_right (not_le.mp hn) hDp
    linarith
  -- the determinant
  have e1 : |val d - D| ≤ |D| * (20 * κ / 2 ^ 24) := by
    refine hd.err.trans ?_
    have := mul_le_mul_of_nonneg_right hP (show (0 : ℝ) ≤ 20 / 2 ^ 24 by positivity)
    push_cast
    linarith
  have e1' : |val d - D| ≤ |D| * (1 / 800) := e1.trans (mul_le_mul_of_nonneg_left (by norm_num; linarith) hDp.le)
  have dlo : |D| * (799 / 800) ≤ |val d| := by
    have := abs_sub_abs_le_abs_sub D (val d)
    rw [abs_sub_comm] at this
    linarith
  have dhi : |val d| ≤ |D| * (801 / 800) := by
    have := abs_sub_abs_le_abs_sub (val d) D
    linarith
  have hdp : 0 < |val d| := by linarith
  have hd0 : val d ≠ 0 := abs_pos.mp hdp
  obtain ⟨tF, tE⟩ := newton_ok hd.fin (by norm_num at lo ⊢; linarith) (by norm_num at hi ⊢; linarith)
  have hz : NumOps.eq d (NumOps.zero : F32) = false := eq_zero_false hd.fin hd0
  have ht := codeInv_of hdd hz (recip32 d)
  rw [ht]
  generalize (F32.one / d + F32.one / d) - d * (F32.one / d * (F32.one / d)) = t at *
  -- its reciprocal
  have i1 : 1 / |val d| ≤ 1 / |D| * (101 / 100) := by
    rw [div_le_iff₀ hdp]
    have : 1 / |D| * (101 / 100) * |val d| = |val d| / |D| * (101 / 100) := by ring
    rw [this]
    have : 799 / 800 ≤ |val d| / |D| := by rw [le_div_iff₀ hDp]; linarith
    linarith
  have e2 : |1 / val d - 1 / D| ≤ 1 / |D| * (20.2 * κ / 2 ^ 24) := by
    have : 1 / val d - 1 / D = -(val d - D) * (1 / val d) * (1 / D) := by field_simp; ring
    rw [this, abs_mul, abs_mul, abs_neg, abs_div, abs_div, abs_one]
    have a : |val d - D| * (1 / |val d|) ≤ |D| * (20 * κ / 2 ^ 24) * (1 / |D| * (101 / 100)) :=
      mul_le_mul e1 i1 (by positivity) (by positivity)
    have b : |D| * (20 * κ / 2 ^ 24) * (1 / |D| * (101 / 100)) = 20.2 * κ / 2 ^ 24 := by field_simp; norm_num
    rw [b] at a
    calc _ ≤ 20.2 * κ / 2 ^ 24 * (1 / |D|) := mul_le_mul_of_nonneg_right a (by positivity)
      _ = _ := by ring
  have e3 : |val t - 1 / D| ≤ 1 / |D| * ((30.3 + 20.2 * κ) / 2 ^ 24) := by
    have : val t - 1 / D = (val t - 1 / val d) + (1 / val d - 1 / D) := by ring
    rw [this]
    refine (abs_add_le _ _).trans ((add_le_add tE e2).trans ?_)
    have : 30 / 2 ^ 24 / |val d| ≤ 30 / 2 ^ 24 * (1 / |D| * (101 / 100)) := by
      rw [div_eq_mul_one_div (30 / 2 ^ 24)]
      exact mul_le_mul_of_nonneg_left i1 (by positivity)
    refine (add_le_add this le_rfl).trans (le_of_eq ?_)
    ring
  have tB : |val t| ≤ 1 / |D| * (101 / 100) := by
    have h1 := abs_sub_abs_le_abs_sub (val t) (1 / D)
    rw [abs_div, abs_one] at h1
    have h2 : 1 / |D| * ((30.3 + 20.2 * κ) / 2 ^ 24) ≤ 1 / |D| * (1 / 100) :=
      mul_le_mul_of_nonneg_left (by norm_num; linarith) (by positivity)
    linarith
  -- the product
  have e4 : |val t * val mi - Mi / D| ≤ Bm / |D| * ((14.2 + (30.3 + 20.2 * κ)) / 2 ^ 24) := by
    have : val t * val mi - Mi / D = val t * (val mi - Mi) + (val t - 1 / D) * Mi := by ring
    rw [this]
    refine (abs_add_le _ _).trans ?_
    rw [abs_mul, abs_mul]
    have a := mul_le_mul tB hm.err (abs_nonneg _) (by positivity)
    have b := mul_le_mul e3 hm.mag (abs_nonneg _) (by positivity)
    refine (add_le_add a b).trans ?_
    push_cast
    rw [show 1 / |D| * (101 / 100) * (Bm * (14 / 2 ^ 24)) + 1 / |D| * ((30.3 + 20.2 * κ) / 2 ^ 24) * Bm =
      Bm / |D| * ((14 * (101 / 100) + (30.3 + 20.2 * κ)) / 2 ^ 24) by ring]
    gcongr
    norm_num
  have hP2 : |val t * val mi| ≤ Bm / |D| * (102 / 100) := by
    rw [abs_mul]
    refine (mul_le_mul tB hm.val_le (abs_nonneg _) (by positivity)).trans ?_
    push_cast
    rw [show 1 / |D| * (101 / 100) * (Bm * (1 + 14 / 2 ^ 24)) = Bm / |D| * (101 / 100 * (1 + 14 / 2 ^ 24)) by ring]
    gcongr
    norm_num
  have q1 : Bm / |D| ≤ 2 ^ 77 * 2 ^ 18 := by
    rw [div_eq_mul_one_div]
    refine mul_le_mul hm.hi ?_ (by positivity) (by positivity)
    have := one_div_le_one_div_of_le (by positivity) lo
    rwa [one_div_one_div] at this
  have q2 : 1 / 2 ^ 95 ≤ Bm / |D| := by
    have a : (1 : ℝ) / 2 ^ 77 * (1 / 2 ^ 18) ≤ Bm * (1 / |D|) :=
      mul_le_mul hm.lo (one_div_le_one_div_of_le hDp hi) (by positivity) hBp.le
    refine le_trans ?_ (a.trans (le_of_eq (by ring)))
    norm_num
  obtain ⟨F, E, -⟩ := mul_bound tF hm.fin hP2 (by norm_num at q1 ⊢; linarith)
  refine ⟨F, ?_⟩
  have : val (t * mi) - Mi / D = (val (t * mi) - val t * val mi) + (val t * val mi - Mi / D) := by ring
  rw [this]
  refine (abs_add_le _ _).trans ((add_le_add E e4).trans ?_)
  have sm := App.pow_small (e := 95) (by norm_num) q2
  refine (add_le_add (add_le_add le_rfl sm) le_rfl).trans ?_
  rw [show Bm / |D| * (102 / 100) / 2 ^ 24 + Bm / |D| * (1 / 1000 / 2 ^ 24) + Bm / |D| * ((14.2 + (30.3 + 20.2 * κ)) / 2 ^ 24) =
    Bm / |D| * ((102 / 100 + 1 / 1000 + 14.2 + 30.3 + 20.2 * κ) / 2 ^ 24) by ring]
  gcongr
  norm_num
  linarith

end Ozz
