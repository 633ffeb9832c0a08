import Verif.Spec.FloatBlend
import Verif.Proofs.BlendingExact
import Verif.Proofs.FloatModel
import Mathlib.Analysis.Quaternion

/-! Blending in single precision. -/

namespace Ozz.Blending

open Ieee Spec F32

/-! ## Comparisons -/

theorem lt_val32 {x y : F32} (hx : Finite32 x.bits) (hy : Finite32 y.bits) : F32.lt x y = true ↔ val x < val y := by
  have hz := (finite_cases hx).1
  have hn := (finite_cases hy).1
  rw [lt_iff_rank hz hn, ← ext_lt_iff (not_nan_of_finite hx) (not_nan_of_finite hy), ext_finite hx,
      ext_finite hy, EReal.coe_lt_coe_iff]

theorem fmax_val32 {x y : F32} (hx : Finite32 x.bits) (hy : Finite32 y.bits) :
    Finite32 (F32.fmax x y).bits ∧ val (F32.fmax x y) = max (val x) (val y) := by
  have hlt := lt_val32 hx hy
  unfold F32.fmax
  rw [(finite_cases hx).1, (finite_cases hy).1]
  simp only [Bool.false_eq_true, if_false]
  split
  · next h => exact ⟨hy, by rw [max_eq_right (hlt.mp h).le]⟩
  · next h => exact ⟨hx, by rw [max_eq_left (not_lt.mp fun h' => h (hlt.mpr h'))]⟩

theorem le_val32 {x y : F32} (hx : Finite32 x.bits) (hy : Finite32 y.bits) : F32.le x y = true ↔ val x ≤ val y := by
  have hz := (finite_cases hx).1
  have hn := (finite_cases hy).1
  rw [le_iff_rank hz hn, ← ext_le_iff (not_nan_of_finite hx) (not_nan_of_finite hy), ext_finite hx,
      ext_finite hy, EReal.coe_le_coe_iff]

/-! ## One step of the sums -/

/-- Adding a weight. -/
theorem weight_step {a w : F32} {A W e M : ℝ} (ha : Finite32 a.bits) (hw : Finite32 w.bits) (hM : 1 / 2 ^ 60 ≤ M) (hM2 : M ≤ 2 ^ 60)
    (hA : |val a - A| ≤ e) (he : e ≤ M / 16) (hA0 : 0 ≤ A) (hW0 : 0 ≤ W) (hAW : A + W ≤ M)
    (hW : |val w - W| ≤ W / 2 ^ 24 + 1 / 2 ^ 150) :
    Finite32 (a + w).bits ∧ |val (a + w) - (A + W)| ≤ e + 3 * M / 2 ^ 24 := by
  have hu : (1:ℝ) / 2 ^ 150 ≤ M / 2 ^ 60 := by
    refine le_trans ?_ (div_le_div_of_nonneg_right hM (by positivity))
    norm_num
  have a1 : |val a| ≤ A + e := by
    have := abs_add_le (val a - A) A
    rw [sub_add_cancel, abs_of_nonneg hA0] at this
    linarith
  have w1 : |val w| ≤ W + W / 2 ^ 24 + 1 / 2 ^ 150 := by
    have := abs_add_le (val w - W) W
    rw [sub_add_cancel, abs_of_nonneg hW0] at this
    linarith
  obtain ⟨f, e1, -⟩ := add_bound ha hw a1 w1 (by norm_num at hM2 hu ⊢; linarith)
  refine ⟨f, ?_⟩
  have h := sum_near e1 hA hW
  refine h.trans ?_
  norm_num at hu ⊢
  linarith

/-- Multiplying a coordinate with a weight. -/
theorem scaled_ok {x w : F32} {W B M : ℝ} (hx : Finite32 x.bits) (hw : Finite32 w.bits) (hM : 1 / 2 ^ 60 ≤ M) (hM2 : M ≤ 2 ^ 60)
    (hB : 1 / 2 ^ 60 ≤ B) (hB2 : B ≤ 2 ^ 60) (hxB : |val x| ≤ B) {e : ℝ} (he : e ≤ M / 16) (hW : |val w - W| ≤ e)
    (hWM : |W| ≤ M) :
    Finite32 (x * w).bits ∧ |val (x * w) - W * val x| ≤ B * e + 11 / 10 * (B * M) / 2 ^ 24 ∧
      |val (x * w)| ≤ |W| * B + B * e + 11 / 10 * (B * M) / 2 ^ 24 := by
  have B0 : 0 < B := lt_of_lt_of_le (by positivity) hB
  have M0 : 0 < M := lt_of_lt_of_le (by positivity) hM
  have e0 : 0 ≤ e := (abs_nonneg _).trans hW
  have w1 : |val w| ≤ |W| + e := by
    have := abs_add_le (val w - W) W
    rw [sub_add_cancel] at this
    linarith
  have hBM : 1 / 2 ^ 120 ≤ B * M := by
    have := mul_le_mul hB hM (by positivity) B0.le
    norm_num at this ⊢
    linarith
  have hBM2 : B * M ≤ 2 ^ 120 := by
    have := mul_le_mul hB2 hM2 M0.le (by positivity)
    norm_num at this ⊢
    linarith
  have hp : |val x * val w| ≤ B * (|W| + e) := by
    rw [abs_mul]
    exact mul_le_mul hxB w1 (abs_nonneg _) B0.le
  have hp2 : B * (|W| + e) ≤ 17 / 16 * (B * M) := by
    have : |W| + e ≤ 17 / 16 * M := by linarith
    have := mul_le_mul_of_nonneg_left this B0.le
    linarith
  obtain ⟨f, e1, -⟩ := mul_bound hx hw (hp.trans hp2) (by norm_num at hBM2 ⊢; linarith)
  have h2 : |val x * val w - W * val x| ≤ B * e := by
    rw [mul_comm W, ← mul_sub, abs_mul]
    exact mul_le_mul hxB hW (abs_nonneg _) B0.le
  have h3 := abs_add_le (val (x * w) - val x * val w) (val x * val w - W * val x)
  rw [sub_add_sub_cancel] at h3
  have h4 : |val (x * w) - W * val x| ≤ B * e + 11 / 10 * (B * M) / 2 ^ 24 := by
    norm_num at hBM e1 ⊢
    linarith
  refine ⟨f, h4, ?_⟩
  have h5 := abs_add_le (val (x * w) - W * val x) (W * val x)
  rw [sub_add_cancel, abs_mul W] at h5
  have h6 := mul_le_mul_of_nonneg_left hxB (abs_nonneg W)
  linarith

/-- Adding a coordinate times a weight. -/
theorem value_step {o x w : F32} {A S W B M e d : ℝ} (ho : Finite32 o.bits) (hx : Finite32 x.bits) (hw : Finite32 w.bits)
    (hM : 1 / 2 ^ 60 ≤ M) (hM2 : M ≤ 2 ^ 60) (hB : 1 / 2 ^ 60 ≤ B) (hB2 : B ≤ 2 ^ 60) (hxB : |val x| ≤ B)
    (hd : d ≤ M / 16) (hW : |val w - W| ≤ d) (hW0 : 0 ≤ W) (hA0 : 0 ≤ A) (hAW : A + W ≤ M)
    (hS : |val o - S| ≤ e) (hSA : |S| ≤ B * A) (he : e ≤ B * M / 16) :
    Finite32 (o + x * w).bits ∧ |val (o + x * w) - (S + W * val x)| ≤ e + B * d + 5 / 2 * (B * M) / 2 ^ 24 := by
  have B0 : 0 < B := lt_of_lt_of_le (by positivity) hB
  have M0 : 0 < M := lt_of_lt_of_le (by positivity) hM
  obtain ⟨pf, pe, pb⟩ := scaled_ok hx hw hM hM2 hB hB2 hxB hd hW (by rw [abs_of_nonneg hW0]; linarith)
  rw [abs_of_nonneg hW0] at pb
  have o1 : |val o| ≤ B * A + e := by
    have := abs_add_le (val o - S) S
    rw [sub_add_cancel] at this
    linarith
  have hBM2 : B * M ≤ 2 ^ 120 := by
    have := mul_le_mul hB2 hM2 M0.le (by positivity)
    norm_num at this ⊢
    linarith
  have hBA : B * A + W * B ≤ B * M := by
    have := mul_le_mul_of_nonneg_left hAW B0.le
    linarith
  have hBd : B * d ≤ B * M / 16 := by
    have := mul_le_mul_of_nonneg_left hd B0.le
    linarith
  have BM0 : 0 < B * M := by positivity
  obtain ⟨f, e1, -⟩ := add_bound ho pf o1 pb (by norm_num at hBM2 ⊢; linarith)
  refine ⟨f, ?_⟩
  refine (sum_near e1 hS pe).trans ?_
  norm_num
  linarith

/-! ## Lanes -/

theorem lane_val (t : SoaTransform F32) (l c : Fin 4) :
    (valTransform t).translation.lane l c = val (t.translation.lane l c) ∧
    (valTransform t).rotation.lane l c = val (t.rotation.lane l c) ∧
    (valTransform t).scale.lane l c = val (t.scale.lane l c) := by
  have h : (0:ℝ) = val F32.zero := valZero.symm
  fin_cases c
  · exact ⟨rfl, rfl, rfl⟩
  · exact ⟨rfl, rfl, rfl⟩
  · exact ⟨rfl, rfl, rfl⟩
  · exact ⟨h, rfl, h⟩

theorem vec_first {u : SoaVec3 F32} {w : F4 F32} {l : Fin 4} {W B M e : ℝ}
    (hw : Finite32 (w l).bits) (hM : 1 / 2 ^ 60 ≤ M) (hM2 : M ≤ 2 ^ 60) (hB : 1 / 2 ^ 60 ≤ B) (hB2 : B ≤ 2 ^ 60)
    (hu : ∀ c, Finite32 (u.lane l c).bits) (hu2 : ∀ c, |val (u.lane l c)| ≤ B) (he : e ≤ M / 16) (hW : |val (w l) - W| ≤ e)
    (hWM : |W| ≤ M) (c : Fin 4) :
    Finite32 ((u.mulNum w).lane l c).bits ∧
      |val ((u.mulNum w).lane l c) - W * val (u.lane l c)| ≤ B * e + 11 / 10 * (B * M) / 2 ^ 24 := by
  have h := fun {x : F32} (hx : Finite32 x.bits) (hxB : |val x| ≤ B) => scaled_ok hx hw hM hM2 hB hB2 hxB he hW hWM
  have e0 : 0 ≤ e := (abs_nonneg _).trans hW
  fin_cases c
  · exact ⟨(h (hu 0) (hu2 0)).1, (h (hu 0) (hu2 0)).2.1⟩
  · exact ⟨(h (hu 1) (hu2 1)).1, (h (hu 1) (hu2 1)).2.1⟩
  · exact ⟨(h (hu 2) (hu2 2)).1, (h (hu 2) (hu2 2)).2.1⟩
  · refine ⟨zero_finite, ?_⟩
    change |val F32.zero - W * val F32.zero| ≤ _
    rw [valZero, mul_zero, sub_zero, abs_zero]
    have B0 : 0 < B := lt_of_lt_of_le (by positivity) hB
    have M0 : 0 < M := lt_of_lt_of_le (by positivity) hM
    positivity

theorem vec_step {v u : SoaVec3 F32} {w : F4 F32} {l : Fin 4} {A W B M e d : ℝ} {S : F4 ℝ}
    (hw : Finite32 (w l).bits) (hM : 1 / 2 ^ 60 ≤ M) (hM2 : M ≤ 2 ^ 60) (hB : 1 / 2 ^ 60 ≤ B) (hB2 : B ≤ 2 ^ 60)
    (hu : ∀ c, Finite32 (u.lane l c).bits) (hu2 : ∀ c, |val (u.lane l c)| ≤ B) (hd : d ≤ M / 16) (hW : |val (w l) - W| ≤ d)
    (hW0 : 0 ≤ W) (hA0 : 0 ≤ A) (hAW : A + W ≤ M) (hv : ∀ c, Finite32 (v.lane l c).bits)
    (hS : ∀ c, |val (v.lane l c) - S c| ≤ e) (hSA : ∀ c, |S c| ≤ B * A) (he : e ≤ B * M / 16) (c : Fin 4) :
    Finite32 ((v.add (u.mulNum w)).lane l c).bits ∧
      |val ((v.add (u.mulNum w)).lane l c) - (S c + W * val (u.lane l c))| ≤ e + B * d + 5 / 2 * (B * M) / 2 ^ 24 := by
  have h := fun c => value_step (hv c) (hu c) hw hM hM2 hB hB2 (hu2 c) hd hW hW0 hA0 hAW (hS c) (hSA c) he
  have d0 : 0 ≤ d := (abs_nonneg _).trans hW
  fin_cases c
  · exact h 0
  · exact h 1
  · exact h 2
  · refine ⟨zero_finite, ?_⟩
    have h3 := hS 3
    change |val F32.zero - S 3| ≤ e at h3
    change |val F32.zero - (S 3 + W * val F32.zero)| ≤ _
    rw [valZero] at h3 ⊢
    rw [mul_zero, add_zero]
    have B0 : 0 < B := lt_of_lt_of_le (by positivity) hB
    have M0 : 0 < M := lt_of_lt_of_le (by positivity) hM
    have : 0 ≤ B * d + 5 / 2 * (B * M) / 2 ^ 24 := by positivity
    linarith

theorem quat_first {u : SoaQuat F32} {w : F4 F32} {l : Fin 4} {W B M e : ℝ}
    (hw : Finite32 (w l).bits) (hM : 1 / 2 ^ 60 ≤ M) (hM2 : M ≤ 2 ^ 60) (hB : 1 / 2 ^ 60 ≤ B) (hB2 : B ≤ 2 ^ 60)
    (hu : ∀ c, Finite32 (u.lane l c).bits) (hu2 : ∀ c, |val (u.lane l c)| ≤ B) (he : e ≤ M / 16) (hW : |val (w l) - W| ≤ e)
    (hWM : |W| ≤ M) (c : Fin 4) :
    Finite32 ((u.mulNum w).lane l c).bits ∧
      |val ((u.mulNum w).lane l c) - W * val (u.lane l c)| ≤ B * e + 11 / 10 * (B * M) / 2 ^ 24 := by
  have h := fun {x : F32} (hx : Finite32 x.bits) (hxB : |val x| ≤ B) => scaled_ok hx hw hM hM2 hB hB2 hxB he hW hWM
  fin_cases c
  · exact ⟨(h (hu 0) (hu2 0)).1, (h (hu 0) (hu2 0)).2.1⟩
  · exact ⟨(h (hu 1) (hu2 1)).1, (h (hu 1) (hu2 1)).2.1⟩
  · exact ⟨(h (hu 2) (hu2 2)).1, (h (hu 2) (hu2 2)).2.1⟩
  · exact ⟨(h (hu 3) (hu2 3)).1, (h (hu 3) (hu2 3)).2.1⟩

theorem flip_ok (b : Bool) {x : F32} (hx : Finite32 x.bits) :
    Finite32 (flip b x).bits ∧ val (flip b x) = if b then -val x else val x := by
  cases b
  · exact ⟨hx, rfl⟩
  · exact ⟨neg_finite.mpr hx, neg_real x⟩

theorem quat_step {v u : SoaQuat F32} {w : F4 F32} {b : F4 Bool} {l : Fin 4} {A W B M e d : ℝ} {S : F4 ℝ}
    (hw : Finite32 (w l).bits) (hM : 1 / 2 ^ 60 ≤ M) (hM2 : M ≤ 2 ^ 60) (hB : 1 / 2 ^ 60 ≤ B) (hB2 : B ≤ 2 ^ 60)
    (hu : ∀ c, Finite32 (u.lane l c).bits) (hu2 : ∀ c, |val (u.lane l c)| ≤ B) (hd : d ≤ M / 16) (hW : |val (w l) - W| ≤ d)
    (hW0 : 0 ≤ W) (hA0 : 0 ≤ A) (hAW : A + W ≤ M) (hv : ∀ c, Finite32 (v.lane l c).bits)
    (hS : ∀ c, |val (v.lane l c) - S c| ≤ e) (hSA : ∀ c, |S c| ≤ B * A) (he : e ≤ B * M / 16) (c : Fin 4) :
    Finite32 ((v.add ((u.xorNum b).mulNum w)).lane l c).bits ∧
      |val ((v.add ((u.xorNum b).mulNum w)).lane l c) - (S c + W * (if b l then -val (u.lane l c) else val (u.lane l c)))| ≤
        e + B * d + 5 / 2 * (B * M) / 2 ^ 24 := by
  have hf := fun c => flip_ok (b l) (hu c)
  have h : ∀ c, Finite32 (v.lane l c + flip (b l) (u.lane l c) * w l).bits ∧
      |val (v.lane l c + flip (b l) (u.lane l c) * w l) - (S c + W * (if b l then -val (u.lane l c) else val (u.lane l c)))| ≤
        e + B * d + 5 / 2 * (B * M) / 2 ^ 24 := by
    intro c
    have := value_step (hv c) (hf c).1 hw hM hM2 hB hB2 (by
      rw [(hf c).2]
      split
      · rw [abs_neg]; exact hu2 c
      · exact hu2 c) hd hW hW0 hA0 hAW (hS c) (hSA c) he
    rwa [(hf c).2] at this
  fin_cases c
  · exact h 0
  · exact h 1
  · exact h 2
  · exact h 3

/-- `((x0*y0 + x1*y1) + x2*y2) + x3*y3`. -/
theorem qdot_ok {x0 x1 x2 x3 y0 y1 y2 y3 : F32} (h0 : Finite32 x0.bits) (h1 : Finite32 x1.bits) (h2 : Finite32 x2.bits)
    (h3 : Finite32 x3.bits) (g0 : Finite32 y0.bits) (g1 : Finite32 y1.bits) (g2 : Finite32 y2.bits) (g3 : Finite32 y3.bits)
    {S : ℝ} (hS : |val x0 * val y0| + |val x1 * val y1| + |val x2 * val y2| + |val x3 * val y3| ≤ S) (hB : S ≤ 2 ^ 120) :
    Finite32 (x0 * y0 + x1 * y1 + x2 * y2 + x3 * y3).bits ∧
      |val (x0 * y0 + x1 * y1 + x2 * y2 + x3 * y3) -
        (val x0 * val y0 + val x1 * val y1 + val x2 * val y2 + val x3 * val y3)| ≤ 5 * S / 2 ^ 24 + 1 / 2 ^ 147 := by
  have n0 := abs_nonneg (val x0 * val y0)
  have n1 := abs_nonneg (val x1 * val y1)
  have n2 := abs_nonneg (val x2 * val y2)
  have n3 := abs_nonneg (val x3 * val y3)
  have hB' : S ≤ 2 ^ 126 := hB.trans (by norm_num)
  obtain ⟨f0, e0, b0⟩ := mul_bound h0 g0 le_rfl (by linarith only [hS, hB', n0, n1, n2, n3])
  obtain ⟨f1, e1, b1⟩ := mul_bound h1 g1 le_rfl (by linarith only [hS, hB', n0, n1, n2, n3])
  obtain ⟨f2, e2, b2⟩ := mul_bound h2 g2 le_rfl (by linarith only [hS, hB', n0, n1, n2, n3])
  obtain ⟨f3, e3, b3⟩ := mul_bound h3 g3 le_rfl (by linarith only [hS, hB', n0, n1, n2, n3])
  generalize |val x0 * val y0| = P0 at *
  generalize |val x1 * val y1| = P1 at *
  generalize |val x2 * val y2| = P2 at *
  generalize |val x3 * val y3| = P3 at *
  obtain ⟨f4, e4, b4⟩ := add_bound f0 f1 b0 b1 (by norm_num at hB ⊢; linarith)
  obtain ⟨f5, e5, b5⟩ := add_bound f4 f2 b4 b2 (by norm_num at hB ⊢; linarith)
  obtain ⟨f6, e6, -⟩ := add_bound f5 f3 b5 b3 (by norm_num at hB ⊢; linarith)
  refine ⟨f6, ?_⟩
  have r1 := sum_near e4 e0 e1
  have r2 := sum_near e5 r1 e2
  have r3 := sum_near e6 r2 e3
  refine r3.trans ?_
  norm_num at hS ⊢
  linarith

/-- Coordinates of nearly unit quaternions. -/
theorem coords_of_unit {q : F4 ℝ} (h : |norm2 q - 1| ≤ 1 / 2 ^ 10) :
    (∀ c, |q c| ≤ 1001 / 1000) ∧ |q 0| + |q 1| + |q 2| + |q 3| ≤ 2002 / 1000 := by
  have h2 := (abs_le.mp h).2
  unfold norm2 at h2
  have s := fun c => sq_nonneg (q c)
  have hc : ∀ c, q c ^ 2 ≤ 1 + 1 / 2 ^ 10 := by
    intro c
    fin_cases c <;> simp only [Fin.zero_eta, Fin.mk_one, Fin.reduceFinMk] <;> linarith [s 0, s 1, s 2, s 3]
  constructor
  · intro c
    apply abs_le_of_sq_le_sq _ (by norm_num)
    have := hc c
    norm_num at this ⊢
    linarith
  · have e : ∀ c, |q c| ^ 2 = q c ^ 2 := fun c => sq_abs _
    apply le_of_sq_le_sq _ (by norm_num)
    have : (|q 0| + |q 1| + |q 2| + |q 3|) ^ 2 ≤ 4 * (|q 0| ^ 2 + |q 1| ^ 2 + |q 2| ^ 2 + |q 3| ^ 2) := by
      nlinarith [sq_nonneg (|q 0| - |q 1|), sq_nonneg (|q 0| - |q 2|), sq_nonneg (|q 0| - |q 3|), sq_nonneg (|q 1| - |q 2|),
        sq_nonneg (|q 1| - |q 3|), sq_nonneg (|q 2| - |q 3|)]
    rw [e, e, e, e] at this
    norm_num at h2 ⊢
    linarith

/-- The sign chosen for a rotation is right, or the rotation is nearly orthogonal to the sum. -/
theorem sign_ok {v u : SoaQuat F32} {l : Fin 4} {M e : ℝ} {P : F4 ℝ} (hM : 1 / 2 ^ 60 ≤ M) (hM2 : M ≤ 2 ^ 60)
    (hv : ∀ c, Finite32 (v.lane l c).bits) (hu : ∀ c, Finite32 (u.lane l c).bits)
    (hq : |norm2 (fun c => val (u.lane l c)) - 1| ≤ 1 / 2 ^ 10)
    (hP : ∀ c, |val (v.lane l c) - P c| ≤ e) (he : e ≤ M / 15) (hPM : ∀ c, |P c| ≤ 1001 / 1000 * M) :
    (sign4 (v.dot u) l = true → dot4 P (fun c => val (u.lane l c)) ≤ 12 * M / 2 ^ 24 + 2002 / 1000 * e) ∧
    (sign4 (v.dot u) l = false → -(12 * M / 2 ^ 24 + 2002 / 1000 * e) ≤ dot4 P (fun c => val (u.lane l c))) := by
  have M0 : 0 < M := lt_of_lt_of_le (by positivity) hM
  obtain ⟨qc, qs⟩ := coords_of_unit hq
  have hvb : ∀ c, |val (v.lane l c)| ≤ 107 / 100 * M := by
    intro c
    have := abs_add_le (val (v.lane l c) - P c) (P c)
    rw [sub_add_cancel] at this
    linarith [hP c, hPM c]
  have hprod : ∀ c, |val (v.lane l c) * val (u.lane l c)| ≤ 107 / 100 * M * |val (u.lane l c)| := by
    intro c
    rw [abs_mul]
    exact mul_le_mul_of_nonneg_right (hvb c) (abs_nonneg _)
  have hS : |val (v.lane l 0) * val (u.lane l 0)| + |val (v.lane l 1) * val (u.lane l 1)| +
      |val (v.lane l 2) * val (u.lane l 2)| + |val (v.lane l 3) * val (u.lane l 3)| ≤ 215 / 100 * M := by
    have h1 := mul_le_mul_of_nonneg_left qs (show 0 ≤ 107 / 100 * M by positivity)
    linarith [hprod 0, hprod 1, hprod 2, hprod 3]
  obtain ⟨df, de⟩ := qdot_ok (hv 0) (hv 1) (hv 2) (hv 3) (hu 0) (hu 1) (hu 2) (hu 3) hS (by norm_num at hM2 ⊢; linarith)
  have hu' : (1:ℝ) / 2 ^ 147 ≤ M / 2 ^ 60 := by
    refine le_trans ?_ (div_le_div_of_nonneg_right hM (by positivity))
    norm_num
  have herr : ∀ c, |val (v.lane l c) * val (u.lane l c) - P c * val (u.lane l c)| ≤ e * |val (u.lane l c)| := by
    intro c
    rw [← sub_mul, abs_mul]
    exact mul_le_mul_of_nonneg_right (hP c) (abs_nonneg _)
  have e0 : 0 ≤ e := (abs_nonneg _).trans (hP 0)
  have h2 : |val (v.lane l 0) * val (u.lane l 0) + val (v.lane l 1) * val (u.lane l 1) + val (v.lane l 2) * val (u.lane l 2) +
      val (v.lane l 3) * val (u.lane l 3) - dot4 P (fun c => val (u.lane l c))| ≤ 2002 / 1000 * e := by
    have h3 := sum_near (s := val (v.lane l 0) * val (u.lane l 0) + val (v.lane l 1) * val (u.lane l 1)) (e := 0) (by simp) (herr 0) (herr 1)
    have h4 := sum_near (s := val (v.lane l 0) * val (u.lane l 0) + val (v.lane l 1) * val (u.lane l 1) + val (v.lane l 2) * val (u.lane l 2))
      (e := 0) (by simp) h3 (herr 2)
    have h5 := sum_near (s := val (v.lane l 0) * val (u.lane l 0) + val (v.lane l 1) * val (u.lane l 1) + val (v.lane l 2) * val (u.lane l 2)
      + val (v.lane l 3) * val (u.lane l 3)) (e := 0) (by simp) h4 (herr 3)
    refine h5.trans ?_
    have h6 := mul_le_mul_of_nonneg_left qs e0
    linarith
  have h7 := abs_add_le (val (v.lane l 0 * u.lane l 0 + v.lane l 1 * u.lane l 1 + v.lane l 2 * u.lane l 2 + v.lane l 3 * u.lane l 3) -
      (val (v.lane l 0) * val (u.lane l 0) + val (v.lane l 1) * val (u.lane l 1) + val (v.lane l 2) * val (u.lane l 2) +
      val (v.lane l 3) * val (u.lane l 3)))
    (val (v.lane l 0) * val (u.lane l 0) + val (v.lane l 1) * val (u.lane l 1) + val (v.lane l 2) * val (u.lane l 2) +
      val (v.lane l 3) * val (u.lane l 3) - dot4 P (fun c => val (u.lane l c)))
  rw [sub_add_sub_cancel] at h7
  have h8 : |val (v.lane l 0 * u.lane l 0 + v.lane l 1 * u.lane l 1 + v.lane l 2 * u.lane l 2 + v.lane l 3 * u.lane l 3) -
      dot4 P (fun c => val (u.lane l c))| ≤ 12 * M / 2 ^ 24 + 2002 / 1000 * e := by
    norm_num at de hu' ⊢
    linarith
  have hs : sign4 (v.dot u) l = F32.lt (v.lane l 0 * u.lane l 0 + v.lane l 1 * u.lane l 1 + v.lane l 2 * u.lane l 2 + v.lane l 3 * u.lane l 3) F32.zero := rfl
  rw [hs]
  have hiff := lt_val32 df zero_finite
  rw [valZero] at hiff
  rw [abs_le] at h8
  constructor
  · intro h
    have := hiff.mp h
    linarith [h8.1]
  · intro h
    have : ¬ val (v.lane l 0 * u.lane l 0 + v.lane l 1 * u.lane l 1 + v.lane l 2 * u.lane l 2 + v.lane l 3 * u.lane l 3) < 0 := by
      intro h'
      rw [hiff.mpr h'] at h
      cases h
    linarith [h8.2]

/-! ## Layers -/

theorem active_val {y : Layer F32} (h : Finite32 y.weight.bits) : y.active = true ↔ 0 < val y.weight := by
  unfold Layer.active
  have := le_val32 h zero_finite
  rw [valZero] at this
  change (!F32.le y.weight F32.zero) = true ↔ _
  cases hl : F32.le y.weight F32.zero with
  | true => simpa using this.mp hl
  | false =>
    simp only [Bool.not_false, true_iff]
    by_contra hc
    rw [this.mpr (not_lt.mp hc)] at hl
    cases hl

theorem active_valLayer {y : Layer F32} (h : Finite32 y.weight.bits) : (valLayer y).active = y.active := by
  rw [Bool.eq_iff_iff, active_iff, active_val h]
  rfl

/-- The weight of a layer at a lane. -/
theorem weightAt_ok {y : Layer F32} {i : Nat} {l : Fin 4} {s B : ℝ} (h : Layer32Ok y i l s B) (ha : y.active = true)
    (hW : laneWeight (valLayer y) i l ≤ 2 ^ 100) :
    Finite32 (y.weightAt i l).bits ∧
      |val (y.weightAt i l) - laneWeight (valLayer y) i l| ≤ laneWeight (valLayer y) i l / 2 ^ 24 + 1 / 2 ^ 150 := by
  have hpos := (active_val h.weight).mp ha
  have e1 : laneWeight (valLayer y) i l = val y.weight * (match (valLayer y).jointWeights with
    | [] => 1
    | _ => match (valLayer y).jointWeights[i]? with
      | some w => max 0 (w l)
      | none => 0) := by
    unfold laneWeight
    rw [if_neg (show ¬ (valLayer y).weight ≤ 0 from not_le.mpr hpos)]
    rfl
  unfold Layer.weightAt
  cases hj : y.jointWeights with
  | nil =>
    have hp : y.isPartial = false := by simp [Layer.isPartial, hj]
    have e2 : laneWeight (valLayer y) i l = val y.weight := by
      rw [e1]
      have : (valLayer y).jointWeights = [] := by simp [valLayer, hj]
      rw [this]; simp
    rw [hp, e2]
    refine ⟨h.weight, ?_⟩
    change |val y.weight - val y.weight| ≤ _
    rw [sub_self, abs_zero]
    positivity
  | cons a as =>
    have hp : y.isPartial = true := by simp [Layer.isPartial, hj]
    rw [hp, if_pos rfl]
    set jw : F32 := ((a :: as)[i]?.getD zero4) l with hjw
    have jf : Finite32 jw.bits := by
      rw [hjw]
      cases hi : (a :: as)[i]? with
      | none => exact zero_finite
      | some w => exact h.jointWeight w (by rw [hj]; exact hi)
    have e2 : laneWeight (valLayer y) i l = val y.weight * max (val jw) 0 := by
      rw [e1]
      have : (valLayer y).jointWeights = (fun l => val (a l)) :: as.map (fun w l => val (w l)) := by simp [valLayer, hj]
      rw [this]
      congr 1
      change (match ((a :: as).map (fun (w : F4 F32) l => val (w l)))[i]? with
        | some w => max 0 (w l)
        | none => 0) = _
      rw [List.getElem?_map, hjw]
      cases (a :: as)[i]? with
      | none =>
        change (0:ℝ) = max (val F32.zero) 0
        rw [valZero, max_self]
      | some w => exact max_comm _ _
    obtain ⟨mf, mv⟩ := fmax_val32 jf zero_finite
    rw [valZero] at mv
    have hw0 : 0 ≤ laneWeight (valLayer y) i l := laneWeight_nonneg _ _ _
    have hm : val y.weight * val (F32.fmax jw F32.zero) = laneWeight (valLayer y) i l := by rw [mv, e2]
    obtain ⟨f, e⟩ := mul_ok h.weight mf (by rw [hm, abs_of_nonneg hw0]; exact hW.trans (by norm_num))
    rw [hm, abs_of_nonneg hw0] at e
    exact ⟨f, e⟩

theorem poseOf_val (y : Layer F32) (i : Nat) : poseOf (valLayer y) i = valTransform (y.poseAt i) := by
  have hz : (⟨⟨0, 0, 0⟩, ⟨0, 0, 0, 0⟩, ⟨0, 0, 0⟩⟩ : SoaTransform ℝ) =
      valTransform ⟨⟨zero4, zero4, zero4⟩, ⟨zero4, zero4, zero4, zero4⟩, ⟨zero4, zero4, zero4⟩⟩ := by
    have h0 : (0 : F4 ℝ) = fun _ => val F32.zero := by funext l; exact valZero.symm
    rw [h0]
    rfl
  unfold poseOf Layer.poseAt
  cases ht : y.transform with
  | error e =>
    have : (valLayer y).transform = .error e := by simp [valLayer, ht, Except.map]
    rw [this]
    exact hz
  | ok t =>
    have : (valLayer y).transform = .ok (t.map valTransform) := by simp [valLayer, ht, Except.map]
    rw [this]
    simp only [List.getElem?_map]
    cases t[i]? with
    | none => exact hz
    | some x => rfl

theorem poseAt_ok {y : Layer F32} {i : Nat} {l : Fin 4} {s B : ℝ} (h : Layer32Ok y i l s B) (ha : y.active = true) :
    Pose32Ok (y.poseAt i) l s B := by
  obtain ⟨ts, t, h1, h2, h3⟩ := h.pose ((active_val h.weight).mp ha)
  unfold Layer.poseAt
  rw [h1]
  simp only [h2, Option.getD_some]
  exact h3

/-- What is known after `k` layers: the sums are within a few roundings per layer of the exact ones. -/
structure Sums (l : Fin 4) (M s B : ℝ) (k : Nat) (A : ℝ) (T P S : F4 ℝ) (a : F4 F32) (o : SoaTransform F32) : Prop where
  nonneg : 0 ≤ A
  weightFinite : Finite32 (a l).bits
  weight : |val (a l) - A| ≤ 3 * k * M / 2 ^ 24
  translationFinite : ∀ c, Finite32 (o.translation.lane l c).bits
  translation : ∀ c, |val (o.translation.lane l c) - T c| ≤ 4 * k * (B * M) / 2 ^ 24
  translationBound : ∀ c, |T c| ≤ B * A
  rotationFinite : ∀ c, Finite32 (o.rotation.lane l c).bits
  rotation : ∀ c, |val (o.rotation.lane l c) - P c| ≤ 4 * k * (1001 / 1000 * M) / 2 ^ 24
  rotationBound : ∀ c, |P c| ≤ 1001 / 1000 * A
  scaleFinite : ∀ c, Finite32 (o.scale.lane l c).bits
  scale : ∀ c, |val (o.scale.lane l c) - S c| ≤ 4 * k * (s * M) / 2 ^ 24
  scaleBound : ∀ c, |S c| ≤ s * A

theorem bound_step {S : F4 ℝ} {B A W : ℝ} {x : F4 ℝ} (hW : 0 ≤ W) (hS : ∀ c, |S c| ≤ B * A) (hx : ∀ c, |x c| ≤ B) (c : Fin 4) :
    |(S + W • x) c| ≤ B * (A + W) := by
  have h1 := abs_add_le (S c) (W * x c)
  rw [abs_mul, abs_of_nonneg hW] at h1
  have h2 := mul_le_mul_of_nonneg_left (hx c) hW
  change |S c + W * x c| ≤ _
  linarith [hS c]

theorem pose_rotation {t : SoaTransform F32} {l : Fin 4} {s B : ℝ} (h : Pose32Ok t l s B) :
    |norm2 (fun c => val (t.rotation.lane l c)) - 1| ≤ 1 / 2 ^ 10 := by
  have e : (fun c => val (t.rotation.lane l c)) = (valTransform t).rotation.lane l := funext fun c => (lane_val t l c).2.1.symm
  rw [e]; exact h.rotation

/-- One more layer (or the rest pose), whose weight is known up to `d`. -/
theorem sums_step {l : Fin 4} {M s B : ℝ} {k : Nat} {A W d : ℝ} {T P S : F4 ℝ} {a w : F4 F32} {o t : SoaTransform F32}
    (hz : Sizes M s B) (h : Sums l M s B k A T P S a o) (hk : k ≤ 2 ^ 16) (ht : Pose32Ok t l s B) (hW0 : 0 ≤ W)
    (hAW : A + W ≤ M) (hwf : Finite32 (w l).bits) (hd : d ≤ M / 16) (hw : |val (w l) - W| ≤ d) :
    let P' := if sign4 (o.rotation.dot t.rotation) l then P - W • (valTransform t).rotation.lane l
      else P + W • (valTransform t).rotation.lane l
    (sign4 (o.rotation.dot t.rotation) l = true → dot4 P ((valTransform t).rotation.lane l) ≤ (9 * k + 12) * M / 2 ^ 24) ∧
    (sign4 (o.rotation.dot t.rotation) l = false → -((9 * k + 12) * M / 2 ^ 24) ≤ dot4 P ((valTransform t).rotation.lane l)) ∧
    (∀ c, Finite32 ((blendN t w o).translation.lane l c).bits ∧
      |val ((blendN t w o).translation.lane l c) - (T + W • (valTransform t).translation.lane l) c| ≤
        4 * k * (B * M) / 2 ^ 24 + B * d + 5 / 2 * (B * M) / 2 ^ 24) ∧
    (∀ c, |(T + W • (valTransform t).translation.lane l) c| ≤ B * (A + W)) ∧
    (∀ c, Finite32 ((blendN t w o).rotation.lane l c).bits ∧
      |val ((blendN t w o).rotation.lane l c) - P' c| ≤
        4 * k * (1001 / 1000 * M) / 2 ^ 24 + 1001 / 1000 * d + 5 / 2 * (1001 / 1000 * M) / 2 ^ 24) ∧
    (∀ c, |P' c| ≤ 1001 / 1000 * (A + W)) ∧
    (∀ c, Finite32 ((blendN t w o).scale.lane l c).bits ∧
      |val ((blendN t w o).scale.lane l c) - (S + W • (valTransform t).scale.lane l) c| ≤
        4 * k * (s * M) / 2 ^ 24 + s * d + 5 / 2 * (s * M) / 2 ^ 24) ∧
    (∀ c, |(S + W • (valTransform t).scale.lane l) c| ≤ s * (A + W)) := by
  intro P'
  have M0 : 0 < M := lt_of_lt_of_le (by positivity) hz.weight_ge
  have hk' : (k:ℝ) ≤ 65536 := by exact_mod_cast (by omega : k ≤ 65536)
  have small : ∀ {X : ℝ}, 0 < X → 4 * k * (X * M) / 2 ^ 24 ≤ X * M / 16 := by
    intro X hX
    have h1 := mul_le_mul_of_nonneg_right hk' (show 0 ≤ X * M by positivity)
    have h2 : 0 ≤ X * M := by positivity
    rw [mul_assoc]
    generalize (k:ℝ) * (X * M) = Y at *
    norm_num
    linarith
  have hqv : (fun c => val (t.rotation.lane l c)) = (valTransform t).rotation.lane l := funext fun c => (lane_val t l c).2.1.symm
  have hq := pose_rotation ht
  have hqc := (coords_of_unit hq).1
  have hA : A ≤ M := by linarith
  have hsg := sign_ok hz.weight_ge hz.weight_le h.rotationFinite ht.rotationFinite hq h.rotation (by
      have := small (X := 1001 / 1000) (by norm_num)
      linarith) (fun c => (h.rotationBound c).trans (mul_le_mul_of_nonneg_left hA (by norm_num)))
  rw [hqv] at hsg
  have hδ : 12 * M / 2 ^ 24 + 2002 / 1000 * (4 * k * (1001 / 1000 * M) / 2 ^ 24) ≤ (9 * k + 12) * M / 2 ^ 24 := by
    have : (0:ℝ) ≤ k * M := by positivity
    have e : 12 * M / 2 ^ 24 + 2002 / 1000 * (4 * k * (1001 / 1000 * M) / 2 ^ 24) =
      (12 * M + 2002 / 1000 * 4 * (1001 / 1000) * (k * M)) / 2 ^ 24 := by ring
    rw [e]
    apply div_le_div_of_nonneg_right _ (by positivity)
    linarith
  have tr := vec_step (v := o.translation) (u := t.translation) hwf hz.weight_ge hz.weight_le hz.translation_ge hz.translation_le
    ht.translationFinite ht.translation hd hw hW0 h.nonneg hAW h.translationFinite h.translation h.translationBound
    (small (lt_of_lt_of_le (by positivity) hz.translation_ge))
  have sc := vec_step (v := o.scale) (u := t.scale) hwf hz.weight_ge hz.weight_le hz.scale_ge hz.scale_le
    ht.scaleFinite ht.scale hd hw hW0 h.nonneg hAW h.scaleFinite h.scale h.scaleBound
    (small (lt_of_lt_of_le (by positivity) hz.scale_ge))
  have ro := quat_step (v := o.rotation) (u := t.rotation) (b := sign4 (o.rotation.dot t.rotation)) (B := 1001 / 1000) hwf hz.weight_ge hz.weight_le
    (by norm_num) (by norm_num) ht.rotationFinite hqc hd hw hW0 h.nonneg hAW h.rotationFinite h.rotation h.rotationBound
    (small (by norm_num))
  refine ⟨fun hb => (hsg.1 hb).trans hδ, fun hb => le_trans (neg_le_neg hδ) (hsg.2 hb), ?_, ?_, ?_, ?_, ?_, ?_⟩
  · intro c
    refine ⟨(tr c).1, ?_⟩
    change |_ - (T c + W * (valTransform t).translation.lane l c)| ≤ _
    rw [(lane_val t l c).1]
    exact (tr c).2
  · exact bound_step hW0 h.translationBound (fun c => by rw [(lane_val t l c).1]; exact ht.translation c)
  · intro c
    refine ⟨(ro c).1, ?_⟩
    have e : P' c = P c + W * (if sign4 (o.rotation.dot t.rotation) l then -val (t.rotation.lane l c) else val (t.rotation.lane l c)) := by
      rw [← (lane_val t l c).2.1]
      change (if _ then P - W • (valTransform t).rotation.lane l else P + W • (valTransform t).rotation.lane l) c = _
      split
      · change P c - W * (valTransform t).rotation.lane l c = _
        ring
      · rfl
    rw [e]
    exact (ro c).2
  · intro c
    have hx : ∀ c, |(valTransform t).rotation.lane l c| ≤ 1001 / 1000 := fun c => by rw [(lane_val t l c).2.1]; exact hqc c
    change |(if _ then P - W • (valTransform t).rotation.lane l else P + W • (valTransform t).rotation.lane l) c| ≤ _
    split
    · have := bound_step hW0 h.rotationBound (x := -(valTransform t).rotation.lane l) (fun c => by
        change |-(valTransform t).rotation.lane l c| ≤ _
        rw [abs_neg]; exact hx c) c
      rwa [smul_neg, ← sub_eq_add_neg] at this
    · exact bound_step hW0 h.rotationBound hx c
  · intro c
    refine ⟨(sc c).1, ?_⟩
    change |_ - (S c + W * (valTransform t).scale.lane l c)| ≤ _
    rw [(lane_val t l c).2.2]
    exact (sc c).2
  · exact bound_step hW0 h.scaleBound (fun c => by rw [(lane_val t l c).2.2]; exact ht.scale c)

/-! ## All layers -/

/-- Exact weight and value of a layer. -/
noncomputable def wOf (i : Nat) (l : Fin 4) (y : Layer F32) : ℝ := laneWeight (valLayer y) i l
noncomputable def tOf (i : Nat) (l : Fin 4) (y : Layer F32) : F4 ℝ := (poseOf (valLayer y) i).translation.lane l
noncomputable def rOf (i : Nat) (l : Fin 4) (y : Layer F32) : F4 ℝ := (poseOf (valLayer y) i).rotation.lane l
noncomputable def sOf (i : Nat) (l : Fin 4) (y : Layer F32) : F4 ℝ := (poseOf (valLayer y) i).scale.lane l

theorem layer_error {X M W : ℝ} (hX : 0 < X) (hM : 1 / 2 ^ 60 ≤ M) (hWM : W ≤ M) :
    X * (W / 2 ^ 24 + 1 / 2 ^ 150) ≤ 11 / 10 * (X * M) / 2 ^ 24 := by
  have h1 : W / 2 ^ 24 + 1 / 2 ^ 150 ≤ 11 / 10 * M / 2 ^ 24 := by
    have hu : (1:ℝ) / 2 ^ 150 ≤ M / 2 ^ 60 := by
      refine le_trans ?_ (div_le_div_of_nonneg_right hM (by positivity))
      norm_num
    norm_num at hu ⊢
    linarith
  refine (mul_le_mul_of_nonneg_left h1 hX.le).trans (le_of_eq ?_)
  ring

theorem count_step {X : ℝ} (k : Nat) (c e : ℝ) (h : e ≤ c * X / 2 ^ 24) : c * k * X / 2 ^ 24 + e ≤ c * ((k + 1 : Nat) : ℝ) * X / 2 ^ 24 := by
  push_cast
  have : c * ((k:ℝ) + 1) * X / 2 ^ 24 = c * k * X / 2 ^ 24 + c * X / 2 ^ 24 := by ring
  linarith

/-- The passes of `blend_layers` after the first. -/
theorem fold_sums {i n : Nat} {l : Fin 4} {M s B δ : ℝ} (hz : Sizes M s B) (hn : n ≤ 2 ^ 16) (hδ : (9 * n + 12) * M / 2 ^ 24 ≤ δ)
    (ms : List (Layer F32)) (hok : ∀ y ∈ ms, Layer32Ok y i l s B) (hact : ∀ y ∈ ms, y.active = true) :
    ∀ (k : Nat) (A : ℝ) (T P S : F4 ℝ) (a : F4 F32) (o : SoaTransform F32), Sums l M s B k A T P S a o → k + ms.length ≤ n →
      A + (ms.map (wOf i l)).sum ≤ M →
      ∃ a' o' P', ms.foldl (jointStep i) (some (a, o)) = some (a', o') ∧
        Sums l M s B (k + ms.length) (A + (ms.map (wOf i l)).sum) (T + (ms.map fun y => wOf i l y • tOf i l y).sum) P'
          (S + (ms.map fun y => wOf i l y • sOf i l y).sum) a' o' ∧
        AlignedUpTo δ P (ms.map fun y => (wOf i l y, rOf i l y)) P' := by
  have M0 : 0 < M := lt_of_lt_of_le (by positivity) hz.weight_ge
  have B0 : 0 < B := lt_of_lt_of_le (by positivity) hz.translation_ge
  have s0 : 0 < s := lt_of_lt_of_le (by positivity) hz.scale_ge
  induction ms with
  | nil =>
    intro k A T P S a o h _ _
    refine ⟨a, o, P, rfl, ?_, AlignedUpTo.nil _⟩
    simpa using h
  | cons y ys ih =>
    intro k A T P S a o h hk hA
    rw [List.forall_mem_cons] at hok hact
    rw [List.length_cons] at hk
    rw [List.map_cons, List.sum_cons] at hA
    have hW0 : 0 ≤ wOf i l y := laneWeight_nonneg _ _ _
    have hrest : 0 ≤ (ys.map (wOf i l)).sum := by
      apply List.sum_nonneg
      intro x hx
      obtain ⟨z, -, rfl⟩ := List.mem_map.mp hx
      exact laneWeight_nonneg _ _ _
    have hAW : A + wOf i l y ≤ M := by linarith
    have hWM : wOf i l y ≤ M := by linarith [h.nonneg]
    obtain ⟨wf, we⟩ := weightAt_ok hok.1 hact.1 (hWM.trans (hz.weight_le.trans (by norm_num)))
    change |_ - wOf i l y| ≤ wOf i l y / 2 ^ 24 + 1 / 2 ^ 150 at we
    have hd : wOf i l y / 2 ^ 24 + 1 / 2 ^ 150 ≤ M / 16 := by
      have := layer_error one_pos hz.weight_ge hWM
      norm_num at this ⊢
      linarith
    have hk' : (k:ℝ) ≤ 65536 := by exact_mod_cast (by omega : k ≤ 65536)
    obtain ⟨sg1, sg2, tr, trb, ro, rob, sc, scb⟩ := sums_step hz h (by omega) (poseAt_ok hok.1 hact.1) hW0 hAW wf hd we
    obtain ⟨af, ae⟩ := weight_step h.weightFinite wf hz.weight_ge hz.weight_le h.weight (by
      have h1 := mul_le_mul_of_nonneg_right hk' M0.le
      rw [mul_assoc]
      generalize (k:ℝ) * M = Y at *
      norm_num
      linarith) h.nonneg hW0 hAW we
    rw [← poseOf_val] at sg1 sg2 tr trb ro rob sc scb
    change _ → dot4 P (rOf i l y) ≤ _ at sg1
    change _ → _ ≤ dot4 P (rOf i l y) at sg2
    have herr : ∀ {X : ℝ}, 0 < X → X * (wOf i l y / 2 ^ 24 + 1 / 2 ^ 150) + 5 / 2 * (X * M) / 2 ^ 24 ≤ 4 * (X * M) / 2 ^ 24 := by
      intro X hX
      have := layer_error hX hz.weight_ge hWM
      have h2 : 0 < X * M := by positivity
      norm_num at this ⊢
      linarith
    have hs : Sums l M s B (k + 1) (A + wOf i l y) (T + wOf i l y • tOf i l y)
        (if sign4 (o.rotation.dot (y.poseAt i).rotation) l then P - wOf i l y • rOf i l y else P + wOf i l y • rOf i l y)
        (S + wOf i l y • sOf i l y) (a + y.weightAt i) (blendN (y.poseAt i) (y.weightAt i) o) := by
      refine ⟨by linarith [h.nonneg], af, ae.trans (count_step k 3 _ le_rfl), fun c => (tr c).1, fun c => (tr c).2.trans ?_, trb,
        fun c => (ro c).1, fun c => (ro c).2.trans ?_, rob, fun c => (sc c).1, fun c => (sc c).2.trans ?_, scb⟩
      · rw [add_assoc]; exact count_step k 4 _ (herr B0)
      · rw [add_assoc]; exact count_step k 4 _ (herr (by norm_num))
      · rw [add_assoc]; exact count_step k 4 _ (herr s0)
    obtain ⟨a', o', P', h1, h2, h3⟩ := ih hok.2 hact.2 (k + 1) _ _ _ _ _ _ hs (by omega) (by linarith)
    have hδk : (9 * (k:ℝ) + 12) * M / 2 ^ 24 ≤ δ := by
      refine le_trans ?_ hδ
      apply div_le_div_of_nonneg_right _ (by positivity)
      apply mul_le_mul_of_nonneg_right _ M0.le
      have : (k:ℝ) ≤ n := by exact_mod_cast (by omega : k ≤ n)
      linarith
    refine ⟨a', o', P', h1, ?_, ?_⟩
    · simp only [List.map_cons, List.sum_cons, List.length_cons]
      rw [show k + (ys.length + 1) = k + 1 + ys.length by omega, ← add_assoc, ← add_assoc, ← add_assoc]
      exact h2
    · rw [List.map_cons]
      cases hb : sign4 (o.rotation.dot (y.poseAt i).rotation) l with
      | true =>
        rw [hb, if_pos rfl] at h3
        exact AlignedUpTo.turn ((sg1 hb).trans hδk) h3
      | false =>
        rw [hb] at h3
        exact AlignedUpTo.keep (le_trans (neg_le_neg hδk) (sg2 hb)) h3

/-- The first layer. -/
theorem sums_first {i : Nat} {l : Fin 4} {M s B : ℝ} (hz : Sizes M s B) (y : Layer F32) (hok : Layer32Ok y i l s B) (hact : y.active = true)
    (hWM : wOf i l y ≤ M) :
    Sums l M s B 1 (wOf i l y) (wOf i l y • tOf i l y) (wOf i l y • rOf i l y) (wOf i l y • sOf i l y) (y.weightAt i)
      (blend1 (y.poseAt i) (y.weightAt i)) := by
  have M0 : 0 < M := lt_of_lt_of_le (by positivity) hz.weight_ge
  have B0 : 0 < B := lt_of_lt_of_le (by positivity) hz.translation_ge
  have s0 : 0 < s := lt_of_lt_of_le (by positivity) hz.scale_ge
  have hW0 : 0 ≤ wOf i l y := laneWeight_nonneg _ _ _
  obtain ⟨wf, we⟩ := weightAt_ok hok hact (hWM.trans (hz.weight_le.trans (by norm_num)))
  change |_ - wOf i l y| ≤ wOf i l y / 2 ^ 24 + 1 / 2 ^ 150 at we
  have h1 := layer_error one_pos hz.weight_ge hWM
  have hd : wOf i l y / 2 ^ 24 + 1 / 2 ^ 150 ≤ M / 16 := by
    norm_num at h1 ⊢
    linarith
  have ht := poseAt_ok hok hact
  have hqc := (coords_of_unit (pose_rotation ht)).1
  have hWa : |wOf i l y| ≤ M := by rw [abs_of_nonneg hW0]; exact hWM
  have tr := vec_first (u := (y.poseAt i).translation) wf hz.weight_ge hz.weight_le hz.translation_ge hz.translation_le ht.translationFinite ht.translation hd we hWa
  have sc := vec_first (u := (y.poseAt i).scale) wf hz.weight_ge hz.weight_le hz.scale_ge hz.scale_le ht.scaleFinite ht.scale hd we hWa
  have ro := quat_first (u := (y.poseAt i).rotation) (B := 1001 / 1000) wf hz.weight_ge hz.weight_le (by norm_num) (by norm_num) ht.rotationFinite hqc hd we hWa
  have herr : ∀ {X : ℝ}, 0 < X → X * (wOf i l y / 2 ^ 24 + 1 / 2 ^ 150) + 11 / 10 * (X * M) / 2 ^ 24 ≤ 4 * (1:Nat) * (X * M) / 2 ^ 24 := by
    intro X hX
    have := layer_error hX hz.weight_ge hWM
    have h2 : 0 < X * M := by positivity
    norm_num at this ⊢
    linarith
  have hb : ∀ {X : ℝ} {x : F4 ℝ}, (∀ c, |x c| ≤ X) → ∀ c, |(wOf i l y • x) c| ≤ X * wOf i l y := by
    intro X x hx c
    change |wOf i l y * x c| ≤ _
    rw [abs_mul, abs_of_nonneg hW0, mul_comm]
    exact mul_le_mul_of_nonneg_right (hx c) hW0
  have vt : ∀ c, tOf i l y c = val ((y.poseAt i).translation.lane l c) := fun c => by
    unfold tOf; rw [poseOf_val]; exact (lane_val _ l c).1
  have vr : ∀ c, rOf i l y c = val ((y.poseAt i).rotation.lane l c) := fun c => by
    unfold rOf; rw [poseOf_val]; exact (lane_val _ l c).2.1
  have vs : ∀ c, sOf i l y c = val ((y.poseAt i).scale.lane l c) := fun c => by
    unfold sOf; rw [poseOf_val]; exact (lane_val _ l c).2.2
  refine ⟨hW0, wf, we.trans ?_, fun c => (tr c).1, fun c => ?_, hb fun c => by rw [vt]; exact ht.translation c,
        fun c => (ro c).1, fun c => ?_, hb fun c => by rw [vr]; exact hqc c, fun c => (sc c).1, fun c => ?_,
        hb fun c => by rw [vs]; exact ht.scale c⟩
  · norm_num at h1 ⊢
    linarith
  · change |_ - wOf i l y * tOf i l y c| ≤ _
    rw [vt]
    exact (tr c).2.trans (herr B0)
  · change |_ - wOf i l y * rOf i l y c| ≤ _
    rw [vr]
    exact (ro c).2.trans (herr (by norm_num))
  · change |_ - wOf i l y * sOf i l y c| ≤ _
    rw [vs]
    exact (sc c).2.trans (herr s0)

/-- Layers without weight do not matter for aligned sums. -/
theorem aligned_filter {i : Nat} {l : Fin 4} {δ : ℝ} (hδ : 0 ≤ δ) (ls : List (Layer F32)) (hf : ∀ y ∈ ls, Finite32 y.weight.bits) :
    ∀ (P R : F4 ℝ) (cs : List (ℝ × F4 ℝ)), AlignedUpTo δ P ((ls.filter Layer.active).map (fun y => (wOf i l y, rOf i l y)) ++ cs) R →
      AlignedUpTo δ P (ls.map (fun y => (wOf i l y, rOf i l y)) ++ cs) R := by
  induction ls with
  | nil => intro P R cs h; exact h
  | cons y ys ih =>
    rw [List.forall_mem_cons] at hf
    intro P R cs h
    cases ha : y.active with
    | true =>
      rw [List.filter_cons, ha, if_pos rfl, List.map_cons, List.cons_append] at h
      rw [List.map_cons, List.cons_append]
      cases h with
      | keep h1 h2 => exact AlignedUpTo.keep h1 (ih hf.2 _ _ _ h2)
      | turn h1 h2 => exact AlignedUpTo.turn h1 (ih hf.2 _ _ _ h2)
    | false =>
      rw [List.filter_cons, ha] at h
      rw [List.map_cons, List.cons_append]
      have hw : wOf i l y = 0 := laneWeight_inactive _ i l (by rw [active_valLayer hf.1]; exact ha)
      have h' := ih hf.2 _ _ _ h
      rw [hw]
      rcases le_total (-δ) (dot4 P (rOf i l y)) with h1 | h1
      · exact AlignedUpTo.keep h1 (by rw [zero_smul, add_zero]; exact h')
      · exact AlignedUpTo.turn (h1.trans (by linarith)) (by rw [zero_smul, sub_zero]; exact h')

theorem aligned_append {δ : ℝ} {P Q R : F4 ℝ} {cs ds : List (ℝ × F4 ℝ)} (h1 : AlignedUpTo δ P cs Q) (h2 : AlignedUpTo δ Q ds R) :
    AlignedUpTo δ P (cs ++ ds) R := by
  induction h1 with
  | nil => exact h2
  | keep h _ ih => exact AlignedUpTo.keep h (ih h2)
  | turn h _ ih => exact AlignedUpTo.turn h (ih h2)

/-! ## The rest pose -/

/-- The sum of the weights of layers without joint weights. -/
theorem sumWeights_ok {i n : Nat} {l : Fin 4} {M s B : ℝ} (hz : Sizes M s B) (hn : n ≤ 2 ^ 16) (ms : List (Layer F32))
    (hok : ∀ y ∈ ms, Layer32Ok y i l s B) (hact : ∀ y ∈ ms, y.active = true) (hfull : ∀ y ∈ ms, y.isPartial = false) :
    ∀ (k : Nat) (A : ℝ) (a : F32), 0 ≤ A → Finite32 a.bits → |val a - A| ≤ 3 * k * M / 2 ^ 24 → k + ms.length ≤ n →
      A + (ms.map (wOf i l)).sum ≤ M →
      Finite32 (ms.foldl (fun a y => a + y.weight) a).bits ∧
      |val (ms.foldl (fun a y => a + y.weight) a) - (A + (ms.map (wOf i l)).sum)| ≤ 3 * (k + ms.length : Nat) * M / 2 ^ 24 := by
  have M0 : 0 < M := lt_of_lt_of_le (by positivity) hz.weight_ge
  induction ms with
  | nil =>
    intro k A a _ hf h _ _
    simpa using ⟨hf, h⟩
  | cons y ys ih =>
    intro k A a hA0 hf h hk hA
    rw [List.forall_mem_cons] at hok hact hfull
    rw [List.length_cons] at hk
    rw [List.map_cons, List.sum_cons] at hA
    have hW0 : 0 ≤ wOf i l y := laneWeight_nonneg _ _ _
    have hrest : 0 ≤ (ys.map (wOf i l)).sum := by
      apply List.sum_nonneg
      intro x hx
      obtain ⟨z, -, rfl⟩ := List.mem_map.mp hx
      exact laneWeight_nonneg _ _ _
    obtain ⟨wf, we⟩ := weightAt_ok hok.1 hact.1 ((show wOf i l y ≤ M by linarith).trans (hz.weight_le.trans (by norm_num)))
    have hw : y.weightAt i l = y.weight := by
      unfold Layer.weightAt
      rw [hfull.1]
      rfl
    rw [hw] at wf we
    have hk' : (k:ℝ) ≤ 65536 := by exact_mod_cast (by omega : k ≤ 65536)
    obtain ⟨af, ae⟩ := weight_step hf wf hz.weight_ge hz.weight_le h (by
      have h1 := mul_le_mul_of_nonneg_right hk' M0.le
      rw [mul_assoc]
      generalize (k:ℝ) * M = Y at *
      norm_num
      linarith) hA0 hW0 (by change A + wOf i l y ≤ M; linarith) we
    have := ih hok.2 hact.2 hfull.2 (k + 1) (A + wOf i l y) (a + y.weight) (by linarith) af (ae.trans (count_step k 3 _ le_rfl)) (by omega)
      (by linarith)
    rw [List.foldl_cons, List.map_cons, List.sum_cons, List.length_cons, show k + (ys.length + 1) = k + 1 + ys.length by omega, ← add_assoc]
    exact this

/-- After the rest pose: what the sums are near to, and the weight they are divided by. -/
structure Blended (l : Fin 4) (M s B : ℝ) (n : Nat) (T R S : F4 ℝ) (f : F4 F32) (o : SoaTransform F32) : Prop where
  weightFinite : Finite32 (f l).bits
  weight : |val (f l) - M| ≤ (3 * n + 2) * M / 2 ^ 24
  translationFinite : ∀ c, Finite32 (o.translation.lane l c).bits
  translation : ∀ c, |val (o.translation.lane l c) - T c| ≤ (7 * n + 8) * (B * M) / 2 ^ 24
  translationBound : ∀ c, |T c| ≤ B * M
  rotationFinite : ∀ c, Finite32 (o.rotation.lane l c).bits
  rotation : ∀ c, |val (o.rotation.lane l c) - R c| ≤ (7 * n + 8) * (1001 / 1000 * M) / 2 ^ 24
  rotationBound : ∀ c, |R c| ≤ 1001 / 1000 * M
  scaleFinite : ∀ c, Finite32 (o.scale.lane l c).bits
  scale : ∀ c, |val (o.scale.lane l c) - S c| ≤ (7 * n + 8) * (s * M) / 2 ^ 24
  scaleBound : ∀ c, |S c| ≤ s * M

/-- The rest pose added with a weight known up to a few roundings. -/
theorem add_rest {l : Fin 4} {M s B δ W : ℝ} {n k : Nat} {A : ℝ} {T P S : F4 ℝ} {a w f : F4 F32} {o t : SoaTransform F32}
    (hz : Sizes M s B) (hn : n ≤ 2 ^ 16) (hδ : (9 * n + 12) * M / 2 ^ 24 ≤ δ) (h : Sums l M s B k A T P S a o) (hk : k ≤ n)
    (ht : Pose32Ok t l s B) (hW0 : 0 ≤ W) (hAW : A + W = M) (hwf : Finite32 (w l).bits)
    (hw : |val (w l) - W| ≤ (3 * n + 2) * M / 2 ^ 24) (hff : Finite32 (f l).bits) (hf : |val (f l) - M| ≤ (3 * n + 2) * M / 2 ^ 24) :
    ∃ R, AlignedUpTo δ P [(W, (valTransform t).rotation.lane l)] R ∧
      Blended l M s B n (T + W • (valTransform t).translation.lane l) R (S + W • (valTransform t).scale.lane l) f (blendN t w o) := by
  have M0 : 0 < M := lt_of_lt_of_le (by positivity) hz.weight_ge
  have B0 : 0 < B := lt_of_lt_of_le (by positivity) hz.translation_ge
  have s0 : 0 < s := lt_of_lt_of_le (by positivity) hz.scale_ge
  have hn' : (n:ℝ) ≤ 65536 := by exact_mod_cast (by omega : n ≤ 65536)
  have hkn : (k:ℝ) ≤ n := by exact_mod_cast hk
  have hd : (3 * (n:ℝ) + 2) * M / 2 ^ 24 ≤ M / 16 := by
    have h1 := mul_le_mul_of_nonneg_right hn' M0.le
    have e : (3 * (n:ℝ) + 2) * M / 2 ^ 24 = (3 * (n * M) + 2 * M) / 2 ^ 24 := by ring
    rw [e]
    generalize (n:ℝ) * M = Y at *
    norm_num
    linarith
  obtain ⟨sg1, sg2, tr, trb, ro, rob, sc, scb⟩ := sums_step hz h (by omega) ht hW0 hAW.le hwf hd hw
  rw [hAW] at trb rob scb
  have herr : ∀ {X : ℝ}, 0 < X → 4 * k * (X * M) / 2 ^ 24 + X * ((3 * n + 2) * M / 2 ^ 24) + 5 / 2 * (X * M) / 2 ^ 24 ≤
      (7 * n + 8) * (X * M) / 2 ^ 24 := by
    intro X hX
    have h2 : 0 < X * M := by positivity
    have h3 := mul_le_mul_of_nonneg_right hkn h2.le
    have e1 : 4 * k * (X * M) / 2 ^ 24 + X * ((3 * n + 2) * M / 2 ^ 24) + 5 / 2 * (X * M) / 2 ^ 24 =
      (4 * (k * (X * M)) + 3 * (n * (X * M)) + 9 / 2 * (X * M)) / 2 ^ 24 := by ring
    rw [e1]
    apply div_le_div_of_nonneg_right _ (by positivity)
    linarith
  have hδk : (9 * (k:ℝ) + 12) * M / 2 ^ 24 ≤ δ := by
    refine le_trans ?_ hδ
    apply div_le_div_of_nonneg_right _ (by positivity)
    apply mul_le_mul_of_nonneg_right _ M0.le
    linarith
  refine ⟨_, ?_, ⟨hff, hf, fun c => (tr c).1, fun c => (tr c).2.trans (herr B0), trb, fun c => (ro c).1,
    fun c => (ro c).2.trans (herr (by norm_num)), rob, fun c => (sc c).1, fun c => (sc c).2.trans (herr s0), scb⟩⟩
  cases hb : sign4 (o.rotation.dot t.rotation) l with
  | true => exact AlignedUpTo.turn ((sg1 hb).trans hδk) (AlignedUpTo.nil _)
  | false => exact AlignedUpTo.keep (le_trans (neg_le_neg hδk) (sg2 hb)) (AlignedUpTo.nil _)

/-- The rest pose left out, its exact weight being no more than a few roundings. -/
theorem skip_rest {l : Fin 4} {M s B δ W : ℝ} {n k : Nat} {A : ℝ} {T P S : F4 ℝ} {a f : F4 F32} {o t : SoaTransform F32}
    (hz : Sizes M s B) (hδ : 0 ≤ δ) (h : Sums l M s B k A T P S a o) (hk : k ≤ n)
    (ht : Pose32Ok t l s B) (hW0 : 0 ≤ W) (hAW : A + W = M) (hW : W ≤ 3 * k * M / 2 ^ 24)
    (hff : Finite32 (f l).bits) (hf : |val (f l) - M| ≤ (3 * n + 2) * M / 2 ^ 24) :
    ∃ R, AlignedUpTo δ P [(W, (valTransform t).rotation.lane l)] R ∧
      Blended l M s B n (T + W • (valTransform t).translation.lane l) R (S + W • (valTransform t).scale.lane l) f o := by
  have M0 : 0 < M := lt_of_lt_of_le (by positivity) hz.weight_ge
  have B0 : 0 < B := lt_of_lt_of_le (by positivity) hz.translation_ge
  have s0 : 0 < s := lt_of_lt_of_le (by positivity) hz.scale_ge
  have hkn : (k:ℝ) ≤ n := by exact_mod_cast hk
  have key : ∀ {X e : ℝ} {x y v : ℝ}, 0 < X → |v - x| ≤ 4 * k * (X * M) / 2 ^ 24 → |y| ≤ X → e = x + W * y ∨ e = x - W * y →
      |v - e| ≤ (7 * n + 8) * (X * M) / 2 ^ 24 := by
    intro X e x y v hX h1 h2 h3
    have h4 : |x - e| ≤ W * X := by
      have : |W * y| ≤ W * X := by
        rw [abs_mul, abs_of_nonneg hW0]
        exact mul_le_mul_of_nonneg_left h2 hW0
      rcases h3 with rfl | rfl
      · rw [show x - (x + W * y) = -(W * y) by ring, abs_neg]; exact this
      · rw [show x - (x - W * y) = W * y by ring]; exact this
    have h5 := abs_add_le (v - x) (x - e)
    rw [sub_add_sub_cancel] at h5
    have h6 := mul_le_mul_of_nonneg_right hW hX.le
    have h7 : 0 < X * M := by positivity
    have h8 := mul_le_mul_of_nonneg_right hkn h7.le
    have e1 : 4 * k * (X * M) / 2 ^ 24 + 3 * k * M / 2 ^ 24 * X = 7 * (k * (X * M)) / 2 ^ 24 := by ring
    refine h5.trans (le_trans (b := 7 * (k * (X * M)) / 2 ^ 24) (by linarith) ?_)
    apply div_le_div_of_nonneg_right _ (by positivity)
    linarith
  have hq := (coords_of_unit (pose_rotation ht)).1
  have qx : ∀ c, |(valTransform t).rotation.lane l c| ≤ 1001 / 1000 := fun c => by rw [(lane_val t l c).2.1]; exact hq c
  have tx : ∀ c, |(valTransform t).translation.lane l c| ≤ B := fun c => by rw [(lane_val t l c).1]; exact ht.translation c
  have sx : ∀ c, |(valTransform t).scale.lane l c| ≤ s := fun c => by rw [(lane_val t l c).2.2]; exact ht.scale c
  have tb := bound_step hW0 h.translationBound tx
  have sb := bound_step hW0 h.scaleBound sx
  rw [hAW] at tb sb
  rcases le_total (-δ) (dot4 P ((valTransform t).rotation.lane l)) with hs | hs
  · refine ⟨_, AlignedUpTo.keep hs (AlignedUpTo.nil _), ⟨hff, hf, h.translationFinite, fun c => key B0 (h.translation c) (tx c) (.inl rfl), tb,
      h.rotationFinite, fun c => key (by norm_num) (h.rotation c) (qx c) (.inl rfl), ?_, h.scaleFinite,
      fun c => key s0 (h.scale c) (sx c) (.inl rfl), sb⟩⟩
    have := bound_step hW0 h.rotationBound qx
    rwa [hAW] at this
  · refine ⟨_, AlignedUpTo.turn (hs.trans (by linarith)) (AlignedUpTo.nil _), ⟨hff, hf, h.translationFinite,
      fun c => key B0 (h.translation c) (tx c) (.inl rfl), tb,
      h.rotationFinite, fun c => key (by norm_num) (h.rotation c) (qx c) (.inr rfl), ?_, h.scaleFinite,
      fun c => key s0 (h.scale c) (sx c) (.inl rfl), sb⟩⟩
    have := bound_step hW0 h.rotationBound (x := -(valTransform t).rotation.lane l) (fun c => by
        change |-(valTransform t).rotation.lane l c| ≤ _
        rw [abs_neg]; exact qx c)
    rw [smul_neg, ← sub_eq_add_neg, hAW] at this
    exact this

/-- Everything before the division, if there is a layer with positive weight. -/
theorem blended_ok {i n : Nat} {l : Fin 4} {M s B δ : ℝ} {thr : F32} {ls : List (Layer F32)} {r : SoaTransform F32}
    (hn : ls.length ≤ n) (hn2 : n ≤ 2 ^ 16) (hz : Sizes M s B) (hδ : (9 * n + 12) * M / 2 ^ 24 ≤ δ) (hM : M = max (val thr) ((ls.map (wOf i l)).sum))
    (hthr : Finite32 thr.bits) (hpos : 0 < val thr) (hok : ∀ y ∈ ls, Layer32Ok y i l s B) (hr : Pose32Ok r l s B) (hact : numActive ls ≠ 0)
    (old : F4 F32 × SoaTransform F32) :
    ∃ R, AlignedUpTo δ 0 (ls.map (fun y => (wOf i l y, rOf i l y)) ++
        [(max 0 (val thr - (ls.map (wOf i l)).sum), (valTransform r).rotation.lane l)]) R ∧
      Blended l M s B n
        ((ls.map fun y => wOf i l y • tOf i l y).sum + (max 0 (val thr - (ls.map (wOf i l)).sum)) • (valTransform r).translation.lane l) R
        ((ls.map fun y => wOf i l y • sOf i l y).sum + (max 0 (val thr - (ls.map (wOf i l)).sum)) • (valTransform r).scale.lane l)
        (finalWeight thr ls ((jointFold i ls none).getD old).1)
        (withRest thr ls r ((jointFold i ls none).getD old).1 ((jointFold i ls none).getD old).2) := by
  have M0 : 0 < M := lt_of_lt_of_le (by positivity) hz.weight_ge
  have hδ0 : 0 ≤ δ := le_trans (by positivity) hδ
  have hfin : ∀ y ∈ ls, Finite32 y.weight.bits := fun y hy => (hok y hy).weight
  -- sums over active layers are sums over all
  have drop : ∀ (f : Layer F32 → F4 ℝ), ((ls.filter Layer.active).map fun y => wOf i l y • f y).sum = (ls.map fun y => wOf i l y • f y).sum := by
    intro f
    clear hn hM hok hact
    induction ls with
    | nil => rfl
    | cons y ys ih =>
      rw [List.forall_mem_cons] at hfin
      rw [List.filter_cons]
      cases h : y.active with
      | true => simp only [if_true, List.map_cons, List.sum_cons, ih hfin.2]
      | false =>
        have hw : wOf i l y = 0 := laneWeight_inactive _ i l (by rw [active_valLayer hfin.1]; exact h)
        simp [hw, ih hfin.2]
  have dropW : ((ls.filter Layer.active).map (wOf i l)).sum = (ls.map (wOf i l)).sum := by
    clear hn hM hok hact drop
    induction ls with
    | nil => rfl
    | cons y ys ih =>
      rw [List.forall_mem_cons] at hfin
      rw [List.filter_cons]
      cases h : y.active with
      | true => simp only [if_true, List.map_cons, List.sum_cons, ih hfin.2]
      | false =>
        have hw : wOf i l y = 0 := laneWeight_inactive _ i l (by rw [active_valLayer hfin.1]; exact h)
        simp [hw, ih hfin.2]
  generalize hW : (ls.map (wOf i l)).sum = W at *
  have hWM : W ≤ M := by rw [hM]; exact le_max_right _ _
  have htM : val thr ≤ M := by rw [hM]; exact le_max_left _ _
  have hW0 : 0 ≤ W := by
    rw [← hW]
    apply List.sum_nonneg
    intro x hx
    obtain ⟨z, -, rfl⟩ := List.mem_map.mp hx
    exact laneWeight_nonneg _ _ _
  have hAW : W + max 0 (val thr - W) = M := by
    rw [hM]
    rcases le_total (val thr) W with h | h
    · rw [max_eq_right h, max_eq_left (by linarith)]; ring
    · rw [max_eq_left h, max_eq_right (by linarith)]; ring
  -- the layers
  have hall : ∀ y ∈ ls.filter Layer.active, y.active = true := fun y hy => (List.mem_filter.mp hy).2
  have hokA : ∀ y ∈ ls.filter Layer.active, Layer32Ok y i l s B := fun y hy => hok y (List.mem_filter.mp hy).1
  have hlenA : (ls.filter Layer.active).length ≤ n := (List.length_filter_le _ _).trans hn
  obtain ⟨k, a, o, P, hkn, hfold, hsums, hal, hacc⟩ : ∃ k a o P, k ≤ n ∧ jointFold i ls none = some (a, o) ∧
      Sums l M s B k W ((ls.map fun y => wOf i l y • tOf i l y).sum) P ((ls.map fun y => wOf i l y • sOf i l y).sum) a o ∧
      AlignedUpTo δ 0 ((ls.filter Layer.active).map fun y => (wOf i l y, rOf i l y)) P ∧
      (numPartial ls = 0 → Finite32 (sumWeights ls F32.zero).bits ∧ |val (sumWeights ls F32.zero) - W| ≤ 3 * k * M / 2 ^ 24) := by
    have hp : numPartial ls = 0 → ∀ y ∈ ls.filter Layer.active, y.isPartial = false := by
      intro h y hy
      unfold numPartial at h
      by_contra hc
      have : y ∈ (ls.filter Layer.active).filter Layer.isPartial := List.mem_filter.mpr ⟨hy, by simpa using hc⟩
      rw [List.length_eq_zero_iff.mp h] at this
      cases this
    have hacc' : numPartial ls = 0 → Finite32 (sumWeights ls F32.zero).bits ∧
        |val (sumWeights ls F32.zero) - W| ≤ 3 * ((ls.filter Layer.active).length : Nat) * M / 2 ^ 24 := by
      intro h
      have := sumWeights_ok (i := i) (l := l) hz hn2 (ls.filter Layer.active) hokA hall (hp h) 0 0 F32.zero le_rfl zero_finite
        (by rw [valZero]; simp) (by omega) (by rw [dropW]; linarith)
      rw [dropW, zero_add, Nat.zero_add] at this
      exact this
    refine ⟨(ls.filter Layer.active).length, ?_⟩
    rw [← drop (tOf i l), ← drop (sOf i l), ← dropW]
    rw [← dropW] at hWM hacc'
    unfold jointFold
    unfold numActive at hact
    cases hf : ls.filter Layer.active with
    | nil => rw [hf] at hact; simp at hact
    | cons y ys =>
      rw [hf] at hokA hall hlenA hacc' hWM
      rw [List.forall_mem_cons] at hokA hall
      rw [List.length_cons] at hlenA
      rw [List.map_cons, List.sum_cons] at hWM
      have hrest : 0 ≤ (ys.map (wOf i l)).sum := by
        apply List.sum_nonneg
        intro x hx
        obtain ⟨z, -, rfl⟩ := List.mem_map.mp hx
        exact laneWeight_nonneg _ _ _
      have h1 := sums_first hz y hokA.1 hall.1 (by linarith)
      obtain ⟨a', o', P', h2, h3, h4⟩ := fold_sums hz hn2 hδ ys hokA.2 hall.2 1 _ _ _ _ _ _ h1 (by omega) hWM
      refine ⟨a', o', P', hlenA, h2, ?_, ?_, hacc'⟩
      · simp only [List.map_cons, List.sum_cons, List.length_cons]
        rw [Nat.add_comm ys.length 1]
        exact h3
      · rw [List.map_cons]
        refine AlignedUpTo.keep (by rw [dot4_zero]; linarith) ?_
        rw [zero_add]
        exact h4
  rw [hfold]
  simp only [Option.getD_some]
  have finish : ∀ {f : F4 F32} {o' : SoaTransform F32}, (∃ R, AlignedUpTo δ P [(max 0 (val thr - W), (valTransform r).rotation.lane l)] R ∧
      Blended l M s B n ((ls.map fun y => wOf i l y • tOf i l y).sum + (max 0 (val thr - W)) • (valTransform r).translation.lane l) R
        ((ls.map fun y => wOf i l y • sOf i l y).sum + (max 0 (val thr - W)) • (valTransform r).scale.lane l) f o') →
      ∃ R, AlignedUpTo δ 0 (ls.map (fun y => (wOf i l y, rOf i l y)) ++ [(max 0 (val thr - W), (valTransform r).rotation.lane l)]) R ∧
      Blended l M s B n ((ls.map fun y => wOf i l y • tOf i l y).sum + (max 0 (val thr - W)) • (valTransform r).translation.lane l) R
        ((ls.map fun y => wOf i l y • sOf i l y).sum + (max 0 (val thr - W)) • (valTransform r).scale.lane l) f o' := by
    rintro f o' ⟨R, h1, h2⟩
    exact ⟨R, aligned_filter hδ0 ls hfin _ _ _ (aligned_append hal h1), h2⟩
  apply finish
  have hkR : (k:ℝ) ≤ n := by exact_mod_cast hkn
  have hk16 : (k:ℝ) ≤ 65536 := by exact_mod_cast (by omega : k ≤ 65536)
  have hkM : (k:ℝ) * M ≤ n * M := mul_le_mul_of_nonneg_right hkR M0.le
  have hkM2 : (k:ℝ) * M ≤ 65536 * M := mul_le_mul_of_nonneg_right hk16 M0.le
  -- the weight of the rest pose
  have diff : ∀ {a : F32}, Finite32 a.bits → |val a - W| ≤ 3 * k * M / 2 ^ 24 → Finite32 (thr - a).bits ∧
      |val (thr - a) - (val thr - W)| ≤ (3 * n + 2) * M / 2 ^ 24 ∧ (0 < val (thr - a) ↔ 0 < val thr - val a) := by
    intro a ha he
    have e1 : 3 * k * M / 2 ^ 24 ≤ M / 16 := by
      rw [mul_assoc]
      generalize (k:ℝ) * M = Y at *
      norm_num
      linarith
    have hab : |val thr - val a| ≤ 9 / 8 * M := by
      rw [abs_le] at he ⊢
      constructor <;> linarith [he.1, he.2]
    obtain ⟨f, e⟩ := sub_ok hthr ha (hab.trans (by have := hz.weight_le; norm_num at this ⊢; linarith))
    refine ⟨f, ?_, ?_⟩
    · have h1 := abs_add_le (val (thr - a) - (val thr - val a)) (val thr - val a - (val thr - W))
      rw [sub_add_sub_cancel] at h1
      rw [show val thr - val a - (val thr - W) = -(val a - W) by ring, abs_neg] at h1
      have e2 : 3 * (k:ℝ) * M / 2 ^ 24 = 3 * (k * M) / 2 ^ 24 := by ring
      have e3 : (3 * (n:ℝ) + 2) * M / 2 ^ 24 = (3 * (n * M) + 2 * M) / 2 ^ 24 := by ring
      rw [e2] at he
      rw [e3]
      generalize (k:ℝ) * M = Y at *
      generalize (n:ℝ) * M = Y' at *
      norm_num at e he ⊢
      linarith
    · constructor
      · intro h
        by_contra hc
        have hc := not_lt.mp hc
        rw [abs_of_nonpos hc] at e
        have := (abs_le.mp e).2
        norm_num at this
        linarith
      · intro h
        rw [abs_of_pos h] at e
        have := (abs_le.mp e).1
        norm_num at this
        linarith
  have widen : ∀ {x : ℝ}, |x| ≤ 3 * k * M / 2 ^ 24 → |x| ≤ (3 * n + 2) * M / 2 ^ 24 := by
    intro x hx
    refine hx.trans ?_
    apply div_le_div_of_nonneg_right _ (by positivity)
    rw [mul_assoc]
    linarith
  by_cases hp : numPartial ls = 0
  · obtain ⟨sf, se⟩ := hacc hp
    obtain ⟨df, de, dpos⟩ := diff sf se
    have hltv := lt_val32 zero_finite df
    rw [valZero] at hltv
    have hlt : NumOps.lt NumOps.zero (thr - sumWeights ls NumOps.zero) = true ↔ 0 < val (thr - sumWeights ls F32.zero) := hltv
    unfold finalWeight withRest
    simp only [if_pos hp, if_neg hact]
    by_cases hb : 0 < val (thr - sumWeights ls F32.zero)
    · rw [if_pos (hlt.mpr hb), if_pos (hlt.mpr hb)]
      refine add_rest hz hn2 hδ hsums hkn hr (le_max_left _ _) hAW df ?_ hthr ?_
      · change |val (thr - sumWeights ls F32.zero) - _| ≤ _
        rcases le_total (val thr) W with h | h
        · rw [max_eq_left (by linarith), sub_zero, abs_of_pos hb]
          have := (abs_le.mp de).2
          linarith
        · rw [max_eq_right (by linarith)]
          exact de
      · apply widen
        change |val thr - M| ≤ _
        rw [abs_of_nonpos (by linarith)]
        have h1 := dpos.mp hb
        have h2 := (abs_le.mp se).1
        have h3 : 0 ≤ 3 * k * M / 2 ^ 24 := by positivity
        have h4 : M ≤ val thr + 3 * k * M / 2 ^ 24 := by
          nth_rewrite 1 [hM]
          exact max_le (by linarith) (by linarith)
        linarith
    · have hb' : ¬ NumOps.lt NumOps.zero (thr - sumWeights ls NumOps.zero) = true := fun h => hb (hlt.mp h)
      rw [if_neg hb', if_neg hb']
      have h1 : val thr ≤ val (sumWeights ls F32.zero) := by
        by_contra hc
        exact hb (dpos.mpr (by linarith [not_le.mp hc]))
      have h2 := abs_le.mp se
      have h3 : 0 ≤ 3 * k * M / 2 ^ 24 := by positivity
      refine skip_rest hz hδ0 hsums hkn hr (le_max_left _ _) hAW ?_ sf ?_
      · exact max_le h3 (by linarith [h2.2])
      · apply widen
        change |val (sumWeights ls F32.zero) - M| ≤ _
        rw [abs_le]
        constructor
        · have : M ≤ val (sumWeights ls F32.zero) + 3 * k * M / 2 ^ 24 := by
            nth_rewrite 1 [hM]
            exact max_le (by linarith) (by linarith [h2.1])
          linarith
        · linarith [h2.2]
  · obtain ⟨df, de, dpos⟩ := diff hsums.weightFinite hsums.weight
    obtain ⟨mf, mv⟩ := fmax_val32 df zero_finite
    obtain ⟨xf, xv⟩ := fmax_val32 hthr hsums.weightFinite
    rw [valZero] at mv
    unfold finalWeight withRest
    simp only [if_neg hp]
    refine add_rest hz hn2 hδ hsums hkn hr (le_max_left _ _) hAW mf ?_ xf ?_
    · change |val (F32.fmax (thr - a l) F32.zero) - _| ≤ _
      rw [mv, max_comm 0]
      exact (abs_max_sub_max_le_abs _ _ _).trans de
    · change |val (F32.fmax thr (a l)) - M| ≤ _
      rw [xv, hM]
      rw [← hM]
      nth_rewrite 1 [hM]
      rw [max_comm, max_comm (val thr) W]
      exact (abs_max_sub_max_le_abs _ _ _).trans (widen hsums.weight)

/-! ## The division -/

/-- `o * (1 / f)`. -/
theorem divided_ok {o f : F32} {S F X p q : ℝ} (ho : Finite32 o.bits) (hf : Finite32 f.bits) (hF : 1 / 2 ^ 60 ≤ F) (hF2 : F ≤ 2 ^ 60)
    (hX : 1 / 2 ^ 60 ≤ X) (hX2 : X ≤ 2 ^ 60) (hS : |S| ≤ X * F) (heo : |val o - S| ≤ p * (X * F)) (hef : |val f - F| ≤ q * F)
    (hp0 : 0 ≤ p) (hp : p ≤ 1 / 32) (hq0 : 0 ≤ q) (hq : q ≤ 1 / 64) :
    Finite32 (o * (F32.one / f)).bits ∧ |val (o * (F32.one / f)) - S / F| ≤ X * (21 / 20 * p + 21 / 20 * q + 5 / 2 / 2 ^ 24) := by
  have F0 : 0 < F := lt_of_lt_of_le (by positivity) hF
  have X0 : 0 < X := lt_of_lt_of_le (by positivity) hX
  have hq' := abs_le.mp hef
  have hqF : q * F ≤ F / 64 := by
    have := mul_le_mul_of_nonneg_right hq F0.le
    linarith
  have hf0 : 63 / 64 * F ≤ val f := by linarith [hq'.1]
  have hfp : 0 < val f := by linarith
  -- the reciprocal
  have hinv : 1 / val f ≤ 64 / 63 * (1 / F) := by
    rw [mul_one_div, div_le_div_iff₀ hfp F0]
    linarith
  have hFinv : 1 / F ≤ 2 ^ 60 := by
    rw [div_le_iff₀ F0]
    have := mul_le_mul_of_nonneg_left hF (show (0:ℝ) ≤ 2 ^ 60 by positivity)
    norm_num at this ⊢
    linarith
  have hpos : 0 < 1 / val f := by positivity
  have hFpos : 0 < 1 / F := by positivity
  obtain ⟨gf, ge⟩ := div_ok one_finite hf hfp.ne' (by
    rw [valOne, abs_of_pos hpos]
    refine (hinv.trans (mul_le_mul_of_nonneg_left hFinv (by norm_num))).trans ?_
    norm_num)
  rw [valOne, abs_of_pos hpos] at ge
  have hF1 : 1 / 2 ^ 60 ≤ 1 / F := by
    rw [div_le_div_iff₀ (by positivity) F0]; linarith
  -- relative to 1/F
  have hrel : |1 / val f - 1 / F| ≤ 64 / 63 * q * (1 / F) := by
    have e : 1 / val f - 1 / F = (F - val f) * (1 / val f) * (1 / F) := by field_simp
    rw [e, abs_mul, abs_mul, abs_of_pos hpos, abs_of_pos hFpos, abs_sub_comm]
    apply mul_le_mul_of_nonneg_right _ hFpos.le
    calc |val f - F| * (1 / val f) ≤ q * F * (64 / 63 * (1 / F)) := mul_le_mul hef hinv hpos.le (by positivity)
      _ = 64 / 63 * q := by field_simp
  have hη : |val (F32.one / f) - 1 / F| ≤ (64 / 63 * q + 11 / 10 / 2 ^ 24) * (1 / F) := by
    have h1 := abs_add_le (val (F32.one / f) - 1 / val f) (1 / val f - 1 / F)
    rw [sub_add_sub_cancel] at h1
    have h2 : (1:ℝ) / 2 ^ 150 ≤ 1 / F / 2 ^ 90 := by
      have := div_le_div_of_nonneg_right hF1 (show (0:ℝ) ≤ 2 ^ 90 by positivity)
      norm_num at this ⊢
      linarith
    have h3 : (64 / 63 * q + 11 / 10 / 2 ^ 24) * (1 / F) = 64 / 63 * q * (1 / F) + 11 / 10 / 2 ^ 24 * (1 / F) := by ring
    rw [h3]
    generalize 1 / F = G at *
    generalize 1 / val f = g at *
    norm_num at ge h2 hinv ⊢
    linarith
  generalize hη' : 64 / 63 * q + 11 / 10 / 2 ^ 24 = η at *
  have η1 : η ≤ 1 / 60 := by rw [← hη']; norm_num; linarith
  have η0 : 0 ≤ η := by rw [← hη']; positivity
  have hr : |val (F32.one / f)| ≤ (1 + η) * (1 / F) := by
    have := abs_add_le (val (F32.one / f) - 1 / F) (1 / F)
    rw [sub_add_cancel, abs_of_pos hFpos] at this
    linarith
  -- the product
  have hmain : |val o * val (F32.one / f) - S / F| ≤ X * (p * (1 + η) + η) := by
    have e : val o * val (F32.one / f) - S / F = (val o - S) * val (F32.one / f) + S * (val (F32.one / f) - 1 / F) := by ring
    rw [e]
    refine (abs_add_le _ _).trans ?_
    rw [abs_mul, abs_mul]
    have h1 := mul_le_mul heo hr (abs_nonneg _) (by positivity)
    have h2 := mul_le_mul hS hη (abs_nonneg _) (by positivity)
    have e1 : p * (X * F) * ((1 + η) * (1 / F)) = X * (p * (1 + η)) := by field_simp
    have e2 : X * F * (η * (1 / F)) = X * η := by field_simp
    rw [e1] at h1
    rw [e2] at h2
    linarith
  have hSF : |S / F| ≤ X := by
    rw [abs_div, abs_of_pos F0, div_le_iff₀ F0]; exact hS
  have hpη : p * (1 + η) ≤ p * (61 / 60) := mul_le_mul_of_nonneg_left (by linarith) hp0
  have hb : |val o * val (F32.one / f)| ≤ 11 / 10 * X := by
    have := abs_add_le (val o * val (F32.one / f) - S / F) (S / F)
    rw [sub_add_cancel] at this
    have h3 : X * (p * (1 + η) + η) ≤ X * (1 / 10) := mul_le_mul_of_nonneg_left (by linarith) X0.le
    linarith
  obtain ⟨rf, re, -⟩ := mul_bound ho gf hb (by norm_num at hX2 ⊢; linarith)
  refine ⟨rf, ?_⟩
  have h4 := abs_add_le (val (o * (F32.one / f)) - val o * val (F32.one / f)) (val o * val (F32.one / f) - S / F)
  rw [sub_add_sub_cancel] at h4
  have h5 : (1:ℝ) / 2 ^ 150 ≤ X / 2 ^ 90 := by
    have := div_le_div_of_nonneg_right hX (show (0:ℝ) ≤ 2 ^ 90 by positivity)
    norm_num at this ⊢
    linarith
  have h6 : X * (p * (1 + η) + η) ≤ X * (p * (61 / 60) + (64 / 63 * q + 11 / 10 / 2 ^ 24)) := by
    rw [← hη']
    rw [← hη'] at hpη
    exact mul_le_mul_of_nonneg_left (by linarith) X0.le
  have h7 : 0 ≤ X * p := by positivity
  have h8 : 0 ≤ X * q := by positivity
  have e3 : X * (p * (61 / 60) + (64 / 63 * q + 11 / 10 / 2 ^ 24)) = 61 / 60 * (X * p) + 64 / 63 * (X * q) + 11 / 10 / 2 ^ 24 * X := by ring
  have e4 : X * (21 / 20 * p + 21 / 20 * q + 5 / 2 / 2 ^ 24) = 21 / 20 * (X * p) + 21 / 20 * (X * q) + 5 / 2 / 2 ^ 24 * X := by ring
  rw [e4]
  rw [e3] at h6
  generalize X * p = Xp at *
  generalize X * q = Xq at *
  norm_num at re h5 h6 ⊢
  linarith

/-! ## Aligned sums -/

theorem norm2_nonneg (q : F4 ℝ) : 0 ≤ norm2 q := by unfold norm2; positivity

/-- A rotation added on the side of the sum makes it longer, up to the error. -/
theorem aligned_norm {δ : ℝ} {acc R : F4 ℝ} {cs : List (ℝ × F4 ℝ)} (h : AlignedUpTo δ acc cs R) (hw : ∀ c ∈ cs, 0 ≤ c.1) :
    norm2 acc + (cs.map fun c => c.1 ^ 2 * norm2 c.2).sum - 2 * δ * (cs.map fun c => c.1).sum ≤ norm2 R := by
  induction h with
  | nil acc => simp
  | @keep acc q r w cs h1 _ ih =>
    rw [List.forall_mem_cons] at hw
    have h2 := ih hw.2
    have e : norm2 (acc + w • q) = norm2 acc + 2 * (w * dot4 acc q) + w ^ 2 * norm2 q := by
      simp only [norm2, dot4, Pi.add_apply, Pi.smul_apply, smul_eq_mul]; ring
    have h3 := mul_le_mul_of_nonneg_left h1 hw.1
    simp only [List.map_cons, List.sum_cons]
    rw [e] at h2
    simp only at h3
    linarith
  | @turn acc q r w cs h1 _ ih =>
    rw [List.forall_mem_cons] at hw
    have h2 := ih hw.2
    have e : norm2 (acc - w • q) = norm2 acc - 2 * (w * dot4 acc q) + w ^ 2 * norm2 q := by
      simp only [norm2, dot4, Pi.sub_apply, Pi.smul_apply, smul_eq_mul]; ring
    have h3 := mul_le_mul_of_nonneg_left h1 hw.1
    simp only [List.map_cons, List.sum_cons]
    rw [e] at h2
    simp only at h3
    linarith

theorem sum_sq_ge (cs : List ℝ) : cs.sum ^ 2 ≤ cs.length * (cs.map fun w => w ^ 2).sum := by
  induction cs with
  | nil => simp
  | cons w ws ih =>
    simp only [List.sum_cons, List.map_cons, List.length_cons]
    push_cast
    have ht : 0 ≤ (ws.map fun w => w ^ 2).sum := List.sum_nonneg (by
      intro x hx
      obtain ⟨y, _, rfl⟩ := List.mem_map.mp hx
      positivity)
    generalize ws.sum = s at *
    generalize (ws.map fun w => w ^ 2).sum = t at *
    have hk : (0:ℝ) ≤ ws.length := by positivity
    generalize (ws.length : ℝ) = k at *
    rcases hk.eq_or_lt with rfl | hk
    · have : s = 0 := by nlinarith
      subst this
      nlinarith [sq_nonneg w]
    · have h1 : 2 * w * s ≤ k * w ^ 2 + t := by
        have h2 := sq_nonneg (k * w - s)
        have : k * (2 * w * s) ≤ k * (k * w ^ 2 + t) := by nlinarith
        exact le_of_mul_le_mul_left this hk
      nlinarith

/-- The sum of rotations does not vanish. -/
theorem aligned_long {δ M : ℝ} {R : F4 ℝ} {cs : List (ℝ × F4 ℝ)} {m : ℕ} (h : AlignedUpTo δ 0 cs R) (hw : ∀ c ∈ cs, 0 ≤ c.1)
    (hq : ∀ c ∈ cs, c.1 = 0 ∨ 1 - 1 / 2 ^ 10 ≤ norm2 c.2) (hsum : (cs.map fun c => c.1).sum = M) (hm : cs.length = m) (hm1 : m ≤ 512)
    (hM : 0 < M) (hδ : δ = 12 * m * M / 2 ^ 24) : M ^ 2 ≤ 2 * m * norm2 R := by
  have h1 := aligned_norm h hw
  have h2 : (1 - 1 / 2 ^ 10) * (cs.map fun c => c.1 ^ 2).sum ≤ (cs.map fun c => c.1 ^ 2 * norm2 c.2).sum := by
    clear h hsum hm h1 hw
    induction cs with
    | nil => simp
    | cons c cs ih =>
      rw [List.forall_mem_cons] at hq
      simp only [List.map_cons, List.sum_cons]
      have h3 := ih hq.2
      have h4 : (1 - 1 / 2 ^ 10) * c.1 ^ 2 ≤ c.1 ^ 2 * norm2 c.2 := by
        rcases hq.1 with h | h
        · rw [h]; simp
        · rw [mul_comm]; exact mul_le_mul_of_nonneg_left h (sq_nonneg _)
      linarith
  have h3 := sum_sq_ge (cs.map fun c => c.1)
  rw [hsum, List.length_map, hm, List.map_map] at h3
  change M ^ 2 ≤ m * (cs.map fun c => c.1 ^ 2).sum at h3
  rw [hsum, hδ] at h1
  have z : norm2 (0 : F4 ℝ) = 0 := by simp [norm2]
  rw [z] at h1
  have hm0 : 0 < m := by
    rcases Nat.eq_zero_or_pos m with h0 | h0
    · rw [h0] at h3; simp at h3; nlinarith
    · exact h0
  have hmR : (0:ℝ) < m := by exact_mod_cast hm0
  have hm512 : (m:ℝ) ≤ 512 := by exact_mod_cast hm1
  generalize (cs.map fun c => c.1 ^ 2).sum = t at *
  generalize (cs.map fun c => c.1 ^ 2 * norm2 c.2).sum = u at *
  have h4 : m * ((1 - 1 / 2 ^ 10) * t - 2 * (12 * m * M / 2 ^ 24) * M) ≤ m * norm2 R :=
    mul_le_mul_of_nonneg_left (by linarith) hmR.le
  have h5 : (m:ℝ) ^ 2 ≤ 262144 := by nlinarith
  have h6 : (m:ℝ) ^ 2 * M ^ 2 ≤ 262144 * M ^ 2 := mul_le_mul_of_nonneg_right h5 (sq_nonneg _)
  have e : (m:ℝ) * ((1 - 1 / 2 ^ 10) * t - 2 * (12 * m * M / 2 ^ 24) * M) =
    (1 - 1 / 2 ^ 10) * (m * t) - 24 / 2 ^ 24 * (m ^ 2 * M ^ 2) := by ring
  rw [e] at h4
  have h7 : (2:ℝ) * m * norm2 R = 2 * (m * norm2 R) := by ring
  rw [h7]
  have h8 := sq_nonneg M
  generalize (m:ℝ) * norm2 R = y at *
  generalize (m:ℝ) * t = x at *
  generalize (m:ℝ) ^ 2 * M ^ 2 = z at *
  generalize M ^ 2 = v at *
  norm_num at h4 h6
  linarith

theorem sqrt_norm2_sub (a b : F4 ℝ) : |√(norm2 a) - √(norm2 b)| ≤ √(norm2 (a - b)) := by
  have key : ∀ q : F4 ℝ, √(norm2 q) = ‖toQuat q‖ := by
    intro q
    rw [← norm2_toQuat, Quaternion.normSq_eq_norm_mul_self, Real.sqrt_mul_self (norm_nonneg _)]
  rw [key, key, key]
  have e : toQuat (a - b) = toQuat a - toQuat b := by
    ext <;> rfl
  rw [e]
  exact abs_norm_sub_norm_le _ _

/-- Directions of nearby vectors. -/
theorem unit_near {a b : F4 ℝ} {D : ℝ} (hb : 0 < norm2 b) (ha : 0 < norm2 a) (h : ∀ c, |a c - b c| ≤ D) (c : Fin 4) :
    |a c / √(norm2 a) - unitOf b c| ≤ 3 * D / √(norm2 b) := by
  have D0 : 0 ≤ D := (abs_nonneg _).trans (h 0)
  have hρ : 0 < √(norm2 b) := Real.sqrt_pos.mpr hb
  have hσ : 0 < √(norm2 a) := Real.sqrt_pos.mpr ha
  have h1 : √(norm2 (a - b)) ≤ 2 * D := by
    apply Real.sqrt_le_iff.mpr
    refine ⟨by linarith, ?_⟩
    have hc : ∀ c, (a c - b c) ^ 2 ≤ D ^ 2 := fun c => by
      rw [← sq_abs]; exact pow_le_pow_left₀ (abs_nonneg _) (h c) 2
    have : norm2 (a - b) = (a 0 - b 0) ^ 2 + (a 1 - b 1) ^ 2 + (a 2 - b 2) ^ 2 + (a 3 - b 3) ^ 2 := rfl
    rw [this]
    linarith [hc 0, hc 1, hc 2, hc 3]
  have h2 := (sqrt_norm2_sub a b).trans h1
  have hac : |a c| ≤ √(norm2 a) := by
    apply Real.abs_le_sqrt
    unfold norm2
    have s := fun c => sq_nonneg (a c)
    fin_cases c <;> simp only [Fin.zero_eta, Fin.mk_one, Fin.reduceFinMk] <;> linarith [s 0, s 1, s 2, s 3]
  have e : a c / √(norm2 a) - unitOf b c = (a c - b c) / √(norm2 b) + a c / √(norm2 a) * ((√(norm2 b) - √(norm2 a)) / √(norm2 b)) := by
    change a c / √(norm2 a) - (√(norm2 b))⁻¹ * b c = _
    field_simp
    ring
  rw [e]
  refine (abs_add_le _ _).trans ?_
  rw [abs_div, abs_mul, abs_div, abs_div, abs_of_pos hρ, abs_of_pos hσ]
  have h3 : |a c| / √(norm2 a) ≤ 1 := (div_le_one hσ).mpr hac
  have h4 : |√(norm2 b) - √(norm2 a)| / √(norm2 b) ≤ 2 * D / √(norm2 b) := by
    apply div_le_div_of_nonneg_right _ hρ.le
    rw [abs_sub_comm]; exact h2
  have h5 := mul_le_mul h3 h4 (by positivity) zero_le_one
  have h6 := div_le_div_of_nonneg_right (h c) hρ.le
  have e2 : 3 * D / √(norm2 b) = D / √(norm2 b) + 1 * (2 * D / √(norm2 b)) := by ring
  rw [e2]
  exact add_le_add h6 h5

/-- `normalize` of a quaternion whose norm is neither tiny nor huge. -/
theorem normalize32 {q : SoaQuat F32} {l : Fin 4} (hq : ∀ c, Finite32 (q.lane l c).bits)
    (h0 : 1 / 2 ^ 100 ≤ norm2 (fun c => val (q.lane l c))) (h1 : norm2 (fun c => val (q.lane l c)) ≤ 2 ^ 100) :
    (∀ c, Finite32 (q.normalize.lane l c).bits ∧
      |val (q.normalize.lane l c) - val (q.lane l c) / √(norm2 (fun c => val (q.lane l c)))| ≤
        |val (q.lane l c) / √(norm2 (fun c => val (q.lane l c)))| / 2 ^ 21 + 1 / 2 ^ 150) ∧
    |norm2 (fun c => val (q.normalize.lane l c)) - 1| ≤ 1 / 2 ^ 19 := by
  have s := fun c => sq_nonneg (val (q.lane l c))
  have hS : norm2 (fun c => val (q.lane l c)) =
    val (q.lane l 0) ^ 2 + val (q.lane l 1) ^ 2 + val (q.lane l 2) ^ 2 + val (q.lane l 3) ^ 2 := rfl
  have hle : ∀ c, val (q.lane l c) ^ 2 ≤ norm2 (fun c => val (q.lane l c)) := by
    intro c
    rw [hS]
    fin_cases c <;> simp only [Fin.zero_eta, Fin.mk_one, Fin.reduceFinMk] <;> linarith [s 0, s 1, s 2, s 3]
  have key := fun c => F32.normalize_ok (hq 0) (hq 1) (hq 2) (hq 3) (hq c) hS h0 h1 (hle c)
  have key' : ∀ c, Finite32 (q.normalize.lane l c).bits ∧
      |val (q.normalize.lane l c) - val (q.lane l c) / √(norm2 (fun c => val (q.lane l c)))| ≤
        |val (q.lane l c) / √(norm2 (fun c => val (q.lane l c)))| / 2 ^ 21 + 1 / 2 ^ 150 := by
    intro c
    fin_cases c
    · exact key 0
    · exact key 1
    · exact key 2
    · exact key 3
  refine ⟨key', ?_⟩
  have hp : 0 < norm2 (fun c => val (q.lane l c)) := lt_of_lt_of_le (by positivity) h0
  refine unit_of_close (o := fun c => val (q.normalize.lane l c)) (g := fun c => val (q.lane l c) / √(norm2 (fun c => val (q.lane l c)))) ?_ (fun c => (key' c).2)
  simp only [div_pow, Real.sq_sqrt hp.le]
  rw [← add_div, ← add_div, ← add_div, ← hS, div_self hp.ne']

/-! ## A joint -/

theorem contributions_val {i : Nat} {l : Fin 4} {thr : ℝ} (ls : List (Layer F32)) (r : SoaTransform ℝ) (f : SoaTransform ℝ → F4 ℝ) :
    contributions thr (ls.map valLayer) r i l f =
      (ls.map fun y => (wOf i l y, f (poseOf (valLayer y) i))) ++ [(max 0 (thr - (ls.map (wOf i l)).sum), f r)] := by
  unfold contributions totalWeight
  rw [List.map_map, List.map_map]
  rfl

theorem contributions_total {i : Nat} {l : Fin 4} {thr : ℝ} (ls : List (Layer ℝ)) (r : SoaTransform ℝ) (f : SoaTransform ℝ → F4 ℝ) :
    ((contributions thr ls r i l f).map fun c => c.1).sum = max thr (totalWeight ls i l) := by
  unfold contributions
  rw [List.map_append, List.sum_append, List.map_map]
  have : (List.map ((fun c => c.1) ∘ fun y => (laneWeight y i l, f (poseOf y i))) ls).sum = totalWeight ls i l := rfl
  rw [this]
  simp only [List.map_cons, List.map_nil, List.sum_cons, List.sum_nil, add_zero]
  rcases le_total thr (totalWeight ls i l) with h | h
  · rw [max_eq_right h, max_eq_left (by linarith)]; ring
  · rw [max_eq_left h, max_eq_right (by linarith)]; ring

theorem totalWeight_val {i : Nat} {l : Fin 4} (ls : List (Layer F32)) : totalWeight (ls.map valLayer) i l = (ls.map (wOf i l)).sum := by
  unfold totalWeight; rw [List.map_map]; rfl

theorem average_val {i : Nat} {l : Fin 4} {thr : ℝ} (ls : List (Layer F32)) (r : SoaTransform ℝ) (f : SoaTransform ℝ → F4 ℝ) (c : Fin 4) :
    average (contributions thr (ls.map valLayer) r i l f) c =
      ((ls.map fun y => wOf i l y • f (poseOf (valLayer y) i)).sum + (max 0 (thr - (ls.map (wOf i l)).sum)) • f r) c /
        max thr ((ls.map (wOf i l)).sum) := by
  unfold average
  rw [contributions_total, totalWeight_val, contributions_val, List.map_append, List.sum_append, List.map_map]
  simp only [List.map_cons, List.map_nil, List.sum_cons, List.sum_nil, add_zero]
  change (max thr ((ls.map (wOf i l)).sum))⁻¹ * _ = _
  rw [div_eq_inv_mul]
  rfl

/-- Without active layers there are no weights. -/
theorem no_active {i : Nat} {l : Fin 4} {ls : List (Layer F32)} (hf : ∀ y ∈ ls, Finite32 y.weight.bits) (h : numActive ls = 0) :
    ∀ y ∈ ls, wOf i l y = 0 := by
  intro y hy
  apply laneWeight_inactive
  rw [active_valLayer (hf y hy)]
  unfold numActive at h
  have h2 := List.length_eq_zero_iff.mp h
  cases hc : y.active with
  | false => rfl
  | true =>
    have : y ∈ ls.filter Layer.active := List.mem_filter.mpr ⟨hy, hc⟩
    rw [h2] at this
    simp at this

theorem rest_only {thr : F32} {ls : List (Layer F32)} {r : SoaTransform F32} {a : F4 F32} {o : SoaTransform F32}
    (hthr : Finite32 thr.bits) (hpos : 0 < val thr) (hle : val thr ≤ 2 ^ 60) (h : numActive ls = 0) :
    finalWeight thr ls a = splat F32.one ∧ withRest thr ls r a o = r := by
  have hnil : ls.filter Layer.active = [] := List.length_eq_zero_iff.mp h
  have hp : numPartial ls = 0 := by unfold numPartial; rw [hnil]; rfl
  have hsum : sumWeights ls (NumOps.zero : F32) = F32.zero := by unfold sumWeights; rw [hnil]; rfl
  have hlt : NumOps.lt (NumOps.zero : F32) (thr - F32.zero) = true := by
    obtain ⟨sf, se⟩ := sub_ok hthr zero_finite (by
      rw [valZero, sub_zero, abs_of_pos hpos]
      exact hle.trans (by norm_num))
    refine (lt_val32 zero_finite sf).mpr ?_
    rw [valZero, sub_zero, abs_of_pos hpos] at se
    rw [valZero]
    have := (abs_le.mp se).1
    norm_num at this
    linarith
  unfold finalWeight withRest
  rw [if_pos hp, if_pos hp, hsum, if_pos hlt, if_pos hlt, if_pos h, if_pos h]
  exact ⟨rfl, rfl⟩

theorem mulNum_lane32 (v : SoaVec3 F32) (f : F4 F32) (l : Fin 4) :
    (v.mulNum (recip4 f)).lane l 0 = v.lane l 0 * (F32.one / f l) ∧
    (v.mulNum (recip4 f)).lane l 1 = v.lane l 1 * (F32.one / f l) ∧
    (v.mulNum (recip4 f)).lane l 2 = v.lane l 2 * (F32.one / f l) ∧
    (v.mulNum (recip4 f)).lane l 3 = F32.zero := ⟨rfl, rfl, rfl, rfl⟩

theorem divided_lane {v : SoaVec3 F32} {f : F4 F32} {l : Fin 4} {S : F4 ℝ} {F X p q e : ℝ} (hv : ∀ c, Finite32 (v.lane l c).bits)
    (hf : Finite32 (f l).bits) (hF : 1 / 2 ^ 60 ≤ F) (hF2 : F ≤ 2 ^ 60)
    (hX : 1 / 2 ^ 60 ≤ X) (hX2 : X ≤ 2 ^ 60) (hS : ∀ c, |S c| ≤ X * F) (h3 : S 3 = 0) (heo : ∀ c, |val (v.lane l c) - S c| ≤ p * (X * F))
    (hef : |val (f l) - F| ≤ q * F)
    (hp0 : 0 ≤ p) (hp : p ≤ 1 / 32) (hq0 : 0 ≤ q) (hq : q ≤ 1 / 64) (he : 21 / 20 * p + 21 / 20 * q + 5 / 2 / 2 ^ 24 ≤ e) :
    ∀ c, Finite32 ((v.mulNum (recip4 f)).lane l c).bits ∧ |val ((v.mulNum (recip4 f)).lane l c) - S c / F| ≤ e * X := by
  have X0 : 0 < X := lt_of_lt_of_le (by positivity) hX
  have hle : X * (21 / 20 * p + 21 / 20 * q + 5 / 2 / 2 ^ 24) ≤ e * X := by
    rw [mul_comm]; exact mul_le_mul_of_nonneg_right he X0.le
  have key := fun c => divided_ok (hv c) hf hF hF2 hX hX2 (hS c) (heo c) hef hp0 hp hq0 hq
  obtain ⟨e0, e1, e2, e3⟩ := mulNum_lane32 v f l
  have e0' : 0 ≤ e := le_trans (by positivity) he
  intro c
  fin_cases c
  · change Finite32 ((v.mulNum (recip4 f)).lane l 0).bits ∧ |val ((v.mulNum (recip4 f)).lane l 0) - S 0 / F| ≤ _
    rw [e0]; exact ⟨(key 0).1, (key 0).2.trans hle⟩
  · change Finite32 ((v.mulNum (recip4 f)).lane l 1).bits ∧ |val ((v.mulNum (recip4 f)).lane l 1) - S 1 / F| ≤ _
    rw [e1]; exact ⟨(key 1).1, (key 1).2.trans hle⟩
  · change Finite32 ((v.mulNum (recip4 f)).lane l 2).bits ∧ |val ((v.mulNum (recip4 f)).lane l 2) - S 2 / F| ≤ _
    rw [e2]; exact ⟨(key 2).1, (key 2).2.trans hle⟩
  · change Finite32 ((v.mulNum (recip4 f)).lane l 3).bits ∧ |val ((v.mulNum (recip4 f)).lane l 3) - S 3 / F| ≤ _
    rw [e3, h3, valZero, zero_div, sub_self, abs_zero]
    exact ⟨zero_finite, by positivity⟩

theorem sum_lane3 (ls : List (Layer F32)) (w : Layer F32 → ℝ) (f : Layer F32 → F4 ℝ) (x : ℝ) (r : F4 ℝ) (hf : ∀ y, f y 3 = 0) (hr : r 3 = 0) :
    ((ls.map fun y => w y • f y).sum + x • r) 3 = 0 := by
  have : ((ls.map fun y => w y • f y).sum) 3 = 0 := by
    induction ls with
    | nil => rfl
    | cons y ys ih =>
      rw [List.map_cons, List.sum_cons]
      change w y * f y 3 + _ = 0
      rw [ih, hf, mul_zero, add_zero]
  change _ + x * r 3 = 0
  rw [this, hr, mul_zero, add_zero]

/-- Translation and scale of a joint. -/
theorem joint_average {i : Nat} {l : Fin 4} {M s B : ℝ} {thr : F32} {ls : List (Layer F32)} {r : SoaTransform F32}
    (hn : ls.length ≤ 2 ^ 16) (hz : Sizes M s B) (hM : M = max (val thr) ((ls.map (wOf i l)).sum))
    (hthr : Finite32 thr.bits) (hpos : 0 < val thr) (hok : ∀ y ∈ ls, Layer32Ok y i l s B) (hr : Pose32Ok r l s B)
    (old : F4 F32 × SoaTransform F32) :
    NearAverage l s B ls.length
      (average (contributions (val thr) (ls.map valLayer) (valTransform r) i l fun t => t.translation.lane l))
      (average (contributions (val thr) (ls.map valLayer) (valTransform r) i l fun t => t.scale.lane l))
      (jointBlend thr ls r i old) := by
  have M0 : 0 < M := lt_of_lt_of_le (by positivity) hz.weight_ge
  have B0 : 0 < B := lt_of_lt_of_le (by positivity) hz.translation_ge
  have s0 : 0 < s := lt_of_lt_of_le (by positivity) hz.scale_ge
  have hfin : ∀ y ∈ ls, Finite32 y.weight.bits := fun y hy => (hok y hy).weight
  have hthrM : val thr ≤ M := by rw [hM]; exact le_max_left _ _
  have hn' : (ls.length:ℝ) ≤ 65536 := by exact_mod_cast (by omega : ls.length ≤ 65536)
  have hn0 : (0:ℝ) ≤ ls.length := by positivity
  by_cases hact : numActive ls = 0
  · obtain ⟨e1, e2⟩ := rest_only (r := r) (a := ((jointFold i ls none).getD old).1) (o := ((jointFold i ls none).getD old).2)
      hthr hpos (hthrM.trans hz.weight_le) hact
    have e : jointBlend thr ls r i old = normalizeBy (recip4 (splat F32.one)) r := by
      unfold jointBlend
      simp only [e1, e2]
    rw [e]
    have hw := no_active (i := i) (l := l) hfin hact
    have hsum0 : (ls.map (wOf i l)).sum = 0 := by
      apply List.sum_eq_zero
      intro x hx
      obtain ⟨y, hy, rfl⟩ := List.mem_map.mp hx
      exact hw y hy
    have hval : ∀ (f : SoaTransform ℝ → F4 ℝ) c,
        average (contributions (val thr) (ls.map valLayer) (valTransform r) i l f) c = f (valTransform r) c / 1 := by
      intro f c
      rw [average_val, hsum0]
      have h0 : (ls.map fun y => wOf i l y • f (poseOf (valLayer y) i)).sum = 0 := by
        apply List.sum_eq_zero
        intro x hx
        obtain ⟨y, hy, rfl⟩ := List.mem_map.mp hx
        rw [hw y hy, zero_smul]
      rw [h0, sub_zero, max_eq_right hpos.le, max_eq_left hpos.le, zero_add, div_one]
      change val thr * f (valTransform r) c / val thr = _
      field_simp
    have he : (21:ℝ) / 20 * 0 + 21 / 20 * 0 + 5 / 2 / 2 ^ 24 ≤ 13 * (ls.length + 1) / 2 ^ 24 := by
      norm_num
      linarith
    have hT := divided_lane (v := r.translation) (f := splat F32.one) (l := l) (S := (valTransform r).translation.lane l) (F := 1) (X := B)
      hr.translationFinite one_finite (by norm_num) (by norm_num) hz.translation_ge hz.translation_le
      (fun c => by rw [mul_one, (lane_val r l c).1]; exact hr.translation c) rfl
      (fun c => by rw [(lane_val r l c).1, sub_self, abs_zero, zero_mul])
      (by change |val F32.one - 1| ≤ _; rw [valOne, sub_self, abs_zero, zero_mul]) le_rfl (by norm_num) le_rfl (by norm_num) he
    have hS := divided_lane (v := r.scale) (f := splat F32.one) (l := l) (S := (valTransform r).scale.lane l) (F := 1) (X := s)
      hr.scaleFinite one_finite (by norm_num) (by norm_num) hz.scale_ge hz.scale_le
      (fun c => by rw [mul_one, (lane_val r l c).2.2]; exact hr.scale c) rfl
      (fun c => by rw [(lane_val r l c).2.2, sub_self, abs_zero, zero_mul])
      (by change |val F32.one - 1| ≤ _; rw [valOne, sub_self, abs_zero, zero_mul]) le_rfl (by norm_num) le_rfl (by norm_num) he
    exact ⟨fun c => (hT c).1, fun c => by rw [hval]; exact (hT c).2, fun c => (hS c).1, fun c => by rw [hval]; exact (hS c).2⟩
  · obtain ⟨R, -, hb⟩ := blended_ok (r := r) (δ := (9 * ls.length + 12) * M / 2 ^ 24) le_rfl hn hz le_rfl hM hthr hpos hok hr hact old
    have e : jointBlend thr ls r i old = normalizeBy (recip4 (finalWeight thr ls ((jointFold i ls none).getD old).1))
        (withRest thr ls r ((jointFold i ls none).getD old).1 ((jointFold i ls none).getD old).2) := rfl
    rw [e]
    generalize finalWeight thr ls ((jointFold i ls none).getD old).1 = f at *
    generalize withRest thr ls r ((jointFold i ls none).getD old).1 ((jointFold i ls none).getD old).2 = o at *
    have p0 : (0:ℝ) ≤ (7 * ls.length + 8) / 2 ^ 24 := by positivity
    have q0 : (0:ℝ) ≤ (3 * ls.length + 2) / 2 ^ 24 := by positivity
    have p1 : ((7:ℝ) * ls.length + 8) / 2 ^ 24 ≤ 1 / 32 := by
      generalize (ls.length:ℝ) = k at *
      norm_num; linarith
    have q1 : ((3:ℝ) * ls.length + 2) / 2 ^ 24 ≤ 1 / 64 := by
      generalize (ls.length:ℝ) = k at *
      norm_num; linarith
    have he : (21:ℝ) / 20 * ((7 * ls.length + 8) / 2 ^ 24) + 21 / 20 * ((3 * ls.length + 2) / 2 ^ 24) + 5 / 2 / 2 ^ 24 ≤
        13 * (ls.length + 1) / 2 ^ 24 := by
      generalize (ls.length:ℝ) = k at *
      norm_num; linarith
    have hw : |val (f l) - M| ≤ (3 * ls.length + 2) / 2 ^ 24 * M := by
      refine hb.weight.trans (le_of_eq ?_); ring
    have comm : ∀ X : ℝ, (7 * (ls.length:ℝ) + 8) * (X * M) / 2 ^ 24 = (7 * ls.length + 8) / 2 ^ 24 * (X * M) := fun X => by ring
    have hT := divided_lane (v := o.translation) (F := M) (X := B) hb.translationFinite hb.weightFinite hz.weight_ge hz.weight_le
      hz.translation_ge hz.translation_le hb.translationBound (sum_lane3 _ _ _ _ _ (fun _ => rfl) rfl)
      (fun c => by rw [← comm]; exact hb.translation c) hw p0 p1 q0 q1 he
    have hS := divided_lane (v := o.scale) (F := M) (X := s) hb.scaleFinite hb.weightFinite hz.weight_ge hz.weight_le
      hz.scale_ge hz.scale_le hb.scaleBound (sum_lane3 _ _ _ _ _ (fun _ => rfl) rfl)
      (fun c => by rw [← comm]; exact hb.scale c) hw p0 p1 q0 q1 he
    refine ⟨fun c => (hT c).1, fun c => ?_, fun c => (hS c).1, fun c => ?_⟩
    · rw [average_val, ← hM]; exact (hT c).2
    · rw [average_val, ← hM]; exact (hS c).2

theorem unit_comp {a : F4 ℝ} (ha : 0 < norm2 a) (c : Fin 4) : |a c / √(norm2 a)| ≤ 1 := by
  have hσ : 0 < √(norm2 a) := Real.sqrt_pos.mpr ha
  have hac : |a c| ≤ √(norm2 a) := by
    apply Real.abs_le_sqrt
    unfold norm2
    have s := fun c => sq_nonneg (a c)
    fin_cases c <;> simp only [Fin.zero_eta, Fin.mk_one, Fin.reduceFinMk] <;> linarith [s 0, s 1, s 2, s 3]
  rw [abs_div, abs_of_pos hσ]
  exact (div_le_one hσ).mpr hac

theorem smul_unitOf {k : ℝ} (hk : 0 < k) (q : F4 ℝ) : unitOf (k • q) = unitOf q := by
  have e : norm2 (k • q) = k ^ 2 * norm2 q := by
    simp only [norm2, Pi.smul_apply, smul_eq_mul]; ring
  funext c
  change (√(norm2 (k • q)))⁻¹ * (k * q c) = (√(norm2 q))⁻¹ * q c
  rw [e, Real.sqrt_mul (sq_nonneg k), Real.sqrt_sq hk.le, mul_inv]
  field_simp

/-- Normalizing a float quaternion near `R`. -/
theorem near_unit {q : SoaQuat F32} {l : Fin 4} {R : F4 ℝ} {M D : ℝ} (hq : ∀ c, Finite32 (q.lane l c).bits)
    (hM0 : 1 / 2 ^ 40 ≤ M) (hM1 : M ≤ 2 ^ 40) (hR : M ^ 2 / 1024 ≤ norm2 R) (hRb : ∀ c, |R c| ≤ 1001 / 1000 * M)
    (h : ∀ c, |val (q.lane l c) - R c| ≤ D) (hD : D ≤ M / 1000) :
    (∀ c, Finite32 (q.normalize.lane l c).bits) ∧
    (∀ c, |val (q.normalize.lane l c) - unitOf R c| ≤ 3 * D / √(norm2 R) + 1 / 2 ^ 20) ∧
    |norm2 (fun c => val (q.normalize.lane l c)) - 1| ≤ 1 / 2 ^ 19 := by
  have M0 : 0 < M := lt_of_lt_of_le (by positivity) hM0
  have D0 : 0 ≤ D := (abs_nonneg _).trans (h 0)
  have hRp : 0 < norm2 R := lt_of_lt_of_le (by positivity) hR
  have hρ : M / 32 ≤ √(norm2 R) := by
    apply Real.le_sqrt_of_sq_le
    rw [div_pow]; norm_num at hR ⊢; linarith
  have h1 : √(norm2 ((fun c => val (q.lane l c)) - R)) ≤ 2 * D := by
    apply Real.sqrt_le_iff.mpr
    refine ⟨by linarith, ?_⟩
    have hc : ∀ c, (val (q.lane l c) - R c) ^ 2 ≤ D ^ 2 := fun c => by
      rw [← sq_abs]; exact pow_le_pow_left₀ (abs_nonneg _) (h c) 2
    have : norm2 ((fun c => val (q.lane l c)) - R) = (val (q.lane l 0) - R 0) ^ 2 + (val (q.lane l 1) - R 1) ^ 2 +
      (val (q.lane l 2) - R 2) ^ 2 + (val (q.lane l 3) - R 3) ^ 2 := rfl
    rw [this]
    linarith [hc 0, hc 1, hc 2, hc 3]
  have h2 := abs_le.mp ((sqrt_norm2_sub (fun c => val (q.lane l c)) R).trans h1)
  have h3 : M / 64 ≤ √(norm2 fun c => val (q.lane l c)) := by linarith [h2.1]
  have hp : 0 < norm2 fun c => val (q.lane l c) := by
    by_contra hc
    rw [Real.sqrt_eq_zero_of_nonpos (not_lt.mp hc)] at h3
    linarith
  have h4 : M ^ 2 / 4096 ≤ norm2 fun c => val (q.lane l c) := by
    have := pow_le_pow_left₀ (by positivity : 0 ≤ M / 64) h3 2
    rw [Real.sq_sqrt hp.le, div_pow] at this
    norm_num at this ⊢; linarith
  have h5 : (norm2 fun c => val (q.lane l c)) ≤ 8 * M ^ 2 := by
    have hc : ∀ c, val (q.lane l c) ^ 2 ≤ 2 * M ^ 2 := fun c => by
      have a1 : |val (q.lane l c)| ≤ 5 / 4 * M := by
        have := abs_add_le (val (q.lane l c) - R c) (R c)
        rw [sub_add_cancel] at this
        linarith [h c, hRb c]
      have := pow_le_pow_left₀ (abs_nonneg _) a1 2
      rw [sq_abs] at this
      nlinarith
    have e : (norm2 fun c => val (q.lane l c)) = val (q.lane l 0) ^ 2 + val (q.lane l 1) ^ 2 + val (q.lane l 2) ^ 2 + val (q.lane l 3) ^ 2 := rfl
    rw [e]
    linarith [hc 0, hc 1, hc 2, hc 3]
  have m1 : (1:ℝ) / 2 ^ 80 ≤ M ^ 2 := by
    have := pow_le_pow_left₀ (by positivity) hM0 2
    norm_num at this ⊢; linarith
  have m2 : M ^ 2 ≤ 2 ^ 80 := by
    have := pow_le_pow_left₀ M0.le hM1 2
    norm_num at this ⊢; linarith
  generalize M ^ 2 = M2 at *
  obtain ⟨n1, n2⟩ := normalize32 hq (by
    refine le_trans ?_ h4
    norm_num at m1 ⊢; linarith) (by
    refine h5.trans ?_
    norm_num at m2 ⊢; linarith)
  refine ⟨fun c => (n1 c).1, fun c => ?_, n2⟩
  have k1 := (n1 c).2
  have k2 := unit_near hRp hp h c
  have k3 := unit_comp hp c
  have k4 := abs_add_le (val (q.normalize.lane l c) - val (q.lane l c) / √(norm2 (fun c => val (q.lane l c))))
    (val (q.lane l c) / √(norm2 (fun c => val (q.lane l c))) - unitOf R c)
  rw [sub_add_sub_cancel] at k4
  have k5 : |val (q.lane l c) / √(norm2 (fun c => val (q.lane l c)))| / 2 ^ 21 + 1 / 2 ^ 150 ≤ 1 / 2 ^ 20 := by
    have := div_le_div_of_nonneg_right k3 (by positivity : (0:ℝ) ≤ 2 ^ 21)
    refine (add_le_add_left this _).trans ?_
    norm_num
  exact k4.trans (by linarith [k1.trans k5])

theorem joint_rotation {i : Nat} {l : Fin 4} {M s B : ℝ} {thr : F32} {ls : List (Layer F32)} {r : SoaTransform F32}
    (hn : ls.length + 1 ≤ 512) (hz : Sizes M s B) (hM : M = max (val thr) ((ls.map (wOf i l)).sum)) (hM0 : 1 / 2 ^ 40 ≤ M) (hM1 : M ≤ 2 ^ 40)
    (hthr : Finite32 thr.bits) (hpos : 0 < val thr) (hok : ∀ y ∈ ls, Layer32Ok y i l s B) (hr : Pose32Ok r l s B)
    (old : F4 F32 × SoaTransform F32) :
    ∃ R, AlignedUpTo (12 * (ls.length + 1) * M / 2 ^ 24) 0
        (contributions (val thr) (ls.map valLayer) (valTransform r) i l fun t => t.rotation.lane l) R ∧
      M ^ 2 ≤ 2 * (ls.length + 1) * norm2 R ∧
      NearUnit l (25 * (ls.length + 1) * M / 2 ^ 24 / √(norm2 R) + 1 / 2 ^ 20) R (jointBlend thr ls r i old) := by
  have M0 : 0 < M := lt_of_lt_of_le (by positivity) hz.weight_ge
  have hfin : ∀ y ∈ ls, Finite32 y.weight.bits := fun y hy => (hok y hy).weight
  have hthrM : val thr ≤ M := by rw [hM]; exact le_max_left _ _
  have hn' : (ls.length:ℝ) ≤ 511 := by exact_mod_cast (by omega : ls.length ≤ 511)
  have hn0 : (0:ℝ) ≤ ls.length := by positivity
  have hδ0 : 0 ≤ 12 * (ls.length + 1) * M / 2 ^ 24 := by positivity
  -- any aligned sum is long
  have hlong : ∀ R, AlignedUpTo (12 * (ls.length + 1) * M / 2 ^ 24) 0
        (contributions (val thr) (ls.map valLayer) (valTransform r) i l fun t => t.rotation.lane l) R →
      M ^ 2 ≤ 2 * (ls.length + 1) * norm2 R := by
    intro R h
    have := aligned_long (m := ls.length + 1) h ?_ ?_ (M := M) ?_ ?_ hn M0 (by push_cast; ring)
    · push_cast at this; exact this
    · intro c hc
      rw [contributions_val, List.mem_append] at hc
      rcases hc with hc | hc
      · obtain ⟨y, -, rfl⟩ := List.mem_map.mp hc
        exact laneWeight_nonneg _ _ _
      · rw [List.mem_singleton.mp hc]; exact le_max_left _ _
    · intro c hc
      rw [contributions_val, List.mem_append] at hc
      rcases hc with hc | hc
      · obtain ⟨y, hy, rfl⟩ := List.mem_map.mp hc
        by_cases hw : 0 < val y.weight
        · right
          obtain ⟨ts, t, e1, e2, e3⟩ := (hok y hy).pose hw
          have : poseOf (valLayer y) i = valTransform t := by
            unfold poseOf valLayer
            simp only [e1, Except.map, List.getElem?_map, e2, Option.map_some, Option.getD_some]
          simp only [this]
          linarith [(abs_le.mp e3.rotation).1]
        · left
          have : (valLayer y).weight ≤ 0 := not_lt.mp hw
          simp only [wOf, laneWeight]
          rw [if_pos this]
      · right
        rw [List.mem_singleton.mp hc]
        linarith [(abs_le.mp hr.rotation).1]
    · rw [contributions_total, totalWeight_val]; exact hM.symm
    · rw [contributions_val]; simp
  have hsq : ∀ {R : F4 ℝ}, M ^ 2 ≤ 2 * (ls.length + 1) * norm2 R → M ^ 2 / 1024 ≤ norm2 R := by
    intro R h
    have h1 : 2 * ((ls.length:ℝ) + 1) * norm2 R ≤ 1024 * norm2 R := mul_le_mul_of_nonneg_right (by linarith) (norm2_nonneg R)
    linarith
  by_cases hact : numActive ls = 0
  · obtain ⟨e1, e2⟩ := rest_only (r := r) (a := ((jointFold i ls none).getD old).1) (o := ((jointFold i ls none).getD old).2)
      hthr hpos (hthrM.trans hz.weight_le) hact
    have e : jointBlend thr ls r i old = normalizeBy (recip4 (splat F32.one)) r := by
      unfold jointBlend
      simp only [e1, e2]
    rw [e]
    have hw := no_active (i := i) (l := l) hfin hact
    have hsum0 : (ls.map (wOf i l)).sum = 0 := by
      apply List.sum_eq_zero
      intro x hx
      obtain ⟨y, hy, rfl⟩ := List.mem_map.mp hx
      exact hw y hy
    have hMt : M = val thr := by rw [hM, hsum0, max_eq_left hpos.le]
    have hal : AlignedUpTo (12 * (ls.length + 1) * M / 2 ^ 24) 0
        (contributions (val thr) (ls.map valLayer) (valTransform r) i l fun t => t.rotation.lane l) (0 + val thr • (valTransform r).rotation.lane l) := by
      rw [contributions_val, hsum0, sub_zero, max_eq_right hpos.le]
      apply aligned_filter hδ0 ls hfin
      rw [show ls.filter Layer.active = [] from List.length_eq_zero_iff.mp hact, List.map_nil, List.nil_append]
      exact AlignedUpTo.keep (by rw [dot4_zero]; linarith) (AlignedUpTo.nil _)
    have hl := hlong _ hal
    refine ⟨_, hal, hl, ?_⟩
    rw [zero_add] at hl ⊢
    have hrot := abs_le.mp hr.rotation
    obtain ⟨n1, n2, n3⟩ := near_unit (q := r.rotation) (l := l) (R := (valTransform r).rotation.lane l) (M := 1) (D := 0) hr.rotationFinite
      (by norm_num) (by norm_num) (by norm_num at hrot ⊢; linarith [hrot.1]) (fun c => by
        rw [mul_one]
        have h1 : (valTransform r).rotation.lane l c ^ 2 ≤ norm2 ((valTransform r).rotation.lane l) := by
          have s := fun c => sq_nonneg ((valTransform r).rotation.lane l c)
          unfold norm2
          fin_cases c <;> simp only [Fin.zero_eta, Fin.mk_one, Fin.reduceFinMk] <;> linarith [s 0, s 1, s 2, s 3]
        apply abs_le_of_sq_le_sq _ (by norm_num)
        refine h1.trans ?_
        norm_num at hrot ⊢; linarith [hrot.2]) (fun c => by rw [(lane_val r l c).2.1, sub_self, abs_zero]) (by norm_num)
    refine ⟨n1, fun c => ?_, n3⟩
    rw [smul_unitOf hpos]
    refine (n2 c).trans ?_
    rw [mul_zero, zero_div]
    exact add_le_add_left (by positivity) _
  · obtain ⟨R, hal, hb⟩ := blended_ok (r := r) (n := ls.length) (δ := 12 * (ls.length + 1) * M / 2 ^ 24) le_rfl (by omega) hz
      (by
        apply div_le_div_of_nonneg_right _ (by positivity)
        apply mul_le_mul_of_nonneg_right _ M0.le
        linarith) hM hthr hpos hok hr hact old
    have e : jointBlend thr ls r i old = normalizeBy (recip4 (finalWeight thr ls ((jointFold i ls none).getD old).1))
        (withRest thr ls r ((jointFold i ls none).getD old).1 ((jointFold i ls none).getD old).2) := rfl
    rw [e]
    generalize finalWeight thr ls ((jointFold i ls none).getD old).1 = f at *
    generalize withRest thr ls r ((jointFold i ls none).getD old).1 ((jointFold i ls none).getD old).2 = o at *
    have hal' : AlignedUpTo (12 * (ls.length + 1) * M / 2 ^ 24) 0
        (contributions (val thr) (ls.map valLayer) (valTransform r) i l fun t => t.rotation.lane l) R := by
      rw [contributions_val]; exact hal
    have hl := hlong R hal'
    refine ⟨R, hal', hl, ?_⟩
    have hD : (7 * (ls.length:ℝ) + 8) * (1001 / 1000 * M) / 2 ^ 24 ≤ M / 1000 := by
      have : (7 * (ls.length:ℝ) + 8) * (1001 / 1000 * M) ≤ 4000 * (1001 / 1000 * M) :=
        mul_le_mul_of_nonneg_right (by linarith) (by positivity)
      refine (div_le_div_of_nonneg_right this (by positivity)).trans ?_
      norm_num
      linarith
    obtain ⟨n1, n2, n3⟩ := near_unit (q := o.rotation) (l := l) hb.rotationFinite hM0 hM1 (hsq hl) hb.rotationBound hb.rotation hD
    refine ⟨n1, fun c => (n2 c).trans ?_, n3⟩
    apply add_le_add_left
    apply div_le_div_of_nonneg_right _ (Real.sqrt_nonneg _)
    have : 3 * ((7 * (ls.length:ℝ) + 8) * (1001 / 1000 * M) / 2 ^ 24) = (3 * 1001 / 1000 * (7 * ls.length + 8)) * M / 2 ^ 24 := by ring
    rw [this]
    apply div_le_div_of_nonneg_right _ (by positivity)
    apply mul_le_mul_of_nonneg_right _ M0.le
    linarith

/-! ## Clear signs -/

theorem clear_signs {δ : ℝ} {cs : List (ℝ × F4 ℝ)} {acc acc' R : F4 ℝ} (h : AlignedUpTo δ acc' cs R) (hacc : acc' = acc ∨ acc' = -acc)
    (hδ : 0 ≤ δ) (hc : ClearSigns δ acc cs) : R = cs.foldl addAligned acc ∨ R = -cs.foldl addAligned acc := by
  induction cs generalizing acc acc' with
  | nil => cases h; exact hacc
  | cons c cs ih =>
    obtain ⟨w, q⟩ := c
    rw [List.foldl_cons]
    obtain ⟨h1, h2⟩ := hc
    have hneg : dot4 (-acc) q = -dot4 acc q := by simp only [dot4, Pi.neg_apply]; ring
    cases h with
    | keep h3 h4 =>
      refine ih h4 ?_ h2
      unfold addAligned
      rcases h1 with h1 | h1 | h1
      · simp only at h1
        simp only [h1, zero_smul, add_zero]; exact hacc
      · subst h1
        left
        rw [dot4_zero, if_neg (lt_irrefl _)]
        rcases hacc with rfl | rfl
        · rfl
        · rw [neg_zero]
      · simp only at h1
        rcases hacc with rfl | rfl
        · left
          rw [if_neg]
          intro h5
          rw [abs_of_neg h5] at h1; linarith
        · right
          rw [hneg] at h3
          rw [if_pos]
          · simp only [smul_neg]
            funext x; simp; ring
          · by_contra h5
            rw [abs_of_nonneg (not_lt.mp h5)] at h1; linarith
    | turn h3 h4 =>
      refine ih h4 ?_ h2
      unfold addAligned
      rcases h1 with h1 | h1 | h1
      · simp only at h1
        simp only [h1, zero_smul, add_zero, sub_zero]; exact hacc
      · subst h1
        right
        rw [dot4_zero, if_neg (lt_irrefl _)]
        rcases hacc with rfl | rfl
        · simp
        · simp
      · simp only at h1
        rcases hacc with rfl | rfl
        · left
          rw [if_pos]
          · simp only [smul_neg, sub_eq_add_neg]
          · by_contra h5
            rw [abs_of_nonneg (not_lt.mp h5)] at h1; linarith
        · right
          rw [hneg] at h3
          rw [if_neg]
          · funext x; simp; ring
          · intro h5
            rw [abs_of_neg h5] at h1; linarith

end Ozz.Blending
