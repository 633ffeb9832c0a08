import Verif.Proofs.FloatDot
import Verif.Proofs.Math
import Verif.Model.LocalToModelCode

/-! Local matrices in single precision: how far the entries of `SoaMat4::from_affine` are from those of the rotation, if the
quaternion is nearly unit. -/

namespace Ozz.F32

open Ieee Spec

theorem sub_bound {x y : F32} (hx : Finite32 x.bits) (hy : Finite32 y.bits) {B : ℝ} (hB : |val x - val y| ≤ B)
    (hB' : B ≤ 2 ^ 127) :
    Finite32 (x - y).bits ∧ |val (x - y) - (val x - val y)| ≤ B / 2 ^ 24 ∧ |val (x - y)| ≤ B + B / 2 ^ 24 := by
  obtain ⟨f, e⟩ := sub_ok hx hy (hB.trans hB')
  have e' := e.trans (div_le_div_of_nonneg_right hB (show (0:ℝ) ≤ 2 ^ 24 by positivity))
  refine ⟨f, e', ?_⟩
  have h := abs_add_le (val (x - y) - (val x - val y)) (val x - val y)
  rw [sub_add_cancel] at h
  linarith

theorem two_ok : Finite32 (NumOps.two : F32).bits ∧ val (NumOps.two : F32) = 2 := by
  have := ofNat_ok (n := 2) (by norm_num)
  refine ⟨this.1, ?_⟩
  show val (ofNat 2) = 2
  rw [this.2]; norm_num

theorem one_ok : Finite32 (NumOps.one : F32).bits ∧ val (NumOps.one : F32) = 1 := ⟨one_finite, one_real⟩

/-- `2 * x`. -/
theorem double_ok {x : F32} (hx : Finite32 x.bits) {X : ℝ} (hX : |val x| ≤ X) (hB : X ≤ 2 ^ 120) :
    Finite32 (NumOps.two * x).bits ∧ |val (NumOps.two * x) - 2 * val x| ≤ 2 * X / 2 ^ 24 + 1 / 2 ^ 150 ∧
      |val (NumOps.two * x)| ≤ 2 * X + 2 * X / 2 ^ 24 + 1 / 2 ^ 150 := by
  have := mul_bound two_ok.1 hx (P := 2 * X) (by rw [two_ok.2, abs_mul, abs_of_pos (by norm_num : (0:ℝ) < 2)]; linarith)
    (by norm_num at hB ⊢; linarith)
  rwa [two_ok.2] at this

theorem times_two_ok {x : F32} (hx : Finite32 x.bits) {X : ℝ} (hX : |val x| ≤ X) (hB : X ≤ 2 ^ 120) :
    Finite32 (x * NumOps.two).bits ∧ |val (x * NumOps.two) - val x * 2| ≤ 2 * X / 2 ^ 24 + 1 / 2 ^ 150 ∧
      |val (x * NumOps.two)| ≤ 2 * X + 2 * X / 2 ^ 24 + 1 / 2 ^ 150 := by
  have := mul_bound hx two_ok.1 (P := 2 * X) (by rw [two_ok.2, abs_mul, abs_of_pos (by norm_num : (0:ℝ) < 2)]; linarith)
    (by norm_num at hB ⊢; linarith)
  rwa [two_ok.2] at this

/-- A product whose second factor is known up to `e`. -/
theorem scale_ok {s a : F32} (hs : Finite32 s.bits) (ha : Finite32 a.bits) {σ A e x : ℝ} (hσ : |val s| ≤ σ) (hA : |val a| ≤ A)
    (he : |val a - x| ≤ e) (hB : σ * A ≤ 2 ^ 126) :
    Finite32 (s * a).bits ∧ |val (s * a) - val s * x| ≤ σ * e + σ * A / 2 ^ 24 + 1 / 2 ^ 150 := by
  have hσ0 := (abs_nonneg _).trans hσ
  obtain ⟨f, h1, -⟩ := mul_bound hs ha (P := σ * A)
    (by rw [abs_mul]; exact mul_le_mul hσ hA (abs_nonneg _) hσ0) hB
  refine ⟨f, ?_⟩
  have h2 : |val s * val a - val s * x| ≤ σ * e := by
    rw [← mul_sub, abs_mul]; exact mul_le_mul hσ he (abs_nonneg _) hσ0
  have h := abs_add_le (val (s * a) - val s * val a) (val s * val a - val s * x)
  rw [sub_add_sub_cancel] at h
  linarith

/-- `1 - 2 * (y * y + z * z)`. -/
theorem inner_diag {y z : F32} (hy : Finite32 y.bits) (hz : Finite32 z.bits) (hn : val y ^ 2 + val z ^ 2 ≤ 1.001) :
    let a := NumOps.one - NumOps.two * (y * y + z * z)
    Finite32 a.bits ∧ |val a| ≤ 1.01 ∧ |val a - (1 - 2 * (val y ^ 2 + val z ^ 2))| ≤ 7.2 / 2 ^ 24 := by
  intro a
  have y0 := sq_nonneg (val y)
  have z0 := sq_nonneg (val z)
  obtain ⟨f1, e1, b1⟩ := mul_bound hy hy (P := val y ^ 2) (by rw [← sq, abs_of_nonneg y0]) (by norm_num at hn ⊢; linarith)
  obtain ⟨f2, e2, b2⟩ := mul_bound hz hz (P := val z ^ 2) (by rw [← sq, abs_of_nonneg z0]) (by norm_num at hn ⊢; linarith)
  rw [← sq] at e1 e2
  generalize val y ^ 2 = Y at *
  generalize val z ^ 2 = Z at *
  obtain ⟨f3, e3, b3⟩ := add_bound f1 f2 b1 b2 (by norm_num at hn ⊢; linarith)
  have d3 := sum_near e3 e1 e2
  obtain ⟨f4, e4, b4⟩ := double_ok f3 b3 (by norm_num at hn ⊢; linarith)
  have d4 : |val (NumOps.two * (y * y + z * z)) - 2 * (Y + Z)| ≤ 6.1 / 2 ^ 24 := by
    rw [abs_le] at *
    norm_num at *
    constructor <;> linarith
  obtain ⟨f5, e5, b5⟩ := sub_bound one_ok.1 f4 (B := 1.0021) (by
    rw [one_ok.2]; rw [abs_le] at *; norm_num at *; constructor <;> linarith) (by norm_num)
  rw [one_ok.2] at e5
  refine ⟨f5, b5.trans (by norm_num), ?_⟩
  rw [abs_le] at *
  norm_num at *
  constructor <;> linarith

/-- `x * y + z * w`. -/
theorem inner_sum {x y z w : F32} (hx : Finite32 x.bits) (hy : Finite32 y.bits) (hz : Finite32 z.bits) (hw : Finite32 w.bits)
    (hn : val x ^ 2 + val y ^ 2 + val z ^ 2 + val w ^ 2 ≤ 1.001) :
    Finite32 (x * y + z * w).bits ∧ |val (x * y + z * w)| ≤ 0.502 ∧
      |val (x * y + z * w) - (val x * val y + val z * val w)| ≤ 1.01 / 2 ^ 24 := by
  have p1 : |val x * val y| ≤ (val x ^ 2 + val y ^ 2) / 2 := by
    rw [abs_le]; constructor <;> nlinarith [sq_nonneg (val x - val y), sq_nonneg (val x + val y)]
  have p2 : |val z * val w| ≤ (val z ^ 2 + val w ^ 2) / 2 := by
    rw [abs_le]; constructor <;> nlinarith [sq_nonneg (val z - val w), sq_nonneg (val z + val w)]
  have x0 := sq_nonneg (val x)
  have y0 := sq_nonneg (val y)
  have z0 := sq_nonneg (val z)
  have w0 := sq_nonneg (val w)
  obtain ⟨f1, e1, b1⟩ := mul_bound hx hy p1 (by norm_num at hn ⊢; linarith)
  obtain ⟨f2, e2, b2⟩ := mul_bound hz hw p2 (by norm_num at hn ⊢; linarith)
  obtain ⟨f3, e3, b3⟩ := add_bound f1 f2 b1 b2 (by norm_num at hn ⊢; linarith)
  have d3 := sum_near e3 e1 e2
  refine ⟨f3, ?_, d3.trans ?_⟩ <;> (norm_num at *; linarith)

/-- `x * y - z * w`. -/
theorem inner_diff {x y z w : F32} (hx : Finite32 x.bits) (hy : Finite32 y.bits) (hz : Finite32 z.bits) (hw : Finite32 w.bits)
    (hn : val x ^ 2 + val y ^ 2 + val z ^ 2 + val w ^ 2 ≤ 1.001) :
    Finite32 (x * y - z * w).bits ∧ |val (x * y - z * w)| ≤ 0.502 ∧
      |val (x * y - z * w) - (val x * val y - val z * val w)| ≤ 1.01 / 2 ^ 24 := by
  have p1 : |val x * val y| ≤ (val x ^ 2 + val y ^ 2) / 2 := by
    rw [abs_le]; constructor <;> nlinarith [sq_nonneg (val x - val y), sq_nonneg (val x + val y)]
  have p2 : |val z * val w| ≤ (val z ^ 2 + val w ^ 2) / 2 := by
    rw [abs_le]; constructor <;> nlinarith [sq_nonneg (val z - val w), sq_nonneg (val z + val w)]
  have x0 := sq_nonneg (val x)
  have y0 := sq_nonneg (val y)
  have z0 := sq_nonneg (val z)
  have w0 := sq_nonneg (val w)
  obtain ⟨f1, e1, b1⟩ := mul_bound hx hy p1 (by norm_num at hn ⊢; linarith)
  obtain ⟨f2, e2, b2⟩ := mul_bound hz hw p2 (by norm_num at hn ⊢; linarith)
  have b : |val (x * y) - val (z * w)| ≤ 0.5009 := by
    refine (abs_sub _ _).trans ?_
    norm_num at *; linarith
  obtain ⟨f3, e3, b3⟩ := sub_bound f1 f2 b (by norm_num)
  refine ⟨f3, b3.trans (by norm_num), ?_⟩
  rw [abs_le] at *
  norm_num at *
  constructor <;> linarith

/-- The three shapes of entries. -/
theorem entry_diag {s y z : F32} (hs : Finite32 s.bits) (hy : Finite32 y.bits) (hz : Finite32 z.bits)
    (hn : val y ^ 2 + val z ^ 2 ≤ 1.001) {σ : ℝ} (hσ : |val s| ≤ σ) (h1 : 1 ≤ σ) (hB : σ ≤ 2 ^ 100) :
    Finite32 (s * (NumOps.one - NumOps.two * (y * y + z * z))).bits ∧
      |val (s * (NumOps.one - NumOps.two * (y * y + z * z))) - val s * (1 - 2 * (val y ^ 2 + val z ^ 2))| ≤ 9 * σ / 2 ^ 24 := by
  obtain ⟨f, b, e⟩ := inner_diag hy hz hn
  obtain ⟨g, h⟩ := scale_ok hs f hσ b e (by norm_num at hB ⊢; linarith)
  refine ⟨g, h.trans ?_⟩
  norm_num
  linarith

theorem entry_off {s c : F32} (hs : Finite32 s.bits) (hc : Finite32 c.bits) {x : ℝ} (hb : |val c| ≤ 0.502)
    (he : |val c - x| ≤ 1.01 / 2 ^ 24) {σ : ℝ} (hσ : |val s| ≤ σ) (h1 : 1 ≤ σ) (hB : σ ≤ 2 ^ 100) :
    Finite32 (s * NumOps.two * c).bits ∧ |val (s * NumOps.two * c) - val s * (2 * x)| ≤ 9 * σ / 2 ^ 24 := by
  obtain ⟨f1, e1, b1⟩ := times_two_ok hs hσ (by norm_num at hB ⊢; linarith)
  obtain ⟨f2, e2⟩ := scale_ok f1 hc b1 hb he (by norm_num at hB ⊢; linarith)
  refine ⟨f2, ?_⟩
  have hx : |x| ≤ 0.503 := by rw [abs_le] at *; norm_num at *; constructor <;> linarith
  have h3 : |val (s * NumOps.two) * x - val s * (2 * x)| ≤ (2 * σ / 2 ^ 24 + 1 / 2 ^ 150) * 0.503 := by
    rw [show val (s * NumOps.two) * x - val s * (2 * x) = (val (s * NumOps.two) - val s * 2) * x by ring, abs_mul]
    exact mul_le_mul e1 hx (abs_nonneg _) (by positivity)
  have h := abs_add_le (val (s * NumOps.two * c) - val (s * NumOps.two) * x) (val (s * NumOps.two) * x - val s * (2 * x))
  rw [sub_add_sub_cancel] at h
  refine h.trans ((add_le_add e2 h3).trans ?_)
  norm_num
  linarith

theorem entry_off' {s c : F32} (hs : Finite32 s.bits) (hc : Finite32 c.bits) {x : ℝ} (hb : |val c| ≤ 0.502)
    (he : |val c - x| ≤ 1.01 / 2 ^ 24) {σ : ℝ} (hσ : |val s| ≤ σ) (h1 : 1 ≤ σ) (hB : σ ≤ 2 ^ 100) :
    Finite32 (s * (NumOps.two * c)).bits ∧ |val (s * (NumOps.two * c)) - val s * (2 * x)| ≤ 9 * σ / 2 ^ 24 := by
  obtain ⟨f1, e1, b1⟩ := double_ok hc hb (by norm_num)
  have e1' : |val (NumOps.two * c) - 2 * x| ≤ 3.1 / 2 ^ 24 := by
    rw [abs_le] at *; norm_num at *; constructor <;> linarith
  obtain ⟨f2, e2⟩ := scale_ok hs f1 hσ b1 e1' (by norm_num at hB ⊢; linarith)
  refine ⟨f2, e2.trans ?_⟩
  norm_num
  linarith

end Ozz.F32
