import Verif.Proofs.FloatNear
import Verif.Proofs.Len3

/-! Sums of products in single precision. -/

namespace Ozz.F32

open Ieee Spec

/-- A product, with the error relative to a bound. -/
theorem mul_bound {x y : F32} (hx : Finite32 x.bits) (hy : Finite32 y.bits) {P : ℝ} (hP : |val x * val y| ≤ P)
    (hB : P ≤ 2 ^ 126) :
    Finite32 (x * y).bits ∧ |val (x * y) - val x * val y| ≤ P / 2 ^ 24 + 1 / 2 ^ 150 ∧
      |val (x * y)| ≤ P + P / 2 ^ 24 + 1 / 2 ^ 150 := by
  obtain ⟨f, e⟩ := mul_ok hx hy (hP.trans (hB.trans (by norm_num)))
  have e' : |val (x * y) - val x * val y| ≤ P / 2 ^ 24 + 1 / 2 ^ 150 :=
    e.trans (by have := div_le_div_of_nonneg_right hP (show (0:ℝ) ≤ 2 ^ 24 by positivity); linarith)
  refine ⟨f, e', ?_⟩
  have h := abs_add_le (val (x * y) - val x * val y) (val x * val y)
  rw [sub_add_cancel] at h
  linarith

/-- A sum, with the error relative to a bound. -/
theorem add_bound {x y : F32} (hx : Finite32 x.bits) (hy : Finite32 y.bits) {X Y : ℝ} (hX : |val x| ≤ X) (hY : |val y| ≤ Y)
    (hB : X + Y ≤ 2 ^ 127) :
    Finite32 (x + y).bits ∧ |val (x + y) - (val x + val y)| ≤ (X + Y) / 2 ^ 24 ∧
      |val (x + y)| ≤ X + Y + (X + Y) / 2 ^ 24 := by
  have h0 : |val x + val y| ≤ X + Y := (abs_add_le _ _).trans (add_le_add hX hY)
  obtain ⟨f, e⟩ := add_ok hx hy (h0.trans hB)
  have e' := e.trans (div_le_div_of_nonneg_right h0 (show (0:ℝ) ≤ 2 ^ 24 by positivity))
  refine ⟨f, e', ?_⟩
  have h := abs_add_le (val (x + y) - (val x + val y)) (val x + val y)
  rw [sub_add_cancel] at h
  linarith

theorem sum_near {s a b : ℝ} {e f g : ℝ} {x y : ℝ} (h : |s - (a + b)| ≤ e) (ha : |a - x| ≤ f) (hb : |b - y| ≤ g) :
    |s - (x + y)| ≤ e + f + g := by
  rw [abs_le] at *
  constructor <;> linarith [h.1, h.2, ha.1, ha.2, hb.1, hb.2]

/-- `(c1*m1 + c0*m0) + (c3*m3 + c2*m2)`, as in the product of matrices. -/
theorem dot4_ok {c0 c1 c2 c3 m0 m1 m2 m3 : F32} (hc0 : Finite32 c0.bits) (hc1 : Finite32 c1.bits) (hc2 : Finite32 c2.bits)
    (hc3 : Finite32 c3.bits) (hm0 : Finite32 m0.bits) (hm1 : Finite32 m1.bits) (hm2 : Finite32 m2.bits)
    (hm3 : Finite32 m3.bits) {S : ℝ}
    (hS : |val c0 * val m0| + |val c1 * val m1| + |val c2 * val m2| + |val c3 * val m3| ≤ S) (hB : S ≤ 2 ^ 120) :
    Finite32 ((c1 * m1 + c0 * m0) + (c3 * m3 + c2 * m2)).bits ∧
      |val ((c1 * m1 + c0 * m0) + (c3 * m3 + c2 * m2)) -
        (val c0 * val m0 + val c1 * val m1 + val c2 * val m2 + val c3 * val m3)| ≤ 4 * S / 2 ^ 24 + 1 / 2 ^ 147 := by
  have n0 := abs_nonneg (val c0 * val m0)
  have n1 := abs_nonneg (val c1 * val m1)
  have n2 := abs_nonneg (val c2 * val m2)
  have n3 := abs_nonneg (val c3 * val m3)
  have hB' : S ≤ 2 ^ 126 := hB.trans (by norm_num)
  obtain ⟨f0, e0, b0⟩ := mul_bound hc0 hm0 le_rfl (by linarith only [hS, hB', n0, n1, n2, n3])
  obtain ⟨f1, e1, b1⟩ := mul_bound hc1 hm1 le_rfl (by linarith only [hS, hB', n0, n1, n2, n3])
  obtain ⟨f2, e2, b2⟩ := mul_bound hc2 hm2 le_rfl (by linarith only [hS, hB', n0, n1, n2, n3])
  obtain ⟨f3, e3, b3⟩ := mul_bound hc3 hm3 le_rfl (by linarith only [hS, hB', n0, n1, n2, n3])
  generalize |val c0 * val m0| = P0 at *
  generalize |val c1 * val m1| = P1 at *
  generalize |val c2 * val m2| = P2 at *
  generalize |val c3 * val m3| = P3 at *
  obtain ⟨f4, e4, b4⟩ := add_bound f1 f0 b1 b0 (by norm_num at hB ⊢; linarith)
  obtain ⟨f5, e5, b5⟩ := add_bound f3 f2 b3 b2 (by norm_num at hB ⊢; linarith)
  obtain ⟨f6, e6, -⟩ := add_bound f4 f5 b4 b5 (by norm_num at hB ⊢; linarith)
  refine ⟨f6, ?_⟩
  have h1 := sum_near e4 e1 e0
  have h2 := sum_near e5 e3 e2
  have h3 := sum_near e6 h1 h2
  rw [show val c0 * val m0 + val c1 * val m1 + val c2 * val m2 + val c3 * val m3 =
    val c1 * val m1 + val c0 * val m0 + (val c3 * val m3 + val c2 * val m2) by ring]
  refine h3.trans ?_
  norm_num at hS ⊢
  linarith

end Ozz.F32
