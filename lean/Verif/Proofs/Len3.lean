import Verif.Spec.Len3
import Mathlib.Tactic.Linarith
import Mathlib.Tactic.Ring

/-! Helpers about lengths of three numbers: triangle inequality, Cauchy-Schwarz. -/

namespace Ozz.Spec

variable {a b c x y z : ℝ}

theorem len_nonneg : 0 ≤ len a b c := Real.sqrt_nonneg _

theorem len_sq : len a b c ^ 2 = a ^ 2 + b ^ 2 + c ^ 2 := Real.sq_sqrt (by positivity)

theorem len_le (h : 0 ≤ z) (hs : a ^ 2 + b ^ 2 + c ^ 2 ≤ z ^ 2) : len a b c ≤ z := by
  unfold len
  rw [Real.sqrt_le_left h]
  exact hs

theorem le_len (h : z ^ 2 ≤ a ^ 2 + b ^ 2 + c ^ 2) : z ≤ len a b c := Real.le_sqrt_of_sq_le h

theorem dot_le_len : |a * x + b * y + c * z| ≤ len a b c * len x y z := by
  refine abs_le_of_sq_le_sq ?_ (mul_nonneg len_nonneg len_nonneg)
  rw [mul_pow, len_sq, len_sq]
  nlinarith [sq_nonneg (a * y - b * x), sq_nonneg (a * z - c * x), sq_nonneg (b * z - c * y)]

theorem dot_abs_le_len : |a * x| + |b * y| + |c * z| ≤ len a b c * len x y z := by
  have h := dot_le_len (a := |a|) (b := |b|) (c := |c|) (x := |x|) (y := |y|) (z := |z|)
  unfold len at h
  simp only [sq_abs] at h
  rw [abs_mul, abs_mul, abs_mul]
  refine le_trans (le_abs_self _) h

theorem len_add : len (a + x) (b + y) (c + z) ≤ len a b c + len x y z := by
  refine len_le (add_nonneg len_nonneg len_nonneg) ?_
  have h := (abs_le.mp (dot_le_len (a := a) (b := b) (c := c) (x := x) (y := y) (z := z))).2
  have h1 := len_sq (a := a) (b := b) (c := c)
  have h2 := len_sq (a := x) (b := y) (c := z)
  nlinarith

theorem abs_le_len1 : |a| ≤ len a b c := by
  refine abs_le_of_sq_le_sq ?_ len_nonneg
  rw [len_sq]; nlinarith [sq_nonneg b, sq_nonneg c]

theorem abs_le_len2 : |b| ≤ len a b c := by
  refine abs_le_of_sq_le_sq ?_ len_nonneg
  rw [len_sq]; nlinarith [sq_nonneg a, sq_nonneg c]

theorem abs_le_len3 : |c| ≤ len a b c := by
  refine abs_le_of_sq_le_sq ?_ len_nonneg
  rw [len_sq]; nlinarith [sq_nonneg b, sq_nonneg a]

theorem len_le_sum : len a b c ≤ |a| + |b| + |c| := by
  refine len_le (by positivity) ?_
  nlinarith [sq_abs a, sq_abs b, sq_abs c, mul_nonneg (abs_nonneg a) (abs_nonneg b), mul_nonneg (abs_nonneg a) (abs_nonneg c),
    mul_nonneg (abs_nonneg b) (abs_nonneg c)]

/-- Three components of at most `e`. -/
theorem len_le_three {e : ℝ} (ha : |a| ≤ e) (hb : |b| ≤ e) (hc : |c| ≤ e) : len a b c ≤ 7 / 4 * e := by
  have he : 0 ≤ e := (abs_nonneg _).trans ha
  refine len_le (by linarith) ?_
  have h1 := sq_le_sq' (abs_le.mp ha).1 (abs_le.mp ha).2
  have h2 := sq_le_sq' (abs_le.mp hb).1 (abs_le.mp hb).2
  have h3 := sq_le_sq' (abs_le.mp hc).1 (abs_le.mp hc).2
  nlinarith

theorem len_sub_comm : len (a - x) (b - y) (c - z) = len (x - a) (y - b) (z - c) := by
  unfold len
  congr 1
  ring

end Ozz.Spec
