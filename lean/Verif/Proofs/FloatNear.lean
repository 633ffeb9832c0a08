import Verif.Proofs.FloatKeys

/-! Error analysis step by step: a float near a real number. -/

namespace Ozz.F32

open Ieee Spec

/-- `x` is finite and within `e` of `r`. -/
def Near (x : F32) (r e : ℝ) : Prop := Finite32 x.bits ∧ |val x - r| ≤ e

theorem Near.fin {x : F32} {r e : ℝ} (h : Near x r e) : Finite32 x.bits := h.1

theorem Near.mono {x : F32} {r e f : ℝ} (h : Near x r e) (hf : e ≤ f) : Near x r f := ⟨h.1, h.2.trans hf⟩

theorem Near.shift {x : F32} {r s e f : ℝ} (h : Near x r e) (hs : |r - s| + e ≤ f) : Near x s f := by
  refine ⟨h.1, ?_⟩
  have := h.2
  calc |val x - s| = |(val x - r) + (r - s)| := by ring_nf
    _ ≤ |val x - r| + |r - s| := abs_add_le _ _
    _ ≤ f := by linarith

theorem near_self {x : F32} (h : Finite32 x.bits) : Near x (val x) 0 := ⟨h, by simp⟩

theorem Near.nonneg {x : F32} {r e : ℝ} (h : Near x r e) : 0 ≤ e := (abs_nonneg _).trans h.2

theorem Near.abs_le {x : F32} {r e B : ℝ} (h : Near x r e) (hB : |r| ≤ B) : |val x| ≤ B + e := by
  have h2 := h.2
  calc |val x| = |(val x - r) + r| := by ring_nf
    _ ≤ |val x - r| + |r| := abs_add_le _ _
    _ ≤ B + e := by linarith

theorem Near.add {x y : F32} {r s e f : ℝ} (B g : ℝ) (hx : Near x r e) (hy : Near y s f) (hB : |r + s| ≤ B)
    (hg : e + f + (B + (e + f)) / 2 ^ 24 ≤ g ∧ B + (e + f) ≤ 2 ^ 127) : Near (x + y) (r + s) g := by
  have h1 : |val x + val y - (r + s)| ≤ e + f := by
    calc |val x + val y - (r + s)| = |(val x - r) + (val y - s)| := by ring_nf
      _ ≤ |val x - r| + |val y - s| := abs_add_le _ _
      _ ≤ e + f := add_le_add hx.2 hy.2
  have h2 : |val x + val y| ≤ B + (e + f) := by
    calc |val x + val y| = |(val x + val y - (r + s)) + (r + s)| := by ring_nf
      _ ≤ |val x + val y - (r + s)| + |r + s| := abs_add_le _ _
      _ ≤ B + (e + f) := by linarith
  obtain ⟨hf, he⟩ := add_ok hx.1 hy.1 (h2.trans hg.2)
  refine ⟨hf, ?_⟩
  have h3 := he.trans (div_le_div_of_nonneg_right h2 (by positivity))
  calc |val (x + y) - (r + s)| = |(val (x + y) - (val x + val y)) + (val x + val y - (r + s))| := by ring_nf
    _ ≤ |val (x + y) - (val x + val y)| + |val x + val y - (r + s)| := abs_add_le _ _
    _ ≤ g := by linarith [hg.1]

theorem Near.sub {x y : F32} {r s e f : ℝ} (B g : ℝ) (hx : Near x r e) (hy : Near y s f) (hB : |r - s| ≤ B)
    (hg : e + f + (B + (e + f)) / 2 ^ 24 ≤ g ∧ B + (e + f) ≤ 2 ^ 127) : Near (x - y) (r - s) g := by
  have h1 : |val x - val y - (r - s)| ≤ e + f := by
    calc |val x - val y - (r - s)| = |(val x - r) - (val y - s)| := by ring_nf
      _ ≤ |val x - r| + |val y - s| := abs_sub _ _
      _ ≤ e + f := add_le_add hx.2 hy.2
  have h2 : |val x - val y| ≤ B + (e + f) := by
    calc |val x - val y| = |(val x - val y - (r - s)) + (r - s)| := by ring_nf
      _ ≤ |val x - val y - (r - s)| + |r - s| := abs_add_le _ _
      _ ≤ B + (e + f) := by linarith
  obtain ⟨hf, he⟩ := sub_ok hx.1 hy.1 (h2.trans hg.2)
  refine ⟨hf, ?_⟩
  have h3 := he.trans (div_le_div_of_nonneg_right h2 (by positivity))
  calc |val (x - y) - (r - s)| = |(val (x - y) - (val x - val y)) + (val x - val y - (r - s))| := by ring_nf
    _ ≤ |val (x - y) - (val x - val y)| + |val x - val y - (r - s)| := abs_add_le _ _
    _ ≤ g := by linarith [hg.1]

theorem Near.mul {x y : F32} {r s e f : ℝ} (A B P g : ℝ) (hx : Near x r e) (hy : Near y s f) (hA : |r| ≤ A) (hB : |s| ≤ B)
    (hP : |r * s| ≤ P)
    (hg : (A * f + B * e + e * f) + (P + (A * f + B * e + e * f)) / 2 ^ 24 + 1 / 2 ^ 150 ≤ g ∧
      P + (A * f + B * e + e * f) ≤ 2 ^ 127) : Near (x * y) (r * s) g := by
  have e0 := hx.nonneg
  have f0 := hy.nonneg
  have h1 : |val x * val y - r * s| ≤ A * f + B * e + e * f := by
    calc |val x * val y - r * s| = |(r * (val y - s) + (val x - r) * s) + (val x - r) * (val y - s)| := by ring_nf
      _ ≤ |r * (val y - s) + (val x - r) * s| + |(val x - r) * (val y - s)| := abs_add_le _ _
      _ ≤ |r * (val y - s)| + |(val x - r) * s| + |(val x - r) * (val y - s)| := by
        linarith [abs_add_le (r * (val y - s)) ((val x - r) * s)]
      _ = |r| * |val y - s| + |val x - r| * |s| + |val x - r| * |val y - s| := by rw [abs_mul, abs_mul, abs_mul]
      _ ≤ A * f + e * B + e * f := by
        have i1 := mul_le_mul hA hy.2 (abs_nonneg _) ((abs_nonneg _).trans hA)
        have i2 := mul_le_mul hx.2 hB (abs_nonneg _) e0
        have i3 := mul_le_mul hx.2 hy.2 (abs_nonneg _) e0
        linarith
      _ = _ := by ring
  set d := A * f + B * e + e * f with hd
  have h2 : |val x * val y| ≤ P + d := by
    calc |val x * val y| = |(val x * val y - r * s) + r * s| := by ring_nf
      _ ≤ |val x * val y - r * s| + |r * s| := abs_add_le _ _
      _ ≤ P + d := by linarith
  obtain ⟨hf, he⟩ := mul_ok hx.1 hy.1 (h2.trans hg.2)
  refine ⟨hf, ?_⟩
  have h3 := div_le_div_of_nonneg_right h2 (show (0:ℝ) ≤ 2 ^ 24 by positivity)
  calc |val (x * y) - r * s| = |(val (x * y) - val x * val y) + (val x * val y - r * s)| := by ring_nf
    _ ≤ |val (x * y) - val x * val y| + |val x * val y - r * s| := abs_add_le _ _
    _ ≤ g := by linarith [hg.1]

/-- `n / 2^s` is a float. -/
theorem exists_frac32 {n s : Nat} (hn : n < 2 ^ 24) (hs : s ≤ 100) : ∃ x : F32, Finite32 x.bits ∧ val x = n / 2 ^ s := by
  rcases Nat.eq_zero_or_pos n with rfl | hpos
  · exact ⟨F32.zero, zero_finite, by rw [val, zero_real]; simp⟩
  · set k := Nat.log2 n with hk
    have h1 : 2 ^ k ≤ n := Nat.log2_self_le hpos.ne'
    have h2 : n < 2 ^ (k + 1) := Nat.lt_log2_self
    have h3 : k ≤ 23 := by
      by_contra h
      have : 2 ^ 24 ≤ 2 ^ k := Nat.pow_le_pow_right (by norm_num) (by omega)
      omega
    have hsplit : 2 ^ k * 2 ^ (23 - k) = 2 ^ 23 := by rw [← Nat.pow_add]; congr 1; omega
    have hm1 : 2 ^ 23 ≤ n * 2 ^ (23 - k) := by
      rw [← hsplit]; exact Nat.mul_le_mul_right _ h1
    have hm2 : n * 2 ^ (23 - k) < 2 ^ 24 := by
      have : n * 2 ^ (23 - k) < 2 ^ (k + 1) * 2 ^ (23 - k) := Nat.mul_lt_mul_of_pos_right h2 (by positivity)
      rw [Nat.pow_succ, Nat.mul_right_comm, hsplit] at this
      omega
    have hmul : n * 2 ^ (23 - k) * 2 ^ (k + 126 - s) * 2 ^ s = n * 2 ^ 149 := by
      rw [Nat.mul_assoc, Nat.mul_assoc, ← Nat.pow_add, ← Nat.pow_add]; congr 2; omega
    generalize n * 2 ^ (23 - k) = m at hm1 hm2 hmul
    have hlow : (k + 126 - s) * 2 ^ 23 + m < 2 ^ 31 := by omega
    refine ⟨pack false ((k + 126 - s) * 2 ^ 23 + m), ?_, ?_⟩
    · rw [finite32_iff, pack_low _ hlow]; omega
    · rw [val, real_eq_signed, pack_negative _ hlow]
      unfold mag
      rw [pack_low _ hlow]
      have : magOf ((k + 126 - s) * 2 ^ 23 + m) * 2 ^ s = n * 2 ^ 149 := by
        unfold magOf
        rw [if_neg (by omega), ← hmul]
        have e1 : ((k + 126 - s) * 2 ^ 23 + m) / 2 ^ 23 = k + 126 - s + 1 := by omega
        have e2 : 2 ^ 23 + ((k + 126 - s) * 2 ^ 23 + m) % 2 ^ 23 = m := by omega
        rw [e1, e2]
        rfl
      have h' : (magOf ((k + 126 - s) * 2 ^ 23 + m) : ℝ) * 2 ^ s = n * 2 ^ 149 := by exact_mod_cast this
      simp only [Bool.false_eq_true, if_false, one_mul]
      rw [div_eq_div_iff (by positivity) (by positivity)]
      exact h'

end Ozz.F32
