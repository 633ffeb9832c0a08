import Verif.Proofs.FloatKeys
import Verif.Proofs.FloatSampling
import Mathlib.Tactic.Linarith
import Mathlib.Tactic.NormNum
import Mathlib.Tactic.FieldSimp

/-! Helper lemmas for rotations sampled in single precision. -/

namespace Ozz.Sampling

open Spec Ieee F32

/-- Sum of squares. -/
noncomputable def sumSq (g : Fin 4 → ℝ) : ℝ := g 0 ^ 2 + g 1 ^ 2 + g 2 ^ 2 + g 3 ^ 2

theorem sumSq_nonneg (g : Fin 4 → ℝ) : 0 ≤ sumSq g := by unfold sumSq; positivity

theorem sumSq_comp (g : Fin 4 → ℝ) (x : Fin 4) : g x ^ 2 ≤ sumSq g := by
  have s := fun x => sq_nonneg (g x)
  unfold sumSq
  fin_cases x <;> simp only [Fin.zero_eta, Fin.mk_one, Fin.reduceFinMk] <;> linarith [s 0, s 1, s 2, s 3]

/-- Triangle inequality. -/
theorem norm_close (G L : Fin 4 → ℝ) {e : ℝ} (he : 0 ≤ e) (h : ∀ x, |G x - L x| ≤ e) : |√(sumSq G) - √(sumSq L)| ≤ 2 * e := by
  set d : Fin 4 → ℝ := fun x => G x - L x with hd
  have hd2 : sumSq d ≤ (2 * e) ^ 2 := by
    have hx : ∀ x, d x ^ 2 ≤ e ^ 2 := fun x => sq_le_sq' (by have := abs_le.mp (h x); linarith) (abs_le.mp (h x)).2
    unfold sumSq
    linarith [hx 0, hx 1, hx 2, hx 3]
  have hL := Real.mul_self_sqrt (sumSq_nonneg L)
  have hL0 := Real.sqrt_nonneg (sumSq L)
  have hD := Real.mul_self_sqrt (sumSq_nonneg d)
  have hD0 := Real.sqrt_nonneg (sumSq d)
  have hDe : √(sumSq d) ≤ 2 * e := by rw [Real.sqrt_le_left (by linarith)]; exact hd2
  set p := L 0 * d 0 + L 1 * d 1 + L 2 * d 2 + L 3 * d 3 with hp
  have hcs : p ^ 2 ≤ sumSq L * sumSq d := by
    rw [hp]; unfold sumSq
    nlinarith [sq_nonneg (L 0 * d 1 - L 1 * d 0), sq_nonneg (L 0 * d 2 - L 2 * d 0), sq_nonneg (L 0 * d 3 - L 3 * d 0),
      sq_nonneg (L 1 * d 2 - L 2 * d 1), sq_nonneg (L 1 * d 3 - L 3 * d 1), sq_nonneg (L 2 * d 3 - L 3 * d 2)]
  have hpa : |p| ≤ √(sumSq L) * √(sumSq d) := by
    apply abs_le_of_sq_le_sq
    · rw [mul_pow, sq (√(sumSq L)), sq (√(sumSq d)), hL, hD]; exact hcs
    · positivity
  have hG : sumSq G = sumSq L + 2 * p + sumSq d := by
    have e : ∀ x, G x = L x + d x := fun x => by simp only [hd]; ring
    rw [hp]; unfold sumSq
    simp only [e]
    ring
  rw [abs_le] at hpa
  have h1 : √(sumSq G) ≤ √(sumSq L) + √(sumSq d) := by
    rw [Real.sqrt_le_left (by positivity), hG]
    nlinarith
  have h2 : √(sumSq L) - √(sumSq d) ≤ √(sumSq G) := by
    apply Real.le_sqrt_of_sq_le
    rw [hG]
    nlinarith
  rw [abs_le]
  constructor <;> linarith

/-- The line between two nearly unit quaternions at no more than 120 degrees. -/
theorem chord_norm (p q : Fin 4 → ℝ) {f ε : ℝ} (f0 : 0 ≤ f) (f1 : f ≤ 1) (hp : |sumSq p - 1| ≤ ε) (hq : |sumSq q - 1| ≤ ε)
    (hd : -(1 / 2) ≤ p 0 * q 0 + p 1 * q 1 + p 2 * q 2 + p 3 * q 3) :
    1 / 4 - ε ≤ sumSq (fun x => p x + (q x - p x) * f) ∧ sumSq (fun x => p x + (q x - p x) * f) ≤ 1 + ε := by
  have hε : 0 ≤ ε := (abs_nonneg _).trans hp
  rw [abs_le] at hp hq
  have e : sumSq (fun x => p x + (q x - p x) * f) = (1 - f) ^ 2 * sumSq p + f ^ 2 * sumSq q +
      2 * (f * (1 - f)) * (p 0 * q 0 + p 1 * q 1 + p 2 * q 2 + p 3 * q 3) := by unfold sumSq; ring
  have hcs : p 0 * q 0 + p 1 * q 1 + p 2 * q 2 + p 3 * q 3 ≤ 1 + ε := by
    have s := fun x => sq_nonneg (p x - q x)
    unfold sumSq at hp hq
    nlinarith [s 0, s 1, s 2, s 3]
  rw [e]
  generalize p 0 * q 0 + p 1 * q 1 + p 2 * q 2 + p 3 * q 3 = d at *
  generalize sumSq p = P at *
  generalize sumSq q = Q at *
  have g0 : 0 ≤ f * (1 - f) := mul_nonneg f0 (by linarith)
  have g1 : f * (1 - f) ≤ 1 / 4 := by nlinarith [sq_nonneg (f - 1 / 2)]
  have a1 : (1 - f) ^ 2 * (1 - ε) ≤ (1 - f) ^ 2 * P := mul_le_mul_of_nonneg_left (by linarith) (sq_nonneg _)
  have a2 : f ^ 2 * (1 - ε) ≤ f ^ 2 * Q := mul_le_mul_of_nonneg_left (by linarith) (sq_nonneg _)
  have a3 : 2 * (f * (1 - f)) * (-(1 / 2)) ≤ 2 * (f * (1 - f)) * d := mul_le_mul_of_nonneg_left hd (by linarith)
  have b1 : (1 - f) ^ 2 * P ≤ (1 - f) ^ 2 * (1 + ε) := mul_le_mul_of_nonneg_left (by linarith) (sq_nonneg _)
  have b2 : f ^ 2 * Q ≤ f ^ 2 * (1 + ε) := mul_le_mul_of_nonneg_left (by linarith) (sq_nonneg _)
  have b3 : 2 * (f * (1 - f)) * d ≤ 2 * (f * (1 - f)) * (1 + ε) := mul_le_mul_of_nonneg_left hcs (by linarith)
  constructor
  · nlinarith
  · nlinarith

/-- Making a quaternion unit in single precision: within 2^-19 of unit, and close to the exact unit quaternion of anything
close to the input. -/
theorem nlerp32_ok {g : Fin 4 → F32} {L : Fin 4 → ℝ} (hg : ∀ x, Finite32 (g x).bits) (h0 : 0.2499 ≤ sumSq L) (h1 : sumSq L ≤ 2)
    (hc : ∀ x, |val (g x) - L x| ≤ 1.01 / 2 ^ 20) :
    let o := fun x => g x * (F32.one / sqrt (g 0 * g 0 + g 1 * g 1 + g 2 * g 2 + g 3 * g 3))
    (∀ x, Finite32 (o x).bits) ∧ |sumSq (fun x => val (o x)) - 1| ≤ 1 / 2 ^ 19 ∧
    ∀ x, |val (o x) - L x / √(sumSq L)| ≤ 1 / 2 ^ 17 := by
  intro o
  have hn := norm_close (fun x => val (g x)) L (by norm_num) hc
  set N := √(sumSq L) with hN
  have N0 : 0.4998 ≤ N := by
    apply Real.le_sqrt_of_sq_le
    norm_num at *
    linarith
  have N1 : N ≤ 1.5 := by
    rw [hN, Real.sqrt_le_left (by norm_num)]
    norm_num at *
    linarith
  set S := sumSq (fun x => val (g x)) with hS
  have hSn := sumSq_nonneg (fun x => val (g x))
  have hSS := Real.mul_self_sqrt hSn
  rw [← hS] at hSS hSn
  set s := √S with hs
  have hn' := abs_le.mp hn
  have s0 : 0.4997 ≤ s := by norm_num at *; linarith
  have s1 : s ≤ 1.6 := by norm_num at *; linarith
  have S0 : 1 / 2 ^ 100 ≤ S := by
    rw [← hSS]
    refine le_trans (by norm_num) (mul_le_mul s0 s0 (by norm_num) (by linarith))
  have S1 : S ≤ 2 ^ 100 := by
    rw [← hSS]
    refine le_trans (mul_le_mul s1 s1 (by linarith) (by norm_num)) (by norm_num)
  have hsp : 0 < s := by norm_num at *; linarith
  have hNp : 0 < N := by norm_num at *; linarith
  have ho : ∀ x, Finite32 (o x).bits ∧ |val (o x) - val (g x) / s| ≤ |val (g x) / s| / 2 ^ 21 + 1 / 2 ^ 150 := fun x =>
    normalize_ok (hg 0) (hg 1) (hg 2) (hg 3) (hg x) (S := S) rfl S0 S1 (sumSq_comp (fun x => val (g x)) x)
  refine ⟨fun x => (ho x).1, ?_, fun x => ?_⟩
  · refine unit_of_close (o := fun x => val (o x)) (g := fun x => val (g x) / s) ?_ fun x => (ho x).2
    simp only [div_pow, sq s, hSS]
    rw [← add_div, ← add_div, ← add_div]
    exact div_self (by positivity)
  · have hu : |val (g x) / s| ≤ 1 := by
      rw [abs_div, abs_of_pos hsp, div_le_one hsp]
      apply abs_le_of_sq_le_sq _ hsp.le
      rw [sq s, hSS]
      exact sumSq_comp (fun x => val (g x)) x
    have hLN : |L x / N| ≤ 1 := by
      rw [abs_div, abs_of_pos hNp, div_le_one hNp]
      apply abs_le_of_sq_le_sq _ hNp.le
      rw [sq N, hN, Real.mul_self_sqrt (sumSq_nonneg L)]
      exact sumSq_comp L x
    have hdiff : |val (g x) / s - L x / N| ≤ 6.2 / 2 ^ 20 := by
      have e : val (g x) / s - L x / N = ((val (g x) - L x) + L x / N * (N - s)) / s := by
        field_simp
        ring
      rw [e, abs_div, abs_of_pos hsp, div_le_iff₀ hsp]
      have t1 := abs_add_le (val (g x) - L x) (L x / N * (N - s))
      rw [abs_mul, abs_sub_comm N s] at t1
      have t2 : |L x / N| * |s - N| ≤ 1 * (2 * (1.01 / 2 ^ 20)) := mul_le_mul hLN hn (abs_nonneg _) (by norm_num)
      have t3 := hc x
      have t4 : 6.2 / 2 ^ 20 * 0.4997 ≤ 6.2 / 2 ^ 20 * s := mul_le_mul_of_nonneg_left s0 (by norm_num)
      norm_num at *
      linarith
    have t := abs_sub_le (val (o x)) (val (g x) / s) (L x / N)
    have t2 := (ho x).2
    have h150 : (1 : ℝ) / 2 ^ 150 ≤ 1 / 2 ^ 100 := by norm_num
    generalize (1 : ℝ) / 2 ^ 150 = η at *
    norm_num at *
    linarith

end Ozz.Sampling
