import Verif.Proofs.FloatBonesStart
import Mathlib.Analysis.SpecialFunctions.Trigonometric.Inverse

/-! Helpers: how far the middle joint of the two-bone job bends, in single precision. -/

namespace Ozz.IK

open F32 Ieee Spec Blending Ozz.Trig

/-- The cosine rule with inexact cosines. -/
theorem bend_core {C0 C1 c s φ δ k κ f : ℝ} {b : Bool} (h0 : |C0| ≤ 1) (h1 : |C1| ≤ 1) (hc1 : |c| ≤ 1) (hs1 : |s| ≤ 1) (hc : |c - C1| ≤ δ)
    (hs : |s ^ 2 + c ^ 2 - 1| ≤ k) (hκ : 0 < κ) (hb : if b then s ≤ -κ else κ ≤ s)
    (hf : |φ - (Real.arccos C0 - if b then -Real.arccos C1 else Real.arccos C1)| ≤ f) :
    |-(c * Real.cos φ) + s * Real.sin φ + C0| ≤ δ + (k + 2 * δ) / κ + 2 * f := by
  have a0 := abs_le.mp h0
  have a1 := abs_le.mp h1
  have cC0 : Real.cos (Real.arccos C0) = C0 := Real.cos_arccos a0.1 a0.2
  have cC1 : Real.cos (Real.arccos C1) = C1 := Real.cos_arccos a1.1 a1.2
  have sC1 : Real.sin (Real.arccos C1) = √(1 - C1 ^ 2) := Real.sin_arccos C1
  have n1 : 0 ≤ √(1 - C1 ^ 2) := Real.sqrt_nonneg _
  have q1 : √(1 - C1 ^ 2) ^ 2 = 1 - C1 ^ 2 := Real.sq_sqrt (by nlinarith)
  generalize Real.arccos C0 = A0 at *
  generalize Real.arccos C1 = A1 at *
  generalize √(1 - C1 ^ 2) = r at *
  generalize hψ : (A0 - if b then -A1 else A1) = ψ at *
  have d1 := (Real.abs_cos_sub_cos_le φ ψ).trans hf
  have d2 := (Real.abs_sin_sub_sin_le φ ψ).trans hf
  have cs := Real.sin_sq_add_cos_sq A1
  -- the signed sine
  obtain ⟨g, hg, hid⟩ : ∃ g, |s - g| ≤ (k + 2 * δ) / κ ∧ -(C1 * Real.cos ψ) + g * Real.sin ψ + C0 = 0 := by
    have sq : |s ^ 2 - r ^ 2| ≤ k + 2 * δ := by
      rw [q1, show s ^ 2 - (1 - C1 ^ 2) = (s ^ 2 + c ^ 2 - 1) - (c - C1) * (c + C1) by ring]
      refine (abs_sub _ _).trans ?_
      rw [abs_mul]
      have : |c - C1| * |c + C1| ≤ δ * 2 := mul_le_mul hc ((abs_add_le _ _).trans (by linarith)) (abs_nonneg _) ((abs_nonneg _).trans hc)
      linarith
    have id : C0 = Real.cos A0 * (r ^ 2 + C1 ^ 2) := by rw [q1, cC0]; ring
    cases b with
    | false =>
      simp only [Bool.false_eq_true, if_false] at hb hψ
      refine ⟨r, ?_, ?_⟩
      · rw [le_div_iff₀ hκ]
        rw [show s ^ 2 - r ^ 2 = (s - r) * (s + r) by ring, abs_mul] at sq
        refine le_trans (mul_le_mul_of_nonneg_left ?_ (abs_nonneg _)) sq
        rw [abs_of_nonneg (by linarith)]; linarith
      · rw [← hψ, Real.cos_sub, Real.sin_sub, cC1, sC1, id]; ring
    | true =>
      simp only [if_true] at hb hψ
      refine ⟨-r, ?_, ?_⟩
      · rw [le_div_iff₀ hκ]
        rw [show s ^ 2 - r ^ 2 = (s - -r) * (s - r) by ring, abs_mul] at sq
        refine le_trans (mul_le_mul_of_nonneg_left ?_ (abs_nonneg _)) sq
        rw [abs_of_nonpos (by linarith)]; linarith
      · rw [← hψ, sub_neg_eq_add, Real.cos_add, Real.sin_add, cC1, sC1, id]; ring
  have e : -(c * Real.cos φ) + s * Real.sin φ + C0 =
      (-((c - C1) * Real.cos ψ) + (s - g) * Real.sin ψ) + (-(c * (Real.cos φ - Real.cos ψ)) + s * (Real.sin φ - Real.sin ψ)) := by
    linear_combination hid
  have t1 : |(c - C1) * Real.cos ψ| ≤ δ * 1 := by
    rw [abs_mul]; exact mul_le_mul hc (Real.abs_cos_le_one _) (abs_nonneg _) ((abs_nonneg _).trans hc)
  have t2 : |(s - g) * Real.sin ψ| ≤ (k + 2 * δ) / κ * 1 := by
    rw [abs_mul]; exact mul_le_mul hg (Real.abs_sin_le_one _) (abs_nonneg _) ((abs_nonneg _).trans hg)
  have t3 : |c * (Real.cos φ - Real.cos ψ)| ≤ 1 * f := by
    rw [abs_mul]; exact mul_le_mul hc1 d1 (abs_nonneg _) zero_le_one
  have t4 : |s * (Real.sin φ - Real.sin ψ)| ≤ 1 * f := by
    rw [abs_mul]; exact mul_le_mul hs1 d2 (abs_nonneg _) zero_le_one
  rw [e]
  rw [abs_le] at *
  constructor <;> linarith [t1.1, t1.2, t2.1, t2.2, t3.1, t3.2, t4.1, t4.2]

/-- The dot product with a turned vector. -/
theorem dot_turned {n p e : F4 ℝ} (hn : dot3 n n = 1) (φ : ℝ) :
    dot3 p (turned3 (f4 (n 0 * Real.sin (φ / 2)) (n 1 * Real.sin (φ / 2)) (n 2 * Real.sin (φ / 2)) (Real.cos (φ / 2))) e) =
      dot3 p e * Real.cos φ + dot3 p (cross n e) * Real.sin φ + dot3 n p * dot3 n e * (1 - Real.cos φ) := by
  have hc : Real.cos φ = 1 - 2 * Real.sin (φ / 2) ^ 2 := by
    have := Real.cos_sq' (φ / 2)
    have h2 : Real.cos (2 * (φ / 2)) = 2 * Real.cos (φ / 2) ^ 2 - 1 := Real.cos_two_mul _
    rw [mul_div_cancel₀ φ two_ne_zero] at h2
    linarith
  have hs : Real.sin φ = 2 * Real.sin (φ / 2) * Real.cos (φ / 2) := by
    have h2 := Real.sin_two_mul (φ / 2)
    rwa [mul_div_cancel₀ φ two_ne_zero] at h2
  rw [hc, hs]
  generalize Real.sin (φ / 2) = S
  generalize Real.cos (φ / 2) = C
  simp only [dot3, turned3, cross, f4_0, f4_1, f4_2, f4_3] at *
  linear_combination (2 * S ^ 2 * (p 0 * e 0 + p 1 * e 1 + p 2 * e 2)) * (-hn)

/-- Cosine and sine of the angle between two vectors almost at right angles to a unit vector. -/
theorem gram {n p e : F4 ℝ} {ν : ℝ} (hn : dot3 n n = 1) (hp : |dot3 n p| ≤ ν * mag3 p) (he : |dot3 n e| ≤ ν * mag3 e) :
    |dot3 p (cross n e) ^ 2 + dot3 p e ^ 2 - (mag3 p * mag3 e) ^ 2| ≤ 4 * ν ^ 2 * (mag3 p * mag3 e) ^ 2 := by
  have e1 : (mag3 p * mag3 e) ^ 2 - dot3 p e ^ 2 - dot3 p (cross n e) ^ 2 = mag3 (dot3 n e • p - dot3 n p • e) ^ 2 := by
    rw [mul_pow, mag3_sq, mag3_sq, mag3_sq]
    simp only [dot3, cross, f4_0, f4_1, f4_2, Pi.sub_apply, Pi.smul_apply, smul_eq_mul] at *
    linear_combination (-((p 0 * e 1 - p 1 * e 0) ^ 2 + (p 0 * e 2 - p 2 * e 0) ^ 2 + (p 1 * e 2 - p 2 * e 1) ^ 2)) * hn
  have h2 : mag3 (dot3 n e • p - dot3 n p • e) ≤ 2 * ν * (mag3 p * mag3 e) := by
    rw [sub_eq_add_neg]
    refine (mag3_add_le _ _).trans ?_
    have sm : ∀ (c : ℝ) (v : F4 ℝ), mag3 (c • v) = |c| * mag3 v := fun c v => by
      have : pureQuat (c • v) = c • pureQuat v := by ext <;> simp
      rw [← norm_pure, this, norm_smul, norm_pure, Real.norm_eq_abs]
    rw [mag3_neg, sm, sm]
    have := mul_le_mul_of_nonneg_right he (mag3_nonneg p)
    have := mul_le_mul_of_nonneg_right hp (mag3_nonneg e)
    linarith
  have h3 := pow_le_pow_left₀ (mag3_nonneg _) h2 2
  rw [← e1] at h3
  rw [abs_sub_comm, abs_of_nonneg]
  · linarith
  · have := sq_nonneg (mag3 (dot3 n e • p - dot3 n p • e))
    linarith

/-- The root of an inexact square. -/
theorem bone_root {D A d T l : ℝ} (hA : 0 < A) (hD : |D - A ^ 2| ≤ d * (T * A)) (hl : d * T ≤ l * A) (l0 : 0 ≤ l) (l1 : l ≤ 1 / 20) :
    (1 - 0.52 * l) * A ≤ √D ∧ √D ≤ (1 + 0.5 * l) * A ∧ |√D - A| ≤ d * T / (2 - 0.52 * l) := by
  have A2 : 0 < A ^ 2 := by positivity
  have dA : d * (T * A) ≤ l * A ^ 2 := by
    rw [← mul_assoc, pow_two, ← mul_assoc]; exact mul_le_mul_of_nonneg_right hl hA.le
  have D' := abs_le.mp hD
  have lo : (1 - 0.52 * l) * A ≤ √D := by
    apply Real.le_sqrt_of_sq_le
    rw [mul_pow]
    have : (1 - 0.52 * l) ^ 2 ≤ 1 - l := by nlinarith
    have := mul_le_mul_of_nonneg_right this A2.le
    linarith
  have hi : √D ≤ (1 + 0.5 * l) * A := by
    apply Real.sqrt_le_iff.mpr ⟨by positivity, ?_⟩
    rw [mul_pow]
    have : 1 + l ≤ (1 + 0.5 * l) ^ 2 := by nlinarith
    have := mul_le_mul_of_nonneg_right this A2.le
    linarith
  refine ⟨lo, hi, ?_⟩
  have D0 : 0 ≤ D := by
    have : 0 ≤ (1 - l) * A ^ 2 := mul_nonneg (by linarith) A2.le
    linarith
  have sD : √D ^ 2 = D := Real.sq_sqrt D0
  rw [le_div_iff₀ (by linarith)]
  have : |√D - A| * ((2 - 0.52 * l) * A) ≤ d * (T * A) := by
    refine le_trans ?_ hD
    rw [show D - A ^ 2 = (√D - A) * (√D + A) by linear_combination -sD, abs_mul]
    refine mul_le_mul_of_nonneg_left ?_ (abs_nonneg _)
    have : 0 ≤ √D + A := add_nonneg (Real.sqrt_nonneg D) hA.le
    rw [abs_of_nonneg this]; linarith
  rw [← mul_assoc, ← mul_assoc] at this
  exact le_of_mul_le_mul_right this hA

set_option maxHeartbeats 600000 in
/-- The clamped cosine of an angle of the triangle. -/
theorem cos_near {A B X T D1 D2 D C : ℝ} (hT : 0 < T) (hA : T / 2 ^ 7 ≤ A) (hA1 : A ≤ 3.5 * T) (hB : T / 2 ^ 7 ≤ B) (hB1 : B ≤ 7 * T)
    (hX : X ≤ A + B) (hX1 : |A - B| ≤ X) (h1 : |D1 - A ^ 2| ≤ 2847 / 2 ^ 24 * (T * A)) (h2 : |D2 - B ^ 2| ≤ 5721 / 2 ^ 24 * (T * B))
    (h3 : |D - X ^ 2| ≤ 2847 / 2 ^ 24 * (T * (A + B)))
    (hC : |C - clamp1 ((D1 + D2 - D) / (2 * √(D1 * D2)))| ≤ 11 / 2 ^ 24 * ((D1 + D2 + D) / (2 * √(D1 * D2)))) :
    |C - (A ^ 2 + B ^ 2 - X ^ 2) / (2 * (A * B))| ≤ 6100 / 2 ^ 24 * (T * (A + B) / (A * B)) := by
  have A0 : 0 < A := by linarith
  have B0 : 0 < B := by linarith
  have AB : 0 < A * B := mul_pos A0 B0
  have X0 : 0 ≤ X := (abs_nonneg _).trans hX1
  obtain ⟨u1, u2, u3⟩ := bone_root (l := 2847 / 2 ^ 17) A0 h1 (by linarith) (by norm_num) (by norm_num)
  obtain ⟨w1, w2, w3⟩ := bone_root (l := 5721 / 2 ^ 17) B0 h2 (by linarith) (by norm_num) (by norm_num)
  have D10 : 0 ≤ D1 := by
    have := (abs_le.mp h1).1
    have : T * A ≤ 2 ^ 7 * A ^ 2 := by rw [pow_two A, ← mul_assoc]; exact mul_le_mul_of_nonneg_right (by linarith) A0.le
    linarith [sq_nonneg A]
  rw [Real.sqrt_mul D10] at hC
  have u3' : |√D1 - A| ≤ 1432 / 2 ^ 24 * T := u3.trans (by rw [div_le_iff₀ (by norm_num)]; linarith)
  have w3' : |√D2 - B| ≤ 2895 / 2 ^ 24 * T := w3.trans (by rw [div_le_iff₀ (by norm_num)]; linarith)
  have D1' := abs_le.mp h1
  have D2' := abs_le.mp h2
  have D3' := abs_le.mp h3
  generalize √D1 = u at *
  generalize √D2 = w at *
  have u0 : 0.988 * A ≤ u := by linarith
  have w0 : 0.977 * B ≤ w := by linarith
  have uw : 0.9652 * (A * B) ≤ u * w := by
    have := mul_le_mul u0 w0 (by positivity) (by linarith)
    linarith
  have uw0 : 0 < u * w := by linarith
  have d : |u * w - A * B| ≤ (1464 * B + 2895 * A) / 2 ^ 24 * T := by
    rw [show u * w - A * B = (u - A) * w + A * (w - B) by ring]
    refine (abs_add_le _ _).trans ?_
    rw [abs_mul, abs_mul, abs_of_pos A0, abs_of_pos (by linarith : 0 < w)]
    have t1 : |u - A| * w ≤ 1432 / 2 ^ 24 * T * (1.022 * B) := mul_le_mul u3' (by linarith) (by linarith) (by positivity)
    have t2 := mul_le_mul_of_nonneg_left w3' A0.le
    have := mul_pos hT B0
    linarith
  -- the exact cosine
  have hr : |(A ^ 2 + B ^ 2 - X ^ 2) / (2 * (A * B))| ≤ 1 := by
    rw [abs_div, abs_of_pos (by linarith : 0 < 2 * (A * B)), div_le_one (by linarith), abs_le]
    have s1 : X ^ 2 ≤ (A + B) ^ 2 := pow_le_pow_left₀ X0 hX 2
    have s2 : (A - B) ^ 2 ≤ X ^ 2 := by rw [← sq_abs (A - B)]; exact pow_le_pow_left₀ (abs_nonneg _) hX1 2
    constructor <;> linarith
  have cr : clamp1 ((A ^ 2 + B ^ 2 - X ^ 2) / (2 * (A * B))) = (A ^ 2 + B ^ 2 - X ^ 2) / (2 * (A * B)) := by
    have := abs_le.mp hr
    unfold clamp1
    rw [max_eq_left this.1, min_eq_left this.2]
  have near := clamp1_near ((D1 + D2 - D) / (2 * (u * w))) ((A ^ 2 + B ^ 2 - X ^ 2) / (2 * (A * B)))
  rw [cr] at near
  have key : |(D1 + D2 - D) / (2 * (u * w)) - (A ^ 2 + B ^ 2 - X ^ 2) / (2 * (A * B))| ≤ 5968 / 2 ^ 24 * (T * (A + B) / (A * B)) := by
    have e : (D1 + D2 - D) / (2 * (u * w)) - (A ^ 2 + B ^ 2 - X ^ 2) / (2 * (A * B)) =
        (((D1 - A ^ 2) + (D2 - B ^ 2) - (D - X ^ 2)) / 2 - (A ^ 2 + B ^ 2 - X ^ 2) / (2 * (A * B)) * (u * w - A * B)) / (u * w) := by
      have u00 : u ≠ 0 := by intro h; rw [h] at uw0; linarith
      have w00 : w ≠ 0 := by intro h; rw [h] at uw0; linarith
      field_simp
      ring
    rw [e, abs_div, abs_of_pos uw0, div_le_iff₀ uw0]
    have m : |((D1 - A ^ 2) + (D2 - B ^ 2) - (D - X ^ 2)) / 2 - (A ^ 2 + B ^ 2 - X ^ 2) / (2 * (A * B)) * (u * w - A * B)| ≤
        5758.5 / 2 ^ 24 * (T * (A + B)) := by
      refine (abs_sub _ _).trans ?_
      have t1 : |(A ^ 2 + B ^ 2 - X ^ 2) / (2 * (A * B)) * (u * w - A * B)| ≤ 1 * ((1464 * B + 2895 * A) / 2 ^ 24 * T) := by
        rw [abs_mul]; exact mul_le_mul hr d (abs_nonneg _) zero_le_one
      have t2 : |((D1 - A ^ 2) + (D2 - B ^ 2) - (D - X ^ 2)) / 2| ≤ (2847 / 2 ^ 24 * (T * A) + 5721 / 2 ^ 24 * (T * B) + 2847 / 2 ^ 24 * (T * (A + B))) / 2 := by
        rw [abs_le]; constructor <;> linarith
      have := mul_pos hT B0
      have := mul_pos hT A0
      linarith
    refine m.trans ?_
    have : T * (A + B) = T * (A + B) / (A * B) * (A * B) := by field_simp
    have h5 : 0.9652 * (T * (A + B)) ≤ T * (A + B) / (A * B) * (u * w) := by
      have := mul_le_mul_of_nonneg_left uw (show 0 ≤ T * (A + B) / (A * B) by positivity)
      linarith
    have : 0 < T * (A + B) := by positivity
    linarith
  have rest : 11 / 2 ^ 24 * ((D1 + D2 + D) / (2 * (u * w))) ≤ 130 / 2 ^ 24 * (T * (A + B) / (A * B)) := by
    have hq : (D1 + D2 + D) / (2 * (u * w)) ≤ 11.5 * (T * (A + B) / (A * B)) := by
      rw [div_le_iff₀ (by linarith), show 11.5 * (T * (A + B) / (A * B)) * (2 * (u * w)) = 23 * (T * (A + B)) * ((u * w) / (A * B)) by ring]
      have : 0.9652 ≤ u * w / (A * B) := by rw [le_div_iff₀ AB]; exact uw
      have h6 := mul_le_mul_of_nonneg_left this (show 0 ≤ 23 * (T * (A + B)) by positivity)
      have s1 : X ^ 2 ≤ (A + B) ^ 2 := pow_le_pow_left₀ X0 hX 2
      have s3 : (A + B) ^ 2 ≤ 10.5 * (T * (A + B)) := by
        rw [pow_two, ← mul_assoc]; exact mul_le_mul_of_nonneg_right (by linarith) (by positivity)
      have s4 : A ^ 2 + B ^ 2 ≤ (A + B) ^ 2 := by linarith [add_sq A B]
      have := mul_pos hT B0
      have := mul_pos hT A0
      linarith
    have := mul_le_mul_of_nonneg_left hq (show (0 : ℝ) ≤ 11 / 2 ^ 24 by norm_num)
    have : 0 < T * (A + B) / (A * B) := by positivity
    linarith
  have t := abs_sub_le C (clamp1 ((D1 + D2 - D) / (2 * (u * w)))) ((A ^ 2 + B ^ 2 - X ^ 2) / (2 * (A * B)))
  have : 0 < T * (A + B) / (A * B) := by positivity
  linarith

/-- Lengths that are hardly changed. -/
theorem len_near {A a K : ℝ} (hA : 0 ≤ A) (ha : 0 < a) (h : |A ^ 2 - a ^ 2| ≤ K * a ^ 2) : |A - a| ≤ K * a := by
  have e : |A - a| * a ≤ K * a * a := by
    rw [mul_assoc, ← pow_two]
    refine le_trans ?_ h
    rw [show A ^ 2 - a ^ 2 = (A - a) * (A + a) by ring, abs_mul, abs_of_nonneg (by linarith : 0 ≤ A + a)]
    exact mul_le_mul_of_nonneg_left (by linarith) (abs_nonneg _)
  exact le_of_mul_le_mul_right e ha

set_option maxHeartbeats 600000 in
/-- The length of the bent chain. -/
theorem bend_len {a b A B K g d s m px t T C0 C1 φ ν κ : ℝ} {fl : Bool} (ha : 0 < a) (hb : 0 < b) (hA : 0 < A) (hB : 0 < B) (hT : 0 < T)
    (hA1 : A ≤ 3.5 * T) (K0 : 0 ≤ K) (K1 : K ≤ 0.0061) (eA : |A ^ 2 - a ^ 2| ≤ K * a ^ 2) (eB : |B ^ 2 - b ^ 2| ≤ K * b ^ 2)
    (eg : |g - d| ≤ K * (a * b)) (hd : |d| ≤ a * b) (hs : |s| ≤ a * b) (hsd : |s ^ 2 + d ^ 2 - (a * b) ^ 2| ≤ 4 * ν ^ 2 * (a * b) ^ 2)
    (hm : |m| ≤ ν ^ 2 * (a * b)) (hκ : 0 < κ) (hκ1 : κ ≤ 1) (hfl : if fl then s ≤ -(κ * (a * b)) else κ * (a * b) ≤ s)
    (h0 : |C0| ≤ 1) (h1 : |C1| ≤ 1) (ht : t ≤ A + B) (ht1 : |A - B| ≤ t)
    (hC0 : |C0 - (A ^ 2 + B ^ 2 - t ^ 2) / (2 * (A * B))| ≤ 6100 / 2 ^ 24 * (T * (A + B) / (A * B)))
    (hC1 : |C1 - -(g / (A * B))| ≤ 6100 / 2 ^ 24 * (T * (A + B) / (A * B)))
    (hφ : |φ - (Real.arccos C0 - if fl then -Real.arccos C1 else Real.arccos C1)| ≤ 29 / 2 ^ 24)
    (hpx : |px - (d * Real.cos φ + s * Real.sin φ + m * (1 - Real.cos φ))| ≤ 128 / 2 ^ 24 * (a * b)) :
    |t ^ 2 - (a ^ 2 + b ^ 2 + 2 * px)| ≤ (T * (A + B) / 328 + (6.2 * K + 3 * ν ^ 2) * (a + b) ^ 2) / κ := by
  have ab : 0 < a * b := mul_pos ha hb
  have AB : 0 < A * B := mul_pos hA hB
  have lA := len_near hA.le ha eA
  have lB := len_near hB.le hb eB
  have lA' := abs_le.mp lA
  have lB' := abs_le.mp lB
  have Ka : K * a ≤ 0.0061 * a := mul_le_mul_of_nonneg_right K1 ha.le
  have Kb : K * b ≤ 0.0061 * b := mul_le_mul_of_nonneg_right K1 hb.le
  have dAB : |A * B - a * b| ≤ 2.0061 * K * (a * b) := by
    rw [show A * B - a * b = (A - a) * B + a * (B - b) by ring]
    refine (abs_add_le _ _).trans ?_
    rw [abs_mul, abs_mul, abs_of_pos ha, abs_of_pos hB]
    have t1 : |A - a| * B ≤ K * a * (1.0061 * b) := mul_le_mul lA (by linarith) hB.le (by positivity)
    have t2 := mul_le_mul_of_nonneg_left lB ha.le
    linarith
  have KAB : K * (a * b) ≤ 0.0061 * (a * b) := mul_le_mul_of_nonneg_right K1 ab.le
  have dAB' := abs_le.mp dAB
  have abAB : a * b ≤ 1.0125 * (A * B) := by linarith
  -- the cosine of the bent angle
  obtain ⟨δ, hδ⟩ : ∃ δ, δ = 6100 / 2 ^ 24 * (T * (A + B) / (A * B)) := ⟨_, rfl⟩
  have δ0 : 0 < δ := by rw [hδ]; positivity
  have small : 186 / 2 ^ 24 ≤ 0.1068 * δ := by
    have : 1 / 3.5 ≤ T * (A + B) / (A * B) := by
      rw [div_le_div_iff₀ (by norm_num) AB, one_mul]
      nlinarith [mul_pos hT hA]
    rw [hδ]; linarith
  rw [← hδ] at hC0 hC1
  have hc : |-(d / (a * b)) - C1| ≤ δ + 3.1 * K := by
    have t1 : |-(d / (a * b)) - -(g / (A * B))| ≤ 3.1 * K := by
      have e : -(d / (a * b)) - -(g / (A * B)) = ((g - d) - d / (a * b) * (A * B - a * b)) / (A * B) := by field_simp; ring
      rw [e, abs_div, abs_of_pos AB, div_le_iff₀ AB]
      refine (abs_sub _ _).trans ?_
      have t2 : |d / (a * b) * (A * B - a * b)| ≤ 1 * (2.0061 * K * (a * b)) := by
        rw [abs_mul]
        refine mul_le_mul ?_ dAB (abs_nonneg _) zero_le_one
        rw [abs_div, abs_of_pos ab, div_le_one ab]; exact hd
      have := mul_le_mul_of_nonneg_left abAB K0
      linarith
    have := abs_sub_le (-(d / (a * b))) (-(g / (A * B))) C1
    rw [abs_sub_comm (-(g / (A * B))) C1] at this
    linarith
  have core := bend_core (c := -(d / (a * b))) (s := s / (a * b)) (k := 4 * ν ^ 2) (κ := κ) (b := fl) (φ := φ) (f := 29 / 2 ^ 24) h0 h1
    (by rw [abs_neg, abs_div, abs_of_pos ab, div_le_one ab]; exact hd) (by rw [abs_div, abs_of_pos ab, div_le_one ab]; exact hs) hc
    (by
      rw [show (s / (a * b)) ^ 2 + (-(d / (a * b))) ^ 2 - 1 = (s ^ 2 + d ^ 2 - (a * b) ^ 2) / (a * b) ^ 2 by field_simp, abs_div,
        abs_of_pos (by positivity : 0 < (a * b) ^ 2), div_le_iff₀ (by positivity)]
      exact hsd) hκ
    (by
      cases fl
      · simp only [Bool.false_eq_true, if_false] at hfl ⊢
        rw [le_div_iff₀ ab]; exact hfl
      · simp only [if_true] at hfl ⊢
        rw [div_le_iff₀ ab]; linarith) hφ
  -- the whole error
  have err : |px + C0 * (a * b)| ≤ (3.107 * δ + 9.3 * K + 6 * ν ^ 2) / κ * (a * b) := by
    have e : px + C0 * (a * b) = (px - (d * Real.cos φ + s * Real.sin φ + m * (1 - Real.cos φ))) + m * (1 - Real.cos φ) +
        (-(-(d / (a * b)) * Real.cos φ) + s / (a * b) * Real.sin φ + C0) * (a * b) := by field_simp; ring
    have t1 : |m * (1 - Real.cos φ)| ≤ ν ^ 2 * (a * b) * 2 := by
      rw [abs_mul]
      refine mul_le_mul hm ?_ (abs_nonneg _) (by positivity)
      have := abs_le.mp (Real.abs_cos_le_one φ)
      rw [abs_le]; constructor <;> linarith
    have t2 := mul_le_mul_of_nonneg_right core ab.le
    rw [← abs_of_pos ab, ← abs_mul, abs_of_pos ab] at t2
    have t3 : |px + C0 * (a * b)| ≤ (128 / 2 ^ 24 + 2 * ν ^ 2 + (δ + 3.1 * K + (4 * ν ^ 2 + 2 * (δ + 3.1 * K)) / κ + 2 * (29 / 2 ^ 24))) * (a * b) := by
      rw [e]
      refine (abs_add_le _ _).trans ?_
      refine (add_le_add_left (abs_add_le _ _) _).trans ?_
      linarith
    refine t3.trans (mul_le_mul_of_nonneg_right ?_ ab.le)
    rw [le_div_iff₀ hκ]
    have : (4 * ν ^ 2 + 2 * (δ + 3.1 * K)) / κ * κ = 4 * ν ^ 2 + 2 * (δ + 3.1 * K) := div_mul_cancel₀ _ hκ.ne'
    have t4 : (128 / 2 ^ 24 + 2 * ν ^ 2 + (δ + 3.1 * K) + 2 * (29 / 2 ^ 24)) * κ ≤ 128 / 2 ^ 24 + 2 * ν ^ 2 + (δ + 3.1 * K) + 2 * (29 / 2 ^ 24) :=
      mul_le_of_le_one_right (by positivity) hκ1
    linarith
  have hr : |(A ^ 2 + B ^ 2 - t ^ 2) / (2 * (A * B))| ≤ 1 := by
    rw [abs_div, abs_of_pos (by linarith : 0 < 2 * (A * B)), div_le_one (by linarith), abs_le]
    have s1 : t ^ 2 ≤ (A + B) ^ 2 := pow_le_pow_left₀ ((abs_nonneg _).trans ht1) ht 2
    have s2 : (A - B) ^ 2 ≤ t ^ 2 := by rw [← sq_abs (A - B)]; exact pow_le_pow_left₀ (abs_nonneg _) ht1 2
    constructor <;> linarith
  have e : t ^ 2 - (a ^ 2 + b ^ 2 + 2 * px) = (A ^ 2 - a ^ 2) + (B ^ 2 - b ^ 2) - 2 * ((A ^ 2 + B ^ 2 - t ^ 2) / (2 * (A * B)) * (A * B - a * b)) +
      2 * ((C0 - (A ^ 2 + B ^ 2 - t ^ 2) / (2 * (A * B))) * (a * b)) - 2 * (px + C0 * (a * b)) := by field_simp; ring
  have f1 : |(A ^ 2 + B ^ 2 - t ^ 2) / (2 * (A * B)) * (A * B - a * b)| ≤ 1 * (2.0061 * K * (a * b)) := by
    rw [abs_mul]; exact mul_le_mul hr dAB (abs_nonneg _) zero_le_one
  have f2 : |(C0 - (A ^ 2 + B ^ 2 - t ^ 2) / (2 * (A * B))) * (a * b)| ≤ δ * (a * b) := by
    rw [abs_mul, abs_of_pos ab]; exact mul_le_mul_of_nonneg_right hC0 ab.le
  have tot : |t ^ 2 - (a ^ 2 + b ^ 2 + 2 * px)| ≤ K * a ^ 2 + K * b ^ 2 + 2 * (2.0061 * K * (a * b)) + 2 * (δ * (a * b)) +
      2 * ((3.107 * δ + 9.3 * K + 6 * ν ^ 2) / κ * (a * b)) := by
    rw [e]
    generalize (A ^ 2 + B ^ 2 - t ^ 2) / (2 * (A * B)) * (A * B - a * b) = z1 at *
    generalize (C0 - (A ^ 2 + B ^ 2 - t ^ 2) / (2 * (A * B))) * (a * b) = z2 at *
    generalize px + C0 * (a * b) = z3 at *
    have g1 := abs_le.mp eA
    have g2 := abs_le.mp eB
    have g3 := abs_le.mp f1
    have g4 := abs_le.mp f2
    have g5 := abs_le.mp err
    rw [abs_le]; constructor <;> linarith
  refine tot.trans ?_
  rw [le_div_iff₀ hκ]
  have q1 : (3.107 * δ + 9.3 * K + 6 * ν ^ 2) / κ * κ = 3.107 * δ + 9.3 * K + 6 * ν ^ 2 := div_mul_cancel₀ _ hκ.ne'
  have q2 : (K * a ^ 2 + K * b ^ 2 + 2 * (2.0061 * K * (a * b)) + 2 * (δ * (a * b))) * κ ≤
      K * a ^ 2 + K * b ^ 2 + 2 * (2.0061 * K * (a * b)) + 2 * (δ * (a * b)) := mul_le_of_le_one_right (by positivity) hκ1
  have q3 : δ * (a * b) ≤ 6100 / 2 ^ 24 * 1.0125 * (T * (A + B)) := by
    have : δ * (A * B) = 6100 / 2 ^ 24 * (T * (A + B)) := by rw [hδ]; field_simp
    have := mul_le_mul_of_nonneg_left abAB δ0.le
    linarith
  have q4 : 4 * (K * (a * b)) ≤ K * (a + b) ^ 2 := by
    have : 4 * (a * b) ≤ (a + b) ^ 2 := by linarith [sq_nonneg (a - b), sub_sq a b, add_sq a b]
    have := mul_le_mul_of_nonneg_left this K0
    linarith
  have q5 : 4 * (ν ^ 2 * (a * b)) ≤ ν ^ 2 * (a + b) ^ 2 := by
    have : 4 * (a * b) ≤ (a + b) ^ 2 := by linarith [sq_nonneg (a - b), sub_sq a b, add_sq a b]
    have := mul_le_mul_of_nonneg_left this (sq_nonneg ν)
    linarith
  have q6 : K * (a + b) ^ 2 = K * a ^ 2 + 2 * (K * (a * b)) + K * b ^ 2 := by ring
  have q7 : (3.107 * δ + 9.3 * K + 6 * ν ^ 2) / κ * (a * b) * κ = (3.107 * δ + 9.3 * K + 6 * ν ^ 2) * (a * b) := by rw [mul_right_comm, q1]
  have q8 := mul_pos hT (add_pos hA hB)
  generalize (3.107 * δ + 9.3 * K + 6 * ν ^ 2) / κ * (a * b) = W at *
  rw [add_mul _ _ κ, mul_assoc 2 W κ, q7]
  have q9 : (3.107 * δ + 9.3 * K + 6 * ν ^ 2) * (a * b) = 3.107 * (δ * (a * b)) + 9.3 * (K * (a * b)) + 6 * (ν ^ 2 * (a * b)) := by ring
  have q10 : (6.2 * K + 3 * ν ^ 2) * (a + b) ^ 2 = 6.2 * (K * (a + b) ^ 2) + 3 * (ν ^ 2 * (a + b) ^ 2) := by ring
  rw [q9, q10]
  rw [show 2 * (2.0061 * K * (a * b)) = 4.0122 * (K * (a * b)) by ring] at q2 ⊢
  have q11 : 0 ≤ K * (a * b) := by positivity
  generalize δ * (a * b) = z1 at *
  generalize K * (a * b) = z2 at *
  generalize ν ^ 2 * (a * b) = z3 at *
  generalize ν ^ 2 * (a + b) ^ 2 = z4 at *
  generalize K * (a + b) ^ 2 = z5 at *
  generalize T * (A + B) = z6 at *
  linarith

end Ozz.IK
