import Verif.Proofs.Frame

/-! The size of the entries of model matrices. -/

namespace Ozz.Frame

open Spec F32 Ieee

/-- A linear function with an offset: the slope does not exceed the growth of a bound. -/
theorem slope_le {a b A C : ℝ} (h : ∀ K : ℝ, 0 ≤ K → |K * a + b| ≤ A * K + C) : |a| ≤ A := by
  by_contra hc
  push Not at hc
  have h0 := h 0 le_rfl
  rw [zero_mul, zero_add, mul_zero, zero_add] at h0
  have C0 : 0 ≤ C := (abs_nonneg _).trans h0
  have hd : 0 < |a| - A := by linarith
  have hK : 0 ≤ (2 * C + 1) / (|a| - A) := by positivity
  have h1 := h _ hK
  have h2 := abs_sub ((2 * C + 1) / (|a| - A) * a + b) b
  rw [add_sub_cancel_right, abs_mul, abs_of_nonneg hK] at h2
  have h3 : (2 * C + 1) / (|a| - A) * (|a| - A) = 2 * C + 1 := div_mul_cancel₀ _ hd.ne'
  nlinarith

/-- A matrix that takes points close to where a path of bounded poses takes them has bounded entries. -/
theorem bounded_entries {m root : Mat4 F32} {pose : Nat → JointPose} {path : List Nat} {s B ρ T g : ℝ} (hρ : 1 ≤ ρ)
    (hroot : Root32Ok root ρ T) (hfin : ∀ c r, r ≠ 3 → Finite32 (m c r).bits) (hg1 : 1 ≤ g) (hg2 : g ≤ 2) (hs : 1 ≤ s) (hB : 0 ≤ B)
    (hsize : ∀ v, ‖moveAlong pose path v‖ ≤ far s B ‖v‖ path.length)
    (hnear : ∀ p : F4 ℝ, ∃ x : F4 ℝ, pureQuat x = moveAlong pose path (pureQuat p) ∧ ∀ r, r ≠ 3 →
      |(valMat m).transformPoint p r - (valMat root).transformPoint x r| ≤
        (ρ * s ^ path.length * len (p 0) (p 1) (p 2) + reach s B ρ T path.length) * (g - 1)) :
    Matrix32Ok m (2 * (ρ * s ^ path.length)) (2 * reach s B ρ T path.length) ∧
    ∀ p : F4 ℝ, ∃ x : F4 ℝ, pureQuat x = moveAlong pose path (pureQuat p) ∧ ∀ r, r ≠ 3 →
      |(valMat m).transformPoint p r - (valMat root).transformPoint x r| ≤
        (ρ * s ^ path.length * len (p 0) (p 1) (p 2) + reach s B ρ T path.length) * (g - 1) := by
  have hbound : ∀ (p : F4 ℝ) (r : Fin 4), r ≠ 3 → |(valMat m).transformPoint p r| ≤
      (ρ * s ^ path.length * len (p 0) (p 1) (p 2) + reach s B ρ T path.length) * 2 := by
    intro p r hr
    obtain ⟨x, hx, h⟩ := hnear p
    have h1 := hsize (pureQuat p)
    rw [← hx, pure_norm (show (pureQuat x).re = 0 from rfl), pure_norm (show (pureQuat p).re = 0 from rfl)] at h1
    have h1 : len (x 0) (x 1) (x 2) ≤ far s B (len (p 0) (p 1) (p 2)) path.length := h1
    have h2 : |(valMat root).transformPoint x r| ≤ ρ * len (x 0) (x 1) (x 2) + T := by
      rw [tp_row]
      refine (abs_add_le _ _).trans (add_le_add ?_ (hroot.translation r hr))
      exact dot_le_len.trans (mul_le_mul_of_nonneg_right (hroot.linear r hr) len_nonneg)
    have h3 := mul_le_mul_of_nonneg_left h1 (show 0 ≤ ρ by linarith)
    have h4 : ρ * far s B (len (p 0) (p 1) (p 2)) path.length + T =
        ρ * s ^ path.length * len (p 0) (p 1) (p 2) + reach s B ρ T path.length := by
      unfold far reach
      ring
    have h5 := h r hr
    have h6 := abs_add_le ((valMat m).transformPoint p r - (valMat root).transformPoint x r) ((valMat root).transformPoint x r)
    rw [sub_add_cancel] at h6
    have h7 : 0 ≤ ρ * s ^ path.length * len (p 0) (p 1) (p 2) + reach s B ρ T path.length := by
      rw [← h4]
      have T0 : 0 ≤ T := (abs_nonneg _).trans (hroot.translation r hr)
      have h8 := len_nonneg (a := x 0) (b := x 1) (c := x 2)
      have h9 : 0 ≤ ρ * far s B (len (p 0) (p 1) (p 2)) path.length := mul_nonneg (by linarith) (h8.trans h1)
      linarith
    nlinarith
  refine ⟨⟨hfin, fun c r hc hr => ?_, fun r hr => ?_⟩, hnear⟩
  · refine slope_le (b := val (m 3 r)) (C := reach s B ρ T path.length * 2) fun K hK => ?_
    have h := hbound (fun i => if i = c then K else 0) r hr
    rw [tp_row] at h
    have hl : ∀ k : ℝ, 0 ≤ k → len k 0 0 = k ∧ len 0 k 0 = k ∧ len 0 0 k = k := by
      intro k hk
      refine ⟨?_, ?_, ?_⟩ <;> (unfold len; simp [Real.sqrt_sq hk])
    obtain ⟨l0, l1, l2⟩ := hl K hK
    fin_cases c
    · simp only [valMat] at h
      simp [l0] at h ⊢
      rw [mul_comm K]
      linarith
    · simp only [valMat] at h
      simp [l1] at h ⊢
      rw [mul_comm K]
      linarith
    · simp only [valMat] at h
      simp [l2] at h ⊢
      rw [mul_comm K]
      linarith
    · exact absurd rfl hc
  · have h := hbound (splat 0) r hr
    rw [tp_origin] at h
    have : len (splat (0:ℝ) 0) (splat (0:ℝ) 1) (splat (0:ℝ) 2) = 0 := by simp [splat, len]
    rw [this, mul_zero, zero_add, mul_comm] at h
    exact h

end Ozz.Frame
