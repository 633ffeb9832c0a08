import Verif.Proofs.FloatSkin
import Verif.Proofs.Frame
import Verif.Spec.SkinnedFrame

/-! Skinning with the model matrices of a frame. -/

namespace Ozz.Skinning

open Spec Ieee F32

theorem bind_len {b : Mat4 F32} {β γ : ℝ} (hb : Bind32Ok b β γ) (p : P3 ℝ) :
    len ((valMat b).transformPoint (vertex p) 0) ((valMat b).transformPoint (vertex p) 1) ((valMat b).transformPoint (vertex p) 2) ≤
      bound3 β γ p := by
  have h : ∀ r : Fin 4, r ≠ 3 → |(valMat b).transformPoint (vertex p) r| ≤ β * norm1 p + γ := by
    intro r hr
    rw [tp_row]
    have e : ∀ c : Fin 4, c ≠ 3 → |valMat b c r| ≤ β := fun c hc => hb.linear c r hc hr
    have h0 := mul_le_mul_of_nonneg_right (e 0 (by decide)) (abs_nonneg (p 0))
    have h1 := mul_le_mul_of_nonneg_right (e 1 (by decide)) (abs_nonneg (p 1))
    have h2 := mul_le_mul_of_nonneg_right (e 2 (by decide)) (abs_nonneg (p 2))
    rw [← abs_mul] at h0 h1 h2
    have h3 : |valMat b 3 r| ≤ γ := hb.translation r hr
    have h4 := abs_add_le (valMat b 0 r * vertex p 0 + valMat b 1 r * vertex p 1 + valMat b 2 r * vertex p 2) (valMat b 3 r)
    have h5 := abs_add_three (valMat b 0 r * p 0) (valMat b 1 r * p 1) (valMat b 2 r * p 2)
    have h6 : valMat b 0 r * vertex p 0 + valMat b 1 r * vertex p 1 + valMat b 2 r * vertex p 2 =
      valMat b 0 r * p 0 + valMat b 1 r * p 1 + valMat b 2 r * p 2 := rfl
    rw [h6] at h4 ⊢
    unfold norm1
    linarith
  have h0 : 0 ≤ β * norm1 p + γ := (abs_nonneg _).trans (h 0 (by decide))
  refine (len_le_three (h 0 (by decide)) (h 1 (by decide)) (h 2 (by decide))).trans ?_
  unfold bound3
  linarith

/-- The product of a model matrix and an inverse bind matrix. -/
theorem skin_matrix {m b : Mat4 F32} {X : F4 ℝ → F4 ℝ} {μ τ a e β γ : ℝ} (hm : MovesNear m X μ τ a e) (hb : Bind32Ok b β γ)
    (hμ : 1 ≤ μ) (hτ : 1 / 2 ^ 100 ≤ τ) (hβ : 1 ≤ β) (hγ : 0 ≤ γ) (ha : 0 ≤ a) (h1 : μ * β ≤ 2 ^ 100) (h2 : μ * γ + τ ≤ 2 ^ 100) :
    Matrix32Ok (m.mul b) (301 / 100 * (μ * β)) (301 / 100 * (μ * γ) + 101 / 100 * τ) ∧
    ∀ (p : P3 ℝ) (r : Fin 4), r ≠ 3 →
      |(valMat (m.mul b)).transformPoint (vertex p) r - X ((valMat b).transformPoint (vertex p)) r| ≤
        a * bound3 β γ p + e + 5 / 2 ^ 24 * (μ * bound3 β γ p + τ) := by
  have μ0 : 0 < μ := by linarith
  have β0 : 0 < β := by linarith
  have τ0 : 0 < τ := lt_of_lt_of_le (by positivity) hτ
  have hμβ : 1 ≤ μ * β := by nlinarith
  have key : ∀ c r, r ≠ 3 → ∀ S, |val (b c 0)| * μ + |val (b c 1)| * μ + |val (b c 2)| * μ + |val (b c 3)| * τ ≤ S → S ≤ 2 ^ 110 →
      Finite32 (m.mul b c r).bits ∧ |val (m.mul b c r) - (val (b c 0) * val (m 0 r) + val (b c 1) * val (m 1 r) +
        val (b c 2) * val (m 2 r) + val (b c 3) * val (m 3 r))| ≤ 4 * S / 2 ^ 24 + 1 / 2 ^ 147 ∧
      |val (b c 0) * val (m 0 r) + val (b c 1) * val (m 1 r) + val (b c 2) * val (m 2 r) + val (b c 3) * val (m 3 r)| ≤ S := by
    intro c r hr S hS hB
    have e : ∀ k : Fin 4, k ≠ 3 → |val (b c k) * val (m k r)| ≤ |val (b c k)| * μ := fun k hk => by
      rw [abs_mul]
      exact mul_le_mul_of_nonneg_left (hm.entries.linear k r hk hr) (abs_nonneg _)
    have e3 : |val (b c 3) * val (m 3 r)| ≤ |val (b c 3)| * τ := by
      rw [abs_mul]
      exact mul_le_mul_of_nonneg_left (hm.entries.translation r hr) (abs_nonneg _)
    have hS' : |val (b c 0) * val (m 0 r)| + |val (b c 1) * val (m 1 r)| + |val (b c 2) * val (m 2 r)| + |val (b c 3) * val (m 3 r)| ≤ S := by
      linarith [e 0 (by decide), e 1 (by decide), e 2 (by decide)]
    obtain ⟨f, h⟩ := dot4_ok (hb.finite c 0) (hb.finite c 1) (hb.finite c 2) (hb.finite c 3) (hm.entries.finite 0 r hr)
      (hm.entries.finite 1 r hr) (hm.entries.finite 2 r hr) (hm.entries.finite 3 r hr) hS' (hB.trans (by norm_num))
    rw [mul_row]
    refine ⟨f, h, le_trans ?_ hS'⟩
    refine (abs_add_le _ _).trans (add_le_add (abs_add_three _ _ _) le_rfl)
  have lin : ∀ c r, c ≠ 3 → r ≠ 3 → Finite32 (m.mul b c r).bits ∧ |val (m.mul b c r) - (val (b c 0) * val (m 0 r) +
      val (b c 1) * val (m 1 r) + val (b c 2) * val (m 2 r))| ≤ 13 / 2 ^ 24 * (μ * β) ∧ |val (m.mul b c r)| ≤ 301 / 100 * (μ * β) := by
    intro c r hc hr
    have e : ∀ k : Fin 4, k ≠ 3 → |val (b c k)| * μ ≤ μ * β := fun k hk => by
      rw [mul_comm μ]
      exact mul_le_mul_of_nonneg_right (hb.linear c k hc hk) μ0.le
    obtain ⟨f, g, s⟩ := key c r hr (3 * (μ * β)) (by
      rw [hb.last c hc, abs_zero, zero_mul]
      linarith [e 0 (by decide), e 1 (by decide), e 2 (by decide)]) (by norm_num at h1 ⊢; linarith)
    rw [hb.last c hc, zero_mul, add_zero] at g s
    have g' : |val (m.mul b c r) - (val (b c 0) * val (m 0 r) + val (b c 1) * val (m 1 r) + val (b c 2) * val (m 2 r))| ≤
        13 / 2 ^ 24 * (μ * β) := by
      refine g.trans ?_
      norm_num
      linarith
    refine ⟨f, g', ?_⟩
    have h := abs_add_le (val (m.mul b c r) - (val (b c 0) * val (m 0 r) + val (b c 1) * val (m 1 r) + val (b c 2) * val (m 2 r)))
      (val (b c 0) * val (m 0 r) + val (b c 1) * val (m 1 r) + val (b c 2) * val (m 2 r))
    rw [sub_add_cancel] at h
    have : (13 : ℝ) / 2 ^ 24 * (μ * β) ≤ 1 / 100 * (μ * β) := by
      refine mul_le_mul_of_nonneg_right (by norm_num) (by linarith)
    linarith
  have tra : ∀ r, r ≠ 3 → Finite32 (m.mul b 3 r).bits ∧ |val (m.mul b 3 r) - (val (b 3 0) * val (m 0 r) +
      val (b 3 1) * val (m 1 r) + val (b 3 2) * val (m 2 r) + val (m 3 r))| ≤ 5 / 2 ^ 24 * (3 * (μ * γ) + τ) ∧
      |val (m.mul b 3 r)| ≤ 301 / 100 * (μ * γ) + 101 / 100 * τ := by
    intro r hr
    have e : ∀ k : Fin 4, k ≠ 3 → |val (b 3 k)| * μ ≤ μ * γ := fun k hk => by
      rw [mul_comm μ]
      exact mul_le_mul_of_nonneg_right (hb.translation k hk) μ0.le
    have hμγ : 0 ≤ μ * γ := by positivity
    obtain ⟨f, g, s⟩ := key 3 r hr (3 * (μ * γ) + τ) (by
      rw [hb.one, abs_one, one_mul]
      linarith [e 0 (by decide), e 1 (by decide), e 2 (by decide)]) (by norm_num at h2 ⊢; linarith)
    rw [hb.one, one_mul] at g s
    have ht : (1:ℝ) / 2 ^ 147 ≤ 1 / 2 ^ 47 * τ := by
      calc (1:ℝ) / 2 ^ 147 = 1 / 2 ^ 47 * (1 / 2 ^ 100) := by norm_num
        _ ≤ _ := mul_le_mul_of_nonneg_left hτ (by positivity)
    have g' : |val (m.mul b 3 r) - (val (b 3 0) * val (m 0 r) + val (b 3 1) * val (m 1 r) + val (b 3 2) * val (m 2 r) + val (m 3 r))| ≤
        5 / 2 ^ 24 * (3 * (μ * γ) + τ) := by
      refine g.trans ?_
      norm_num at ht ⊢
      linarith
    refine ⟨f, g', ?_⟩
    have h := abs_add_le (val (m.mul b 3 r) - (val (b 3 0) * val (m 0 r) + val (b 3 1) * val (m 1 r) + val (b 3 2) * val (m 2 r) + val (m 3 r)))
      (val (b 3 0) * val (m 0 r) + val (b 3 1) * val (m 1 r) + val (b 3 2) * val (m 2 r) + val (m 3 r))
    rw [sub_add_cancel] at h
    have : (5 : ℝ) / 2 ^ 24 * (3 * (μ * γ) + τ) ≤ 1 / 1000 * (3 * (μ * γ) + τ) := by
      refine mul_le_mul_of_nonneg_right (by norm_num) (by linarith)
    linarith
  refine ⟨⟨fun c r hr => ?_, fun c r hc hr => (lin c r hc hr).2.2, fun r hr => (tra r hr).2.2⟩, fun p r hr => ?_⟩
  · by_cases hc : c = 3
    · rw [hc]; exact (tra r hr).1
    · exact (lin c r hc hr).1
  · have hn := hm.near ((valMat b).transformPoint (vertex p)) r hr
    have hl := mul_le_mul_of_nonneg_left (bind_len hb p) ha
    have hlin : ∀ (c : Fin 4) (x : ℝ), c ≠ 3 → |(val (m.mul b c r) - (val (b c 0) * val (m 0 r) +
        val (b c 1) * val (m 1 r) + val (b c 2) * val (m 2 r))) * x| ≤ 13 / 2 ^ 24 * (μ * β) * |x| := fun c x hc => by
      rw [abs_mul]
      exact mul_le_mul_of_nonneg_right (lin c r hc hr).2.1 (abs_nonneg _)
    have hd : |(valMat (m.mul b)).transformPoint (vertex p) r - (valMat m).transformPoint ((valMat b).transformPoint (vertex p)) r| ≤
        5 / 2 ^ 24 * (μ * bound3 β γ p + τ) := by
      have e0 := hlin 0 (p 0) (by decide)
      have e1 := hlin 1 (p 1) (by decide)
      have e2 := hlin 2 (p 2) (by decide)
      have e3 := (tra r hr).2.1
      rw [tp_row, tp_row, tp_row, tp_row, tp_row]
      have hv : vertex p 0 = p 0 ∧ vertex p 1 = p 1 ∧ vertex p 2 = p 2 := ⟨rfl, rfl, rfl⟩
      rw [hv.1, hv.2.1, hv.2.2]
      simp only [valMat]
      have e4 := abs_add_three ((val (m.mul b 0 r) - (val (b 0 0) * val (m 0 r) + val (b 0 1) * val (m 1 r) + val (b 0 2) * val (m 2 r))) * p 0)
        ((val (m.mul b 1 r) - (val (b 1 0) * val (m 0 r) + val (b 1 1) * val (m 1 r) + val (b 1 2) * val (m 2 r))) * p 1)
        ((val (m.mul b 2 r) - (val (b 2 0) * val (m 0 r) + val (b 2 1) * val (m 1 r) + val (b 2 2) * val (m 2 r))) * p 2)
      have e5 := abs_add_le ((val (m.mul b 0 r) - (val (b 0 0) * val (m 0 r) + val (b 0 1) * val (m 1 r) + val (b 0 2) * val (m 2 r))) * p 0 +
        (val (m.mul b 1 r) - (val (b 1 0) * val (m 0 r) + val (b 1 1) * val (m 1 r) + val (b 1 2) * val (m 2 r))) * p 1 +
        (val (m.mul b 2 r) - (val (b 2 0) * val (m 0 r) + val (b 2 1) * val (m 1 r) + val (b 2 2) * val (m 2 r))) * p 2)
        (val (m.mul b 3 r) - (val (b 3 0) * val (m 0 r) + val (b 3 1) * val (m 1 r) + val (b 3 2) * val (m 2 r) + val (m 3 r)))
      refine le_trans (le_of_eq (congrArg abs ?_)) (e5.trans ?_)
      · ring
      · have hn0 : 0 ≤ norm1 p := by unfold norm1; positivity
        have e6 : (5:ℝ) / 2 ^ 24 * (μ * bound3 β γ p + τ) = 15 / 2 ^ 24 * (μ * β) * (|p 0| + |p 1| + |p 2|) + 5 / 2 ^ 24 * (3 * (μ * γ) + τ) := by
          unfold bound3 norm1
          ring
        have e7 : 0 ≤ 2 / 2 ^ 24 * (μ * β) * (|p 0| + |p 1| + |p 2|) := by positivity
        rw [e6]
        linarith
    have h3 := abs_sub_le ((valMat (m.mul b)).transformPoint (vertex p) r)
      ((valMat m).transformPoint ((valMat b).transformPoint (vertex p)) r) (X ((valMat b).transformPoint (vertex p)) r)
    linarith

theorem reach_mono {s B ρ T : ℝ} (hs : 1 ≤ s) (hB : 0 ≤ B) (hρ : 1 ≤ ρ) {d D : ℕ} (h : d ≤ D) : reach s B ρ T d ≤ reach s B ρ T D := by
  unfold reach
  have h1 : ∑ k ∈ Finset.range d, s ^ k ≤ ∑ k ∈ Finset.range D, s ^ k :=
    Finset.sum_le_sum_of_subset_of_nonneg (Finset.range_subset_range.mpr h) fun _ _ _ => by positivity
  have := mul_le_mul_of_nonneg_left h1 (show 0 ≤ B * ρ by positivity)
  linarith

theorem spot_row (root : Mat4 ℝ) (x : F4 ℝ) (r : Fin 4) : root.transformPoint (spot (pureQuat x)) r = root.transformPoint x r := by
  rw [tp_row, tp_row]
  rfl

/-- The model matrix of a joint on a path that is not too long. -/
theorem moves_near {m root : Mat4 F32} {pose : Nat → JointPose} {path : List Nat} {s B ρ T θ : ℝ} {D : ℕ} (hs : 1 ≤ s) (hB : 0 ≤ B)
    (hρ : 1 ≤ ρ) (hT : 0 ≤ T) (hθ : 0 ≤ θ) (hD : path.length ≤ D)
    (h1 : Matrix32Ok m (2 * (ρ * s ^ path.length)) (2 * reach s B ρ T path.length))
    (h2 : ∀ p : F4 ℝ, ∃ x : F4 ℝ, pureQuat x = moveAlong pose path (pureQuat p) ∧ ∀ r, r ≠ 3 →
      |(valMat m).transformPoint p r - (valMat root).transformPoint x r| ≤
        (ρ * s ^ path.length * len (p 0) (p 1) (p 2) + reach s B ρ T path.length) * ((1 + θ) ^ path.length - 1)) :
    MovesNear m (fun p => (valMat root).transformPoint (spot (moveAlong pose path (pureQuat p)))) (2 * (ρ * s ^ D)) (2 * reach s B ρ T D)
      (ρ * s ^ D * ((1 + θ) ^ D - 1)) (reach s B ρ T D * ((1 + θ) ^ D - 1)) := by
  have e1 : s ^ path.length ≤ s ^ D := pow_le_pow_right₀ hs hD
  have e2 := mul_le_mul_of_nonneg_left e1 (show 0 ≤ ρ by linarith)
  have e3 := reach_mono (T := T) hs hB hρ hD
  have e4 : (1 + θ) ^ path.length ≤ (1 + θ) ^ D := pow_le_pow_right₀ (by linarith) hD
  have e5 : (1:ℝ) ≤ (1 + θ) ^ path.length := one_le_pow₀ (by linarith)
  have e6 : 0 ≤ reach s B ρ T D := by
    unfold reach
    positivity
  refine ⟨⟨h1.finite, fun c r hc hr => (h1.linear c r hc hr).trans (by linarith), fun r hr => (h1.translation r hr).trans (by linarith)⟩,
    fun p r hr => ?_⟩
  obtain ⟨x, hx, h3⟩ := h2 p
  simp only [← hx, spot_row]
  refine (h3 r hr).trans ?_
  have l0 := len_nonneg (a := p 0) (b := p 1) (c := p 2)
  have e7 := add_le_add (mul_le_mul_of_nonneg_right e2 l0) e3
  have e8 : 0 ≤ ρ * s ^ D * len (p 0) (p 1) (p 2) + reach s B ρ T D := by positivity
  refine (mul_le_mul e7 (sub_le_sub_right e4 1) (by linarith) e8).trans (le_of_eq ?_)
  ring

/-- The influences on a vertex are at most `3 Ω` in all. -/
theorem influence_sum {ws : List F32} {n i vertices : Nat} {Ω : ℝ} (hn : 0 < n) (hi : i < vertices) (hΩ : 1 ≤ Ω)
    (hw : 1 < n → Weights32Ok ws n vertices Ω) :
    ∑ k ∈ Finset.range n, |influence (ws.map val) n i k| ≤ 3 * Ω := by
  obtain ⟨m, rfl⟩ : ∃ m, n = m + 1 := ⟨n - 1, by omega⟩
  have hb : ∑ k ∈ Finset.range m, |(ws.map val).getD (i * m + k) 0| ≤ Ω := by
    by_cases h : 1 < m + 1
    · exact (hw h).bounded i hi
    · obtain rfl : m = 0 := by omega
      simp
      linarith
  rw [Finset.sum_range_succ]
  have h1 : ∀ k ∈ Finset.range m, |influence (ws.map val) (m + 1) i k| = |(ws.map val).getD (i * m + k) 0| := by
    intro k hk
    rw [Finset.mem_range] at hk
    unfold influence
    rw [if_pos (by omega)]
    rfl
  rw [Finset.sum_congr rfl h1]
  have h2 : |influence (ws.map val) (m + 1) i m| ≤ 1 + Ω := by
    unfold influence
    rw [if_neg (by omega)]
    refine (abs_sub _ _).trans ?_
    rw [abs_one]
    exact add_le_add le_rfl ((Finset.abs_sum_le_sum_abs _ _).trans hb)
  linarith

/-- The influences on a vertex add up to one. -/
theorem influence_one (ws : List ℝ) {n : Nat} (hn : 0 < n) (i : Nat) : ∑ k ∈ Finset.range n, influence ws n i k = 1 := by
  obtain ⟨m, rfl⟩ : ∃ m, n = m + 1 := ⟨n - 1, by omega⟩
  rw [Finset.sum_range_succ]
  have h1 : ∀ k ∈ Finset.range m, influence ws (m + 1) i k = ws.getD (i * m + k) 0 := by
    intro k hk
    rw [Finset.mem_range] at hk
    unfold influence
    rw [if_pos (by omega)]
    rfl
  rw [Finset.sum_congr rfl h1]
  unfold influence
  rw [if_neg (by omega)]
  exact add_sub_cancel _ _

/-- Averages of nearby places are near each other. -/
theorem averaged_near {ms : List (Mat4 ℝ)} {moves : Nat → F4 ℝ → F4 ℝ} {ix : List Nat} {ws : List ℝ} {n i : Nat} {p : P3 ℝ} {E W : ℝ}
    (hE : 0 ≤ E) (hw : ∑ k ∈ Finset.range n, |influence ws n i k| ≤ W)
    (h : ∀ k < n, ∀ r : Fin 4, r ≠ 3 → |(joint ms ix n i k).transformPoint (vertex p) r - moves (ix.getD (i * n + k) 0) (vertex p) r| ≤ E) (r : Fin 3) :
    |skinned ms ix ws n i p 1 r - averaged moves ix ws n i p r| ≤ W * E := by
  unfold skinned averaged
  rw [← Finset.sum_sub_distrib]
  refine (Finset.abs_sum_le_sum_abs _ _).trans ?_
  refine le_trans (Finset.sum_le_sum fun k hk => ?_) ((Finset.sum_mul _ _ _).symm.le.trans (mul_le_mul_of_nonneg_right hw hE))
  rw [← mul_sub, abs_mul]
  refine mul_le_mul_of_nonneg_left ?_ (abs_nonneg _)
  have := h k (Finset.mem_range.mp hk) r.castSucc (castSucc_ne r)
  rw [tp_row] at this
  unfold applyH
  rw [mul_one]
  exact this

end Ozz.Skinning
