import Verif.Spec.FloatSkin
import Verif.Proofs.FloatModel
import Verif.Proofs.SkinningExact

/-! Skinning in single precision. -/

namespace Ozz.Skinning

open Ieee Spec F32

/-- `t3 + (t2*p2 + (t1*p1 + t0*p0))`. -/
theorem point_ok {t0 t1 t2 t3 p0 p1 p2 : F32} (h0 : Finite32 t0.bits) (h1 : Finite32 t1.bits) (h2 : Finite32 t2.bits)
    (h3 : Finite32 t3.bits) (g0 : Finite32 p0.bits) (g1 : Finite32 p1.bits) (g2 : Finite32 p2.bits) {S : ℝ}
    (hS : |val t0 * val p0| + |val t1 * val p1| + |val t2 * val p2| + |val t3| ≤ S) (hB : S ≤ 2 ^ 120) :
    (Finite32 (t3 + (t2 * p2 + (t1 * p1 + t0 * p0))).bits ∧
      |val (t3 + (t2 * p2 + (t1 * p1 + t0 * p0))) - (val t0 * val p0 + val t1 * val p1 + val t2 * val p2 + val t3)| ≤
        5 * S / 2 ^ 24 + 1 / 2 ^ 147) ∧
    (Finite32 (t2 * p2 + (t1 * p1 + t0 * p0)).bits ∧
      |val (t2 * p2 + (t1 * p1 + t0 * p0)) - (val t0 * val p0 + val t1 * val p1 + val t2 * val p2)| ≤
        5 * S / 2 ^ 24 + 1 / 2 ^ 147) := by
  have n0 := abs_nonneg (val t0 * val p0)
  have n1 := abs_nonneg (val t1 * val p1)
  have n2 := abs_nonneg (val t2 * val p2)
  have n3 := abs_nonneg (val t3)
  have hB' : S ≤ 2 ^ 126 := hB.trans (by norm_num)
  obtain ⟨f0, e0, b0⟩ := mul_bound h0 g0 le_rfl (by linarith only [hS, hB', n0, n1, n2, n3])
  obtain ⟨f1, e1, b1⟩ := mul_bound h1 g1 le_rfl (by linarith only [hS, hB', n0, n1, n2, n3])
  obtain ⟨f2, e2, b2⟩ := mul_bound h2 g2 le_rfl (by linarith only [hS, hB', n0, n1, n2, n3])
  have b3 : |val t3| ≤ |val t3| := le_rfl
  generalize |val t0 * val p0| = P0 at *
  generalize |val t1 * val p1| = P1 at *
  generalize |val t2 * val p2| = P2 at *
  generalize hP3 : |val t3| = P3 at hS n3 b3
  obtain ⟨f4, e4, b4⟩ := add_bound f1 f0 b1 b0 (by norm_num at hB ⊢; linarith)
  obtain ⟨f5, e5, b5⟩ := add_bound f2 f4 b2 b4 (by norm_num at hB ⊢; linarith)
  obtain ⟨f6, e6, -⟩ := add_bound h3 f5 (hP3.le) b5 (by norm_num at hB ⊢; linarith)
  have k1 := sum_near e4 e1 e0
  have k2 := sum_near e5 e2 k1
  have k3 := sum_near (x := val t3) (f := 0) e6 (by simp) k2
  refine ⟨⟨f6, ?_⟩, ⟨f5, ?_⟩⟩
  · rw [show val t0 * val p0 + val t1 * val p1 + val t2 * val p2 + val t3 =
      val t3 + (val t2 * val p2 + (val t1 * val p1 + val t0 * val p0)) by ring]
    refine k3.trans ?_
    norm_num at hS ⊢
    linarith
  · rw [show val t0 * val p0 + val t1 * val p1 + val t2 * val p2 =
      val t2 * val p2 + (val t1 * val p1 + val t0 * val p0) by ring]
    refine k2.trans ?_
    norm_num at hS ⊢
    linarith

/-- Partial sums of absolute values. -/
theorem partial_le {f : Nat → ℝ} {K : Nat} {Ω : ℝ} (hΩ : ∑ m ∈ Finset.range (K + 1), |f m| ≤ Ω) {k : Nat} (hk : k ≤ K) :
    |∑ m ∈ Finset.range (k + 1), f m| ≤ Ω ∧ |f k| ≤ Ω := by
  constructor
  · refine (Finset.abs_sum_le_sum_abs _ _).trans (le_trans ?_ hΩ)
    exact Finset.sum_le_sum_of_subset_of_nonneg (Finset.range_mono (by omega)) (fun _ _ _ => abs_nonneg _)
  · refine le_trans ?_ hΩ
    exact Finset.single_le_sum (f := fun m => |f m|) (fun _ _ => abs_nonneg _) (Finset.mem_range.mpr (by omega))

theorem wsum_ok {w : Nat → F32} {K : Nat} {Ω : ℝ} (hf : ∀ k ≤ K, Finite32 (w k).bits) (h0 : 0 ≤ Ω) (hΩ2 : Ω ≤ 2 ^ 100) (hK : K ≤ 2 ^ 20)
    (hΩ : ∑ m ∈ Finset.range (K + 1), |val (w m)| ≤ Ω) (r : Fin 4) {k : Nat} (hk : k ≤ K) :
    Finite32 (wsum w k r).bits ∧ |val (wsum w k r) - ∑ m ∈ Finset.range (k + 1), val (w m)| ≤ 2 * k * Ω / 2 ^ 24 := by
  induction k with
  | zero =>
    refine ⟨hf 0 hk, ?_⟩
    rw [Nat.zero_add, Finset.sum_range_one]
    change |val (w 0) - val (w 0)| ≤ _
    simp
  | succ k ih =>
    obtain ⟨f, e⟩ := ih (by omega)
    have hp := partial_le (f := fun m => val (w m)) hΩ hk
    have hk' : (k : ℝ) ≤ 1048576 := by exact_mod_cast (by omega : k ≤ 1048576)
    have hs : |val (wsum w k r) + val (w (k + 1))| ≤ 9 / 8 * Ω := by
      have h1 := abs_add_le (val (wsum w k r) - ∑ m ∈ Finset.range (k + 1), val (w m)) (∑ m ∈ Finset.range (k + 1 + 1), val (w m))
      rw [Finset.sum_range_succ _ (k + 1)] at h1 hp
      rw [show val (wsum w k r) - ∑ m ∈ Finset.range (k + 1), val (w m) + (∑ m ∈ Finset.range (k + 1), val (w m) + val (w (k + 1))) =
        val (wsum w k r) + val (w (k + 1)) by ring] at h1
      have h2 : 2 * (k : ℝ) * Ω / 2 ^ 24 ≤ 1 / 8 * Ω := by
        norm_num
        nlinarith
      linarith [hp.1]
    obtain ⟨f', e'⟩ := add_ok f (hf (k + 1) hk) (hs.trans (by norm_num at hΩ2 ⊢; linarith))
    refine ⟨f', ?_⟩
    change |val (wsum w k r + w (k + 1)) - _| ≤ _
    rw [Finset.sum_range_succ]
    have h3 := sum_near e' e (g := 0) (y := val (w (k + 1))) (by simp)
    refine h3.trans ?_
    push_cast
    norm_num at hs ⊢
    linarith

theorem msum_ok {w : Nat → F32} {M : Nat → Mat4 F32} {K : Nat} {Ω μ : ℝ} {c r : Fin 4} (hf : ∀ k ≤ K, Finite32 (w k).bits)
    (hM : ∀ k ≤ K, Finite32 (M k c r).bits) (hμ : ∀ k ≤ K, |val (M k c r)| ≤ μ) (h1 : 1 ≤ Ω) (hμ0 : 1 / 2 ^ 100 ≤ μ)
    (hΩμ : Ω * μ ≤ 2 ^ 100) (hK : K ≤ 2 ^ 20) (hΩ : ∑ m ∈ Finset.range (K + 1), |val (w m)| ≤ Ω) {k : Nat} (hk : k ≤ K) :
    Finite32 (msum w M k c r).bits ∧
      |val (msum w M k c r) - ∑ m ∈ Finset.range (k + 1), val (w m) * val (M m c r)| ≤ 3 * (k + 1) * (Ω * μ) / 2 ^ 24 := by
  have μ0 : 0 < μ := lt_of_lt_of_le (by positivity) hμ0
  have tiny : (1:ℝ) / 2 ^ 150 ≤ 1 / 2 ^ 50 * (Ω * μ) := by
    calc (1:ℝ) / 2 ^ 150 = 1 / 2 ^ 50 * (1 * (1 / 2 ^ 100)) := by norm_num
      _ ≤ _ := by gcongr
  have hΩμ' : ∑ m ∈ Finset.range (K + 1), |val (w m) * val (M m c r)| ≤ Ω * μ := by
    refine le_trans (Finset.sum_le_sum (g := fun m => |val (w m)| * μ) ?_) ?_
    · intro m hm
      rw [Finset.mem_range] at hm
      rw [abs_mul]
      exact mul_le_mul_of_nonneg_left (hμ m (by omega)) (abs_nonneg _)
    · rw [← Finset.sum_mul]
      exact mul_le_mul_of_nonneg_right hΩ μ0.le
  have prod : ∀ k ≤ K, Finite32 (M k c r * w k).bits ∧
      |val (M k c r * w k) - val (w k) * val (M k c r)| ≤ Ω * μ / 2 ^ 24 + 1 / 2 ^ 50 * (Ω * μ) := by
    intro k hk
    have hp := (partial_le hΩμ' hk).2
    rw [mul_comm (val (w k))] at hp ⊢
    obtain ⟨f, e, -⟩ := mul_bound (hM k hk) (hf k hk) hp (hΩμ.trans (by norm_num))
    exact ⟨f, e.trans (by linarith)⟩
  have Ωμ0 : 0 < Ω * μ := by positivity
  induction k with
  | zero =>
    obtain ⟨f, e⟩ := prod 0 hk
    refine ⟨f, ?_⟩
    rw [Nat.zero_add, Finset.sum_range_one]
    change |val (M 0 c r * w 0) - _| ≤ _
    refine e.trans ?_
    push_cast
    norm_num
    linarith
  | succ k ih =>
    obtain ⟨f, e⟩ := ih (by omega)
    obtain ⟨fp, ep⟩ := prod (k + 1) hk
    have hp := (partial_le hΩμ' hk).1
    have hk' : (k : ℝ) ≤ 1048576 := by exact_mod_cast (by omega : k ≤ 1048576)
    have h3 : |val (msum w M k c r) + val (M (k + 1) c r * w (k + 1)) - ∑ m ∈ Finset.range (k + 1 + 1), val (w m) * val (M m c r)| ≤
        3 * (k + 1) * (Ω * μ) / 2 ^ 24 + (Ω * μ / 2 ^ 24 + 1 / 2 ^ 50 * (Ω * μ)) := by
      rw [Finset.sum_range_succ _ (k + 1)]
      have := sum_near (s := val (msum w M k c r) + val (M (k + 1) c r * w (k + 1))) (e := 0) (by simp) e ep
      linarith
    have hs : |val (msum w M k c r) + val (M (k + 1) c r * w (k + 1))| ≤ 5 / 4 * (Ω * μ) := by
      have h1 := abs_add_le (val (msum w M k c r) + val (M (k + 1) c r * w (k + 1)) -
        ∑ m ∈ Finset.range (k + 1 + 1), val (w m) * val (M m c r)) (∑ m ∈ Finset.range (k + 1 + 1), val (w m) * val (M m c r))
      rw [sub_add_cancel] at h1
      have h2 : 3 * ((k : ℝ) + 1) * (Ω * μ) / 2 ^ 24 ≤ 3 * (2 ^ 20 + 1) / 2 ^ 24 * (Ω * μ) := by
        norm_num
        nlinarith
      norm_num at h2 h3 ⊢
      linarith
    obtain ⟨f', e'⟩ := add_ok f fp (hs.trans (by norm_num at hΩμ ⊢; linarith))
    refine ⟨f', ?_⟩
    change |val (msum w M k c r + M (k + 1) c r * w (k + 1)) - _| ≤ _
    have h4 := abs_add_le (val (msum w M k c r + M (k + 1) c r * w (k + 1)) - (val (msum w M k c r) + val (M (k + 1) c r * w (k + 1))))
      (val (msum w M k c r) + val (M (k + 1) c r * w (k + 1)) - ∑ m ∈ Finset.range (k + 1 + 1), val (w m) * val (M m c r))
    rw [sub_add_sub_cancel] at h4
    push_cast
    norm_num at h3 h4 e' hs ⊢
    linarith

/-- All influences. -/
theorem blendAll_ok {w : Nat → F32} {M : Nat → Mat4 F32} {n : Nat} {Ω μ : ℝ} {c r : Fin 4} (hn : 2 ≤ n) (hn2 : n ≤ 2 ^ 20)
    (hf : ∀ k < n - 1, Finite32 (w k).bits)
    (hM : ∀ k < n, Finite32 (M k c r).bits) (hμ : ∀ k < n, |val (M k c r)| ≤ μ) (h1 : 1 ≤ Ω) (hμ0 : 1 / 2 ^ 100 ≤ μ)
    (hΩ2 : Ω ≤ 2 ^ 100) (hΩμ : Ω * μ ≤ 2 ^ 100) (hΩ : ∑ m ∈ Finset.range (n - 1), |val (w m)| ≤ Ω) :
    Finite32 (blendAll w M n c r).bits ∧
      |val (blendAll w M n c r) - (∑ m ∈ Finset.range (n - 1), val (w m) * val (M m c r) +
        (1 - ∑ m ∈ Finset.range (n - 1), val (w m)) * val (M (n - 1) c r))| ≤ (5 * n + 3) * (Ω * μ) / 2 ^ 24 := by
  obtain ⟨K, rfl⟩ : ∃ K, n = K + 2 := ⟨n - 2, by omega⟩
  have e2 : K + 2 - 1 = K + 1 := by omega
  have e3 : K + 2 - 2 = K := by omega
  rw [e2] at hf hΩ ⊢
  have μ0 : 0 < μ := lt_of_lt_of_le (by positivity) hμ0
  have Ωμ0 : 0 < Ω * μ := by positivity
  have hf' : ∀ k ≤ K, Finite32 (w k).bits := fun k hk => hf k (by omega)
  have hK' : (K : ℝ) ≤ 1048576 := by exact_mod_cast (by omega : K ≤ 1048576)
  have K0 : (0 : ℝ) ≤ K := by positivity
  obtain ⟨wf, we⟩ := wsum_ok (r := r) hf' (by linarith) hΩ2 (by omega) hΩ (le_refl K)
  obtain ⟨mf, me⟩ := msum_ok (c := c) (r := r) hf' (fun k hk => hM k (by omega)) (fun k hk => hμ k (by omega)) h1 hμ0 hΩμ (by omega) hΩ (le_refl K)
  have hp := (partial_le (f := fun m => val (w m)) hΩ (le_refl K)).1
  have hpm : |∑ m ∈ Finset.range (K + 1), val (w m) * val (M m c r)| ≤ Ω * μ := by
    refine (Finset.abs_sum_le_sum_abs _ _).trans (le_trans (Finset.sum_le_sum (g := fun m => |val (w m)| * μ) ?_) ?_)
    · intro m hm
      rw [Finset.mem_range] at hm
      rw [abs_mul]
      exact mul_le_mul_of_nonneg_left (hμ m (by omega)) (abs_nonneg _)
    · rw [← Finset.sum_mul]
      exact mul_le_mul_of_nonneg_right hΩ μ0.le
  change Finite32 (msum w M (K + 2 - 2) c r + M (K + 1) c r * (F32.one - wsum w (K + 2 - 2) r)).bits ∧
    |val (msum w M (K + 2 - 2) c r + M (K + 1) c r * (F32.one - wsum w (K + 2 - 2) r)) - _| ≤ _
  rw [e3]
  generalize hW : wsum w K r = W at *
  generalize hT : msum w M K c r = T at *
  generalize hσ : ∑ m ∈ Finset.range (K + 1), val (w m) = σ at *
  generalize hθ : ∑ m ∈ Finset.range (K + 1), val (w m) * val (M m c r) = θ at *
  have hmf := hM (K + 1) (by omega)
  have hmμ := hμ (K + 1) (by omega)
  generalize M (K + 1) c r = m at *
  -- the last weight
  have hKΩ : (K : ℝ) * Ω ≤ 1048576 * Ω := mul_le_mul_of_nonneg_right hK' (by linarith)
  have hWb : |1 - val W| ≤ 9 / 4 * Ω := by
    rw [abs_le] at *
    norm_num at *
    constructor <;> linarith
  obtain ⟨lf, le⟩ := sub_ok one_finite wf (x := F32.one) (by rw [valOne]; norm_num at hΩ2 ⊢; linarith)
  rw [valOne] at le
  generalize hL : F32.one - W = L at *
  have hLe : |val L - (1 - σ)| ≤ (2 * K + 3) * Ω / 2 ^ 24 := by
    have le' := le.trans (div_le_div_of_nonneg_right hWb (show (0:ℝ) ≤ 2 ^ 24 by positivity))
    have h2 : |val L - (1 - σ)| ≤ 9 / 4 * Ω / 2 ^ 24 + 2 * K * Ω / 2 ^ 24 := by
      have h3 := abs_sub (val L - (1 - val W)) (val W - σ)
      rw [show val L - (1 - val W) - (val W - σ) = val L - (1 - σ) by ring] at h3
      linarith only [h3, le', we]
    refine h2.trans ?_
    norm_num
    linarith only [h1]
  have hLb : |val L| ≤ 5 / 2 * Ω := by
    rw [abs_le] at *
    norm_num at *
    constructor <;> linarith
  -- its product
  have hpb : |val m * val L| ≤ 5 / 2 * (Ω * μ) := by
    rw [abs_mul]
    calc |val m| * |val L| ≤ μ * (5 / 2 * Ω) := mul_le_mul hmμ hLb (abs_nonneg _) μ0.le
      _ = _ := by ring
  obtain ⟨pf, pe, -⟩ := mul_bound hmf lf hpb (by norm_num at hΩμ ⊢; linarith)
  have hpe : |val (m * L) - (1 - σ) * val m| ≤ (2 * K + 6) * (Ω * μ) / 2 ^ 24 := by
    have h2 := abs_add_le (val (m * L) - val m * val L) (val m * (val L - (1 - σ)))
    rw [show val (m * L) - val m * val L + val m * (val L - (1 - σ)) = val (m * L) - (1 - σ) * val m by ring, abs_mul] at h2
    have h3 := mul_le_mul hmμ hLe (abs_nonneg _) μ0.le
    have h4 : μ * ((2 * K + 3) * Ω / 2 ^ 24) = (2 * K + 3) * (Ω * μ) / 2 ^ 24 := by ring
    have tiny : (1:ℝ) / 2 ^ 150 ≤ 1 / 2 ^ 50 * (Ω * μ) := by
      calc (1:ℝ) / 2 ^ 150 = 1 / 2 ^ 50 * (1 * (1 / 2 ^ 100)) := by norm_num
        _ ≤ _ := by gcongr
    have h5 : (5:ℝ) / 2 * (Ω * μ) / 2 ^ 24 + 1 / 2 ^ 50 * (Ω * μ) ≤ 3 * (Ω * μ) / 2 ^ 24 := by
      norm_num; linarith
    rw [h4] at h3
    have h6 : (2 * (K:ℝ) + 6) * (Ω * μ) / 2 ^ 24 = (2 * K + 3) * (Ω * μ) / 2 ^ 24 + 3 * (Ω * μ) / 2 ^ 24 := by ring
    rw [h6]
    linarith only [h2, h3, h5, pe, tiny]
  have hKΩμ : (K : ℝ) * (Ω * μ) ≤ 1048576 * (Ω * μ) := mul_le_mul_of_nonneg_right hK' Ωμ0.le
  have K1 : 0 ≤ (K : ℝ) * (Ω * μ) := by positivity
  have hσm : |(1 - σ) * val m| ≤ 2 * (Ω * μ) := by
    rw [abs_mul]
    have : |1 - σ| ≤ 2 * Ω := by
      rw [abs_le] at *
      constructor <;> linarith
    calc |1 - σ| * |val m| ≤ 2 * Ω * μ := mul_le_mul this hmμ (abs_nonneg _) (by linarith)
      _ = _ := by ring
  have hsum : |val T + val (m * L) - (θ + (1 - σ) * val m)| ≤ (5 * K + 9) * (Ω * μ) / 2 ^ 24 := by
    have := sum_near (s := val T + val (m * L)) (e := 0) (by simp) me hpe
    refine this.trans (le_of_eq ?_)
    ring
  have hsb : |val T + val (m * L)| ≤ 7 / 2 * (Ω * μ) := by
    have h2 := abs_add_le (val T + val (m * L) - (θ + (1 - σ) * val m)) (θ + (1 - σ) * val m)
    rw [sub_add_cancel] at h2
    have h3 := abs_add_le θ ((1 - σ) * val m)
    have h4 : (5 * (K:ℝ) + 9) * (Ω * μ) / 2 ^ 24 ≤ 1 / 2 * (Ω * μ) := by
      norm_num at hKΩμ ⊢
      linarith
    linarith only [h2, h3, h4, hsum, hpm, hσm]
  obtain ⟨af, ae⟩ := add_ok mf pf (hsb.trans (by norm_num at hΩμ ⊢; linarith))
  refine ⟨af, ?_⟩
  have h2 := abs_add_le (val (T + m * L) - (val T + val (m * L))) (val T + val (m * L) - (θ + (1 - σ) * val m))
  rw [sub_add_sub_cancel] at h2
  refine h2.trans ?_
  push_cast
  have h3 : (5 * ((K:ℝ) + 2) + 3) * (Ω * μ) / 2 ^ 24 = (5 * K + 9) * (Ω * μ) / 2 ^ 24 + 4 * (Ω * μ) / 2 ^ 24 := by ring
  rw [h3]
  have h4 : |val T + val (m * L)| / 2 ^ 24 ≤ 4 * (Ω * μ) / 2 ^ 24 := by
    apply div_le_div_of_nonneg_right _ (by positivity)
    linarith only [hsb, Ωμ0]
  linarith only [h4, ae, hsum]

/-! ## Vertices -/

theorem matOf_val (ms : List (Mat4 F32)) (ix : List Nat) (n i k : Nat) :
    matOf (ms.map valMat) ix n i k = valMat (matOf ms ix n i k) := by
  unfold matOf
  rw [List.getElem?_map]
  cases ms[idxOf ix n i k]? with
  | some m => rfl
  | none =>
    funext c r
    exact valZero.symm

theorem weightOf_val (ws : List F32) (n i k : Nat) : weightOf (ws.map val) n i k = val (weightOf ws n i k) := by
  unfold weightOf
  rw [List.getElem?_map]
  cases ws[i * (n - 1) + k]? with
  | some m => rfl
  | none => exact valZero.symm

theorem weightOf_finite {ws : List F32} (h : ∀ w ∈ ws, Finite32 w.bits) (n i k : Nat) : Finite32 (weightOf ws n i k).bits := by
  unfold weightOf
  cases e : ws[i * (n - 1) + k]? with
  | some m => exact h m (List.mem_of_getElem? e)
  | none => exact zero_finite

theorem matOf_mem {ms : List (Mat4 F32)} {ix : List Nat} {vertices n i k : Nat} (hw : Within ms ix (vertices * n))
    (hl : vertices * n ≤ ix.length) (hi : i < vertices) (hk : k < n) : matOf ms ix n i k ∈ ms := by
  have h5 : i * n + k < vertices * n := by
    have : (i + 1) * n ≤ vertices * n := Nat.mul_le_mul_right _ hi
    rw [Nat.succ_mul] at this; omega
  have h6 : ix[i * n + k]? = some (idxOf ix n i k) := by
    unfold idxOf; rw [List.getElem?_eq_getElem (by omega)]; rfl
  have h7 := hw _ _ h5 h6
  unfold matOf; rw [List.getElem?_eq_getElem h7]
  exact List.getElem_mem h7

/-- One entry of the matrix of a vertex. -/
theorem entry_ok {ms : List (Mat4 F32)} {ix : List Nat} {ws : List F32} {vertices n i : Nat} {Ω μ : ℝ} {c r : Fin 4} (hn : 0 < n)
    (hn2 : n ≤ 2 ^ 20) (hw : Within ms ix (vertices * n)) (hl : vertices * n ≤ ix.length) (hi : i < vertices)
    (hf : ∀ m ∈ ms, Finite32 (m c r).bits) (hμ : ∀ m ∈ ms, |val (m c r)| ≤ μ) (hws : 1 < n → Weights32Ok ws n vertices Ω) (h1 : 1 ≤ Ω)
    (hμ0 : 1 / 2 ^ 100 ≤ μ) (hΩ2 : Ω ≤ 2 ^ 100) (hΩμ : Ω * μ ≤ 2 ^ 100) :
    Finite32 (vertexMat ms ix ws n i c r).bits ∧
      |val (vertexMat ms ix ws n i c r) - vertexMat (ms.map valMat) ix (ws.map val) n i c r| ≤ (5 * n + 3) * (Ω * μ) / 2 ^ 24 ∧
      |vertexMat (ms.map valMat) ix (ws.map val) n i c r| ≤ 3 * (Ω * μ) := by
  have μ0 : 0 < μ := lt_of_lt_of_le (by positivity) hμ0
  have Ωμ0 : 0 < Ω * μ := by positivity
  by_cases h : n = 1
  · subst h
    have hm := matOf_mem hw hl hi Nat.zero_lt_one
    have e1 : vertexMat ms ix ws 1 i = matOf ms ix 1 i 0 := by unfold vertexMat; rw [if_pos rfl]
    have e2 : vertexMat (ms.map valMat) ix (ws.map val) 1 i = valMat (matOf ms ix 1 i 0) := by
      unfold vertexMat; rw [if_pos rfl, matOf_val]
    rw [e1, e2]
    refine ⟨hf _ hm, ?_, ?_⟩
    · change |val (matOf ms ix 1 i 0 c r) - val (matOf ms ix 1 i 0 c r)| ≤ _
      rw [sub_self, abs_zero]
      positivity
    · refine (hμ _ hm).trans ?_
      nlinarith
  · have hws := hws (by omega)
    have hΩ : ∑ m ∈ Finset.range (n - 1), |val (weightOf ws n i m)| ≤ Ω := by
      refine le_trans (le_of_eq ?_) (hws.bounded i hi)
      apply Finset.sum_congr rfl
      intro k _
      rw [← weightOf_val, weightOf_real]
    have hb := blendAll_ok (w := weightOf ws n i) (M := matOf ms ix n i) (c := c) (r := r) (by omega) hn2
      (fun k _ => weightOf_finite hws.finite n i k) (fun k hk => hf _ (matOf_mem hw hl hi hk)) (fun k hk => hμ _ (matOf_mem hw hl hi hk))
      h1 hμ0 hΩ2 hΩμ hΩ
    have e1 : vertexMat ms ix ws n i = blendAll (weightOf ws n i) (matOf ms ix n i) n := by unfold vertexMat; rw [if_neg h]
    have e2 : vertexMat (ms.map valMat) ix (ws.map val) n i c r = ∑ m ∈ Finset.range (n - 1), val (weightOf ws n i m) * val (matOf ms ix n i m c r) +
        (1 - ∑ m ∈ Finset.range (n - 1), val (weightOf ws n i m)) * val (matOf ms ix n i (n - 1) c r) := by
      obtain ⟨K, rfl⟩ : ∃ K, n = K + 2 := ⟨n - 2, by omega⟩
      unfold vertexMat
      rw [if_neg h]
      change msum _ _ K c r + matOf (ms.map valMat) ix (K + 2) i (K + 1) c r * (1 - wsum _ K r) = _
      rw [wsum_real, msum_real, matOf_val]
      simp only [matOf_val, weightOf_val]
      rw [mul_comm (valMat _ c r)]
      rfl
    rw [e1]
    refine ⟨hb.1, by rw [e2]; exact hb.2, ?_⟩
    rw [e2]
    have hpm : |∑ m ∈ Finset.range (n - 1), val (weightOf ws n i m) * val (matOf ms ix n i m c r)| ≤ Ω * μ := by
      refine (Finset.abs_sum_le_sum_abs _ _).trans (le_trans (Finset.sum_le_sum (g := fun m => |val (weightOf ws n i m)| * μ) ?_) ?_)
      · intro m hm
        rw [Finset.mem_range] at hm
        rw [abs_mul]
        exact mul_le_mul_of_nonneg_left (hμ _ (matOf_mem hw hl hi (by omega))) (abs_nonneg _)
      · rw [← Finset.sum_mul]
        exact mul_le_mul_of_nonneg_right hΩ μ0.le
    have hσ : |1 - ∑ m ∈ Finset.range (n - 1), val (weightOf ws n i m)| ≤ 2 * Ω := by
      have h2 := abs_sub 1 (∑ m ∈ Finset.range (n - 1), val (weightOf ws n i m))
      have h3 := (Finset.abs_sum_le_sum_abs (fun m => val (weightOf ws n i m)) (Finset.range (n - 1))).trans hΩ
      rw [abs_one] at h2
      linarith
    have hlast := hμ _ (matOf_mem hw hl hi (show n - 1 < n by omega))
    have h4 := abs_add_le (∑ m ∈ Finset.range (n - 1), val (weightOf ws n i m) * val (matOf ms ix n i m c r))
      ((1 - ∑ m ∈ Finset.range (n - 1), val (weightOf ws n i m)) * val (matOf ms ix n i (n - 1) c r))
    rw [abs_mul] at h4
    have h5 := mul_le_mul hσ hlast (abs_nonneg _) (by linarith)
    linarith only [h4, h5, hpm]

theorem castSucc_ne (r : Fin 3) : r.castSucc ≠ (3 : Fin 4) := by
  fin_cases r <;> decide

/-- Where a vertex goes. -/
theorem vertex_ok {ms : List (Mat4 F32)} {ix : List Nat} {ws : List F32} {vertices n i : Nat} {Ω μ τ : ℝ} (hn : 0 < n)
    (hn2 : n ≤ 2 ^ 20) (hw : Within ms ix (vertices * n)) (hl : vertices * n ≤ ix.length) (hi : i < vertices)
    (hms : Matrices32Ok ms μ τ) (hws : 1 < n → Weights32Ok ws n vertices Ω) (h1 : 1 ≤ Ω)
    (hμ0 : 1 / 2 ^ 100 ≤ μ) (hτ0 : 1 / 2 ^ 100 ≤ τ) (hΩ2 : Ω ≤ 2 ^ 100) (hΩμ : Ω * μ ≤ 2 ^ 100) (p : P3 F32)
    (hp : ∀ c, Finite32 (p c).bits) (hov : Ω * (μ * norm1 (valP p) + τ) ≤ 2 ^ 100) (r : Fin 3) :
    (Finite32 (point (vertexMat ms ix ws n i) p r).bits ∧
      |val (point (vertexMat ms ix ws n i) p r) - skinned (ms.map valMat) ix (ws.map val) n i (valP p) 1 r| ≤
        (5 * n + 21) / 2 ^ 24 * (Ω * (μ * norm1 (valP p) + τ)) + 1 / 2 ^ 147) ∧
    (Finite32 (vector (vertexMat ms ix ws n i) p r).bits ∧
      |val (vector (vertexMat ms ix ws n i) p r) - skinned (ms.map valMat) ix (ws.map val) n i (valP p) 0 r| ≤
        (5 * n + 21) / 2 ^ 24 * (Ω * (μ * norm1 (valP p))) + 1 / 2 ^ 147) := by
  have μ0 : 0 < μ := lt_of_lt_of_le (by positivity) hμ0
  have τ0 : 0 < τ := lt_of_lt_of_le (by positivity) hτ0
  have hN0 : 0 ≤ norm1 (valP p) := by unfold norm1; positivity
  have hΩτ : Ω * τ ≤ 2 ^ 100 := by
    refine le_trans ?_ hov
    have : 0 ≤ Ω * (μ * norm1 (valP p)) := by positivity
    nlinarith
  have hr := castSucc_ne r
  have lin : ∀ c : Fin 4, c ≠ 3 → _ := fun c hc => entry_ok (c := c) (r := r.castSucc) hn hn2 hw hl hi
    (fun m hm => hms.finite m hm c _ hr) (fun m hm => hms.linear m hm c _ hc hr) hws h1 hμ0 hΩ2 hΩμ
  obtain ⟨f0, d0, b0⟩ := lin 0 (by decide)
  obtain ⟨f1, d1, b1⟩ := lin 1 (by decide)
  obtain ⟨f2, d2, b2⟩ := lin 2 (by decide)
  obtain ⟨f3, d3, b3⟩ := entry_ok (c := 3) (r := r.castSucc) hn hn2 hw hl hi
    (fun m hm => hms.finite m hm 3 _ hr) (fun m hm => hms.translation m hm _ hr) hws h1 hτ0 hΩ2 hΩτ
  have key : ∀ h : ℝ, skinned (ms.map valMat) ix (ws.map val) n i (valP p) h r =
      vertexMat (ms.map valMat) ix (ws.map val) n i 0 r.castSucc * val (p 0) +
      vertexMat (ms.map valMat) ix (ws.map val) n i 1 r.castSucc * val (p 1) +
      vertexMat (ms.map valMat) ix (ws.map val) n i 2 r.castSucc * val (p 2) +
      vertexMat (ms.map valMat) ix (ws.map val) n i 3 r.castSucc * h := fun h => by
    rw [← applyH_vertexMat _ _ _ _ _ hn]; rfl
  rw [key, key]
  change (Finite32 (vertexMat ms ix ws n i 3 r.castSucc + (vertexMat ms ix ws n i 2 r.castSucc * p 2 +
      (vertexMat ms ix ws n i 1 r.castSucc * p 1 + vertexMat ms ix ws n i 0 r.castSucc * p 0))).bits ∧
    |val (vertexMat ms ix ws n i 3 r.castSucc + (vertexMat ms ix ws n i 2 r.castSucc * p 2 +
      (vertexMat ms ix ws n i 1 r.castSucc * p 1 + vertexMat ms ix ws n i 0 r.castSucc * p 0))) - _| ≤ _) ∧
    (Finite32 (vertexMat ms ix ws n i 2 r.castSucc * p 2 +
      (vertexMat ms ix ws n i 1 r.castSucc * p 1 + vertexMat ms ix ws n i 0 r.castSucc * p 0)).bits ∧
    |val (vertexMat ms ix ws n i 2 r.castSucc * p 2 +
      (vertexMat ms ix ws n i 1 r.castSucc * p 1 + vertexMat ms ix ws n i 0 r.castSucc * p 0)) - _| ≤ _)
  generalize vertexMat ms ix ws n i 0 r.castSucc = t0 at *
  generalize vertexMat ms ix ws n i 1 r.castSucc = t1 at *
  generalize vertexMat ms ix ws n i 2 r.castSucc = t2 at *
  generalize vertexMat ms ix ws n i 3 r.castSucc = t3 at *
  generalize vertexMat (ms.map valMat) ix (ws.map val) n i 0 r.castSucc = m0 at *
  generalize vertexMat (ms.map valMat) ix (ws.map val) n i 1 r.castSucc = m1 at *
  generalize vertexMat (ms.map valMat) ix (ws.map val) n i 2 r.castSucc = m2 at *
  generalize vertexMat (ms.map valMat) ix (ws.map val) n i 3 r.castSucc = m3 at *
  have hn' : (n : ℝ) ≤ 1048576 := by exact_mod_cast (by omega : n ≤ 1048576)
  -- how large the entries are
  have size : ∀ {t : F32} {m B : ℝ}, 0 < B → |val t - m| ≤ (5 * n + 3) * (Ω * B) / 2 ^ 24 → |m| ≤ 3 * (Ω * B) → |val t| ≤ 7 / 2 * (Ω * B) := by
    intro t m B hB h2 h3
    have h4 := abs_add_le (val t - m) m
    rw [sub_add_cancel] at h4
    have h5 : (n : ℝ) * (Ω * B) ≤ 1048576 * (Ω * B) := mul_le_mul_of_nonneg_right hn' (by positivity)
    have h7 : 0 < Ω * B := by positivity
    have h6 : (5 * (n:ℝ) + 3) * (Ω * B) / 2 ^ 24 ≤ 1 / 2 * (Ω * B) := by
      norm_num
      linarith
    linarith only [h2, h3, h4, h6]
  have s0 := size μ0 d0 b0
  have s1 := size μ0 d1 b1
  have s2 := size μ0 d2 b2
  have s3 := size τ0 d3 b3
  have prod : ∀ {t q : ℝ}, |t| ≤ 7 / 2 * (Ω * μ) → |t * q| ≤ 7 / 2 * (Ω * μ) * |q| := fun {t q} h => by
    rw [abs_mul]; exact mul_le_mul_of_nonneg_right h (abs_nonneg _)
  have q0 := prod (q := val (p 0)) s0
  have q1 := prod (q := val (p 1)) s1
  have q2 := prod (q := val (p 2)) s2
  have hN : norm1 (valP p) = |val (p 0)| + |val (p 1)| + |val (p 2)| := rfl
  -- errors of the entries times the point
  have err : ∀ {t : F32} {m : ℝ} (q : ℝ), |val t - m| ≤ (5 * n + 3) * (Ω * μ) / 2 ^ 24 →
      |val t * q - m * q| ≤ (5 * n + 3) / 2 ^ 24 * (Ω * μ * |q|) := fun {t m} q h => by
    rw [← sub_mul, abs_mul]
    refine (mul_le_mul_of_nonneg_right h (abs_nonneg _)).trans (le_of_eq ?_)
    ring
  have r0 := err (val (p 0)) d0
  have r1 := err (val (p 1)) d1
  have r2 := err (val (p 2)) d2
  have r3 : |val t3 - m3| ≤ (5 * n + 3) / 2 ^ 24 * (Ω * τ) := d3.trans (le_of_eq (by ring))
  have hpos : 0 ≤ Ω * (μ * norm1 (valP p)) := by positivity
  have hposτ : 0 ≤ Ω * τ := by positivity
  have e1 : Ω * (μ * norm1 (valP p) + τ) = Ω * μ * |val (p 0)| + Ω * μ * |val (p 1)| + Ω * μ * |val (p 2)| + Ω * τ := by rw [hN]; ring
  have e2 : Ω * (μ * norm1 (valP p)) = Ω * μ * |val (p 0)| + Ω * μ * |val (p 1)| + Ω * μ * |val (p 2)| := by rw [hN]; ring
  have sum3 := sum_near (s := val t0 * val (p 0) + val t1 * val (p 1)) (e := 0) (by simp) r0 r1
  have sum3' := sum_near (s := val t0 * val (p 0) + val t1 * val (p 1) + val t2 * val (p 2)) (e := 0) (by simp) sum3 r2
  have sum4 := sum_near (s := val t0 * val (p 0) + val t1 * val (p 1) + val t2 * val (p 2) + val t3) (e := 0) (by simp) sum3' r3
  constructor
  · obtain ⟨⟨g, e⟩, -⟩ := point_ok f0 f1 f2 f3 (hp 0) (hp 1) (hp 2) (S := 7 / 2 * (Ω * (μ * norm1 (valP p) + τ)))
      (by rw [e1]; linarith only [q0, q1, q2, s3]) (by norm_num at hov ⊢; linarith)
    refine ⟨g, ?_⟩
    rw [mul_one]
    have h2 := abs_add_le (val (t3 + (t2 * p 2 + (t1 * p 1 + t0 * p 0))) - (val t0 * val (p 0) + val t1 * val (p 1) + val t2 * val (p 2) + val t3))
      (val t0 * val (p 0) + val t1 * val (p 1) + val t2 * val (p 2) + val t3 - (m0 * val (p 0) + m1 * val (p 1) + m2 * val (p 2) + m3))
    rw [sub_add_sub_cancel] at h2
    have h3 : (5 * (n:ℝ) + 21) / 2 ^ 24 * (Ω * (μ * norm1 (valP p) + τ)) = (5 * n + 3) / 2 ^ 24 * (Ω * μ * |val (p 0)|) +
      (5 * n + 3) / 2 ^ 24 * (Ω * μ * |val (p 1)|) + (5 * n + 3) / 2 ^ 24 * (Ω * μ * |val (p 2)|) + (5 * n + 3) / 2 ^ 24 * (Ω * τ) +
      18 * (Ω * (μ * norm1 (valP p) + τ)) / 2 ^ 24 := by rw [hN]; ring
    have h4 : 5 * (7 / 2 * (Ω * (μ * norm1 (valP p) + τ))) / 2 ^ 24 ≤ 18 * (Ω * (μ * norm1 (valP p) + τ)) / 2 ^ 24 := by
      apply div_le_div_of_nonneg_right _ (by positivity)
      rw [mul_add]
      linarith only [hpos, hposτ]
    rw [h3]
    linarith only [h2, h4, e, sum4]
  · obtain ⟨-, g, e⟩ := point_ok f0 f1 f2 zero_finite (t3 := F32.zero) (hp 0) (hp 1) (hp 2) (S := 7 / 2 * (Ω * (μ * norm1 (valP p))))
      (by rw [e2, valZero, abs_zero]; linarith only [q0, q1, q2]) (by
        have h5 : Ω * (μ * norm1 (valP p)) ≤ 2 ^ 100 := by rw [mul_add] at hov; linarith only [hov, hposτ]
        norm_num at h5 ⊢; linarith)
    refine ⟨g, ?_⟩
    rw [mul_zero, add_zero]
    have h2 := abs_add_le (val (t2 * p 2 + (t1 * p 1 + t0 * p 0)) - (val t0 * val (p 0) + val t1 * val (p 1) + val t2 * val (p 2)))
      (val t0 * val (p 0) + val t1 * val (p 1) + val t2 * val (p 2) - (m0 * val (p 0) + m1 * val (p 1) + m2 * val (p 2)))
    rw [sub_add_sub_cancel] at h2
    have h3 : (5 * (n:ℝ) + 21) / 2 ^ 24 * (Ω * (μ * norm1 (valP p))) = (5 * n + 3) / 2 ^ 24 * (Ω * μ * |val (p 0)|) +
      (5 * n + 3) / 2 ^ 24 * (Ω * μ * |val (p 1)|) + (5 * n + 3) / 2 ^ 24 * (Ω * μ * |val (p 2)|) +
      18 * (Ω * (μ * norm1 (valP p))) / 2 ^ 24 := by rw [hN]; ring
    have h4 : 5 * (7 / 2 * (Ω * (μ * norm1 (valP p)))) / 2 ^ 24 ≤ 18 * (Ω * (μ * norm1 (valP p))) / 2 ^ 24 := by
      apply div_le_div_of_nonneg_right _ (by positivity)
      linarith only [hpos]
    rw [h3]
    linarith only [h2, h4, e, sum3']

end Ozz.Skinning
