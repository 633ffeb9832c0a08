import Verif.Proofs.Skinning
import Verif.Proofs.Exact
import Verif.Spec.Skinning
import Mathlib.Tactic.Ring

/-! Skinning over the real numbers. -/

namespace Ozz.Skinning

theorem wsum_real (w : Nat → ℝ) (k : Nat) (r : Fin 4) : wsum w k r = ∑ m ∈ Finset.range (k + 1), w m := by
  induction k with
  | zero => simp [wsum, splat]
  | succ k ih =>
    rw [Finset.sum_range_succ, ← ih]
    rfl

theorem msum_real (w : Nat → ℝ) (M : Nat → Mat4 ℝ) (k : Nat) (c r : Fin 4) :
    msum w M k c r = ∑ m ∈ Finset.range (k + 1), w m * M m c r := by
  induction k with
  | zero =>
    rw [Nat.zero_add, Finset.sum_range_one]
    show M 0 c r * w 0 = _
    ring
  | succ k ih =>
    rw [Finset.sum_range_succ, ← ih]
    show msum w M k c r + M (k + 1) c r * w (k + 1) = _
    ring

theorem getD_eq {A : Type} (xs : List A) (i : Nat) (d : A) : (xs[i]?).getD d = xs.getD i d := by
  simp [List.getD_eq_getElem?_getD]

theorem matOf_real (ms : List (Mat4 ℝ)) (ix : List Nat) (n i k : Nat) : matOf ms ix n i k = joint ms ix n i k := by
  unfold matOf joint idxOf
  rw [getD_eq, getD_eq]
  rfl

theorem weightOf_real (ws : List ℝ) (n i k : Nat) : weightOf ws n i k = ws.getD (i * (n - 1) + k) 0 := by
  unfold weightOf
  rw [getD_eq]
  rfl

theorem vertexMat_real (ms : List (Mat4 ℝ)) (ix : List Nat) (ws : List ℝ) (n i : Nat) (hn : 0 < n) (c r : Fin 4) :
    vertexMat ms ix ws n i c r = ∑ k ∈ Finset.range n, influence ws n i k * joint ms ix n i k c r := by
  unfold vertexMat
  by_cases h1 : n = 1
  · subst h1
    simp [matOf_real, influence]
  · obtain ⟨n, rfl⟩ : ∃ m, n = m + 2 := ⟨n - 2, by omega⟩
    rw [if_neg h1, Finset.sum_range_succ]
    show msum _ _ n c r + matOf ms ix (n + 2) i (n + 1) c r * (1 - wsum (weightOf ws (n + 2) i) n r) = _
    rw [wsum_real, msum_real, matOf_real]
    congr 1
    · apply Finset.sum_congr rfl
      intro k hk
      rw [Finset.mem_range] at hk
      rw [matOf_real, weightOf_real, influence, if_pos (by omega)]
    · rw [influence, if_neg (by omega), mul_comm]
      rfl

theorem applyH_vertexMat (ms : List (Mat4 ℝ)) (ix : List Nat) (ws : List ℝ) (n i : Nat) (hn : 0 < n) (p : P3 ℝ) (h : ℝ) :
    applyH (vertexMat ms ix ws n i) p h = skinned ms ix ws n i p h := by
  funext r
  unfold skinned applyH
  simp only [vertexMat_real _ _ _ _ _ hn, Finset.sum_mul]
  rw [← Finset.sum_add_distrib, ← Finset.sum_add_distrib, ← Finset.sum_add_distrib]
  apply Finset.sum_congr rfl
  intro k _
  ring

theorem point_real (m : Mat4 ℝ) (p : P3 ℝ) : point m p = applyH m p 1 := by
  funext r
  unfold point applyH
  ring

theorem vector_real (m : Mat4 ℝ) (p : P3 ℝ) : vector m p = applyH m p 0 := by
  funext r
  unfold vector applyH
  ring

end Ozz.Skinning
