import Verif.Proofs.Skinning
import Verif.Spec.VertexSkinning

/-! Helper lemmas for C99: the matrix of a vertex. -/

namespace Ozz.Skinning

open Spec

variable {α : Type} [Add α] [Sub α] [Mul α] [NumOps α]

omit [Sub α] [Mul α] [NumOps α] in
theorem wsum_congr {w w' : Nat → α} {k : Nat} (h : ∀ i ≤ k, w i = w' i) : wsum w k = wsum w' k := by
  induction k with
  | zero => simp only [wsum, h 0 (Nat.le_refl _)]
  | succ k ih => simp only [wsum, ih fun i hi => h i (by omega), h (k + 1) (Nat.le_refl _)]

omit [Sub α] [NumOps α] in
theorem msum_congr {w w' : Nat → α} {M M' : Nat → Mat4 α} {k : Nat} (h : ∀ i ≤ k, w i = w' i) (hM : ∀ i ≤ k, M i = M' i) :
    msum w M k = msum w' M' k := by
  induction k with
  | zero => simp only [msum, h 0 (Nat.le_refl _), hM 0 (Nat.le_refl _)]
  | succ k ih =>
    simp only [msum, ih (fun i hi => h i (by omega)) (fun i hi => hM i (by omega)), h (k + 1) (Nat.le_refl _),
      hM (k + 1) (Nat.le_refl _)]

omit [Add α] [Sub α] [Mul α] in
theorem matOf_same {n v v' : Nat} {ms ms' : List (Mat4 α)} {ix ix' : List Nat}
    (h : SameMatrices n ms ix v ms' ix' v') {k : Nat} (hk : k < n) : matOf ms ix n v k = matOf ms' ix' n v' k := by
  obtain ⟨a, a', m, h1, h2, h3, h4⟩ := h k hk
  simp only [matOf, idxOf, h1, h2, h3, h4, Option.getD_some]

theorem vertexMat_same {n v v' : Nat} {ms ms' : List (Mat4 α)} {ix ix' : List Nat} {ws ws' : List α} (hn : 0 < n)
    (h : SameMatrices n ms ix v ms' ix' v') (hw : 1 < n → SameWeights n ws v ws' v') :
    vertexMat ms ix ws n v = vertexMat ms' ix' ws' n v' := by
  unfold vertexMat
  split
  · next h1 => subst h1; exact matOf_same h (by omega)
  · next h1 =>
    have hw := hw (by omega)
    have hw' : ∀ i ≤ n - 2, weightOf ws n v i = weightOf ws' n v' i := fun i hi => by
      unfold weightOf; rw [hw i (by omega)]
    unfold blendAll
    rw [msum_congr hw' (fun i hi => matOf_same h (by omega)), wsum_congr hw', matOf_same h (by omega)]

end Ozz.Skinning
