import Verif.Model.Skinning
import Verif.Spec.Exact
import Mathlib.Algebra.BigOperators.Fin

/-!
What skinning should compute, over the real numbers: every joint moves the vertex on its own and the
results are averaged. Written without the model's loops and matrix sums.
-/

namespace Ozz.Skinning

/-- Weight of influence `k` (of `n`) on vertex `i`; the last one is not stored. -/
noncomputable def influence (ws : List ℝ) (n i k : Nat) : ℝ :=
  if k + 1 < n then ws.getD (i * (n - 1) + k) 0 else 1 - ∑ m ∈ Finset.range (n - 1), ws.getD (i * (n - 1) + m) 0

/-- Joint matrix of influence `k` on vertex `i`. -/
noncomputable def joint (ms : List (Mat4 ℝ)) (ix : List Nat) (n i k : Nat) : Mat4 ℝ := ms.getD (ix.getD (i * n + k) 0) 0

/-- First three coordinates of a matrix applied to `(x, y, z, h)`. -/
def applyH (m : Mat4 ℝ) (p : P3 ℝ) (h : ℝ) : P3 ℝ := fun r =>
  m 0 r.castSucc * p 0 + m 1 r.castSucc * p 1 + m 2 r.castSucc * p 2 + m 3 r.castSucc * h

/-- The average, over the influences, of where each joint moves the vertex. -/
noncomputable def skinned (ms : List (Mat4 ℝ)) (ix : List Nat) (ws : List ℝ) (n i : Nat) (p : P3 ℝ) (h : ℝ) : P3 ℝ :=
  fun r => ∑ k ∈ Finset.range n, influence ws n i k * applyH (joint ms ix n i k) p h r

variable {α : Type}

/-- The joint indices that are used are within the matrices (and the inverse-transpose matrices can be read and are
as many, if they are used). -/
structure InRange (j : Job α) (ms : List (Mat4 α)) (ix : List Nat) : Prop where
  matrices : ∀ k i, k < j.vertexCount * j.influences → ix[k]? = some i → i < ms.length
  inverse : j.inNormals ≠ none → j.itMatrices ≠ none → ∃ its, j.itMatrices = some (.ok its) ∧
    ∀ k i, k < j.vertexCount * j.influences → ix[k]? = some i → i < its.length

/-- The buffer keeps its length and everything from element `n` on. -/
def KeptFrom {A : Type} (n : Nat) (b b' : Buf A) : Prop :=
  ∃ xs ys, b = some (.ok xs) ∧ b' = some (.ok ys) ∧ ys.length = xs.length ∧ ∀ i, n ≤ i → ys[i]? = xs[i]?

/-- The first `n` elements of the output are `f` of the input. -/
def Mapped {A : Type} (n : Nat) (f : Nat → A → A) (input output : Buf A) : Prop :=
  ∃ xs ys, input = some (.ok xs) ∧ output = some (.ok ys) ∧ ∀ i p, i < n → xs[i]? = some p → ys[i]? = some (f i p)

end Ozz.Skinning
