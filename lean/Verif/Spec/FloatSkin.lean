import Verif.Spec.FloatModel
import Verif.Spec.Skinning

/-! Skinning with floats: what the inputs must be like, and how near the outputs are to the exact ones. -/

namespace Ozz.Skinning

open Ieee Spec

/-- Matrices of floats: the first three rows are finite, the entries of the linear part at most `μ`, those of the translation
at most `τ`. (The bottom row does not matter.) -/
structure Matrices32Ok (ms : List (Mat4 F32)) (μ τ : ℝ) : Prop where
  finite : ∀ m ∈ ms, ∀ c r, r ≠ 3 → Finite32 (m c r).bits
  linear : ∀ m ∈ ms, ∀ c r, c ≠ 3 → r ≠ 3 → |val (m c r)| ≤ μ
  translation : ∀ m ∈ ms, ∀ r, r ≠ 3 → |val (m 3 r)| ≤ τ

/-- Weights of floats: finite, those of one vertex add up to at most `Ω` in absolute value. -/
structure Weights32Ok (ws : List F32) (n vertices : Nat) (Ω : ℝ) : Prop where
  finite : ∀ w ∈ ws, Finite32 w.bits
  bounded : ∀ i < vertices, ∑ k ∈ Finset.range (n - 1), |(ws.map val).getD (i * (n - 1) + k) 0| ≤ Ω

/-- The sum of the absolute values of the coordinates. -/
def norm1 (p : P3 ℝ) : ℝ := |p 0| + |p 1| + |p 2|

noncomputable def valP (p : P3 F32) : P3 ℝ := fun r => val (p r)

/-- The first `n` elements of the output are within `bound` of `f` of the input, where the input is finite and at
most `limit`. -/
def MappedNear (n : Nat) (f : Nat → P3 ℝ → P3 ℝ) (bound : P3 ℝ → ℝ) (limit : ℝ) (input output : Buf (P3 F32)) : Prop :=
  ∃ xs ys, input = some (.ok xs) ∧ output = some (.ok ys) ∧ ∀ i p, i < n → xs[i]? = some p →
    (∀ c, Finite32 (p c).bits) → norm1 (valP p) ≤ limit →
    ∃ q, ys[i]? = some q ∧ ∀ r, Finite32 (q r).bits ∧ |val (q r) - f i (valP p) r| ≤ bound (valP p)

end Ozz.Skinning
