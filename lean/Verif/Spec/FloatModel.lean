import Verif.Spec.Pipeline
import Verif.Spec.FloatSampling
import Verif.Spec.Len3
import Mathlib.Algebra.BigOperators.Group.Finset.Basic

/-! Poses and model matrices of floats, and how far rounding may take them from what they stand for. -/

namespace Ozz.Spec

open Ieee

/-- The pose of the real numbers the floats stand for. -/
noncomputable def valTransform (t : SoaTransform F32) : SoaTransform ℝ where
  translation := ⟨fun l => val (t.translation.x l), fun l => val (t.translation.y l), fun l => val (t.translation.z l)⟩
  rotation := ⟨fun l => val (t.rotation.x l), fun l => val (t.rotation.y l), fun l => val (t.rotation.z l),
    fun l => val (t.rotation.w l)⟩
  scale := ⟨fun l => val (t.scale.x l), fun l => val (t.scale.y l), fun l => val (t.scale.z l)⟩

/-- The matrix of the real numbers the floats stand for. -/
noncomputable def valMat (m : Mat4 F32) : Mat4 ℝ := fun c r => val (m c r)

/-- Lane `l` of a block of floats: finite, the squared norm of the rotation within `δ` of one, scales of at most `s`, a
translation of at most `B`. -/
structure Joint32Ok (t : SoaTransform F32) (l : Fin 4) (s B δ : ℝ) : Prop where
  translationFinite : Finite32 (t.translation.x l).bits ∧ Finite32 (t.translation.y l).bits ∧ Finite32 (t.translation.z l).bits
  rotationFinite : Finite32 (t.rotation.x l).bits ∧ Finite32 (t.rotation.y l).bits ∧ Finite32 (t.rotation.z l).bits ∧
    Finite32 (t.rotation.w l).bits
  scaleFinite : Finite32 (t.scale.x l).bits ∧ Finite32 (t.scale.y l).bits ∧ Finite32 (t.scale.z l).bits
  translation : len (val (t.translation.x l)) (val (t.translation.y l)) (val (t.translation.z l)) ≤ B
  rotation : |val (t.rotation.x l) ^ 2 + val (t.rotation.y l) ^ 2 + val (t.rotation.z l) ^ 2 + val (t.rotation.w l) ^ 2 - 1| ≤ δ
  scale : |val (t.scale.x l)| ≤ s ∧ |val (t.scale.y l)| ≤ s ∧ |val (t.scale.z l)| ≤ s

/-- A root matrix of floats: finite, the rows of its linear part at most `ρ` long, its translation at most `T` in each
coordinate. (The bottom row does not matter.) -/
structure Root32Ok (m : Mat4 F32) (ρ T : ℝ) : Prop where
  finite : ∀ c r, r ≠ 3 → Finite32 (m c r).bits
  linear : ∀ r, r ≠ 3 → len (val (m 0 r)) (val (m 1 r)) (val (m 2 r)) ≤ ρ
  translation : ∀ r, r ≠ 3 → |val (m 3 r)| ≤ T

/-- Relative error per joint on the way from the root: 2^-18 for rounding, and eight times what the squared norms of the
rotations may be off. -/
noncomputable def perJoint (δ : ℝ) : ℝ := 1 / 2 ^ 18 + 8 * δ

/-- How far from the origin a joint with `d` joints on its path can be. -/
noncomputable def reach (s B ρ T : ℝ) (d : ℕ) : ℝ := T + B * ρ * ∑ k ∈ Finset.range d, s ^ k

end Ozz.Spec
