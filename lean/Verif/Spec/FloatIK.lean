import Verif.Spec.IK
import Verif.Spec.FloatModel

/-! What inverse kinematics asks of matrices of floats. -/

namespace Ozz.Spec
open Ieee IK

/-- The vector of the real numbers the floats stand for. -/
noncomputable def valVec (v : F4 F32) : F4 ℝ := fun i => val (v i)

/-- A finite affine matrix of floats whose columns are orthogonal and of length one up to `ε`, with a translation of at most
`T` in each coordinate: the model matrix of a joint without scale. -/
structure Rigid32 (m : Mat4 F32) (ε T : ℝ) : Prop where
  finite : ∀ c r, Finite32 (m c r).bits
  affine : AffineMat (valMat m)
  columns : ∀ i j, i ≠ 3 → j ≠ 3 → |dot3 (valMat m i) (valMat m j) - if i = j then 1 else 0| ≤ ε
  translation : ∀ r, r ≠ 3 → |val (m 3 r)| ≤ T

/-- Finite coordinates of at most this size. -/
def Within3 (v : F4 F32) (B : ℝ) : Prop := ∀ i, i ≠ 3 → Finite32 (v i).bits ∧ |val (v i)| ≤ B

/-- The inputs of an aim job in single precision. The joint has no scale; `τ` is the target in the space of the joint, at a
distance of at least `T / 2^8`; the forward axis has unit length up to `2^-20`; the offset is no longer than about four times
that distance; the angle of the twist is at most 4095. -/
structure AimInput32 (j : IK.Aim F32) (τ : F4 ℝ) (ε T : ℝ) : Prop where
  joint : Rigid32 j.joint ε T
  rigid : ε ≤ 1 / 1000
  size_ge : 1 ≤ T
  size_le : T ≤ 2 ^ 16
  target : Within3 j.target T
  up : Within3 j.up T
  pole : Within3 j.poleVector T
  forward : ∀ i, i ≠ 3 → Finite32 (j.forward i).bits
  unit : |dot3 (valVec j.forward) (valVec j.forward) - 1| ≤ 1 / 2 ^ 20
  offset : ∀ i, i ≠ 3 → Finite32 (j.offset i).bits
  near : dot3 (valVec j.offset) (valVec j.offset) ≤ 15 * dot3 τ τ
  far : (T / 2 ^ 8) ^ 2 ≤ dot3 τ τ
  twist : Finite32 j.twistAngle.bits ∧ |val j.twistAngle| ≤ 4095
  weight : Finite32 j.weight.bits
  space : SendsPoint (valMat j.joint) τ (valVec j.target)

/-- The inputs of a two-bone job in single precision. The start and the middle joint have no scale; `σ`, `η`, `τ` and `π` are
the middle joint, the end joint, the target and the pole vector in the space of the start joint; the bones and the distance
of the target are at least `T / 2^7`; the middle axis has unit length up to `2^-20`; the angle of the twist is at most 4095;
the pole vector is not almost parallel to the target; the target is not softened: either softening is off, or the target
is safely nearer than where it begins. -/
structure BonesInput32 (j : IK.TwoBone F32) (σ η τ π : F4 ℝ) (ε T P : ℝ) : Prop where
  start : Rigid32 j.startJoint ε T
  middle : Rigid32 j.midJoint ε T
  rigid : ε ≤ 1 / 1000
  size_ge : 1 ≤ T
  size_le : T ≤ 2 ^ 16
  tip : Within3 (j.endJoint 3) T
  target : Within3 j.target T
  pole : Within3 j.poleVector P
  pole_ge : 1 / 2 ^ 10 ≤ P
  pole_le : P ≤ 2 ^ 16
  axis : ∀ i, i ≠ 3 → Finite32 (j.midAxis i).bits
  unit : |dot3 (valVec j.midAxis) (valVec j.midAxis) - 1| ≤ 1 / 2 ^ 20
  twist : Finite32 j.twistAngle.bits ∧ |val j.twistAngle| ≤ 4095
  weight : Finite32 j.weight.bits ∧ 0 < val j.weight
  softenFinite : Finite32 j.soften.bits
  unsoftened : 1 ≤ val j.soften ∨ √(dot3 τ τ) + T / 2 ^ 11 ≤ (√(dot3 σ σ) + √(dist2 η σ)) * val j.soften
  midS : SendsPoint (valMat j.startJoint) σ (valVec (j.midJoint 3))
  endS : SendsPoint (valMat j.startJoint) η (valVec (j.endJoint 3))
  targetS : SendsPoint (valMat j.startJoint) τ (valVec j.target)
  poleS : SendsVector (valMat j.startJoint) π (valVec j.poleVector)
  bone1 : (T / 2 ^ 7) ^ 2 ≤ dot3 σ σ
  bone2 : (T / 2 ^ 7) ^ 2 ≤ dist2 η σ
  far : (T / 2 ^ 7) ^ 2 ≤ dot3 τ τ
  apart : (P / 16) ^ 2 * dot3 τ τ ≤ dot3 (cross τ π) (cross τ π)

end Ozz.Spec
