import Verif.Model.Math
import Verif.Spec.Math

/-!
What a pose means: every joint scales, turns and shifts the space of its children. Written with Mathlib's quaternions,
without matrices.
-/

namespace Ozz.Spec

/-- What the pose says about joint `i`: lane `i % 4` of block `i / 4`. -/
structure JointPose where
  translation : Quaternion ℝ
  rotation : Quaternion ℝ
  scale : ℝ × ℝ × ℝ

noncomputable def jointPose (input : List (SoaTransform ℝ)) (i : Nat) : Option JointPose :=
  input[i / 4]?.map fun t =>
    let l : Fin 4 := ⟨i % 4, Nat.mod_lt _ (by decide)⟩
    { translation := ⟨0, t.translation.x l, t.translation.y l, t.translation.z l⟩
      rotation := ⟨t.rotation.w l, t.rotation.x l, t.rotation.y l, t.rotation.z l⟩
      scale := (t.scale.x l, t.scale.y l, t.scale.z l) }

/-- Where a joint takes a point given in its own space: scale, turn, shift. Points are pure quaternions. -/
noncomputable def JointPose.move (j : JointPose) (v : Quaternion ℝ) : Quaternion ℝ :=
  j.rotation * ⟨0, j.scale.1 * v.imI, j.scale.2.1 * v.imJ, j.scale.2.2 * v.imK⟩ * j.rotation⁻¹ + j.translation

/-- Where the joints of a path, the last one first, take a point. -/
noncomputable def moveAlong (pose : Nat → JointPose) (path : List Nat) (v : Quaternion ℝ) : Quaternion ℝ :=
  path.foldr (fun k v => (pose k).move v) v

end Ozz.Spec
