import Verif.Spec.FloatIK

/-! What a two-bone job in single precision needs to reach its target. -/

namespace Ozz.Spec
open Ieee IK

/-- The bend of a two-bone job. `μ` and `e` are the start and the end joint in the space of the middle joint; the middle axis
is at a right angle to both bones up to `ν`; the sine of the angle between the bones, seen along the axis, is at least `κ`. -/
structure BonesBend32 (j : IK.TwoBone F32) (μ e : F4 ℝ) (ν κ : ℝ) : Prop where
  startM : SendsPoint (valMat j.midJoint) μ (valVec (j.startJoint 3))
  endM : SendsPoint (valMat j.midJoint) e (valVec (j.endJoint 3))
  acrossStart : |dot3 (valVec j.midAxis) μ| ≤ ν * √(dot3 μ μ)
  acrossEnd : |dot3 (valVec j.midAxis) e| ≤ ν * √(dot3 e e)
  bent : κ * (√(dot3 μ μ) * √(dot3 e e)) ≤ |dot3 (valVec j.midAxis) (cross μ e)|
  bent_ge : 1 / 32 ≤ κ

end Ozz.Spec
