import Verif.Spec.Pipeline
import Verif.Spec.IK
import Verif.Spec.Tree
import Verif.Model.LocalToModelCode

/-! Specification of corrected poses: the joint is turned in its own space before its pose moves anything. -/

namespace Ozz.Spec

/-- The pose of a joint that first turns its own space by `c`. -/
noncomputable def JointPose.turn (p : JointPose) (c : Quaternion ℝ) : JointPose := { p with rotation := p.rotation * c }

/-- The same scale on all axes, which is not zero. -/
def JointPose.Uniform (p : JointPose) : Prop := ∃ c : ℝ, c ≠ 0 ∧ p.scale = (c, c, c)

/-- No scale is zero. -/
def JointPose.Regular (p : JointPose) : Prop := p.scale.1 ≠ 0 ∧ p.scale.2.1 ≠ 0 ∧ p.scale.2.2 ≠ 0

/-- A local-to-model job for the whole skeleton: the joints are in depth-first order, the buffers are long enough, the input
holds the poses `pose`, whose rotations are unit quaternions and whose scales are not zero; the root matrix is affine and
invertible. -/
structure Posed (l : LocalToModel.Job (SoaTransform ℝ) (Mat4 ℝ)) (buf : List (Mat4 ℝ)) (pose : Nat → JointPose) : Prop where
  order : DepthFirst l.parents
  valid : LocalToModel.validate l buf = true
  holds : ∀ i < l.parents.length, jointPose l.input i = some (pose i)
  unit : ∀ i < l.parents.length, Quaternion.normSq (pose i).rotation = 1
  regular : ∀ i < l.parents.length, (pose i).Regular
  affine : AffineMat l.root
  det : (toMatrix l.root).det ≠ 0
  from_ : l.from_ = -1
  excl : l.fromExcluded = false
  upto : (l.parents.length : Int) ≤ l.to + 1
  most : l.to < 2^31 - 1

end Ozz.Spec
