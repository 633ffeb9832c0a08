import Verif.Spec.Frame
import Verif.Spec.FloatBlend
import Verif.Model.SamplingCode
import Verif.Props.Sampling

/-! Animations played together: the exact blend of their exact poses. -/

namespace Ozz.Spec

open Sampling Ieee Keys Blending

/-- An animation that is played: where it is, at which ratio, through which context and into which buffer it is sampled, and
with which weights it enters the blend. -/
structure Play where
  addr : Nat
  animation : Animation F32 Float3Key QuatKey
  ratio : F32
  context : Sampling.Context F32 (SoaVec3 F32) (SoaQuat F32)
  buffer : List (SoaTransform F32)
  weight : F32
  jointWeights : List (F4 F32)

/-- The lane of joint `i` in its block. -/
def laneOf (i : Nat) : Fin 4 := ⟨i % 4, Nat.mod_lt _ (by decide)⟩

/-- The layer of the blending job. -/
def Play.layer (p : Play) (pose : List (SoaTransform F32)) : Layer F32 := ⟨.ok pose, p.weight, p.jointWeights⟩

/-- The weight of a play for joint `i`: negative weights count as zero, missing joint weights as one. -/
noncomputable def Play.jointWeight (p : Play) (i : Nat) : ℝ :=
  max 0 (val p.weight) * (match p.jointWeights[i / 4]? with
    | some w => max 0 (val (w (laneOf i)))
    | none => 1)

/-- The parts of a pose as registers. -/
noncomputable def JointPose.t4 (P : JointPose) : F4 ℝ := f4 P.translation.imI P.translation.imJ P.translation.imK 0
noncomputable def JointPose.r4 (P : JointPose) : F4 ℝ := f4 P.rotation.imI P.rotation.imJ P.rotation.imK P.rotation.re
noncomputable def JointPose.s4 (P : JointPose) : F4 ℝ := f4 P.scale.1 P.scale.2.1 P.scale.2.2 0

/-- `B` is the blend of the poses with their weights: averages of translations and scales, the unit quaternion along the sum
of the rotations, each negated if it points away from the sum before it (where the dot product is at most `δ`, either will
do). -/
structure ExactBlend (δ : ℝ) (cs : List (ℝ × JointPose)) (B : JointPose) : Prop where
  translation : B.translation.re = 0 ∧ B.t4 = average (cs.map fun c => (c.1, c.2.t4))
  rotation : ∃ R, AlignedUpTo δ 0 (cs.map fun c => (c.1, c.2.r4)) R ∧ B.r4 = unitOf R
  scale : B.s4 = average (cs.map fun c => (c.1, c.2.s4))

/-- What is blended at joint `i`: the poses of the plays, and the rest pose with the weight that is missing to the threshold. -/
noncomputable def blendParts (thr : ℝ) (plays : List Play) (exact : Play → Nat → JointPose) (rest : JointPose) (i : Nat) :
    List (ℝ × JointPose) :=
  (plays.map fun p => (p.jointWeight i, exact p i)) ++ [(max 0 (thr - (plays.map fun p => p.jointWeight i).sum), rest)]

/-- A play that can be sampled and blended: the animation is stored at its address, the context has been used with stored
animations only, buffers and joint weights are long enough for `joints` joints, and the weights are finite. -/
structure PlayOk (anims : Nat → Option (Animation F32 Float3Key QuatKey)) (n joints : Nat) (M s : ℝ) (p : Play) : Prop where
  stored : anims p.addr = some p.animation
  reached : Props.Reached codeNumerics F32.zero F32.one anims n p.context
  animation : Animation32Ok p.animation M s
  blocks : (p.animation.numTracks + 3) / 4 = (n + 3) / 4
  enough : joints ≤ p.animation.numTracks
  ratio : Unit01 p.ratio
  buffer : (n + 3) / 4 ≤ p.buffer.length
  weight : Finite32 p.weight.bits
  jointWeights : p.jointWeights = [] ∨ (joints + 3) / 4 ≤ p.jointWeights.length
  jointWeightsFinite : ∀ w ∈ p.jointWeights, ∀ l, Finite32 (w l).bits

/-- Relative error per joint on the way from the root for `m - 1` layers: sampling, blending and multiplying matrices. -/
noncomputable def blendError (m : Nat) : ℝ := √(2 * m) * (m + 16) / 2 ^ 17

end Ozz.Spec
