import Verif.Spec.Math
import Verif.Model.IK
import Mathlib.Analysis.SpecialFunctions.Trigonometric.Inverse

/-! Specifications for the IK jobs: ideal trigonometry, points and vectors under an affine matrix, rotations. -/

namespace Ozz.Spec

/-- Ideal sine, cosine and arc cosine. -/
noncomputable def idealTrig : IK.Trig ℝ where
  sinCos v := (fun l => Real.sin (v l), fun l => Real.cos (v l))
  acos v := fun l => Real.arccos (v l)

/-- Last row 0 0 0 1. -/
def AffineMat (m : Mat4 ℝ) : Prop := m 0 3 = 0 ∧ m 1 3 = 0 ∧ m 2 3 = 0 ∧ m 3 3 = 1

/-- Equal in the first three components. -/
def Same3 (a b : F4 ℝ) : Prop := a 0 = b 0 ∧ a 1 = b 1 ∧ a 2 = b 2

/-- Matrix `m` sends the point `p` to `x`. -/
def SendsPoint (m : Mat4 ℝ) (p x : F4 ℝ) : Prop := ∀ i : Fin 3,
  x i.castSucc = m 0 i.castSucc * p 0 + m 1 i.castSucc * p 1 + m 2 i.castSucc * p 2 + m 3 i.castSucc

/-- Matrix `m` sends the direction `v` to `x`. -/
def SendsVector (m : Mat4 ℝ) (v x : F4 ℝ) : Prop := ∀ i : Fin 3,
  x i.castSucc = m 0 i.castSucc * v 0 + m 1 i.castSucc * v 1 + m 2 i.castSucc * v 2

/-- The quaternion `q` turns the vector `v` into `x`. -/
def Turns (q v x : F4 ℝ) : Prop := pureQuat x = toQuat q * pureQuat v * (toQuat q)⁻¹

/-- Unit quaternion. -/
def UnitQuat (q : F4 ℝ) : Prop := Quaternion.normSq (toQuat q) = 1

/-- Squared distance of the first three components. -/
def dist2 (a b : F4 ℝ) : ℝ := (a 0 - b 0) ^ 2 + (a 1 - b 1) ^ 2 + (a 2 - b 2) ^ 2

/-- Cross product of the first three components. -/
def cross (a b : F4 ℝ) : F4 ℝ := f4 (a 1 * b 2 - a 2 * b 1) (a 2 * b 0 - a 0 * b 2) (a 0 * b 1 - a 1 * b 0) 0

/-- The quaternion that turns by the angle `φ` about `v`. -/
noncomputable def axisQuat (v : F4 ℝ) (φ : ℝ) : F4 ℝ :=
  f4 (v 0 / √(dot3 v v) * Real.sin (φ / 2)) (v 1 / √(dot3 v v) * Real.sin (φ / 2)) (v 2 / √(dot3 v v) * Real.sin (φ / 2)) (Real.cos (φ / 2))

/-- How far a chain of bones of total length `chain` reaches for a target at the distance `t`: fully up to the soft limit,
and then ever more slowly. -/
noncomputable def softDistance (chain soften t : ℝ) : ℝ :=
  let limit := chain * min (max soften 0) 1
  let room := chain - limit
  if limit < t ∧ 0 < room then chain - room * (3 / (3 + (t - limit) / room)) ^ 4 else t

/-- The distances two bones can span. -/
noncomputable def clampReach (a b t : ℝ) : ℝ := min (max t |a - b|) (a + b)

/-- The inputs of a two-bone job in its joints' spaces: the middle joint is a similarity of the start joint that scales squared
lengths by `k`; `μ` and `ε` are the start and the end joint in the space of the middle joint, both at a right angle to the
unit middle axis; `σ`, `η`, `τ` and `π` are middle joint, end joint, target and pole vector in the space of the start joint;
the bones and the target's distance are not zero; the pole vector is not parallel to the target. -/
structure Rig (j : IK.TwoBone ℝ) (k : ℝ) (μ ε σ η τ π : F4 ℝ) : Prop where
  affineS : AffineMat j.startJoint
  detS : (toMatrix j.startJoint).det ≠ 0
  affineM : AffineMat j.midJoint
  detM : (toMatrix j.midJoint).det ≠ 0
  similar : ∀ v w v' w' x y, SendsVector j.midJoint v x → SendsVector j.startJoint v' x → SendsVector j.midJoint w y →
    SendsVector j.startJoint w' y → dot3 v' w' = k * dot3 v w
  unit : dot3 j.midAxis j.midAxis = 1
  startM : SendsPoint j.midJoint μ (j.startJoint 3)
  endM : SendsPoint j.midJoint ε (j.endJoint 3)
  axisS : dot3 j.midAxis μ = 0
  axisE : dot3 j.midAxis ε = 0
  midS : SendsPoint j.startJoint σ (j.midJoint 3)
  endS : SendsPoint j.startJoint η (j.endJoint 3)
  targetS : SendsPoint j.startJoint τ j.target
  poleS : SendsVector j.startJoint π j.poleVector
  bone1 : 0 < dot3 σ σ
  bone2 : 0 < dist2 η σ
  apart : 0 < dot3 τ τ
  pole : dot3 τ π ^ 2 < dot3 τ τ * dot3 π π

/-- How far the end joint of a rig is to be from its start joint: softened, within what the bones can span. -/
noncomputable def reachDistance (σ η τ : F4 ℝ) (soften : ℝ) : ℝ :=
  clampReach √(dot3 σ σ) √(dist2 η σ) (softDistance (√(dot3 σ σ) + √(dist2 η σ)) soften √(dot3 τ τ))

end Ozz.Spec
