import Verif.Spec.FloatBlend
import Mathlib.Analysis.Quaternion

/-!
Specification of additive layers for one joint, in exact arithmetic: a layer with weight `w` moves the joint by `w` times its
translation, turns it by the part `w` of its rotation (along the shorter way) and scales it by the part `w` of its scale.
A negative weight takes that away.
-/

namespace Ozz.Blending

open Ieee Spec

/-- Translation, rotation and scale of one joint. -/
@[ext] structure LanePose where
  translation : F4 ℝ
  rotation : Quaternion ℝ
  scale : F4 ℝ

noncomputable def lanePose (t : SoaTransform ℝ) (l : Fin 4) : LanePose :=
  ⟨t.translation.lane l, toQuat (t.rotation.lane l), t.scale.lane l⟩

/-- Signed weight of an additive layer for lane `l` of SoA joint `i`: negative joint weights count as zero; a layer without
joint weights has weight one everywhere. -/
noncomputable def addWeight (y : Layer ℝ) (i : Nat) (l : Fin 4) : ℝ :=
  y.weight * (match y.jointWeights with
    | [] => 1
    | _ => match y.jointWeights[i]? with
      | some w => max 0 (w l)
      | none => 0)

/-- The rotation without turning. -/
def identityQ : F4 ℝ := f4 0 0 0 1

/-- The one of `q` and `-q` that is nearer to the identity. -/
noncomputable def shortWay (q : F4 ℝ) : F4 ℝ := if q 3 < 0 then -q else q

/-- Part `w` of the rotation `q`: the direction of the point at `w` between the identity and `q`. -/
noncomputable def partly (w : ℝ) (q : F4 ℝ) : Quaternion ℝ := toQuat (unitOf (identityQ + w • (shortWay q - identityQ)))

/-- One additive layer. -/
noncomputable def addOne (i : Nat) (l : Fin 4) (p : LanePose) (y : Layer ℝ) : LanePose :=
  let w := addWeight y i l
  let t := poseOf y i
  if 0 ≤ w then
    ⟨p.translation + w • t.translation.lane l, p.rotation * partly w (t.rotation.lane l),
      fun c => p.scale c * (1 + w * (t.scale.lane l c - 1))⟩
  else
    ⟨p.translation - (-w) • t.translation.lane l, p.rotation * star (partly (-w) (t.rotation.lane l)),
      fun c => p.scale c / (1 + (-w) * (t.scale.lane l c - 1))⟩

/-- An additive layer of floats at lane `l` of SoA joint `i`: finite weights, a weight between -1 and 1; if it has a weight, a
finite pose with coordinates of the translation up to `B`, a nearly unit rotation and scales between 1/4 and 4. -/
structure Additive32Ok (y : Layer F32) (i : Nat) (l : Fin 4) (B : ℝ) : Prop where
  weight : Finite32 y.weight.bits
  jointWeight : ∀ w, y.jointWeights[i]? = some w → Finite32 (w l).bits
  range : |addWeight (valLayer y) i l| ≤ 1
  pose : val y.weight ≠ 0 → ∃ ts t, y.transform = .ok ts ∧ ts[i]? = some t ∧ Pose32Ok t l 4 B ∧ ∀ c, c ≠ 3 → 1 / 4 ≤ val (t.scale.lane l c)

/-- The exact pose stays within bounds. -/
structure PoseWithin (B : ℝ) (p : LanePose) : Prop where
  translation : ∀ c, |p.translation c| ≤ B
  scale_ge : ∀ c, c ≠ 3 → 1 / 2 ^ 60 ≤ |p.scale c|
  scale_le : ∀ c, c ≠ 3 → |p.scale c| ≤ 2 ^ 60

/-- Lane `l` of a block of floats after `k` additive layers, near the exact pose. -/
structure NearPose (l : Fin 4) (B : ℝ) (k : Nat) (p : LanePose) (o : SoaTransform F32) : Prop where
  translationFinite : ∀ c, Finite32 (o.translation.lane l c).bits
  translation : ∀ c, |val (o.translation.lane l c) - p.translation c| ≤ 7 * k * B / 2 ^ 24
  rotationFinite : ∀ c, Finite32 (o.rotation.lane l c).bits
  rotation : ‖(lanePose (valTransform o) l).rotation - p.rotation‖ ≤ 100 * k / 2 ^ 24
  scaleFinite : ∀ c, Finite32 (o.scale.lane l c).bits
  scale : ∀ c, |val (o.scale.lane l c) - p.scale c| ≤ 70 * k * |p.scale c| / 2 ^ 24

end Ozz.Blending
