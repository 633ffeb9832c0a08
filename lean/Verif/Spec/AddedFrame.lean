import Verif.Spec.Additive
import Verif.Spec.BlendedFrame

/-! Animations played together, with additive layers on top: the exact pose. -/

namespace Ozz.Spec

open Blending Ieee

/-- A pose of a joint as the additive layers see it, and back. -/
noncomputable def JointPose.parts (P : JointPose) : LanePose := ⟨P.t4, P.rotation, P.s4⟩
noncomputable def fromParts (p : LanePose) : JointPose :=
  ⟨⟨0, p.translation 0, p.translation 1, p.translation 2⟩, p.rotation, (p.scale 0, p.scale 1, p.scale 2)⟩

/-- The exact pose of joint `i` after the additive layers. -/
noncomputable def JointPose.withLayers (P : JointPose) (adds : List (Layer F32)) (i : Nat) : JointPose :=
  fromParts ((adds.map valLayer).foldl (addOne (i / 4) (laneOf i)) P.parts)

/-- A joint that does not move. -/
def still : LanePose := ⟨0, 1, fun _ => 1⟩

/-- Additive layers at joint `i`: weights between -1 and 1, nearly unit rotations, scales between 1/4 and 4 (`Additive32Ok`); the
translations of the first few add up to at most `N` in every coordinate, and the scales multiply to at most `g` and at
least 2^-20. -/
structure LayersOk (adds : List (Layer F32)) (i : Nat) (B N g : ℝ) : Prop where
  each : ∀ y ∈ adds, Additive32Ok y (i / 4) (laneOf i) B
  translation : ∀ m ≤ adds.length, ∀ c, |(((adds.take m).map valLayer).foldl (addOne (i / 4) (laneOf i)) still).translation c| ≤ N
  scale : ∀ m ≤ adds.length, ∀ c, c ≠ 3 →
    1 / 2 ^ 20 ≤ |(((adds.take m).map valLayer).foldl (addOne (i / 4) (laneOf i)) still).scale c| ∧
    |(((adds.take m).map valLayer).foldl (addOne (i / 4) (laneOf i)) still).scale c| ≤ g

/-- Relative error per joint on the way from the root with `k` additive layers. -/
noncomputable def addedError (m k : Nat) : ℝ := blendError m + (k + 1) / 2 ^ 13

end Ozz.Spec
