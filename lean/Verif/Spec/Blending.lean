import Verif.Model.Blending
import Verif.Spec.Math

/-!
Specification of pose blending for one joint, in exact arithmetic: every layer contributes a value with
a weight; translations and scales are averaged, rotations are summed up after changing the sign of those
in the other hemisphere, and the sum is made unit.
-/

namespace Ozz.Blending

/-- Weighted average of values given with their weights. -/
noncomputable def average (cs : List (ℝ × F4 ℝ)) : F4 ℝ :=
  (cs.map fun c => c.1).sum⁻¹ • (cs.map fun c => c.1 • c.2).sum

/-- Four-dimensional dot product. -/
def dot4 (a b : F4 ℝ) : ℝ := a 0 * b 0 + a 1 * b 1 + a 2 * b 2 + a 3 * b 3

/-- Adds a rotation, with its sign changed if it points away from what was added before. -/
noncomputable def addAligned (acc : F4 ℝ) (c : ℝ × F4 ℝ) : F4 ℝ :=
  acc + c.1 • (if dot4 acc c.2 < 0 then -c.2 else c.2)

/-- Sum of rotations, each aligned with the sum so far. -/
noncomputable def alignedSum (cs : List (ℝ × F4 ℝ)) : F4 ℝ := cs.foldl addAligned 0

/-- The unit quaternion in the direction of `q`. -/
noncomputable def unitOf (q : F4 ℝ) : F4 ℝ := (√(norm2 q))⁻¹ • q

/-- Weight of a layer for lane `l` of SoA joint `i`: none if the layer's weight is not positive;
negative joint weights count as zero; a layer without joint weights has weight one everywhere. -/
noncomputable def laneWeight (y : Layer ℝ) (i : Nat) (l : Fin 4) : ℝ :=
  if y.weight ≤ 0 then 0
  else y.weight * (match y.jointWeights with
    | [] => 1
    | _ => match y.jointWeights[i]? with
      | some w => max 0 (w l)
      | none => 0)

/-- Transform of a layer at SoA joint `i` (zero where there is none). -/
def poseOf (y : Layer ℝ) (i : Nat) : SoaTransform ℝ :=
  match y.transform with
  | .ok t => (t[i]?).getD ⟨⟨0, 0, 0⟩, ⟨0, 0, 0, 0⟩, ⟨0, 0, 0⟩⟩
  | .error _ => ⟨⟨0, 0, 0⟩, ⟨0, 0, 0, 0⟩, ⟨0, 0, 0⟩⟩

/-- Total weight of the layers. -/
noncomputable def totalWeight (ls : List (Layer ℝ)) (i : Nat) (l : Fin 4) : ℝ :=
  (ls.map fun y => laneWeight y i l).sum

/-- Weight and value of every layer, then of the rest pose, which fills up to the threshold; `f` selects
translation, rotation or scale. -/
noncomputable def contributions (threshold : ℝ) (ls : List (Layer ℝ)) (rest : SoaTransform ℝ) (i : Nat)
    (l : Fin 4) (f : SoaTransform ℝ → F4 ℝ) : List (ℝ × F4 ℝ) :=
  (ls.map fun y => (laneWeight y i l, f (poseOf y i))) ++ [(max 0 (threshold - totalWeight ls i l), f rest)]

end Ozz.Blending
