import Verif.Model.MotionBlending
import Verif.Spec.Exact

/-! Specification vocabulary for motion blending in exact arithmetic. -/

namespace Ozz.MotionBlending

/-- Euclidean length. -/
noncomputable def norm3 (v : V3 ℝ) : ℝ := √(v 0 ^ 2 + v 1 ^ 2 + v 2 ^ 2)

/-- The unit vector along `v`, or zero. -/
noncomputable def direction (v : V3 ℝ) : V3 ℝ := if v = 0 then 0 else (norm3 v)⁻¹ • v

/-- The layers that count. -/
noncomputable def positives (ls : List (Layer ℝ)) : List (Layer ℝ) := ls.filter fun y => decide (0 < y.weight)

/-- Sum of the weights that count. -/
noncomputable def weightSum (ls : List (Layer ℝ)) : ℝ := ((positives ls).map fun y => y.weight).sum

/-- Weighted sum of the translation directions. -/
noncomputable def directionSum (ls : List (Layer ℝ)) : V3 ℝ :=
  ((positives ls).map fun y => y.weight • direction y.delta.translation).sum

/-- Weighted average of the translation lengths. -/
noncomputable def averageLength (ls : List (Layer ℝ)) : ℝ :=
  ((positives ls).map fun y => y.weight * norm3 y.delta.translation).sum / weightSum ls

end Ozz.MotionBlending
