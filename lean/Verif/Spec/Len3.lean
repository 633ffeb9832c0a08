import Mathlib.Analysis.Real.Sqrt

/-! Lengths of vectors given by three numbers. -/

namespace Ozz.Spec

/-- Euclidean length. -/
noncomputable def len (a b c : ℝ) : ℝ := √(a ^ 2 + b ^ 2 + c ^ 2)

end Ozz.Spec
