import Verif.Model.Math
import Mathlib.Analysis.Real.Sqrt

/-! Exact arithmetic: the model's number operations read over the real numbers. -/

namespace Ozz

noncomputable instance : NumOps ℝ where
  zero := 0
  one := 1
  two := 2
  half := 1 / 2
  lit := fun n d => n / d
  sqrt := Real.sqrt
  abs := fun x => |x|
  max := max
  min := min
  lt := fun x y => decide (x < y)
  le := fun x y => decide (x ≤ y)
  eq := fun x y => decide (x = y)

end Ozz
