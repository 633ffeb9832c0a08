import Verif.Spec.Float
import Mathlib.Data.EReal.Basic

/-!
Arithmetic of IEEE-754 single precision, from the standard: what it means for a bit pattern to be a
real number rounded to nearest, ties to even (section 4.3.1), and the order of the numbers with their
infinities (5.11). Independent of the model.
-/

namespace Ozz.Ieee

/-- The real number denoted by a finite pattern. -/
noncomputable def real (b : BitVec 32) : ℝ := ((value32 b : ℚ) : ℝ)

abbrev Finite32 (b : BitVec 32) : Prop := IsFinite 8 23 b.toNat
abbrev Inf32 (b : BitVec 32) : Prop := IsInf 8 23 b.toNat
abbrev NaN32 (b : BitVec 32) : Prop := IsNaN 8 23 b.toNat

/-- The sign bit is set. -/
abbrev Minus (b : BitVec 32) : Prop := sign 8 23 b.toNat = 1

/-- Half a unit in the last place above the greatest finite number: from here on results overflow. -/
noncomputable def overflowAt : ℝ := 2 ^ 128 - 2 ^ 103

/-- `z` is the number `r` rounded to nearest, ties to even; `neg` tells whether an exact zero is -0. -/
structure RoundsTo (r : ℝ) (neg : Prop) (z : BitVec 32) : Prop where
  sign : Minus z ↔ r < 0 ∨ r = 0 ∧ neg
  number : ¬ NaN32 z
  overflow : Inf32 z ↔ overflowAt ≤ |r|
  nearest : Finite32 z → ∀ w, Finite32 w → |real z - r| ≤ |real w - r|
  even : Finite32 z → ∀ w, Finite32 w → real w ≠ real z → |real w - r| = |real z - r| → z.toNat % 2 = 0

open Classical in
/-- The extended number denoted by a pattern that is not a NaN. -/
noncomputable def ext (b : BitVec 32) : EReal :=
  if Inf32 b then (if Minus b then ⊥ else ⊤) else (real b : EReal)

end Ozz.Ieee
