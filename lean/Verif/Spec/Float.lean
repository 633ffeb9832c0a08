import Mathlib.Algebra.Order.Field.Basic
import Mathlib.Data.Rat.Floor

/-!
IEEE-754 binary interchange formats, from the standard: a number with `eb` exponent bits and `mb`
mantissa bits. Used to state what conversions and comparisons mean; independent of the model.
-/

namespace Ozz.Ieee

/-- Sign field. -/
def sign (eb mb bits : Nat) : Nat := bits / 2 ^ (eb + mb) % 2
/-- Biased exponent field. -/
def expo (eb mb bits : Nat) : Nat := bits / 2 ^ mb % 2 ^ eb
/-- Mantissa field. -/
def mant (mb bits : Nat) : Nat := bits % 2 ^ mb

def IsNaN (eb mb bits : Nat) : Prop := expo eb mb bits = 2 ^ eb - 1 ∧ mant mb bits ≠ 0
def IsInf (eb mb bits : Nat) : Prop := expo eb mb bits = 2 ^ eb - 1 ∧ mant mb bits = 0
def IsFinite (eb mb bits : Nat) : Prop := expo eb mb bits < 2 ^ eb - 1

instance (eb mb bits : Nat) : Decidable (IsNaN eb mb bits) := by unfold IsNaN; infer_instance
instance (eb mb bits : Nat) : Decidable (IsInf eb mb bits) := by unfold IsInf; infer_instance
instance (eb mb bits : Nat) : Decidable (IsFinite eb mb bits) := by unfold IsFinite; infer_instance

/-- Exponent bias. -/
def bias (eb : Nat) : Int := 2 ^ (eb - 1) - 1

/-- The number denoted by a finite bit pattern. -/
def value (eb mb bits : Nat) : ℚ :=
  (-1) ^ sign eb mb bits *
    if expo eb mb bits = 0 then (mant mb bits : ℚ) / 2 ^ mb * (2 : ℚ) ^ (1 - bias eb)
    else (1 + (mant mb bits : ℚ) / 2 ^ mb) * (2 : ℚ) ^ ((expo eb mb bits : Int) - bias eb)

/-- Abbreviations for single precision (8, 23) and half precision (5, 10). -/
abbrev value32 (b : BitVec 32) : ℚ := value 8 23 b.toNat
abbrev value16 (b : BitVec 16) : ℚ := value 5 10 b.toNat

end Ozz.Ieee
