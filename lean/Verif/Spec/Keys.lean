import Verif.Model.Keys
import Verif.Spec.Float
import Mathlib.Analysis.Real.Sqrt

/-!
Specifications for compressed keys: exact arithmetic for the quaternion decompression, quantisation
of unit quaternions, and what `f32::min`/`f32::max` may return.
-/

namespace Ozz.Keys

open Ozz

/-- Exact arithmetic. -/
noncomputable instance exactOps : KeyOps ℝ where
  zero := 0
  one := 1
  scale := √2 / 32767
  offset := -√2 / 2
  ofU32 := fun v => (v.toNat : ℝ)
  max := max
  sqrt := Real.sqrt

/-- The value a stored 15-bit component stands for: 0 .. 32767 onto -√2/2 .. √2/2. -/
noncomputable def dequantised (v : Nat) : ℝ := √2 * (v / 32767 - 1 / 2)

/-- Half a quantisation step. -/
noncomputable def halfStep : ℝ := √2 / 32767 / 2

/-- `k` is the smallest-three encoding of the quaternion `q` (x, y, z, w): a component of largest
magnitude is dropped, its sign is kept and the others are rounded to the nearest of the 32768
levels. -/
structure Encodes (u : Unpacked) (q : Fin 4 → ℝ) : Prop where
  largest : ∀ i, |q i| ≤ |q u.largest|
  sign : u.sign = if q u.largest < 0 then 1#16 else 0#16
  rounded : ∀ j : Fin 3, |dequantised (u.value j).toNat - q (u.largest.succAbove j)| ≤ halfStep

/-- What the Rust documentation promises of `f32::min`: a NaN argument is ignored, otherwise one of
the arguments that is not above either of them (which zero is returned for zeros of different signs is
left open). -/
structure IsMin (f : F32 → F32 → F32) : Prop where
  left_nan : ∀ x y, x.isNaN = true → y.isNaN = false → f x y = y
  right_nan : ∀ x y, x.isNaN = false → y.isNaN = true → f x y = x
  mem : ∀ x y, x.isNaN = false → y.isNaN = false → f x y = x ∨ f x y = y
  le : ∀ x y, x.isNaN = false → y.isNaN = false → F32.le (f x y) x = true ∧ F32.le (f x y) y = true

/-- The same for `f32::max`. -/
structure IsMax (f : F32 → F32 → F32) : Prop where
  left_nan : ∀ x y, x.isNaN = true → y.isNaN = false → f x y = y
  right_nan : ∀ x y, x.isNaN = false → y.isNaN = true → f x y = x
  mem : ∀ x y, x.isNaN = false → y.isNaN = false → f x y = x ∨ f x y = y
  le : ∀ x y, x.isNaN = false → y.isNaN = false → F32.le x (f x y) = true ∧ F32.le y (f x y) = true

end Ozz.Keys
