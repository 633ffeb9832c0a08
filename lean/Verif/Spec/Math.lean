import Verif.Spec.Exact
import Mathlib.LinearAlgebra.Matrix.Determinant.Basic
import Mathlib.Algebra.Quaternion

/-!
Specifications for math.rs, in terms of Mathlib's matrices and quaternions: how registers are read as
matrices, vectors and quaternions.
-/

namespace Ozz

/-- A column-major matrix. -/
def toMatrix (m : Mat4 ℝ) : Matrix (Fin 4) (Fin 4) ℝ := fun row col => m col row

/-- A quaternion stored as x, y, z, w. -/
def toQuat (q : F4 ℝ) : Quaternion ℝ := ⟨q 3, q 0, q 1, q 2⟩

/-- The pure quaternion of a vector. -/
def pureQuat (v : F4 ℝ) : Quaternion ℝ := ⟨0, v 0, v 1, v 2⟩

/-- One lane of a SoA quaternion. -/
def SoaQuat.lane {α : Type} (q : SoaQuat α) (l : Fin 4) : F4 α := f4 (q.x l) (q.y l) (q.z l) (q.w l)

/-- One lane of a SoA vector. -/
def SoaVec3.lane {α : Type} [NumOps α] (v : SoaVec3 α) (l : Fin 4) : F4 α := f4 (v.x l) (v.y l) (v.z l) NumOps.zero

/-- Squared norm of a quaternion register. -/
def norm2 (q : F4 ℝ) : ℝ := q 0 ^ 2 + q 1 ^ 2 + q 2 ^ 2 + q 3 ^ 2

/-- Dot product and squared length of the first three components. -/
def dot3 (a b : F4 ℝ) : ℝ := a 0 * b 0 + a 1 * b 1 + a 2 * b 2

end Ozz
