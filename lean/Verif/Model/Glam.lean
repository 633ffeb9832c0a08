import Verif.Model.MotionBlending

/-! Ways in which glam 0.29 computes lengths, dot products and unit quaternions, depending on the target. -/

namespace Ozz.MotionBlending

variable {α : Type} [Add α] [Sub α] [Mul α] [Div α] [Neg α] [NumOps α]

/-- SIMD dot product: first plus third, second plus fourth. -/
def dotPairs (a b : F4 α) : α := (a 0 * b 0 + a 2 * b 2) + (a 1 * b 1 + a 3 * b 3)

/-- The SIMD targets. -/
def inPairs : Glam α where
  length := length3
  dot := dotPairs
  normalize := fun q i => q i / NumOps.sqrt (dotPairs q q)

/-- The scalar target: multiplication by the reciprocal of the length. -/
def byReciprocal : Glam α where
  length := length3
  dot := dotV4
  normalize := fun q i => q i * (NumOps.one / NumOps.sqrt (dotV4 q q))

end Ozz.MotionBlending
