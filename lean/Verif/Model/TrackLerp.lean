import Verif.Model.TrackCode
import Verif.Model.Glam

/-!
`TrackValue::lerp` of the vector and quaternion tracks, /repo/src/track.rs:44-110. It is glam's: on vectors componentwise, by
one of the two formulas used over glam's versions; on quaternions the end is negated if the dot product is negative, the
components are mixed, and the result is normalized (`Quat::lerp`).
-/

namespace Ozz.TrackSampling

open MotionBlending (Glam)

variable {α : Type} [Add α] [Sub α] [Mul α] [Neg α] [Zero α] [One α]

/-- `a + (b - a) * t` -/
def mixDiff (a b t : α) : α := a + (b - a) * t

/-- `a * (1 - t) + b * t` -/
def mixSum (a b t : α) : α := a * (1 - t) + b * t

/-- `Vec2`, `Vec3`, `Vec4`, track.rs:44-93. -/
def vecOps (mix : α → α → α → α) (d : Nat) : ValueOps α (Fin d → α) where
  default := fun _ => 0
  lerp a b t := fun c => mix (a c) (b c) t

/-- `Quat`, track.rs:95-110. `flip` is the test for a negative dot product. -/
def quatOps (g : Glam α) (flip : α → Bool) (mix : α → α → α → α) : ValueOps α (F4 α) where
  default := f4 0 0 0 1
  lerp a b t := g.normalize fun c => mix (a c) (if flip (g.dot a b) then -(b c) else b c) t

end Ozz.TrackSampling
