import Verif.Model.Math

/-!
/repo/src/motion_blending_job.rs over any number type. `Vec3A`, `Vec4`, `Quat` and `Transform3A` come from
glam and glam_ext: componentwise sums and products. Lengths, dot products and `normalize` are parameters (`Glam`), as glam
computes them differently on different targets; `inOrder` adds products up from the first component, takes the square root for
the length and divides by it to normalize.
-/

namespace Ozz.MotionBlending

/-- The three components of a `Vec3A`. -/
abbrev V3 (α : Type) := Fin 3 → α

def v3 {α : Type} (x y z : α) : V3 α
  | 0 => x | 1 => y | 2 => z

/-- `Transform3A` of glam_ext. -/
structure Transform (α : Type) where
  translation : V3 α
  rotation : F4 α
  scale : V3 α

/-- `MotionBlendingLayer`, motion_blending_job.rs:11-23. -/
structure Layer (α : Type) where
  weight : α
  delta : Transform α

variable {α : Type} [Add α] [Sub α] [Mul α] [Div α] [Neg α] [NumOps α]

/-- `Vec3A::length`. -/
def length3 (v : V3 α) : α := NumOps.sqrt (v 0 * v 0 + v 1 * v 1 + v 2 * v 2)

/-- `Vec4::dot`. -/
def dotV4 (a b : F4 α) : α := a 0 * b 0 + a 1 * b 1 + a 2 * b 2 + a 3 * b 3

/-- The four accumulators, motion_blending_job.rs:85-88. -/
structure Acc (α : Type) where
  weight : α
  dl : α
  dt : V3 α
  dr : F4 α

def Acc.zero : Acc α := ⟨NumOps.zero, NumOps.zero, fun _ => NumOps.zero, fun _ => NumOps.zero⟩

/-- `f32::copysign` with ±1 as the sign. -/
def withSign (weight : α) (positive : Bool) : α := if positive then NumOps.abs weight else -(NumOps.abs weight)

/-- What glam computes: `Vec3A::length`, `Vec4::dot` (also for `length_squared`), `Quat::normalize`. -/
structure Glam (α : Type) where
  length : V3 α → α
  dot : F4 α → F4 α → α
  normalize : F4 α → F4 α

/-- Sums from the first component, division by the length. -/
def inOrder : Glam α where
  length := length3
  dot := dotV4
  normalize := fun q i => q i / NumOps.sqrt (dotV4 q q)

/-- The loop body, motion_blending_job.rs:91-110. -/
def accumulateWith (g : Glam α) (s : Acc α) (layer : Layer α) : Acc α :=
  let weight := layer.weight
  if NumOps.le weight NumOps.zero then s
  else
    let len := g.length layer.delta.translation
    let denom := if NumOps.eq len NumOps.zero then NumOps.zero else weight / len
    let rot := layer.delta.rotation
    let dot := g.dot s.dr rot
    let signed := withSign weight (NumOps.le NumOps.zero dot)
    { weight := s.weight + weight
      dl := s.dl + len * weight
      dt := fun i => s.dt i + layer.delta.translation i * denom
      dr := fun i => s.dr i + rot i * signed }

/-- `Quat::IDENTITY`. -/
def identityQuat : F4 α := f4 NumOps.zero NumOps.zero NumOps.zero NumOps.one

/-- The end of `run`, motion_blending_job.rs:112-124. -/
def finishWith (g : Glam α) (s : Acc α) : Transform α :=
  let denom := g.length s.dt * s.weight
  let norm := if NumOps.eq denom NumOps.zero then NumOps.zero else s.dl / denom
  { translation := fun i => s.dt i * norm
    rotation := if NumOps.eq (g.dot s.dr s.dr) NumOps.zero then identityQuat else g.normalize s.dr
    scale := fun _ => NumOps.one }

/-- `run`, motion_blending_job.rs:82-126: the output after the run, which always succeeds. -/
def runWith (g : Glam α) (layers : List (Layer α)) : Transform α := finishWith g (layers.foldl (accumulateWith g) Acc.zero)

def accumulate : Acc α → Layer α → Acc α := accumulateWith inOrder
def finish : Acc α → Transform α := finishWith inOrder

/-- With sums from the first component. -/
def run (layers : List (Layer α)) : Transform α := finish (layers.foldl accumulate Acc.zero)

end Ozz.MotionBlending
