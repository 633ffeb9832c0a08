import Verif.Model.Lanes

/-! What a buffer of SoA transforms holds: one pose of ten numbers for every joint. -/

namespace Ozz.Spec

open Lanes

/-- Two transforms are the same when all ten numbers are; the padding of the `Vec3A` does not count. -/
structure SameTransform {α : Type} (a b : Transform3A α) : Prop where
  translation : a.translation 0 = b.translation 0 ∧ a.translation 1 = b.translation 1 ∧ a.translation 2 = b.translation 2
  rotation : a.rotation 0 = b.rotation 0 ∧ a.rotation 1 = b.rotation 1 ∧ a.rotation 2 = b.rotation 2 ∧ a.rotation 3 = b.rotation 3
  scale : a.scale 0 = b.scale 0 ∧ a.scale 1 = b.scale 1 ∧ a.scale 2 = b.scale 2

/-- The pose last written for a joint, if any was. -/
def lastWrite {α : Type} (joint : Nat) (ws : List (Nat × Transform3A α)) : Option (Transform3A α) :=
  (ws.reverse.find? (fun w => w.1 == joint)).map (·.2)

/-- The identity matrix. -/
def eyeMat {α : Type} [NumOps α] : Mat4 α := fun c r => if c = r then NumOps.one else NumOps.zero

end Ozz.Spec
