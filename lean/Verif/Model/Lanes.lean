import Verif.Model.Math
import Verif.Model.Basic
import Verif.Model.LocalToModelCode

/-!
Access to single lanes of SoA vectors, quaternions and transforms, /repo/src/math.rs:50-103, 250-301, 510-552. A `Vec3A` is a register
of four lanes; its last lane is padding that no operation of `Vec3A` shows.
-/

namespace Ozz.Lanes

variable {α : Type}

/-- Indexing a register with `v[idx]`: panics unless `idx < 4`. -/
def get4 (v : F4 α) (idx : Nat) : Res α := if h : idx < 4 then .ok (v ⟨idx, h⟩) else .error .panic

/-- `v[idx] = x`. -/
def set4 (v : F4 α) (idx : Nat) (x : α) : Res (F4 α) :=
  if idx < 4 then .ok (fun i => if i.val = idx then x else v i) else .error .panic

/-- `glam::Vec3` -/
structure Vec3 (α : Type) where
  x : α
  y : α
  z : α

/-- `glam_ext::Transform3A`, imported in math.rs:10: a `Vec3A`, a `Quat` and a `Vec3A`. -/
structure Transform3A (α : Type) where
  translation : F4 α
  rotation : F4 α
  scale : F4 α

/-- `Vec3A::into::<Vec3>()`: drops the padding. -/
def toVec3 (v : F4 α) : Vec3 α := ⟨v 0, v 1, v 2⟩

/-- `Vec3::into::<Vec3A>()`: what ends up in the padding is glam's business. -/
def toVec3A (pad : Vec3 α → α) (v : Vec3 α) : F4 α := f4 v.x v.y v.z (pad v)

/-- `SoaVec3::new`, math.rs:70-76. -/
def vec3New (x y z : F4 α) : SoaVec3 α := ⟨x, y, z⟩

/-- `SoaVec3::splat_vec3`, math.rs:85-91. -/
def splatVec3 (v : Vec3 α) : SoaVec3 α := ⟨f4 v.x v.x v.x v.x, f4 v.y v.y v.y v.y, f4 v.z v.z v.z v.z⟩

/-- `SoaVec3::vec3`, math.rs:94-96. -/
def vec3 (s : SoaVec3 α) (idx : Nat) : Res (Vec3 α) := do
  return ⟨← get4 s.x idx, ← get4 s.y idx, ← get4 s.z idx⟩

/-- `SoaVec3::set_vec3`, math.rs:99-103. -/
def setVec3 (s : SoaVec3 α) (idx : Nat) (v : Vec3 α) : Res (SoaVec3 α) := do
  let x ← set4 s.x idx v.x
  let y ← set4 s.y idx v.y
  let z ← set4 s.z idx v.z
  return ⟨x, y, z⟩

/-- `SoaQuat::splat_quat`, math.rs:280-288. -/
def splatQuat (q : F4 α) : SoaQuat α :=
  ⟨f4 (q 0) (q 0) (q 0) (q 0), f4 (q 1) (q 1) (q 1) (q 1), f4 (q 2) (q 2) (q 2) (q 2), f4 (q 3) (q 3) (q 3) (q 3)⟩

/-- `SoaQuat::quat`, math.rs:291-293. -/
def quat (s : SoaQuat α) (idx : Nat) : Res (F4 α) := do
  return f4 (← get4 s.x idx) (← get4 s.y idx) (← get4 s.z idx) (← get4 s.w idx)

/-- `SoaQuat::set_quat`, math.rs:296-301. -/
def setQuat (s : SoaQuat α) (idx : Nat) (q : F4 α) : Res (SoaQuat α) := do
  let x ← set4 s.x idx (q 0)
  let y ← set4 s.y idx (q 1)
  let z ← set4 s.z idx (q 2)
  let w ← set4 s.w idx (q 3)
  return ⟨x, y, z, w⟩

/-- `SoaTransform::splat_transform`, math.rs:527-535. -/
def splatTransform (t : Transform3A α) : SoaTransform α :=
  ⟨splatVec3 ⟨t.translation 0, t.translation 1, t.translation 2⟩, splatQuat t.rotation, splatVec3 ⟨t.scale 0, t.scale 1, t.scale 2⟩⟩

/-- `SoaTransform::transform`, math.rs:538-544. -/
def transform (pad : Vec3 α → α) (s : SoaTransform α) (idx : Nat) : Res (Transform3A α) := do
  return ⟨toVec3A pad (← vec3 s.translation idx), ← quat s.rotation idx, toVec3A pad (← vec3 s.scale idx)⟩

/-- `SoaTransform::set_transform`, math.rs:547-551. -/
def setTransform (s : SoaTransform α) (idx : Nat) (t : Transform3A α) : Res (SoaTransform α) := do
  let translation ← setVec3 s.translation idx (toVec3 t.translation)
  let rotation ← setQuat s.rotation idx t.rotation
  let scale ← setVec3 s.scale idx (toVec3 t.scale)
  return ⟨translation, rotation, scale⟩

/-- `SoaTransform::IDENTITY`, math.rs:512. -/
def identity [NumOps α] : SoaTransform α :=
  ⟨vec3New zero4 zero4 zero4, splatQuat (f4 NumOps.zero NumOps.zero NumOps.zero NumOps.one), vec3New one4 one4 one4⟩

/-- `buf[joint / 4].set_transform(joint % 4, t)`: how a program stores the pose of one joint in a buffer of local poses. -/
def setJoint (buf : List (SoaTransform α)) (joint : Nat) (t : Transform3A α) : Res (List (SoaTransform α)) := do
  let s ← getIdx buf (joint / 4)
  let s ← setTransform s (joint % 4) t
  setIdx buf (joint / 4) s

/-- `buf[joint / 4].transform(joint % 4)`. -/
def getJoint (pad : Vec3 α → α) (buf : List (SoaTransform α)) (joint : Nat) : Res (Transform3A α) := do
  let s ← getIdx buf (joint / 4)
  transform pad s (joint % 4)

/-- Storing poses one after the other. -/
def setJoints (buf : List (SoaTransform α)) : List (Nat × Transform3A α) → Res (List (SoaTransform α))
  | [] => .ok buf
  | w :: ws => do
    let buf ← setJoint buf w.1 w.2
    setJoints buf ws

end Ozz.Lanes
