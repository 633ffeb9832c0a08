import Verif.Model.Math
import Verif.Model.Basic

/-!
Applying the corrections of the IK jobs to a pose, /repo/tests/two_bone_ik.rs:97-109 and the documentation of the corrections
(/repo/src/ik_two_bone_job.rs, /repo/src/ik_aim_job.rs: "It needs to be multiplied with joint local-space quaternion").
-/

namespace Ozz

variable {α : Type}

/-- `SoaQuat::quat`, math.rs:290-293. -/
def SoaQuat.quat (q : SoaQuat α) (l : Fin 4) : F4 α := f4 (q.x l) (q.y l) (q.z l) (q.w l)

/-- `SoaQuat::set_quat`, math.rs:295-301. -/
def SoaQuat.setQuat (q : SoaQuat α) (l : Fin 4) (v : F4 α) : SoaQuat α where
  x := fun i => if i = l then v 0 else q.x i
  y := fun i => if i = l then v 1 else q.y i
  z := fun i => if i = l then v 2 else q.z i
  w := fun i => if i = l then v 3 else q.w i

/-- `let quat = locals[idx / 4].rotation.quat(idx & 3) * correction; locals[idx / 4].rotation.set_quat(idx & 3, quat)`,
tests/two_bone_ik.rs:101-103. `qmul` is glam's product of quaternions. -/
def applyCorrection (qmul : F4 α → F4 α → F4 α) (locals : List (SoaTransform α)) (idx : Nat) (correction : F4 α) :
    Res (List (SoaTransform α)) := do
  let t ← getIdx locals (idx / 4)
  let l : Fin 4 := ⟨idx % 4, Nat.mod_lt _ (by decide)⟩
  setIdx locals (idx / 4) { t with rotation := t.rotation.setQuat l (qmul (t.rotation.quat l) correction) }

end Ozz
