import Verif.Model.Math

/-!
/repo/src/ik_aim_job.rs and /repo/src/ik_two_bone_job.rs over any number type. The sine, cosine and
arc cosine are parameters here (`Trig`); `Model/Trig` has the code's polynomials.
-/

namespace Ozz.IK

/-- `fx4_sin_cos` and `fx4_acos`, math.rs:1090-1228. -/
structure Trig (α : Type) where
  sinCos : F4 α → F4 α × F4 α
  acos : F4 α → F4 α

variable {α : Type} [Add α] [Sub α] [Mul α] [Div α] [Neg α] [NumOps α]

/-- `THREE`, `NEG_ONE`, math.rs:25-26. -/
def three4 : F4 α := splat (NumOps.lit 3 1)
def negOne4 : F4 α := splat (-NumOps.one)

/-- `fx4_clamp_or_min`, math.rs:1073-1077. -/
def clampOrMin4 (v lo hi : F4 α) : F4 α := min4 (max4 v lo) hi

/-- `simd_clamp`: a NaN stays. -/
def clamp4 (v lo hi : F4 α) : F4 α := fun l =>
  let x := if NumOps.lt (v l) (lo l) then lo l else v l
  if NumOps.lt (hi l) x then hi l else x

def abs4 (v : F4 α) : F4 α := fun l => NumOps.abs (v l)

/-! ### Aim -/

/-- `IKAimJob`, ik_aim_job.rs:27-39. -/
structure Aim (α : Type) where
  target : F4 α
  forward : F4 α
  offset : F4 α
  up : F4 α
  poleVector : F4 α
  twistAngle : α
  weight : α
  joint : Mat4 α
  correction : F4 α
  reached : Bool

/-- `compute_offsetted_forward`, ik_aim_job.rs:295-305. -/
def offsettedForward (forward offset target : F4 α) : Option (F4 α) :=
  let aoL := vec3DotS forward offset
  let acL2 := vec3Length2S offset - aoL * aoL
  let r2 := vec3Length2S target
  if NumOps.lt (r2 0) (acL2 0) then none
  else
    let aiL := sqrt4 (r2 - acL2)
    some (offset + forward * Mat4.splatX (aiL - aoL))

/-- `denoms.simd_ne(ZERO).to_bitmask() & 0x7 == 0x7`, ik_aim_job.rs:261. -/
def allNonZero (d : F4 α) : Bool :=
  !NumOps.eq (d 0) NumOps.zero && !NumOps.eq (d 1) NumOps.zero && !NumOps.eq (d 2) NumOps.zero

/-- ik_aim_job.rs:247-279: the axis and the rotation that brings up towards the pole vector. -/
def Aim.rotatePlane (j : Aim α) (invJoint : Mat4 α) (toTarget toTargetRot : F4 α) : F4 α × F4 α :=
  let correctedUp := quatTransformVector toTargetRot j.up
  let poleVector := invJoint.transformVector j.poleVector
  let refNormal := vec3Cross poleVector toTarget
  let normal := vec3Cross correctedUp toTarget
  let denoms := setZ (setY (vec3Length2S toTarget) (vec3Length2S normal)) (vec3Length2S refNormal)
  let rsqrts := recip4 (sqrt4 denoms)
  let axis := toTarget * Mat4.splatX rsqrts
  if allNonZero denoms then
    let cosAngle := vec3DotS (normal * swz rsqrts 1 1 1 1) (refNormal * swz rsqrts 2 2 2 2)
    let axisFlip := sign4 (Mat4.splatX (vec3DotS refNormal correctedUp))
    (axis, quatFromCosAngle (xor4 axis axisFlip) (clamp4 cosAngle negOne4 one4))
  else (axis, quatUnit)

/-- ik_aim_job.rs:281-286. -/
def Aim.twisted (t : Trig α) (j : Aim α) (axis plane toTargetRot : F4 α) : F4 α :=
  if NumOps.eq j.twistAngle NumOps.zero then quatMul plane toTargetRot
  else quatMul (quatMul (quatFromAxisAngle t.sinCos axis (splat j.twistAngle)) plane) toTargetRot

/-- ik_aim_job.rs:288-294. -/
def Aim.weighted (j : Aim α) (q : F4 α) : F4 α :=
  let q := quatPositiveW q
  if NumOps.lt j.weight NumOps.one then quatNormalize (lerp4 quatUnit q (max4 (splat j.weight) zero4))
  else q

/-- `run`, ik_aim_job.rs:225-293. -/
def Aim.run (t : Trig α) (j : Aim α) : Outcome (Aim α) :=
  if !vec3IsNormalized j.forward then .err .invalidJob j
  else
    let invJoint := j.joint.invert
    let toTarget := invJoint.transformPoint j.target
    let len2 := vec3Length2S toTarget
    match offsettedForward j.forward j.offset toTarget with
    | none => .ok { j with correction := quatUnit, reached := false }
    | some fwd =>
      if NumOps.eq (len2 0) NumOps.zero then .ok { j with correction := quatUnit, reached := true }
      else
        let rot := quatFromVectors fwd toTarget
        let (axis, plane) := j.rotatePlane invJoint toTarget rot
        .ok { j with correction := j.weighted (j.twisted t axis plane rot), reached := true }

/-! ### Two bones -/

/-- `IKTwoBoneJob`, ik_two_bone_job.rs:61-79. -/
structure TwoBone (α : Type) where
  target : F4 α
  midAxis : F4 α
  poleVector : F4 α
  twistAngle : α
  soften : α
  weight : α
  startJoint : Mat4 α
  midJoint : Mat4 α
  endJoint : Mat4 α
  startCorrection : F4 α
  midCorrection : F4 α
  reached : Bool

/-- `IKConstantSetup`, ik_two_bone_job.rs:13-21. -/
structure Setup (α : Type) where
  invStart : Mat4 α
  startMidMs : F4 α
  midEndMs : F4 α
  startMidSs : F4 α
  startMidLen2 : F4 α
  midEndLen2 : F4 α
  startEndLen2 : F4 α

/-- `IKConstantSetup::new`, ik_two_bone_job.rs:24-47. -/
def TwoBone.setup (j : TwoBone α) : Setup α :=
  let invStart := j.startJoint.invert
  let invMid := j.midJoint.invert
  let startMs := invMid.transformPoint (j.startJoint 3)
  let endMs := invMid.transformPoint (j.endJoint 3)
  let midSs := invStart.transformPoint (j.midJoint 3)
  let endSs := invStart.transformPoint (j.endJoint 3)
  { invStart := invStart
    startMidMs := -startMs
    midEndMs := endMs
    startMidSs := midSs
    startMidLen2 := vec3Length2S midSs
    midEndLen2 := vec3Length2S (endSs - midSs)
    startEndLen2 := vec3Length2S endSs }

/-- `soften_target`, ik_two_bone_job.rs:329-372. -/
def TwoBone.softenTarget (j : TwoBone α) (s : Setup α) : Bool × F4 α × F4 α :=
  let orig := s.invStart.transformPoint j.target
  let origLen2 := vec3Length2S orig
  let lengths := sqrt4 (setZ (setY s.startMidLen2 s.midEndLen2) origLen2)
  let startMidLen := lengths
  let midEndLen := swz lengths 1 1 1 1
  let origLen := swz lengths 2 2 2 2
  let diffAbs := abs4 (startMidLen - midEndLen)
  let chainLen := startMidLen + midEndLen
  let da := chainLen * clampOrMin4 (f4 j.soften NumOps.zero NumOps.zero NumOps.zero) zero4 one4
  let ds := chainLen - da
  let left := setW origLen ds
  let right := setZ da diffAbs
  let gt := fun l => NumOps.lt (right l) (left l)
  let result : F4 α × F4 α :=
    if gt 0 && gt 1 && gt 3 then
      let alpha := (origLen - da) * recip4 ds
      let op := setY three4 (alpha + three4)
      let op2 := op * op
      let op4 := op2 * op2
      let ratio := op4 * recip4 (swz op4 1 1 1 1)
      let len := da + ds - ds * ratio
      (orig * Mat4.splatX (len * recip4 origLen), len * len)
    else (orig, origLen2)
  (!gt 0 && gt 2, result.1, result.2)

/-- `compute_mid_joint`, ik_two_bone_job.rs:374-392. -/
def TwoBone.computeMid (t : Trig α) (j : TwoBone α) (s : Setup α) (targetLen2 : F4 α) : F4 α :=
  let sumLen2 := s.startMidLen2 + s.midEndLen2
  let halfRlen := Mat4.splatX (half4 * recip4 (sqrt4 (s.startMidLen2 * s.midEndLen2)))
  let cosUnclamped := (Mat4.splatX sumLen2 - setY targetLen2 s.startEndLen2) * halfRlen
  let cosAngles := clampOrMin4 cosUnclamped negOne4 one4
  let corrected := t.acos cosAngles
  let bentSideRef := vec3Cross s.startMidMs j.midAxis
  let bentSideFlip := sign4 (vec3DotS bentSideRef s.midEndMs)
  let initial := xor4 (swz corrected 1 1 1 1) bentSideFlip
  quatFromAxisAngle t.sinCos j.midAxis (corrected - initial)

/-- The rotation of the plane of the joints about the target direction, ik_two_bone_job.rs:415-451. -/
def TwoBone.rotatePlane (t : Trig α) (j : TwoBone α) (s : Setup α) (toTarget target targetLen2 : F4 α) : F4 α :=
  let pole := s.invStart.transformVector j.poleVector
  let refNormal := vec3Cross target pole
  let midAxisSs := s.invStart.transformVector (j.midJoint.transformVector j.midAxis)
  let jointNormal := quatTransformVector toTarget midAxisSs
  let rsqrts := recip4 (sqrt4 (setZ (setY targetLen2 (vec3Length2S refNormal)) (vec3Length2S jointNormal)))
  let cosAngle := vec3DotS (refNormal * swz rsqrts 1 1 1 1) (jointNormal * swz rsqrts 2 2 2 2)
  let axis := target * Mat4.splatX rsqrts
  let flip := sign4 (Mat4.splatX (vec3DotS jointNormal pole))
  let plane := quatFromCosAngle (xor4 axis flip) (clamp4 cosAngle negOne4 one4)
  if NumOps.eq j.twistAngle NumOps.zero then quatMul plane toTarget
  else quatMul (quatMul (quatFromAxisAngle t.sinCos axis (splat j.twistAngle)) plane) toTarget

/-- `compute_start_joint`, ik_two_bone_job.rs:394-453. -/
def TwoBone.computeStart (t : Trig α) (j : TwoBone α) (s : Setup α) (midRot target targetLen2 : F4 α) : F4 α :=
  let midEndFinal := s.invStart.transformVector (j.midJoint.transformVector (quatTransformVector midRot s.midEndMs))
  let startEndFinal := s.startMidSs + midEndFinal
  let toTarget := quatFromVectors startEndFinal target
  if NumOps.lt NumOps.zero (targetLen2 0) then j.rotatePlane t s toTarget target targetLen2
  else toTarget

/-- `weight_output`, ik_two_bone_job.rs:455-480. -/
def TwoBone.weightOutput (j : TwoBone α) (startRot midRot : F4 α) : F4 α × F4 α :=
  let startRot := quatPositiveW startRot
  let midRot := quatPositiveW midRot
  if NumOps.lt j.weight NumOps.one then
    let w := max4 (splat j.weight) zero4
    let startLerp := lerp4 quatUnit startRot w
    let midLerp := lerp4 quatUnit midRot w
    let rsqrts := recip4 (sqrt4 (f4 (sum4 (startLerp * startLerp)) (sum4 (midLerp * midLerp)) NumOps.zero NumOps.zero))
    (startLerp * Mat4.splatX rsqrts, midLerp * swz rsqrts 1 1 1 1)
  else (startRot, midRot)

/-- `run`, ik_two_bone_job.rs:307-327. -/
def TwoBone.run (t : Trig α) (j : TwoBone α) : Outcome (TwoBone α) :=
  if !vec3IsNormalized j.midAxis then .err .invalidJob j
  else if NumOps.le j.weight NumOps.zero then
    .ok { j with startCorrection := quatUnit, midCorrection := quatUnit, reached := false }
  else
    let s := j.setup
    let (lreached, target, targetLen2) := j.softenTarget s
    let midRot := j.computeMid t s targetLen2
    let startRot := j.computeStart t s midRot target targetLen2
    let out := j.weightOutput startRot midRot
    .ok { j with startCorrection := out.1, midCorrection := out.2, reached := lreached && NumOps.le NumOps.one j.weight }

end Ozz.IK
