import Verif.Model.Skeleton

/-!
`LocalToModelJob::run`, /repo/src/local_to_model_job.rs:221-257.

Generic in the SoA input type `S`, the matrix type `M`, the lane-splitting conversion
`toAos` (`SoaMat4::from_affine(..).to_aos()`, lines 242-244) and the matrix product `mul`
(`AosMat4::mul`). No law of `mul` is assumed, so `f32` rounding is covered.
-/

namespace Ozz.LocalToModel

structure Job (S M : Type) where
  /-- `joint_parents` of the skeleton -/
  parents : List Int
  input : List S
  root : M
  from_ : Int
  to : Int
  fromExcluded : Bool

variable {S M : Type}

/-- Body of the inner `while idx < soa_end && process` loop, lines 247-256: computes one joint.
`(output[parent as usize])`: `parent` is sign-extended, so a negative parent other than -1 is a
huge index and panics. -/
def stepJoint (mul : M → M → M) (j : Job S M) (aos : Fin 4 → M) (idx : Nat) (out : List M) :
    Res (List M) := do
  let parent ← getIdx j.parents idx
  let l := aos ⟨idx % 4, Nat.mod_lt _ (by decide)⟩
  if parent = -1 then
    setIdx out idx (mul j.root l)
  else if parent < 0 then
    .error .panic
  else do
    let p ← getIdx out parent.toNat
    setIdx out idx (mul p l)

/-- `process = idx < end && joint_parent(idx) as i32 >= from` , line 255. -/
def goOn (j : Job S M) (end_ idx : Nat) : Res Bool :=
  if idx < end_ then do
    let p ← getIdx j.parents idx
    return decide (p ≥ j.from_)
  else return false

/-- Inner loop, lines 247-256. -/
def inner (mul : M → M → M) (j : Job S M) (end_ : Nat) (aos : Fin 4 → M) (soaEnd : Nat)
    (idx : Nat) (process : Bool) (out : List M) : Res (Nat × Bool × List M) :=
  if idx < soaEnd ∧ process = true then do
    let out ← stepJoint mul j aos idx out
    let process ← goOn j end_ (idx + 1)
    inner mul j end_ aos soaEnd (idx + 1) process out
  else return (idx, process, out)
termination_by soaEnd - idx

/-- Outer `while process` loop, lines 241-257. `fuel` bounds the number of blocks; the loop is run
with `end_` blocks of fuel and running out of fuel is reported as a panic, so the theorems showing
`ok` also show that the bound is never hit. -/
def outer (mul : M → M → M) (toAos : S → Fin 4 → M) (j : Job S M) (end_ : Nat) :
    (fuel : Nat) → (idx : Nat) → (process : Bool) → List M → Res (List M)
  | _, _, false, out => return out
  | 0, _, true, _ => .error .panic
  | fuel + 1, idx, true, out => do
    let transform ← getIdx j.input (idx / 4)
    let aos := toAos transform
    let soaEnd := (idx + 4) - (idx + 4) % 4
    let (idx, process, out) ← inner mul j end_ aos soaEnd idx true out
    outer mul toAos j end_ fuel idx process out

/-- `LocalToModelJob::validate`, lines 206-217, for present skeleton, input and output. -/
def validate (j : Job S M) (out : List M) : Bool :=
  decide (numSoa j.parents.length ≤ j.input.length) && decide (j.parents.length ≤ out.length)

/-- `LocalToModelJob::run`, lines 221-257. `add` is the `i32` addition of the build profile:
`addI32` (overflow checks) or wrapping. -/
def runWith (add : Int → Int → Res Int) (mul : M → M → M) (toAos : S → Fin 4 → M)
    (j : Job S M) (out : List M) : Res (List M) := do
  if ¬ (validate j out = true) then
    .error (.err .invalidJob)
  else do
    let fe ← add j.from_ (if j.fromExcluded then 1 else 0)
    let begin_ := (max 0 fe).toNat
    let te ← add j.to 1
    let end_ := (max 0 (min te (j.parents.length : Int))).toNat
    let process ←
      if begin_ < end_ then
        if j.fromExcluded then do
          let p ← getIdx j.parents begin_
          pure (decide (p ≥ j.from_))
        else pure true
      else pure false
    outer mul toAos j end_ end_ begin_ process out

/-- Debug profile. -/
def run (mul : M → M → M) (toAos : S → Fin 4 → M) (j : Job S M) (out : List M) : Res (List M) :=
  runWith addI32 mul toAos j out

/-- Release profile (wrapping additions). -/
def runRelease (mul : M → M → M) (toAos : S → Fin 4 → M) (j : Job S M) (out : List M) :
    Res (List M) :=
  runWith (fun a b => .ok (addI32Wrap a b)) mul toAos j out

end Ozz.LocalToModel
