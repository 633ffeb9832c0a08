import Verif.Model.Track

/-!
Track sampling, /repo/src/track_sampling_job.rs.

`V` is the value type with its `Default` value and `TrackValue::lerp` (track.rs:13-110); ratios have
an arbitrary type `α` with the operations used on `f32`, no law is assumed.
-/

namespace Ozz.TrackSampling

variable {α V : Type} [Sub α] [Div α] [LT α] [DecidableLT α] [Zero α] [One α]

/-- `TrackValue` operations used by the job, track.rs:13-25. -/
structure ValueOps (α V : Type) where
  default : V
  lerp : V → V → α → V

/-- `<f32 as TrackValue>`, track.rs:27-42. -/
def scalarOps {α : Type} [Add α] [Sub α] [Mul α] [Zero α] : ValueOps α α where
  default := 0
  lerp a b t := a + (b - a) * t

/-- Interpolation at the end of `run`, lines 125-138. -/
def interpolate (ops : ValueOps α V) (t : Track α V) (ratio : α) (id1 : Nat) : Res V := do
  let id0 := id1 - 1
  let id0Step ← t.step id0
  if id0Step || id1 == t.keyCount then
    getIdx t.values id0
  else do
    let tk0 ← getIdx t.ratios id0
    let tk1 ← getIdx t.ratios id1
    let v0 ← getIdx t.values id0
    let v1 ← getIdx t.values id1
    return ops.lerp v0 v1 ((ratio - tk0) / (tk1 - tk0))

/-- `TrackSamplingJob::run`, lines 112-142; the new `result`, or how it fails. -/
def run (ops : ValueOps α V) (track : Option (Track α V)) (ratio : α) : Res V :=
  match track with
  | none => .error (.err .invalidJob)
  | some t =>
    if t.ratios.length = 0 then .ok ops.default
    else if t.ratios.length = 1 ∨ ratio < 0 then getIdx t.values 0
    else if 1 < ratio then
      match t.values.getLast? with
      | some v => .ok v
      | none => .error .panic
    else
      interpolate ops t ratio
        (match t.ratios.findIdx? (fun x => decide (ratio < x)) with
          | some i => i
          | none => t.keyCount)

end Ozz.TrackSampling
