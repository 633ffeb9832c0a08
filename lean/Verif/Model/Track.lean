import Verif.Model.Basic

/-! User-channel tracks, /repo/src/track.rs. -/

namespace Ozz

/-- `Track<V>`, track.rs:120-126. Ratios have type `α` (`f32` in the code), `name` is its UTF-8
bytes. -/
structure Track (α V : Type) where
  keyCount : Nat
  ratios : List α
  values : List V
  steps : List UInt8
  name : List UInt8
  deriving DecidableEq

/-- `(track.steps()[i / 8] & (1 << (i & 7))) != 0`, e.g. track_sampling_job.rs:127. -/
def Track.step {α V} (t : Track α V) (i : Nat) : Res Bool := do
  let b ← getIdx t.steps (i / 8)
  return (b.toNat >>> (i % 8)) % 2 == 1

/-- `f32::floor`. -/
class FloorOp (α : Type) where
  floor : α → α

/-- `a == b` on floats, through comparisons (so that it is false on NaN). -/
def feq {α} [LE α] [DecidableLE α] (a b : α) : Bool := decide (a ≤ b) && decide (b ≤ a)

end Ozz
