import Verif.Spec.SamplingHistory
import Verif.Spec.Exact
import Verif.Model.Math
import Mathlib.Topology.MetricSpace.Basic
import Mathlib.Order.Interval.Set.UnorderedInterval
import Mathlib.Algebra.Order.Floor.Ring

/-! Curves through keys, over the real numbers. -/

namespace Ozz.Spec

open Sampling

/-- Ratios as real numbers. `as i32` truncates. -/
noncomputable instance : RatioOps ℝ where
  zero := 0
  half := 1 / 2
  two := 2
  abs := fun x => |x|
  toI32 := fun x => if 0 ≤ x then ⌊x⌋ else ⌈x⌉
  decLe := fun _ _ => Classical.propDecidable _
  decLt := fun _ _ => Classical.propDecidable _

/-- `l` and `k` are keys of track `t`, one right after the other. -/
structure Consecutive (N : Nat) (track : Nat → Nat) (t l k : Nat) : Prop where
  left : track l = t
  right : track k = t
  lt : l < k
  rightLt : k < N
  none : ∀ m, l < m → m < k → track m ≠ t

/-- `f` is the curve through the keys of track `t` in the range `lo..hi`: it is continuous, meets every key, stays between
neighbouring keys and is straight there. -/
structure CurveThrough (lo hi : ℝ) (N : Nat) (time : Nat → ℝ) (track : Nat → Nat) (t : Nat) (value : Nat → ℝ) (f : ℝ → ℝ) :
    Prop where
  continuous : ContinuousOn f (Set.Icc lo hi)
  meets : ∀ k, k < N → track k = t → lo ≤ time k → time k ≤ hi → f (time k) = value k
  between : ∀ l k, Consecutive N track t l k → ∀ r, lo ≤ r → r ≤ hi → time l ≤ r → r ≤ time k →
    f r ∈ Set.uIcc (value l) (value k)
  straight : ∀ l k, Consecutive N track t l k → ∀ r, lo ≤ r → r ≤ hi → time l ≤ r → r ≤ time k →
    (f r - value l) * (time k - time l) = (value k - value l) * (r - time l)

/-- Components of lane `j`. -/
def comp3 {α : Type} (v : SoaVec3 α) (j : Fin 4) : Fin 3 → α
  | 0 => v.x j | 1 => v.y j | 2 => v.z j

def compQ {α : Type} (v : SoaQuat α) (j : Fin 4) : Fin 4 → α
  | 0 => v.x j | 1 => v.y j | 2 => v.z j | 3 => v.w j

/-- Component `x` of the value of key `k` of a channel. -/
def keyValue {α K X : Type} [NumOps α] (ch : Chan α K) (val : K → X → α) (x : X) (k : Nat) : α :=
  match ch.keys[k]? with
  | some key => val key x
  | none => NumOps.zero

end Ozz.Spec
