import Verif.Spec.Rounding
import Verif.Spec.Interpolate

/-! Curves through keys in single precision. -/

namespace Ozz.Spec

open Ieee

/-- The real number a finite float stands for. -/
noncomputable abbrev val (x : F32) : ℝ := real x.bits

/-- A finite float from 0 to 1 (either zero). -/
structure Unit01 (x : F32) : Prop where
  finite : Finite32 x.bits
  nonneg : 0 ≤ val x
  le_one : val x ≤ 1

/-- `r` is between keys `l` and `k` in the sense of the code: before the second key, or at most at it if no later key of the
track follows. -/
def Between (N : Nat) (time : Nat → F32) (track : Nat → Nat) (t l k : Nat) (r : F32) : Prop :=
  val (time l) ≤ val r ∧ (val r < val (time k) ∨ val r ≤ val (time k) ∧ ∀ m, k < m → m < N → track m ≠ t)

/-- `f` follows the keys of track `t`: it is finite; at every key but the last it is exactly the key's value; from key to key
it moves in one direction, passing the second key by at most 2^-23 of the difference; at the last key it is within 2^-23
of the difference; and it is close to the straight line. -/
structure FollowsKeys (N : Nat) (time : Nat → F32) (track : Nat → Nat) (t : Nat) (value : Nat → ℝ) (f : F32 → F32) : Prop where
  finite : ∀ r, Unit01 r → Finite32 (f r).bits
  meets : ∀ l k, Consecutive N track t l k → ∀ r, Unit01 r → val r = val (time l) → val (f r) = value l
  last : ∀ l k, Consecutive N track t l k → (∀ m, k < m → m < N → track m ≠ t) → ∀ r, Unit01 r → val r = val (time k) →
    |val (f r) - value k| ≤ |value k - value l| / 2 ^ 23
  rising : ∀ l k, Consecutive N track t l k → value l ≤ value k → ∀ r r', Unit01 r → Unit01 r' →
    Between N time track t l k r → Between N time track t l k r' → val r ≤ val r' →
    value l ≤ val (f r) ∧ val (f r) ≤ val (f r') ∧ val (f r') ≤ value k + (value k - value l) / 2 ^ 23
  falling : ∀ l k, Consecutive N track t l k → value k ≤ value l → ∀ r r', Unit01 r → Unit01 r' →
    Between N time track t l k r → Between N time track t l k r' → val r ≤ val r' →
    val (f r) ≤ value l ∧ val (f r') ≤ val (f r) ∧ value k - (value l - value k) / 2 ^ 23 ≤ val (f r')
  close : ∀ l k, Consecutive N track t l k → ∀ r, Unit01 r → val (time l) ≤ val r → val r ≤ val (time k) → ∀ M,
    (∀ m, m < N → track m = t → |value m| ≤ M) →
    |val (f r) - (value l + (value k - value l) * ((val r - val (time l)) / (val (time k) - val (time l))))| ≤
      M / 2 ^ 20 + 1 / 2 ^ 150

end Ozz.Spec
