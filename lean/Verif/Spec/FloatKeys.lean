import Verif.Model.SamplingCode
import Verif.Spec.FloatSampling
import Verif.Spec.Keys

/-! What the keys of an animation stand for. -/

namespace Ozz.Spec

open Sampling Ieee Keys

/-- A half float that the four-wide conversion converts correctly (C13). -/
def GoodHalf (n : BitVec 16) : Prop := IsFinite 5 10 n.toNat ∧ n ≠ 0x7BFF#16 ∧ n ≠ 0xFBFF#16

/-- The value of component `x` of key `k`, from the bits of the half float. -/
noncomputable def halfValue (ch : Chan F32 Float3Key) (x : Fin 3) (k : Nat) : ℝ :=
  match ch.keys[k]? with
  | some key => ((value16 (key x) : ℚ) : ℝ)
  | none => 0

/-- The components of the quaternion of key `k` of a channel, in single precision. -/
noncomputable def quatValue (ch : Chan F32 QuatKey) (k : Nat) (x : Fin 4) : ℝ :=
  match ch.keys[k]? with
  | some key => val (key.decompress x)
  | none => 0

/-- The unit quaternion in the direction of the line from `p` to `q`. -/
noncomputable def unitLine (p q : Fin 4 → ℝ) (f : ℝ) (x : Fin 4) : ℝ :=
  (p x + (q x - p x) * f) / √((p 0 + (q 0 - p 0) * f) ^ 2 + (p 1 + (q 1 - p 1) * f) ^ 2 + (p 2 + (q 2 - p 2) * f) ^ 2 +
    (p 3 + (q 3 - p 3) * f) ^ 2)

end Ozz.Spec
