import Verif.Spec.FloatKeys
import Verif.Spec.FloatModel
import Verif.Spec.Sampling

/-! The pose an animation stands for at a ratio: exact interpolation between the values of the keys around it. -/

namespace Ozz.Spec

open Sampling Ieee Keys

/-- A matrix of floats: the first three rows are finite, the entries of the linear part at most `μ`, those of the translation at
most `τ`. (The bottom row does not matter.) -/
structure Matrix32Ok (m : Mat4 F32) (μ τ : ℝ) : Prop where
  finite : ∀ c r, r ≠ 3 → Finite32 (m c r).bits
  linear : ∀ c r, c ≠ 3 → r ≠ 3 → |val (m c r)| ≤ μ
  translation : ∀ r, r ≠ 3 → |val (m 3 r)| ≤ τ

/-- `l` and `k` are neighbouring keys of track `t` in a channel of animation `a`. -/
def Neighbours {K : Type} (a : Animation F32 Float3Key QuatKey) (ch : Chan F32 K) (t l k : Nat) : Prop :=
  ∃ time pred track, ChanOk F32.zero F32.one a.numTracks (4 * ((a.numTracks + 3) / 4)) a.timepoints ch time pred track ∧
    Consecutive ch.previouses.length track t l k

/-- `l` and `k` are the neighbouring keys of track `t` around ratio `r`, and `r` is the fraction `f` of the way from the
first to the second. -/
def KeysAround {K : Type} (a : Animation F32 Float3Key QuatKey) (ch : Chan F32 K) (t : Nat) (r : F32) (l k : Nat) (f : ℝ) : Prop :=
  ∃ time pred track, ChanOk F32.zero F32.one a.numTracks (4 * ((a.numTracks + 3) / 4)) a.timepoints ch time pred track ∧
    Consecutive ch.previouses.length track t l k ∧ Between ch.previouses.length time track t l k r ∧
    f = (val r - val (time l)) / (val (time k) - val (time l))

/-- The point a fraction `f` of the way from `p` to `q`. -/
noncomputable def mix (p q f : ℝ) : ℝ := p + (q - p) * f

/-- `P` is what animation `a` says about track `t` at ratio `r`, in real numbers. -/
structure ExactPose (a : Animation F32 Float3Key QuatKey) (t : Nat) (r : F32) (P : JointPose) : Prop where
  translation : ∃ l k f, KeysAround a a.translations t r l k f ∧
    let v := fun x => mix (halfValue a.translations x l) (halfValue a.translations x k) f
    P.translation = ⟨0, v 0, v 1, v 2⟩
  rotation : ∃ l k f, KeysAround a a.rotations t r l k f ∧
    let q := unitLine (quatValue a.rotations l) (quatValue a.rotations k) f
    P.rotation = ⟨q 3, q 0, q 1, q 2⟩
  scale : ∃ l k f, KeysAround a a.scales t r l k f ∧
    let v := fun x => mix (halfValue a.scales x l) (halfValue a.scales x k) f
    P.scale = (v 0, v 1, v 2)

/-- An animation whose poses can be compared with the exact ones: well formed; ratios of keys from 0 to 1; translations of
at most `M` and scales of at most `s` in every component (a little less where neighbouring keys differ, as single
precision may pass the second by 2^-23 of the difference), from half floats that are converted correctly; stored
components of rotations leaving room for the fourth; neighbouring rotations at most 120 degrees apart as quaternions. -/
structure Animation32Ok (a : Animation F32 Float3Key QuatKey) (M s : ℝ) : Prop where
  wellFormed : WellFormed F32.zero F32.one a
  ratios : ∀ r ∈ a.timepoints, Unit01 r
  translations : ∀ k ∈ a.translations.keys, ∀ x, GoodHalf (k x) ∧ |((value16 (k x) : ℚ) : ℝ)| ≤ M
  rotations : ∀ k ∈ a.rotations.keys, dequantised k.unpack.v0.toNat ^ 2 + dequantised k.unpack.v1.toNat ^ 2 +
    dequantised k.unpack.v2.toNat ^ 2 ≤ 1
  near : ∀ t l k, Neighbours a a.rotations t l k →
    (-(1 / 2) : ℝ) ≤ quatValue a.rotations l 0 * quatValue a.rotations k 0 + quatValue a.rotations l 1 * quatValue a.rotations k 1 +
      quatValue a.rotations l 2 * quatValue a.rotations k 2 + quatValue a.rotations l 3 * quatValue a.rotations k 3
  scales : ∀ k ∈ a.scales.keys, ∀ x, GoodHalf (k x) ∧ |((value16 (k x) : ℚ) : ℝ)| ≤ s
  scalesPass : ∀ t l k, Neighbours a a.scales t l k → ∀ x,
    |halfValue a.scales x k| + |halfValue a.scales x k - halfValue a.scales x l| / 2 ^ 23 ≤ s

end Ozz.Spec
