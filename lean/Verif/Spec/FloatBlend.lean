import Verif.Spec.Blending
import Verif.Spec.FloatModel

/-!
Blending poses of floats: what the inputs must be like, the real layers they stand for, and sums of rotations whose signs are
chosen by a dot product that is only known up to an error.
-/

namespace Ozz.Blending

open Ieee Spec

/-- The layer of the real numbers the floats stand for. -/
noncomputable def valLayer (y : Layer F32) : Layer ℝ where
  transform := y.transform.map fun t => t.map valTransform
  weight := val y.weight
  jointWeights := y.jointWeights.map fun w l => val (w l)

/-- Lane `l` of a block of floats: finite, coordinates of the translation at most `B`, of the scale at most `s`, the squared
norm of the rotation within 2^-10 of one. -/
structure Pose32Ok (t : SoaTransform F32) (l : Fin 4) (s B : ℝ) : Prop where
  translationFinite : ∀ c, Finite32 (t.translation.lane l c).bits
  rotationFinite : ∀ c, Finite32 (t.rotation.lane l c).bits
  scaleFinite : ∀ c, Finite32 (t.scale.lane l c).bits
  translation : ∀ c, |val (t.translation.lane l c)| ≤ B
  rotation : |norm2 ((valTransform t).rotation.lane l) - 1| ≤ 1 / 2 ^ 10
  scale : ∀ c, |val (t.scale.lane l c)| ≤ s

/-- A layer of floats at lane `l` of SoA joint `i`: its weights are finite; if it is used (its weight is positive), the pose
is within the bounds. -/
structure Layer32Ok (y : Layer F32) (i : Nat) (l : Fin 4) (s B : ℝ) : Prop where
  weight : Finite32 y.weight.bits
  jointWeight : ∀ w, y.jointWeights[i]? = some w → Finite32 (w l).bits
  pose : 0 < val y.weight → ∃ ts t, y.transform = .ok ts ∧ ts[i]? = some t ∧ Pose32Ok t l s B

/-- `r` is the sum of `acc` and the rotations, each with its sign changed if it points away from what was added before;
where the dot product is at most `δ`, either sign will do. -/
inductive AlignedUpTo (δ : ℝ) : F4 ℝ → List (ℝ × F4 ℝ) → F4 ℝ → Prop where
  | nil (acc : F4 ℝ) : AlignedUpTo δ acc [] acc
  | keep {acc q r : F4 ℝ} {w : ℝ} {cs : List (ℝ × F4 ℝ)} : -δ ≤ dot4 acc q → AlignedUpTo δ (acc + w • q) cs r →
      AlignedUpTo δ acc ((w, q) :: cs) r
  | turn {acc q r : F4 ℝ} {w : ℝ} {cs : List (ℝ × F4 ℝ)} : dot4 acc q ≤ δ → AlignedUpTo δ (acc - w • q) cs r →
      AlignedUpTo δ acc ((w, q) :: cs) r

/-- No rotation with a weight is nearly orthogonal to the sum before it (the first one, where the sum is still zero, does not
matter). -/
def ClearSigns (δ : ℝ) : F4 ℝ → List (ℝ × F4 ℝ) → Prop
  | _, [] => True
  | acc, c :: cs => (c.1 = 0 ∨ acc = 0 ∨ δ < |dot4 acc c.2|) ∧ ClearSigns δ (addAligned acc c) cs

/-- Total weight, scales and translations far from the ends of the range of floats. -/
structure Sizes (M s B : ℝ) : Prop where
  weight_ge : 1 / 2 ^ 60 ≤ M
  weight_le : M ≤ 2 ^ 60
  scale_ge : 1 / 2 ^ 60 ≤ s
  scale_le : s ≤ 2 ^ 60
  translation_ge : 1 / 2 ^ 60 ≤ B
  translation_le : B ≤ 2 ^ 60

/-- Lane `l` of a block of floats: translation and scale are near `T` and `S`; `n` is the number of layers. -/
structure NearAverage (l : Fin 4) (s B : ℝ) (n : Nat) (T S : F4 ℝ) (o : SoaTransform F32) : Prop where
  translationFinite : ∀ c, Finite32 (o.translation.lane l c).bits
  translation : ∀ c, |val (o.translation.lane l c) - T c| ≤ 13 * (n + 1) / 2 ^ 24 * B
  scaleFinite : ∀ c, Finite32 (o.scale.lane l c).bits
  scale : ∀ c, |val (o.scale.lane l c) - S c| ≤ 13 * (n + 1) / 2 ^ 24 * s

/-- Lane `l` of a block of floats: the rotation is within `e` of the unit quaternion along `R`, and nearly unit. -/
structure NearUnit (l : Fin 4) (e : ℝ) (R : F4 ℝ) (o : SoaTransform F32) : Prop where
  finite : ∀ c, Finite32 (o.rotation.lane l c).bits
  near : ∀ c, |val (o.rotation.lane l c) - unitOf R c| ≤ e
  unit : |norm2 (fun c => val (o.rotation.lane l c)) - 1| ≤ 1 / 2 ^ 19

end Ozz.Blending
