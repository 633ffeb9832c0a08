import Verif.Spec.MotionBlending
import Verif.Spec.FloatBlend

/-! Motion blending on floats: what glam's operations must be like, the inputs, and the real motions they stand for. -/

namespace Ozz.MotionBlending

open Ieee Spec Ozz.Blending

/-- The vector of the real numbers the floats stand for. -/
noncomputable def val3 (v : V3 F32) : V3 ℝ := fun i => val (v i)

/-- The layer of the real numbers the floats stand for. -/
noncomputable def valMotion (y : Layer F32) : Layer ℝ :=
  ⟨val y.weight, ⟨val3 y.delta.translation, fun c => val (y.delta.rotation c), val3 y.delta.scale⟩⟩

/-- What is assumed of glam: lengths of vectors that are neither tiny nor huge are right up to four units, dot products up to
five units of the sum of the products' sizes, normalized quaternions up to seven units. -/
structure Accurate (g : Glam F32) : Prop where
  length : ∀ v : V3 F32, (∀ i, Finite32 (v i).bits) → 1 / 2 ^ 50 ≤ norm3 (val3 v) → norm3 (val3 v) ≤ 2 ^ 50 →
    Finite32 (g.length v).bits ∧ |val (g.length v) - norm3 (val3 v)| ≤ 4 / 2 ^ 24 * norm3 (val3 v)
  still : ∀ v : V3 F32, (∀ i, Finite32 (v i).bits) → (∀ i, val (v i) = 0) → Finite32 (g.length v).bits ∧ val (g.length v) = 0
  dot : ∀ (a b : F4 F32) (S : ℝ), (∀ c, Finite32 (a c).bits) → (∀ c, Finite32 (b c).bits) →
    |val (a 0) * val (b 0)| + |val (a 1) * val (b 1)| + |val (a 2) * val (b 2)| + |val (a 3) * val (b 3)| ≤ S → S ≤ 2 ^ 120 →
    Finite32 (g.dot a b).bits ∧ |val (g.dot a b) - dot4 (fun c => val (a c)) (fun c => val (b c))| ≤ 5 * S / 2 ^ 24 + 1 / 2 ^ 147
  normalize : ∀ q : F4 F32, (∀ c, Finite32 (q c).bits) → 1 / 2 ^ 100 ≤ norm2 (fun c => val (q c)) → norm2 (fun c => val (q c)) ≤ 2 ^ 100 →
    ∀ c, Finite32 (g.normalize q c).bits ∧ |val (g.normalize q c) - unitOf (fun c => val (q c)) c| ≤ 7 / 2 ^ 24

/-- A motion of floats. If it is used (its weight is positive), it is finite, does not move or moves by a length that is
neither tiny nor huge, and its rotation has a squared norm within 2^-10 of one. -/
structure Motion32Ok (y : Layer F32) : Prop where
  weight : Finite32 y.weight.bits
  translationFinite : 0 < val y.weight → ∀ i, Finite32 (y.delta.translation i).bits
  translation : 0 < val y.weight → (∀ i, val (y.delta.translation i) = 0) ∨
    1 / 2 ^ 40 ≤ norm3 (val3 y.delta.translation) ∧ norm3 (val3 y.delta.translation) ≤ 2 ^ 40
  rotationFinite : 0 < val y.weight → ∀ c, Finite32 (y.delta.rotation c).bits
  rotation : 0 < val y.weight → |norm2 (fun c => val (y.delta.rotation c)) - 1| ≤ 1 / 2 ^ 10

/-- The motions: each within its bounds, at most 512 that count, their total weight far from the ends of the range of floats. -/
structure Motions32Ok (ls : List (Layer F32)) : Prop where
  each : ∀ y ∈ ls, Motion32Ok y
  few : (positives (ls.map valMotion)).length ≤ 512
  weight_ge : 1 / 2 ^ 30 ≤ weightSum (ls.map valMotion)
  weight_le : weightSum (ls.map valMotion) ≤ 2 ^ 30

/-- Weights and rotations of the motions that count. -/
noncomputable def turns (ls : List (Layer ℝ)) : List (ℝ × F4 ℝ) := (positives ls).map fun y => (y.weight, y.delta.rotation)

end Ozz.MotionBlending
