import Verif.Model.TrackLerp
import Verif.Spec.FloatTrack
import Verif.Spec.TrackSampling
import Verif.Spec.FloatMotion

/-! Vector and quaternion tracks in single precision. -/

namespace Ozz.Spec

open Ieee Ozz.Blending

/-- The ratios and step bits of a track of floats: ratios increase strictly within [0, 1] from 0, one value and one step bit
per key. -/
structure Ratios32Ok {V : Type} (t : Track F32 V) : Prop where
  ratiosLen : t.ratios.length = t.keyCount
  valuesLen : t.values.length = t.keyCount
  stepsLen : (t.keyCount + 7) / 8 ≤ t.steps.length
  increasing : t.ratios.Pairwise fun a b => val a < val b
  unit : ∀ r ∈ t.ratios, Unit01 r
  first : ∀ r, t.ratios.head? = some r → val r = 0

/-- The track of the real vectors its floats stand for. -/
noncomputable def realVecs {d : Nat} (t : Track F32 (Fin d → F32)) : Track ℝ (Fin d → ℝ) :=
  { t with ratios := t.ratios.map val, values := t.values.map fun v c => val (v c) }

/-- A way of mixing two floats: right up to eight units of the larger one, and the start is met. -/
structure AccurateMix (mix : F32 → F32 → F32 → F32) : Prop where
  near : ∀ (a b t : F32) (M : ℝ), Finite32 a.bits → Finite32 b.bits → Unit01 t → |val a| ≤ M → |val b| ≤ M → M ≤ 2 ^ 126 →
    Finite32 (mix a b t).bits ∧ |val (mix a b t) - (val a + (val b - val a) * val t)| ≤ M / 2 ^ 21 + 1 / 2 ^ 148
  start : ∀ a b t : F32, Finite32 a.bits → Finite32 b.bits → |val a| ≤ 2 ^ 126 → |val b| ≤ 2 ^ 126 → Finite32 t.bits → val t = 0 →
    val (mix a b t) = val a

/-- A test for negative numbers; zeros may be taken either way. -/
def TellsSign (flip : F32 → Bool) : Prop := ∀ x, Finite32 x.bits → (0 < val x → flip x = false) ∧ (val x < 0 → flip x = true)

/-- `L` is the normalized linear interpolation along the shorter way; if the dot product is at most `δ`, either way will do. -/
def ShortWay (δ : ℝ) (L : F4 ℝ → F4 ℝ → ℝ → F4 ℝ) : Prop :=
  ∀ a b s, ∃ σ : ℝ, (σ = 1 ∨ σ = -1) ∧ -δ ≤ σ * dot4 a b ∧ L a b s = unitOf (a + s • (σ • b - a))

/-- The same with the sign as it should be. -/
noncomputable def nlerpShort (a b : F4 ℝ) (s : ℝ) : F4 ℝ := unitOf (a + s • ((if dot4 a b < 0 then -b else b) - a))

end Ozz.Spec
