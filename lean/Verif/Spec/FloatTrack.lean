import Verif.Model.TrackCode
import Verif.Spec.FloatSampling
import Verif.Spec.Triggering
import Mathlib.Data.Real.Archimedean

/-! Scalar tracks in single precision, and the crossings of the real track their numbers stand for. -/

namespace Ozz.Spec

open Ieee Triggering

/-- Finite, and far from overflow. -/
structure Small (x : F32) : Prop where
  finite : Finite32 x.bits
  small : |val x| ≤ 2 ^ 126

/-- A scalar track of floats: ratios increase strictly within [0, 1], values are not huge, one step bit per key. -/
structure Track32Ok (t : Track F32 F32) : Prop where
  ratiosLen : t.ratios.length = t.keyCount
  valuesLen : t.values.length = t.keyCount
  stepsLen : (t.keyCount + 7) / 8 ≤ t.steps.length
  increasing : t.ratios.Pairwise fun a b => val a < val b
  unit : ∀ r ∈ t.ratios, Unit01 r
  small : ∀ v ∈ t.values, Small v

/-- The track of the real numbers its floats stand for. -/
noncomputable def realTrack (t : Track F32 F32) : Track ℝ ℝ :=
  { t with ratios := t.ratios.map val, values := t.values.map val }

/-- A time the loop counter can follow: strictly between ±2^24 loops. -/
structure Time (x : F32) : Prop where
  finite : Finite32 x.bits
  near : |val x| < 2 ^ 24

/-- How far a reported time may be off in loop `k`: 2^-20 of a loop, and what rounding times near `k` costs. -/
noncomputable def slack (k : ℤ) : ℝ := 1 / 2 ^ 20 + (|(k : ℝ)| + 2) / 2 ^ 24

/-- `l` lists the crossings of the real track from `lo` to `hi`, up to `slack`: one entry per loop and key, in the order
of loops and keys, each a crossing within `slack` of the range and reported with its direction at its time up to
`slack`; every crossing further than `slack` inside the range is there. -/
def IsNearCrossingList (t : Track F32 F32) (threshold lo hi : ℝ) (l : List (Edge F32)) : Prop :=
  ∃ events : List (ℤ × ℕ),
    events.Pairwise EventLt ∧
    (∀ k i e rising, Crossing (realTrack t) threshold i e rising → lo + slack k ≤ k + e → k + e < hi - slack k →
      (k, i) ∈ events) ∧
    List.Forall₂ (fun ki x => ∃ e, Crossing (realTrack t) threshold ki.2 e x.rising ∧
      lo - slack ki.1 ≤ ki.1 + e ∧ ki.1 + e ≤ hi + slack ki.1 ∧
      Finite32 x.ratio.bits ∧ |val x.ratio - (ki.1 + e)| ≤ slack ki.1) events l

/-- What an edge says: a time and a direction. (Zeros of different signs are the same time.) -/
noncomputable def report (e : Edge F32) : ℝ × Bool := (val e.ratio, e.rising)

/-- If `x` is the end of a loop it is out of reach of rounding: no key before the end of the loop is taken to it when the
start `n` of the loop is added to the key's ratio. -/
def ClearEnd (t : Track F32 F32) (x : ℝ) : Prop :=
  ∀ n : F32, Finite32 n.bits → val n = ⌊val n⌋ → val n + 1 = x → ∀ r ∈ t.ratios, val r < 1 → val (r + n) < x

/-- If a key of some loop is taken to `x`, the keys before it are further away than times there can tell apart. -/
def ClearStart (t : Track F32 F32) (x : ℝ) : Prop :=
  ∀ n : F32, Finite32 n.bits → val n = ⌊val n⌋ → ∀ r ∈ t.ratios, val (r + n) = x →
    ∀ q ∈ t.ratios, val q < val r → val q + (|val n| + 2) / 2 ^ 21 < val r

/-- The states the iteration comes to. -/
inductive Reached (j : Job F32) : Iter F32 → Prop
  | start : Reached j (Iter.new j)
  | cont {s s'} : Reached j s → step j s = .ok (.cont s') → Reached j s'
  | emit {s e s'} : Reached j s → step j s = .ok (.emit e s') → Reached j s'

/-- The iteration goes on for ever: in no state it comes to does it stop or panic. -/
def NeverEnds (j : Job F32) : Prop :=
  ∀ s, Reached j s → ∃ s', step j s = .ok (.cont s') ∨ ∃ e, step j s = .ok (.emit e s')

/-- 2^24 and -2^24. -/
def loopMax : F32 := ⟨0x4b800000⟩
def loopMin : F32 := ⟨0xcb800000⟩

end Ozz.Spec
