import Verif.Model.TrackSampling
import Verif.Spec.Triggering

/-! What sampling a track at a ratio means, in exact arithmetic. -/

namespace Ozz.Spec

variable {α V : Type} [Field α] [LinearOrder α]

/-- `v` is the value of the track at ratio `x`. -/
inductive IsSample (dflt : V) (lerp : V → V → α → V) (t : Track α V) (x : α) (v : V) : Prop
  /-- A track without keys has the default value everywhere. -/
  | empty : t.keyCount = 0 → v = dflt → IsSample dflt lerp t x v
  /-- Before the first key. -/
  | first : (∀ r ∈ t.ratios, x < r) → t.values.head? = some v → IsSample dflt lerp t x v
  /-- From the last key on. -/
  | last : (∀ r ∈ t.ratios, r ≤ x) → t.values.getLast? = some v → IsSample dflt lerp t x v
  /-- From a step key on, until the next key. -/
  | step {i : Nat} {r0 r1 : α} : t.ratios[i]? = some r0 → t.ratios[i + 1]? = some r1 → r0 ≤ x → x < r1 →
      IsStep t i → t.values[i]? = some v → IsSample dflt lerp t x v
  /-- Between a key that is not a step and the next key: `s` of the way from one to the other. -/
  | linear {i : Nat} {r0 r1 s : α} {v0 v1 : V} : t.ratios[i]? = some r0 → t.ratios[i + 1]? = some r1 →
      r0 ≤ x → x < r1 → ¬ IsStep t i → t.values[i]? = some v0 → t.values[i + 1]? = some v1 →
      x = r0 + s * (r1 - r0) → v = lerp v0 v1 s → IsSample dflt lerp t x v

end Ozz.Spec
