import Verif.Model.Triggering
import Mathlib.Algebra.Order.Floor.Ring
import Mathlib.Algebra.Order.Field.Basic

/-!
Threshold crossings of a looping track, in exact arithmetic (any ordered field with a floor: the
rationals, the reals).
-/

namespace Ozz.Spec

/-- A user track whose key ratios increase strictly within [0, 1], with one step bit per key. -/
structure TrackOk {α V : Type} [LE α] [LT α] [Zero α] [One α] (t : Track α V) : Prop where
  ratiosLen : t.ratios.length = t.keyCount
  valuesLen : t.values.length = t.keyCount
  stepsLen : (t.keyCount + 7) / 8 ≤ t.steps.length
  increasing : t.ratios.Pairwise (· < ·)
  nonneg : ∀ r ∈ t.ratios, 0 ≤ r
  leOne : ∀ r ∈ t.ratios, r ≤ 1

/-- Bit `i` of the step bytes is set. -/
def IsStep {α V : Type} (t : Track α V) (i : Nat) : Prop :=
  ∃ b, t.steps[i / 8]? = some b ∧ b.toNat.testBit (i % 8) = true

/-- The key before key `i` when the track loops. -/
def before (n i : Nat) : Nat := if i = 0 then n - 1 else i - 1

variable {α : Type} [Field α] [LinearOrder α]

/-- `f32::floor` in exact arithmetic. -/
instance [IsStrictOrderedRing α] [FloorRing α] : FloorOp α := ⟨fun a => (⌊a⌋ : α)⟩

/-- Going from the key before to key `i`, the track crosses the threshold upwards (`rising`) or
downwards, at position `e` of the loop:
* a step key holds its value until key `i`;
* between the last and the first key of a loop the value jumps at the start of the loop;
* otherwise `e` is where the straight line between the two keys meets the threshold. -/
structure Crossing (t : Track α α) (threshold : α) (i : Nat) (e : α) (rising : Bool) : Prop where
  inRange : i < t.keyCount
  values : ∃ v0 v1, t.values[before t.keyCount i]? = some v0 ∧ t.values[i]? = some v1 ∧
    (if rising then v0 ≤ threshold ∧ threshold < v1 else threshold < v0 ∧ v1 ≤ threshold) ∧
    (IsStep t (before t.keyCount i) → t.ratios[i]? = some e) ∧
    (¬ IsStep t (before t.keyCount i) → i = 0 → e = 0) ∧
    (¬ IsStep t (before t.keyCount i) → i ≠ 0 → ∃ r0 r1, t.ratios[before t.keyCount i]? = some r0 ∧
      t.ratios[i]? = some r1 ∧ r0 ≤ e ∧ e ≤ r1 ∧
      v0 * (r1 - e) + v1 * (e - r0) = threshold * (r1 - r0))

/-- The crossing at position `e` of loop `k` happens in the range from `lo` (included) to `hi`
(excluded). A crossing at the very end of a loop (`e = 1`) belongs to that loop, not to the next: it
counts as happening just before time `k + 1`. -/
def Within (lo hi : α) (k : ℤ) (e : α) : Prop :=
  (e < 1 ∧ lo ≤ k + e ∧ k + e < hi) ∨ (e = 1 ∧ lo < k + 1 ∧ (k + 1 : α) ≤ hi)

/-- Order of events: by loop, then by key. -/
def EventLt (a b : ℤ × ℕ) : Prop := a.1 < b.1 ∨ (a.1 = b.1 ∧ a.2 < b.2)

/-- `l` is the list of the crossings from `lo` to `hi`: there is exactly one entry per loop and key
with a crossing in range, in the order of time. -/
def IsCrossingList (t : Track α α) (threshold lo hi : α) (l : List (Triggering.Edge α)) : Prop :=
  ∃ events : List (ℤ × ℕ),
    events.Pairwise EventLt ∧
    (∀ k i, (k, i) ∈ events ↔ ∃ e rising, Crossing t threshold i e rising ∧ Within lo hi k e) ∧
    List.Forall₂ (fun ki x => ∃ e, Crossing t threshold ki.2 e x.rising ∧ x.ratio = ki.1 + e) events l

end Ozz.Spec
