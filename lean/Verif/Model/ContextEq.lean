import Verif.Model.SamplingCode

/-!
Comparing sampling contexts, `PartialEq for SamplingContext`, /repo/src/sampling_job.rs:241-261. Floats are compared with `==`, slices
by length and then element by element, registers lane by lane, derived comparisons (sampling_job.rs:19-25, 72-78, math.rs:46, 250) field
by field.
-/

namespace Ozz.ContextEq

open Sampling

/-- The contexts of the code. -/
abbrev Ctx := Context F32 (SoaVec3 F32) (SoaQuat F32)

/-- `f32x4 == f32x4` -/
def eq4 (a b : F4 F32) : Bool := F32.eq (a 0) (b 0) && F32.eq (a 1) (b 1) && F32.eq (a 2) (b 2) && F32.eq (a 3) (b 3)

/-- Derived `SoaVec3 == SoaVec3`, math.rs:46. -/
def eqVec3 (a b : SoaVec3 F32) : Bool := eq4 a.x b.x && eq4 a.y b.y && eq4 a.z b.z

/-- Derived `SoaQuat == SoaQuat`, math.rs:250. -/
def eqQuat (a b : SoaQuat F32) : Bool := eq4 a.x b.x && eq4 a.y b.y && eq4 a.z b.z && eq4 a.w b.w

/-- Derived `==` of `InterpSoaFloat3` and `InterpSoaQuaternion`, given the one of their values. -/
def eqInterp {V : Type} (eqV : V → V → Bool) (a b : Interp F32 V) : Bool :=
  eq4 a.ratio0 b.ratio0 && eq4 a.ratio1 b.ratio1 && eqV a.value0 b.value0 && eqV a.value1 b.value1

/-- `[T] == [T]` -/
def eqSlice {β : Type} (eqB : β → β → Bool) : List β → List β → Bool
  | [], [] => true
  | x :: xs, y :: ys => eqB x y && eqSlice eqB xs ys
  | _, _ => false

/-- The four comparisons of one channel, e.g. lines 248-251. -/
def eqCache {V : Type} (eqV : V → V → Bool) (a b : Cache F32 V) : Bool :=
  eqSlice (eqInterp eqV) a.values b.values && eqSlice (· == ·) a.entries b.entries && eqSlice (· == ·) a.outdated b.outdated &&
    a.next == b.next

/-- `SamplingContext::eq`, lines 242-260; `max_tracks` and `max_outdated` follow from `max_soa_tracks` (lines 291-292). -/
def eq (a b : Ctx) : Bool :=
  a.maxSoa * 4 == b.maxSoa * 4 && a.maxSoa == b.maxSoa && (a.maxSoa + 7) / 8 == (b.maxSoa + 7) / 8 && a.animationId == b.animationId &&
    F32.eq a.ratio b.ratio && eqCache eqVec3 a.translations b.translations && eqCache eqQuat a.rotations b.rotations &&
    eqCache eqVec3 a.scales b.scales

end Ozz.ContextEq
