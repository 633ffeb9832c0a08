import Verif.Model.ContextEq
import Mathlib.Data.List.Forall2

/-! When two sampling contexts hold the same data: the same whole numbers, and floats that are the same number. -/

namespace Ozz.Spec

open Sampling ContextEq

/-- Neither is a NaN, and they have the same bits or are both zero. -/
def SameNumber (x y : F32) : Prop :=
  x.bits.toNat % 2 ^ 31 ≤ 0x7F800000 ∧ y.bits.toNat % 2 ^ 31 ≤ 0x7F800000 ∧
    (x.bits = y.bits ∨ (x.bits.toNat % 2 ^ 31 = 0 ∧ y.bits.toNat % 2 ^ 31 = 0))

/-- The numbers of a translation or scale: key ratios, then the two keys. -/
def numbers3 (v : Interp F32 (SoaVec3 F32)) (l : Fin 4) : List F32 :=
  [v.ratio0 l, v.ratio1 l, v.value0.x l, v.value0.y l, v.value0.z l, v.value1.x l, v.value1.y l, v.value1.z l]

/-- The numbers of a rotation. -/
def numbersQ (v : Interp F32 (SoaQuat F32)) (l : Fin 4) : List F32 :=
  [v.ratio0 l, v.ratio1 l, v.value0.x l, v.value0.y l, v.value0.z l, v.value0.w l, v.value1.x l, v.value1.y l, v.value1.z l, v.value1.w l]

/-- One channel of two contexts. -/
structure SameCache {V : Type} (numbers : Interp F32 V → Fin 4 → List F32) (a b : Cache F32 V) : Prop where
  entries : a.entries = b.entries
  outdated : a.outdated = b.outdated
  next : a.next = b.next
  values : List.Forall₂ (fun x y => ∀ l, List.Forall₂ SameNumber (numbers x l) (numbers y l)) a.values b.values

/-- One channel of two contexts, apart from the place in the keys. -/
structure SameCached {V : Type} (numbers : Interp F32 V → Fin 4 → List F32) (a b : Cache F32 V) : Prop where
  entries : a.entries = b.entries
  outdated : a.outdated = b.outdated
  values : List.Forall₂ (fun x y => ∀ l, List.Forall₂ SameNumber (numbers x l) (numbers y l)) a.values b.values

/-- Two contexts hold the same data. -/
structure SameContext (a b : Ctx) : Prop where
  maxSoa : a.maxSoa = b.maxSoa
  animationId : a.animationId = b.animationId
  ratio : SameNumber a.ratio b.ratio
  translations : SameCache numbers3 a.translations b.translations
  rotations : SameCache numbersQ a.rotations b.rotations
  scales : SameCache numbers3 a.scales b.scales

/-- No NaN in the context. -/
def NoNaN (c : Ctx) : Prop :=
  c.ratio.isNaN = false ∧ (∀ v ∈ c.translations.values, ∀ l, ∀ x ∈ numbers3 v l, x.isNaN = false) ∧
    (∀ v ∈ c.rotations.values, ∀ l, ∀ x ∈ numbersQ v l, x.isNaN = false) ∧
    ∀ v ∈ c.scales.values, ∀ l, ∀ x ∈ numbers3 v l, x.isNaN = false

end Ozz.Spec
