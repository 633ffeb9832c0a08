import Verif.Model.Sampling
import Verif.Model.Math

/-! `interpolates`, /repo/src/sampling_job.rs:1367-1388, over any number type: the function `interp` that
`Model/Sampling` takes as a parameter. -/

namespace Ozz.Sampling

/-- Ratios in single precision. -/
instance : RatioOps F32 where
  le := fun x y => F32.le x y = true
  lt := fun x y => F32.lt x y = true
  zero := F32.zero
  half := NumOps.half
  two := NumOps.two
  abs := NumOps.abs
  toI32 := F32.toI32
  decLe := fun _ _ => inferInstanceAs (Decidable (_ = true))
  decLt := fun _ _ => inferInstanceAs (Decidable (_ = true))

variable {α : Type} [Add α] [Sub α] [Mul α] [Div α] [Neg α] [NumOps α]

/-- Where the ratio is between the two keys of each lane, sampling_job.rs:1376, 1380, 1384. -/
def keyFraction {V : Type} (v : Interp α V) (ratio : α) : F4 α := (splat ratio - v.ratio0) / (v.ratio1 - v.ratio0)

/-- The loop body, sampling_job.rs:1375-1385. -/
def interpElement (t : Interp α (SoaVec3 α)) (r : Interp α (SoaQuat α)) (s : Interp α (SoaVec3 α)) (ratio : α) :
    SoaTransform α where
  translation := SoaVec3.lerp t.value0 t.value1 (keyFraction t ratio)
  rotation := SoaQuat.nlerp r.value0 r.value1 (keyFraction r ratio)
  scale := SoaVec3.lerp s.value0 s.value1 (keyFraction s ratio)

/-- Decompression of four keys when key `k` decompresses to `val k`: one key per lane
(`Float3Key::simd_decompress`, `QuaternionKey::simd_decompress`; see C12 and C13). -/
def lanes3 {K : Type} (val : K → Fin 3 → α) (a b c d : K) : SoaVec3 α :=
  ⟨f4 (val a 0) (val b 0) (val c 0) (val d 0), f4 (val a 1) (val b 1) (val c 1) (val d 1),
   f4 (val a 2) (val b 2) (val c 2) (val d 2)⟩

def lanesQ {K : Type} (val : K → Fin 4 → α) (a b c d : K) : SoaQuat α :=
  ⟨f4 (val a 0) (val b 0) (val c 0) (val d 0), f4 (val a 1) (val b 1) (val c 1) (val d 1),
   f4 (val a 2) (val b 2) (val c 2) (val d 2), f4 (val a 3) (val b 3) (val c 3) (val d 3)⟩

/-- The sampling job's number functions. -/
def jobNumerics {K3 KQ : Type} (v3 : K3 → Fin 3 → α) (vq : KQ → Fin 4 → α) :
    Numerics α K3 KQ (SoaVec3 α) (SoaQuat α) (SoaTransform α) where
  dec3 := lanes3 v3
  decQ := lanesQ vq
  interp := interpElement

end Ozz.Sampling
