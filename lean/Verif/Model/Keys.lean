import Verif.Model.Float

/-!
Compressed keys: half floats (/repo/src/math.rs:900-939), `Float3Key` and `QuaternionKey`
(/repo/src/animation.rs:22-158). Bit manipulation is on bit vectors, floats are `F32`. The one-key
quaternion decompression is written over any number type with its operations, so that it can be read
both with `f32` arithmetic and with exact arithmetic.
-/

namespace Ozz.Keys

open Ozz

/-! ### Half floats -/

/-- `f32::from_bits((254 - 15) << 23)`, math.rs:916 and 926. -/
def magic : F32 := ⟨(254#32 - 15#32) <<< 23⟩

/-- `f16_to_f32`, math.rs:900-920. -/
def f16ToF32 (n : BitVec 16) : F32 :=
  let sign := (n &&& 0x8000#16).setWidth 32
  let expo := (n &&& 0x7C00#16).setWidth 32
  if expo = 0x7C00#32 then
    let base := (n &&& 0x03FF#16).setWidth 32
    if base ≠ 0#32 then F32.nan
    else if sign = 0x8000#32 then F32.inf true else F32.inf false
  else
    let expmant := (n &&& 0x7FFF#16).setWidth 32
    let shifted : F32 := ⟨expmant <<< 13⟩
    let scaled := (F32.mul shifted magic).bits
    ⟨(sign <<< 16) ||| scaled⟩

/-- One lane of `simd_f16_to_f32`, math.rs:922-939. -/
def f16ToF32Lane (n : BitVec 16) : F32 :=
  let int := n.setWidth 32
  let expmant := 0x7FFF#32 &&& int
  let shifted : F32 := ⟨expmant <<< 13⟩
  let scaled := F32.mul shifted magic
  let wasInfNan := if (0x7BFF#32).sle expmant then BitVec.allOnes 32 else 0#32
  let sign := (int ^^^ expmant) <<< 16
  let infNanExp := wasInfNan &&& (255#32 <<< 23)
  let signInf := sign ||| infNanExp
  ⟨scaled.bits ||| signInf⟩

/-- `simd_f16_to_f32`. -/
def simdF16ToF32 (half4 : Fin 4 → BitVec 16) : Fin 4 → F32 := fun i => f16ToF32Lane (half4 i)

/-- `Float3Key([u16; 3])`. -/
abbrev Float3Key := Fin 3 → BitVec 16

/-- `Float3Key::decompress`, animation.rs:29-31. -/
def Float3Key.decompress (k : Float3Key) : Fin 3 → F32 := fun c => f16ToF32 (k c)

/-- `Float3Key::simd_decompress`, animation.rs:33-38: component, then lane. -/
def Float3Key.simdDecompress (k : Fin 4 → Float3Key) : Fin 3 → Fin 4 → F32 := fun c =>
  simdF16ToF32 fun lane => k lane c

/-! ### Quaternions -/

/-- `QuaternionKey([u16; 3])`, animation.rs:56. -/
structure QuatKey where
  w0 : BitVec 16
  w1 : BitVec 16
  w2 : BitVec 16
  deriving DecidableEq

/-- Result of `unpack`. -/
structure Unpacked where
  biggest : BitVec 16
  sign : BitVec 16
  v0 : BitVec 32
  v1 : BitVec 32
  v2 : BitVec 32
  deriving DecidableEq

/-- `QuaternionKey::unpack`, animation.rs:63-69. -/
def QuatKey.unpack (k : QuatKey) : Unpacked :=
  let packed : BitVec 32 :=
    ((k.w0.setWidth 32) >>> 3) ||| ((k.w1.setWidth 32) <<< 13) ||| ((k.w2.setWidth 32) <<< 29)
  { biggest := k.w0 &&& 0x3#16
    sign := (k.w0 >>> 2) &&& 0x1#16
    v0 := packed &&& 0x7fff#32
    v1 := (packed >>> 15) &&& 0x7fff#32
    v2 := (k.w2.setWidth 32) >>> 1 }

/-- Four lanes or components. -/
def vec4 {α : Type} (a b c d : α) : Fin 4 → α
  | 0 => a | 1 => b | 2 => c | 3 => d

/-- `largest as usize` as an index; `& 0x3` keeps it below four (proved in C11), so the indexing it is
used for does not panic. -/
def Unpacked.largest (u : Unpacked) : Fin 4 := Fin.ofNat 4 u.biggest.toNat

/-- `value[i]`. -/
def Unpacked.value (u : Unpacked) : Fin 3 → BitVec 32
  | 0 => u.v0 | 1 => u.v1 | 2 => u.v2

/-- `MAPPING`, animation.rs:73 and 111. -/
def mapping : Fin 4 → Fin 4 → Fin 3
  | 0 => vec4 0 0 1 2
  | 1 => vec4 0 0 1 2
  | 2 => vec4 0 1 0 2
  | 3 => vec4 0 1 2 0

/-- Number operations of the decompression besides `+ - *`. -/
class KeyOps (α : Type) where
  zero : α
  one : α
  /-- `SQRT_2 / 32767.0` -/
  scale : α
  /-- `-SQRT_2 / 2.0` -/
  offset : α
  ofU32 : BitVec 32 → α
  max : α → α → α
  sqrt : α → α

/-- `core::f32::consts::SQRT_2`. -/
def sqrt2F32 : F32 := ⟨0x3fb504f3#32⟩

/-- `f32` arithmetic. -/
instance : KeyOps F32 where
  zero := F32.zero
  one := F32.one
  scale := sqrt2F32 / F32.ofNat 32767
  offset := -sqrt2F32 / F32.ofNat 2
  ofU32 := fun v => F32.ofNat v.toNat
  max := F32.fmax
  sqrt := F32.sqrt

/-- `v[i] = x`. -/
def setAt {α : Type} (v : Fin 4 → α) (i : Fin 4) (x : α) : Fin 4 → α := fun j => if j = i then x else v j

section
variable {α : Type} [Add α] [Sub α] [Mul α] [Neg α] [KeyOps α]

/-- `QuaternionKey::decompress`, animation.rs:72-95: components x, y, z, w. -/
def QuatKey.decompress (k : QuatKey) : Fin 4 → α :=
  let u := k.unpack
  let largest := u.largest
  let cmpKeys : Fin 4 → BitVec 32 := fun i => u.value (mapping largest i)
  let cpnt : Fin 4 → α := fun i => KeyOps.scale * KeyOps.ofU32 (cmpKeys i) + KeyOps.offset
  let cpnt := setAt cpnt largest KeyOps.zero
  let dot := cpnt 0 * cpnt 0 + cpnt 1 * cpnt 1 + cpnt 2 * cpnt 2 + cpnt 3 * cpnt 3
  let ww0 : α := KeyOps.max KeyOps.zero (KeyOps.one - dot)
  let w0 := KeyOps.sqrt ww0
  let restored := if u.sign = 0#16 then w0 else -w0
  setAt cpnt largest restored

end

/-- `!MASK_..` for lane `i` (0: MASK_F000, .. 3: MASK_000F), animation.rs:106-109. -/
def keepOthers (i : Fin 4) : Fin 4 → BitVec 32 := fun j => if j = i then 0#32 else BitVec.allOnes 32
/-- `MASK_..` for lane `i`. -/
def keepLane (i : Fin 4) : Fin 4 → BitVec 32 := fun j => if j = i then BitVec.allOnes 32 else 0#32

/-- `fx4(ix4(v) & m)` -/
def andBits (v : Fin 4 → F32) (m : Fin 4 → BitVec 32) : Fin 4 → F32 := fun j => ⟨(v j).bits &&& m j⟩
/-- `fx4(ix4(v) | m)` -/
def orBits (v : Fin 4 → F32) (m : Fin 4 → BitVec 32) : Fin 4 → F32 := fun j => ⟨(v j).bits ||| m j⟩

/-- `QuaternionKey::simd_decompress`, animation.rs:99-157: component, then lane. -/
def QuatKey.simdDecompress (k : Fin 4 → QuatKey) : Fin 4 → Fin 4 → F32 :=
  let u := fun lane => (k lane).unpack
  let largest := fun lane => (u lane).largest
  let cmpKeys : Fin 4 → Fin 4 → F32 := fun c lane =>
    F32.ofNat ((u lane).value (mapping (largest lane) c)).toNat
  let cpnt : Fin 4 → Fin 4 → F32 := fun c lane => KeyOps.scale * cmpKeys c lane + KeyOps.offset
  let cpnt := setAt cpnt (largest 0) (andBits (cpnt (largest 0)) (keepOthers 0))
  let cpnt := setAt cpnt (largest 1) (andBits (cpnt (largest 1)) (keepOthers 1))
  let cpnt := setAt cpnt (largest 2) (andBits (cpnt (largest 2)) (keepOthers 2))
  let cpnt := setAt cpnt (largest 3) (andBits (cpnt (largest 3)) (keepOthers 3))
  let dot : Fin 4 → F32 := fun lane =>
    cpnt 0 lane * cpnt 0 lane + cpnt 1 lane * cpnt 1 lane + cpnt 2 lane * cpnt 2 lane
      + cpnt 3 lane * cpnt 3 lane
  let ww0 : Fin 4 → F32 := fun lane => F32.fmax F32.zero (F32.one - dot lane)
  let w0 := fun lane => F32.sqrt (ww0 lane)
  let sign : Fin 4 → BitVec 32 := fun lane => ((u lane).sign.setWidth 32) <<< 31
  let restored : Fin 4 → BitVec 32 := fun lane => (w0 lane).bits ||| sign lane
  let cpnt := setAt cpnt (largest 0) (orBits (cpnt (largest 0)) fun j => restored j &&& keepLane 0 j)
  let cpnt := setAt cpnt (largest 1) (orBits (cpnt (largest 1)) fun j => restored j &&& keepLane 1 j)
  let cpnt := setAt cpnt (largest 2) (orBits (cpnt (largest 2)) fun j => restored j &&& keepLane 2 j)
  let cpnt := setAt cpnt (largest 3) (orBits (cpnt (largest 3)) fun j => restored j &&& keepLane 3 j)
  cpnt

/-! ### Clamping the sampling ratio -/

/-- `f32_clamp_or_max`, math.rs:1080-1082, for given `f32::min` and `f32::max`. -/
def clampOrMax (fmin fmax : F32 → F32 → F32) (v lo hi : F32) : F32 := fmax (fmin v hi) lo

/-- `f32_clamp_or_min`, math.rs:1085-1087. -/
def clampOrMin (fmin fmax : F32 → F32 → F32) (v lo hi : F32) : F32 := fmin (fmax v lo) hi

/-- `SamplingJob::set_ratio`, sampling_job.rs:1055-1057: the ratio stored. -/
def setRatio (fmin fmax : F32 → F32 → F32) (ratio : F32) : F32 := clampOrMax fmin fmax ratio F32.zero F32.one

end Ozz.Keys
