import Verif.Model.Float
import Mathlib.Algebra.Notation.Pi.Defs

/-!
/repo/src/math.rs: SoA and AoS vectors, quaternions and matrices, over any number type with its
operations and without any law. A SIMD register `f32x4` is a function from lanes; `+ - * /` on it are
lane by lane (`Pi` instances).
-/

namespace Ozz

/-- Number operations used besides `+ - * /` and unary `-`. -/
class NumOps (α : Type) where
  zero : α
  one : α
  two : α
  half : α
  /-- The literal `num / den`. -/
  lit : Nat → Nat → α
  sqrt : α → α
  abs : α → α
  max : α → α → α
  min : α → α → α
  lt : α → α → Bool
  le : α → α → Bool
  eq : α → α → Bool

/-- Single precision. -/
instance : NumOps F32 where
  zero := F32.zero
  one := F32.one
  two := F32.ofNat 2
  half := F32.pack false (126 * 2 ^ 23)
  lit := fun n d => F32.pack false (F32.roundMag (n * 2 ^ 149) d)
  sqrt := F32.sqrt
  abs := fun x => F32.pack false x.low
  max := F32.fmax
  min := F32.fmin
  lt := F32.lt
  le := F32.le
  eq := F32.eq

/-- `f32x4` -/
abbrev F4 (α : Type) := Fin 4 → α

/-- `f32x4::from_array` -/
def f4 {α : Type} (a b c d : α) : F4 α
  | 0 => a | 1 => b | 2 => c | 3 => d

/-- `f32x4::splat` -/
def splat {α : Type} (a : α) : F4 α := fun _ => a

/-- `simd_swizzle!(v, [..])` -/
def swz {α : Type} (v : F4 α) (i j k l : Fin 4) : F4 α := f4 (v i) (v j) (v k) (v l)

/-- Element `i` of two registers laid end to end. -/
def pick {α : Type} (a b : F4 α) : Fin 8 → α
  | 0 => a 0 | 1 => a 1 | 2 => a 2 | 3 => a 3 | 4 => b 0 | 5 => b 1 | 6 => b 2 | 7 => b 3

/-- `simd_swizzle!(a, b, [..])` -/
def swz2 {α : Type} (a b : F4 α) (i j k l : Fin 8) : F4 α :=
  f4 (pick a b i) (pick a b j) (pick a b k) (pick a b l)

section
variable {α : Type} [Add α] [Sub α] [Mul α] [Div α] [Neg α] [NumOps α]

/-- `ZERO`, `ONE`, `TWO`, `FRAC_1_2`, math.rs:22-27. -/
def zero4 : F4 α := splat NumOps.zero
def one4 : F4 α := splat NumOps.one
def two4 : F4 α := splat NumOps.two
def half4 : F4 α := splat NumOps.half

/-- `recip` -/
def recip (x : α) : α := NumOps.one / x
def recip4 (x : F4 α) : F4 α := fun l => recip (x l)
def sqrt4 (x : F4 α) : F4 α := fun l => NumOps.sqrt (x l)
def max4 (x y : F4 α) : F4 α := fun l => NumOps.max (x l) (y l)
def min4 (x y : F4 α) : F4 α := fun l => NumOps.min (x l) (y l)
/-- `reduce_sum`, in lane order. -/
def sum4 (x : F4 α) : α := x 0 + x 1 + x 2 + x 3

/-- Exclusive or with the sign bit when asked: a change of sign. -/
def flip (s : Bool) (x : α) : α := if s then -x else x

/-- `fx4_sign`, math.rs:1043-1048: the lanes below zero. -/
def sign4 (v : F4 α) : F4 Bool := fun l => NumOps.lt (v l) NumOps.zero

/-- `fx4_xor` with a sign mask, math.rs:1061-1063. -/
def xor4 (v : F4 α) (s : F4 Bool) : F4 α := fun l => flip (s l) (v l)

/-! ### SoaVec3, math.rs:46-175 -/

structure SoaVec3 (α : Type) where
  x : F4 α
  y : F4 α
  z : F4 α

namespace SoaVec3

def add (a b : SoaVec3 α) : SoaVec3 α := ⟨a.x + b.x, a.y + b.y, a.z + b.z⟩
def sub (a b : SoaVec3 α) : SoaVec3 α := ⟨a.x - b.x, a.y - b.y, a.z - b.z⟩
def neg (a : SoaVec3 α) : SoaVec3 α := ⟨-a.x, -a.y, -a.z⟩
def mulNum (a : SoaVec3 α) (f : F4 α) : SoaVec3 α := ⟨a.x * f, a.y * f, a.z * f⟩
/-- math.rs:142-148 -/
def lerp (a b : SoaVec3 α) (f : F4 α) : SoaVec3 α :=
  ⟨(b.x - a.x) * f + a.x, (b.y - a.y) * f + a.y, (b.z - a.z) * f + a.z⟩

end SoaVec3

/-! ### SoaQuat, math.rs:253-415 -/

structure SoaQuat (α : Type) where
  x : F4 α
  y : F4 α
  z : F4 α
  w : F4 α

namespace SoaQuat

def conjugate (a : SoaQuat α) : SoaQuat α := ⟨-a.x, -a.y, -a.z, a.w⟩
def add (a b : SoaQuat α) : SoaQuat α := ⟨a.x + b.x, a.y + b.y, a.z + b.z, a.w + b.w⟩
/-- math.rs:324-330 -/
def mul (a b : SoaQuat α) : SoaQuat α :=
  ⟨a.w * b.x + a.x * b.w + a.y * b.z - a.z * b.y,
   a.w * b.y + a.y * b.w + a.z * b.x - a.x * b.z,
   a.w * b.z + a.z * b.w + a.x * b.y - a.y * b.x,
   a.w * b.w - a.x * b.x - a.y * b.y - a.z * b.z⟩
def mulNum (a : SoaQuat α) (f : F4 α) : SoaQuat α := ⟨a.x * f, a.y * f, a.z * f, a.w * f⟩
/-- math.rs:343-352 -/
def normalize (a : SoaQuat α) : SoaQuat α :=
  let len2 := a.x * a.x + a.y * a.y + a.z * a.z + a.w * a.w
  let invLen := recip4 (sqrt4 len2)
  ⟨a.x * invLen, a.y * invLen, a.z * invLen, a.w * invLen⟩
/-- math.rs:355-357 -/
def dot (a b : SoaQuat α) : F4 α := a.x * b.x + a.y * b.y + a.z * b.z + a.w * b.w
/-- math.rs:360-373 -/
def nlerp (a b : SoaQuat α) (f : F4 α) : SoaQuat α :=
  let lx := (b.x - a.x) * f + a.x
  let ly := (b.y - a.y) * f + a.y
  let lz := (b.z - a.z) * f + a.z
  let lw := (b.w - a.w) * f + a.w
  let len2 := lx * lx + ly * ly + lz * lz + lw * lw
  let invLen := recip4 (sqrt4 len2)
  ⟨lx * invLen, ly * invLen, lz * invLen, lw * invLen⟩
/-- `xor_num` with a sign mask, math.rs:396-403 -/
def xorNum (a : SoaQuat α) (s : F4 Bool) : SoaQuat α := ⟨xor4 a.x s, xor4 a.y s, xor4 a.z s, xor4 a.w s⟩
/-- math.rs:406-414 -/
def positiveW (a : SoaQuat α) : SoaQuat α := a.xorNum (sign4 a.w)

end SoaQuat

/-- `SoaTransform`, math.rs:491-496. -/
structure SoaTransform (α : Type) where
  translation : SoaVec3 α
  rotation : SoaQuat α
  scale : SoaVec3 α

/-! ### AosMat4, math.rs:601-807: four columns -/

abbrev Mat4 (α : Type) := Fin 4 → F4 α

namespace Mat4

/-- One column of `AosMat4::mul`, math.rs:685-689. -/
def mulCol (m : Mat4 α) (c : F4 α) : F4 α :=
  let xxxx := swz c 0 0 0 0 * m 0
  let zzzz := swz c 2 2 2 2 * m 2
  let a01 := swz c 1 1 1 1 * m 1 + xxxx
  let a23 := swz c 3 3 3 3 * m 3 + zzzz
  a01 + a23

/-- `AosMat4::mul`, math.rs:677-709. -/
def mul (m o : Mat4 α) : Mat4 α := fun c => m.mulCol (o c)

/-- `fx4_splat_x`, .. -/
def splatX (v : F4 α) : F4 α := swz v 0 0 0 0

/-- `AosMat4::invert`, math.rs:712-775: the transposed first column `c0` and the four minors. -/
def minors (m : Mat4 α) : F4 α × Mat4 α :=
  let b1 := fun v : F4 α => swz v 1 0 3 2
  let e4 := fun v : F4 α => swz v 2 3 0 1
  let t0 := swz2 (m 0) (m 1) 0 1 4 5
  let t1 := swz2 (m 2) (m 3) 0 1 4 5
  let t2 := swz2 (m 0) (m 1) 2 3 6 7
  let t3 := swz2 (m 2) (m 3) 2 3 6 7
  let c0 := swz2 t0 t1 0 2 4 6
  let c1 := swz2 t1 t0 1 3 5 7
  let c2 := swz2 t2 t3 0 2 4 6
  let c3 := swz2 t3 t2 1 3 5 7
  let tmp1 := b1 (c2 * c3)
  let minor0 := c1 * tmp1
  let minor1 := c0 * tmp1
  let tmp1 := e4 tmp1
  let minor0 := c1 * tmp1 - minor0
  let minor1 := c0 * tmp1 - minor1
  let minor1 := e4 minor1
  let tmp1 := b1 (c1 * c2)
  let minor0 := c3 * tmp1 + minor0
  let minor3 := c0 * tmp1
  let tmp1 := e4 tmp1
  let minor0 := minor0 - c3 * tmp1
  let minor3 := c0 * tmp1 - minor3
  let minor3 := e4 minor3
  let tmp1 := e4 c1 * c3
  let tmp1 := b1 tmp1
  let tmp2 := e4 c2
  let minor0 := tmp2 * tmp1 + minor0
  let minor2 := c0 * tmp1
  let tmp1 := e4 tmp1
  let minor0 := minor0 - tmp2 * tmp1
  let minor2 := c0 * tmp1 - minor2
  let minor2 := e4 minor2
  let tmp1 := b1 (c0 * c1)
  let minor2 := c3 * tmp1 + minor2
  let minor3 := tmp2 * tmp1 - minor3
  let tmp1 := e4 tmp1
  let minor2 := c3 * tmp1 - minor2
  let minor3 := minor3 - tmp2 * tmp1
  let tmp1 := b1 (c0 * c3)
  let minor1 := minor1 - tmp2 * tmp1
  let minor2 := c1 * tmp1 + minor2
  let tmp1 := e4 tmp1
  let minor1 := tmp2 * tmp1 + minor1
  let minor2 := minor2 - c1 * tmp1
  let tmp1 := b1 (c0 * tmp2)
  let minor1 := c3 * tmp1 + minor1
  let minor3 := minor3 - c1 * tmp1
  let tmp1 := e4 tmp1
  let minor1 := minor1 - c3 * tmp1
  let minor3 := c1 * tmp1 + minor3
  (c0, f4 minor0 minor1 minor2 minor3)

/-- `AosMat4::invert`, math.rs:777-790. -/
def invert (m : Mat4 α) : Mat4 α :=
  let (c0, minor) := m.minors
  let det := c0 * minor 0
  let det := swz det 2 3 0 1 + det
  let det := swz det 1 0 3 2 + det
  -- bits of the reciprocal where the determinant is not zero, zero bits elsewhere
  let tmp1 : F4 α := fun l => if NumOps.eq (det l) NumOps.zero then NumOps.zero else recip (det l)
  let det := (tmp1 + tmp1) - det * (tmp1 * tmp1)
  let det := splatX det
  f4 (det * minor 0) (det * minor 1) (det * minor 2) (det * minor 3)

/-- `AosMat4::transform_point`, math.rs:793-798. -/
def transformPoint (m : Mat4 α) (p : F4 α) : F4 α :=
  let xxxx := swz p 0 0 0 0 * m 0
  let a23 := swz p 2 2 2 2 * m 2 + m 3
  let a01 := swz p 1 1 1 1 * m 1 + xxxx
  a01 + a23

/-- `AosMat4::transform_vector`, math.rs:801-806. -/
def transformVector (m : Mat4 α) (p : F4 α) : F4 α :=
  let xxxx := swz p 0 0 0 0 * m 0
  let zzzz := swz p 1 1 1 1 * m 1
  let a21 := swz p 2 2 2 2 * m 2 + xxxx
  zzzz + a21

end Mat4

/-! ### SoaMat4, math.rs:814-894: sixteen registers, register `4 * c + r` is `s c r` -/

abbrev SoaMat4 (α : Type) := Fin 4 → Fin 4 → F4 α

/-- `SoaMat4::from_affine`, math.rs:821-851. -/
def SoaMat4.fromAffine (t : SoaVec3 α) (r : SoaQuat α) (s : SoaVec3 α) : SoaMat4 α :=
  let xx := r.x * r.x
  let xy := r.x * r.y
  let xz := r.x * r.z
  let xw := r.x * r.w
  let yy := r.y * r.y
  let yz := r.y * r.z
  let yw := r.y * r.w
  let zz := r.z * r.z
  let zw := r.z * r.w
  f4
    (f4 (s.x * (one4 - two4 * (yy + zz))) (s.x * two4 * (xy + zw)) (s.x * two4 * (xz - yw)) zero4)
    (f4 (s.y * two4 * (xy - zw)) (s.y * (one4 - two4 * (xx + zz))) (s.y * (two4 * (yz + xw))) zero4)
    (f4 (s.z * two4 * (xz + yw)) (s.z * two4 * (yz - xw)) (s.z * (one4 - two4 * (xx + yy))) zero4)
    (f4 t.x t.y t.z one4)

omit [Add α] [Sub α] [Mul α] [Div α] [Neg α] [NumOps α] in
/-- The four registers `aos[k]`, `aos[k+4]`, `aos[k+8]`, `aos[k+12]` of `to_aos` from four source
registers, e.g. math.rs:859-866 for `k = 0`. -/
def transpose4 (a b c d : F4 α) : Fin 4 → F4 α :=
  let low := fun p q : F4 α => swz2 p q 0 4 1 5
  let high := fun p q : F4 α => swz2 p q 2 6 3 7
  let tmp0 := low a c
  let tmp1 := low b d
  let tmp2 := high a c
  let tmp3 := high b d
  f4 (low tmp0 tmp1) (high tmp0 tmp1) (low tmp2 tmp3) (high tmp2 tmp3)

omit [Add α] [Sub α] [Mul α] [Div α] [Neg α] [NumOps α] in
/-- `SoaMat4::to_aos`, math.rs:853-893: matrix, then column. The final `transmute` of the sixteen
registers to four matrices makes register `4 * m + c` column `c` of matrix `m`. -/
def SoaMat4.toAos (s : SoaMat4 α) : Fin 4 → Mat4 α := fun m =>
  f4 (transpose4 (s 0 0) (s 0 1) (s 0 2) (s 0 3) m) (transpose4 (s 1 0) (s 1 1) (s 1 2) (s 1 3) m)
    (transpose4 (s 2 0) (s 2 1) (s 2 2) (s 2 3) m) (transpose4 (s 3 0) (s 3 1) (s 3 2) (s 3 3) m)

/-! ### Vectors and quaternions in one register -/

/-- `fx4_set_y/z/w`, math.rs:988-1000: element 0 of `b` put into `a`. -/
def setY (a b : F4 α) : F4 α := swz2 a b 0 4 2 3
def setZ (a b : F4 α) : F4 α := swz2 a b 0 1 4 3
def setW (a b : F4 α) : F4 α := swz2 a b 0 1 2 4

/-- `fx4_lerp`, math.rs:1241-1243. -/
def lerp4 (a b f : F4 α) : F4 α := f * (b - a) + a

/-- `vec3_is_normalized`, math.rs:1246-1251. -/
def vec3IsNormalized (v : F4 α) : Bool :=
  let len2 := v 0 * v 0 + v 1 * v 1 + v 2 * v 2
  NumOps.lt (NumOps.lit 998 1000) len2 && NumOps.lt len2 (NumOps.lit 1002 1000)

/-- `vec3_dot_s`, math.rs:1259-1262: only lane 0 is meaningful. -/
def vec3DotS (a b : F4 α) : F4 α :=
  let tmp := a * b
  tmp + swz tmp 1 1 1 1 + swz tmp 2 2 2 2

/-- `vec3_length2_s`, math.rs:1254-1256. -/
def vec3Length2S (v : F4 α) : F4 α := vec3DotS v v

/-- `vec3_cross`, math.rs:1264-1269. -/
def vec3Cross (a b : F4 α) : F4 α :=
  let shufa := swz a 1 2 0 3
  let shufb := swz b 1 2 0 3
  let shufc := a * shufb - b * shufa
  swz shufc 1 2 0 3

/-- `quat_from_axis_angle`, math.rs:1271-1275, for given sine and cosine. -/
def quatFromAxisAngle (sinCos : F4 α → F4 α × F4 α) (axis angle : F4 α) : F4 α :=
  let halfAngle := swz angle 0 0 0 0 * half4
  let (s, c) := sinCos halfAngle
  setW (axis * s) c

/-- `quat_from_cos_angle`, math.rs:1277-1284. -/
def quatFromCosAngle (axis cos : F4 α) : F4 α :=
  let halfCos2 := (one4 + cos) * half4
  let halfSin2 := one4 - halfCos2
  let halfCosSin := sqrt4 (setY halfCos2 halfSin2)
  let halfSin := swz halfCosSin 1 1 1 1
  setW (axis * halfSin) halfCosSin

/-- `quat_normalize`, math.rs:1317-1322. -/
def quatNormalize (q : F4 α) : F4 α :=
  let invLen := recip4 (sqrt4 (splat (sum4 (q * q))))
  q * invLen

/-- `QUAT_UNIT` -/
def quatUnit : F4 α := f4 NumOps.zero NumOps.zero NumOps.zero NumOps.one

/-- `quat_from_vectors`, math.rs:1286-1308. -/
def quatFromVectors (a b : F4 α) : F4 α :=
  let norms := sqrt4 (vec3Length2S a * vec3Length2S b)
  if NumOps.lt (norms 0) (NumOps.lit 1 1000000) then quatUnit
  else
    let realPart := norms + vec3DotS a b
    let q :=
      if NumOps.lt (realPart 0) (NumOps.lit 1 1000000 * norms 0) then
        if NumOps.lt (NumOps.abs (a 2)) (NumOps.abs (a 0)) then
          f4 (-a 1) (a 0) NumOps.zero NumOps.zero
        else f4 NumOps.zero (-a 2) (a 1) NumOps.zero
      else setW (vec3Cross a b) realPart
    quatNormalize q

/-- `quat_transform_vector`, math.rs:1325-1329. -/
def quatTransformVector (q v : F4 α) : F4 α :=
  let cross1 := swz q 3 3 3 3 * v + vec3Cross q v
  let cross2 := vec3Cross q cross1
  v + cross2 + cross2

/-- `quat_mul`, math.rs:1332-1338; the last step flips the sign of `w`. -/
def quatMul (a b : F4 α) : F4 α :=
  let p1 := swz a 3 3 3 2 * swz b 0 1 2 2
  let p2 := swz a 0 1 2 0 * swz b 3 3 3 0
  let p13 := swz a 1 2 0 1 * swz b 2 0 1 1 + p1
  let p24 := p2 - swz a 2 0 1 3 * swz b 1 2 0 3
  xor4 (p13 + p24) (f4 false false false true)

/-- `quat_positive_w`, math.rs:1341-1344. -/
def quatPositiveW (q : F4 α) : F4 α := xor4 q (sign4 (swz q 3 3 3 3))

end

end Ozz
