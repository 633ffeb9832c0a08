import Verif.Model.IK

/-! The polynomial approximations of math.rs:1090-1228, over any number type. -/

namespace Ozz.Trig

/-- Conversions to integers. -/
class IntOps (α : Type) where
  /-- `trunc` -/
  trunc : α → α
  /-- Bit `i` of `to_int_unchecked`, for a value that is a natural number. -/
  bit : Nat → α → Bool

/-- Truncation of a single precision number; the whole part is exact. -/
def truncF32 (x : F32) : F32 :=
  if x.isFinite then F32.pack x.negative (F32.roundMag (x.mag / 2 ^ 149 * 2 ^ 149) 1) else x

instance : IntOps F32 where
  trunc := truncF32
  bit := fun i x => (x.mag / 2 ^ 149).testBit i

variable {α : Type} [Add α] [Sub α] [Mul α] [Div α] [Neg α] [NumOps α] [IntOps α]

/-- `FRAC_2_PI`, `FRAC_PI_2`: `core::f32::consts`. -/
def frac2Pi : α := NumOps.lit 636619772367581343075535053490057448 (10 ^ 36)
def fracPi2 : α := NumOps.lit 157079632679489661923132169163975144 (10 ^ 35)

/-- The whole number that `fx4_sin_cos` converts with `to_int_unchecked`, math.rs:1111 and 1146; the conversion is
undefined behaviour unless it fits `i32`. -/
def quadrant (v : α) : α := IntOps.trunc (frac2Pi * NumOps.abs v + NumOps.half)

/-- `fx4_sin_cos`, math.rs:1090-1163, in one lane. -/
def sinCos (v : α) : α × α :=
  let n1 : α := NumOps.lit 15703125 (10 ^ 7)
  let n2 : α := NumOps.lit 4837512969970703125 (10 ^ 22)
  let n3 : α := NumOps.lit 7549789948768648 (10 ^ 23)
  let c1 : α := NumOps.lit 2443315711809948 (10 ^ 20)
  let c2 : α := NumOps.lit 1388731625493765 (10 ^ 18)
  let c3 : α := NumOps.lit 4166664568298827 (10 ^ 17)
  let s1 : α := -NumOps.lit 19515295891 (10 ^ 14)
  let s2 : α := NumOps.lit 83321608736 (10 ^ 13)
  let s3 : α := NumOps.lit 16666654611 (10 ^ 11)
  let sinSign := NumOps.lt v NumOps.zero
  let x := NumOps.abs v
  let quadrant := quadrant v
  let x := ((x - quadrant * n1) - quadrant * n2) - quadrant * n3
  let x2 := x * x
  let taylorCos := ((c1 * x2 - c2) * x2 + c3) * x2 * x2 - NumOps.half * x2 + NumOps.one
  let taylorSin := ((s1 * x2 + s2) * x2 - s3) * x2 * x + x
  let bit1 := IntOps.bit 0 quadrant
  let bit2 := IntOps.bit 1 quadrant
  let s := if bit1 then taylorCos else taylorSin
  let c := if bit1 then taylorSin else taylorCos
  (flip (sinSign != bit2) s, flip (bit1 != bit2) c)

omit [IntOps α] in
/-- `fx4_asin`, math.rs:1184-1222, in one lane. -/
def asin (v : α) : α :=
  let n1 : α := NumOps.lit 42163199048 (10 ^ 12)
  let n2 : α := NumOps.lit 24181311049 (10 ^ 12)
  let n3 : α := NumOps.lit 45470025998 (10 ^ 12)
  let n4 : α := NumOps.lit 74953002686 (10 ^ 12)
  let n5 : α := NumOps.lit 16666752422 (10 ^ 11)
  let sign := NumOps.lt v NumOps.zero
  let a := NumOps.min (NumOps.abs v) NumOps.one
  let z1 := a * a
  let x1 := a
  let z2 := NumOps.half * (NumOps.one - a)
  let x2 := NumOps.sqrt z2
  let greater := NumOps.lt NumOps.half a
  let z := if greater then z2 else z1
  let x := if greater then x2 else x1
  let z := ((((n1 * z + n2) * z + n3) * z + n4) * z + n5) * z * x + x
  let z := if greater then fracPi2 - (z + z) else z
  flip sign z

omit [IntOps α] in
/-- `fx4_acos`, math.rs:1225-1228, in one lane. -/
def acos (v : α) : α := fracPi2 - asin v

/-- The functions used by the IK jobs. -/
def polyTrig : IK.Trig α where
  sinCos v := (fun l => (sinCos (v l)).1, fun l => (sinCos (v l)).2)
  acos v := fun l => acos (v l)

end Ozz.Trig
