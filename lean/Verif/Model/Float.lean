import Verif.Model.Basic

/-!
IEEE-754 single precision (`f32`), external to the crate, as bit patterns with exact integer
arithmetic: every finite `f32` is a whole multiple of 2^-149, so magnitudes are natural numbers in
that unit. Results are rounded to nearest, ties to even. A NaN result is the default quiet NaN (Rust
leaves its sign and payload open); no theorem depends on which NaN it is.
-/

namespace Ozz

/-- A 32-bit float, by its bits. -/
structure F32 where
  bits : BitVec 32
  deriving DecidableEq

namespace F32

/-- The bits without the sign bit. -/
def low (x : F32) : Nat := x.bits.toNat % 2 ^ 31

/-- The sign bit. -/
def negative (x : F32) : Bool := decide (2 ^ 31 ≤ x.bits.toNat)

/-- Exponent field all ones, mantissa not zero. -/
def isNaN (x : F32) : Bool := decide (255 * 2 ^ 23 < x.low)
def isInf (x : F32) : Bool := decide (x.low = 255 * 2 ^ 23)
def isFinite (x : F32) : Bool := decide (x.low < 255 * 2 ^ 23)

/-- Magnitude, in units of 2^-149, of the finite float with the given exponent and mantissa bits. -/
def magOf (b : Nat) : Nat := if b < 2 ^ 23 then b else (2 ^ 23 + b % 2 ^ 23) * 2 ^ (b / 2 ^ 23 - 1)

/-- Magnitude of a finite float in units of 2^-149. -/
def mag (x : F32) : Nat := magOf x.low

/-- Puts sign and other bits together. -/
def pack (neg : Bool) (low : Nat) : F32 := ⟨BitVec.ofNat 32 ((if neg then 2 ^ 31 else 0) + low)⟩

def nan : F32 := pack false (255 * 2 ^ 23 + 2 ^ 22)
def inf (neg : Bool) : F32 := pack neg (255 * 2 ^ 23)
def zero : F32 := pack false 0
def one : F32 := pack false (127 * 2 ^ 23)

/-- `num / den` rounded to an integer, ties to even. -/
def roundDiv (num den : Nat) : Nat :=
  let t := num / den
  let r := num % den
  if den < 2 * r ∨ (2 * r = den ∧ t % 2 = 1) then t + 1 else t

/-- Number of low bits lost by a magnitude `q`: 24 significant bits are kept. -/
def shiftOf (q : Nat) : Nat := q.log2 - 23

/-- Exponent and mantissa bits of the float nearest to the magnitude `num / den`. -/
def roundMag (num den : Nat) : Nat :=
  let e := shiftOf (num / den)
  min (e * 2 ^ 23 + roundDiv num (den * 2 ^ e)) (255 * 2 ^ 23)

/-- Signed magnitude of a finite float. -/
def signedMag (x : F32) : Int := if x.negative then -(x.mag : Int) else x.mag

/-- `+` -/
def add (x y : F32) : F32 :=
  if x.isNaN || y.isNaN then nan
  else if x.isInf then (if y.isInf && x.negative != y.negative then nan else x)
  else if y.isInf then y
  else
    let s := x.signedMag + y.signedMag
    if s = 0 then pack (x.negative && y.negative) 0
    else pack (decide (s < 0)) (roundMag s.natAbs 1)

/-- unary `-` -/
def neg (x : F32) : F32 := pack (!x.negative) x.low

/-- `-` -/
def sub (x y : F32) : F32 := if x.isNaN || y.isNaN then nan else add x (neg y)

/-- `*` -/
def mul (x y : F32) : F32 :=
  let s := x.negative != y.negative
  if x.isNaN || y.isNaN then nan
  else if x.isInf then (if y.low = 0 then nan else inf s)
  else if y.isInf then (if x.low = 0 then nan else inf s)
  else pack s (roundMag (x.mag * y.mag) (2 ^ 149))

/-- `/` -/
def div (x y : F32) : F32 :=
  let s := x.negative != y.negative
  if x.isNaN || y.isNaN then nan
  else if x.isInf then (if y.isInf then nan else inf s)
  else if y.isInf then pack s 0
  else if y.low = 0 then (if x.low = 0 then nan else inf s)
  else pack s (roundMag (x.mag * 2 ^ 149) y.mag)

/-- Integer square root by bisection: the largest `r` below `2 ^ bits` with `r * r ≤ n`. -/
def isqrt (n : Nat) : (bits : Nat) → (acc : Nat) → Nat
  | 0, acc => acc
  | b + 1, acc =>
    let c := acc + 2 ^ b
    if c * c ≤ n then isqrt n b c else isqrt n b acc

/-- `sqrt`: the root of the magnitude in half units, with a sticky bit standing for what is left. -/
def sqrt (x : F32) : F32 :=
  if x.isNaN then nan
  else if x.low = 0 then x
  else if x.negative then nan
  else if x.isInf then x
  else
    let n := x.mag * 2 ^ 149 * 4
    let r := isqrt n 216 0
    pack false (roundMag (2 * r + if r * r = n then 0 else 1) 4)

/-- Position on the number line of what is not a NaN. -/
def rank (x : F32) : Int := if x.negative then -(x.low : Int) else x.low

/-- `<`, `<=`, `==` -/
def lt (x y : F32) : Bool := !x.isNaN && !y.isNaN && decide (x.rank < y.rank)
def le (x y : F32) : Bool := !x.isNaN && !y.isNaN && decide (x.rank ≤ y.rank)
def eq (x y : F32) : Bool := !x.isNaN && !y.isNaN && decide (x.rank = y.rank)

/-- `u32 as f32`. -/
def ofNat (n : Nat) : F32 := pack false (roundMag (n * 2 ^ 149) 1)

/-- `as i32`: towards zero, saturating; 0 for a NaN. -/
def toI32 (x : F32) : Int :=
  if x.isNaN then 0
  else
    let m : Int := (x.mag / 2 ^ 149 : Nat)
    max (-(2 ^ 31)) (min (if x.negative then -m else m) (2 ^ 31 - 1))

def ofBits (n : Nat) : F32 := ⟨BitVec.ofNat 32 n⟩

/-- `f32::max`: the other argument if one is a NaN. (For zeros of different signs Rust leaves the
result open; this takes the first.) -/
def fmax (x y : F32) : F32 :=
  if x.isNaN then y else if y.isNaN then x else if lt x y then y else x

/-- `f32::min`. -/
def fmin (x y : F32) : F32 :=
  if x.isNaN then y else if y.isNaN then x else if lt y x then y else x

instance : Add F32 := ⟨add⟩
instance : Sub F32 := ⟨sub⟩
instance : Mul F32 := ⟨mul⟩
instance : Div F32 := ⟨div⟩
instance : Neg F32 := ⟨neg⟩

end F32

end Ozz
