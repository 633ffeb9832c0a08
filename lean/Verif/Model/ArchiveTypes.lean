import Verif.Model.Archive

/-! The types an archive can be asked for that no loader of the crate reads, /repo/src/archive.rs:150-180. -/

namespace Ozz

/-- `i8::read`, `i16::read`, `i32::read`, `i64::read`: an integer of `n` bytes. -/
def readSigned (a : Archive) (n : Nat) : Rd Int := do return (BitVec.ofNat (8 * n) (← readPrim a n)).toInt

/-- `u64::read`, and `f64::read` as the bits of the float. -/
def readU64 (a : Archive) : Rd UInt64 := do return UInt64.ofNat (← readPrim a 8)

/-- `bool::read`: the byte of the archive becomes the `bool` as it is (archive.rs:155-160) and swapping does nothing
(endian.rs:43-47). `none` is a `bool` that is neither true nor false, which is undefined behaviour. -/
def readBool (_ : Archive) : Rd (Option Bool) := do
  let bs ← readExact 1
  return if bs.getD 0 0 = 0 then some false else if bs.getD 0 0 = 1 then some true else none

end Ozz
