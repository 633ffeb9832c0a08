/-!
Group varint format, written from its description (values in groups of four: a prefix byte with a
two-bit "number of bytes minus one" per value, lowest first, then the values in little-endian, each
on as few bytes as it needs).
-/

namespace Ozz.Spec

/-- Number of bytes needed by a 32-bit value. -/
def byteCount (v : Nat) : Nat :=
  if v < 256 then 1 else if v < 65536 then 2 else if v < 16777216 then 3 else 4

/-- The `n` low bytes of `v`, little-endian. -/
def leBytes : (n : Nat) → (v : Nat) → List UInt8
  | 0, _ => []
  | n + 1, v => UInt8.ofNat (v % 256) :: leBytes n (v / 256)

/-- Encoding of one group. -/
def gv4Group (a b c d : Nat) : List UInt8 :=
  UInt8.ofNat ((byteCount a - 1) + 4 * (byteCount b - 1) + 16 * (byteCount c - 1)
      + 64 * (byteCount d - 1))
    :: (leBytes (byteCount a) a ++ leBytes (byteCount b) b ++ leBytes (byteCount c) c
      ++ leBytes (byteCount d) d)

/-- Encoding of a stream whose length is a multiple of four (a shorter tail is not encodable). -/
def gv4Encode : List Nat → List UInt8
  | a :: b :: c :: d :: rest => gv4Group a b c d ++ gv4Encode rest
  | _ => []

end Ozz.Spec
