import Verif.Model.Basic

/-!
Archive reading, /repo/src/archive.rs and /repo/src/endian.rs.

A reader is a state transformer on the bytes that remain. Numbers are read as their bit pattern (an
`f32` is its 32 bits). Memory exhaustion (`Vec::with_capacity` of a huge count) is not modelled;
the types no loader reads are in `ArchiveTypes`.
-/

namespace Ozz

/-- `Endian`, endian.rs:5-9. -/
inductive Endian
  | big
  | little
  deriving DecidableEq

/-- `Endian::from_tag`, endian.rs:22-28. -/
def Endian.fromTag (tag : UInt8) : Endian := if tag == 0 then .big else .little

/-- The part of `Archive`, archive.rs:18-21, that is not the stream, together with the byte order of
the host (`Endian::native`, endian.rs:12-20). -/
structure Archive where
  native : Endian
  endianSwap : Bool

/-- A reading function: remaining bytes in, value and remaining bytes out. -/
abbrev Rd (α : Type) := StateT (List UInt8) (Except Fault) α

/-- `Read::read_exact` into a buffer of `n` bytes. -/
def readExact (n : Nat) : Rd (List UInt8) := fun s =>
  if n ≤ s.length then .ok (s.take n, s.drop n) else .error (.err .io)

/-- Bytes of a number, least significant first. -/
def leBytes : Nat → Nat → List UInt8
  | 0, _ => []
  | n + 1, v => UInt8.ofNat v :: leBytes n (v / 256)

/-- Number with the given bytes, least significant first. -/
def leValue : List UInt8 → Nat
  | [] => 0
  | b :: bs => b.toNat + 256 * leValue bs

/-- The number whose memory representation on the host is `bs`. -/
def nativeValue (e : Endian) (bs : List UInt8) : Nat :=
  match e with
  | .little => leValue bs
  | .big => leValue bs.reverse

/-- `swap_bytes` on an `n`-byte number, endian.rs:31-95. -/
def swapBytes (n v : Nat) : Nat := leValue (leBytes n v).reverse

/-- `Archive::new`, archive.rs:26-35. -/
def Archive.new (native : Endian) : Rd Archive := do
  let tag ← readExact 1
  let fileEndian := Endian.fromTag (tag.getD 0 0)
  return { native, endianSwap := fileEndian != native }

/-- `primitive_reader!`, archive.rs:150-168, for a type of `n` bytes: the bits read. -/
def readPrim (a : Archive) (n : Nat) : Rd Nat := do
  let bs ← readExact n
  let val := nativeValue a.native bs
  return if a.endianSwap then swapBytes n val else val

/-- `u8::read`. -/
def readU8 (a : Archive) : Rd UInt8 := do return UInt8.ofNat (← readPrim a 1)
/-- `u16::read`. -/
def readU16 (a : Archive) : Rd UInt16 := do return UInt16.ofNat (← readPrim a 2)
/-- `u32::read`. -/
def readU32 (a : Archive) : Rd UInt32 := do return UInt32.ofNat (← readPrim a 4)
/-- `f32::read`: the bits of the float. -/
def readF32 (a : Archive) : Rd UInt32 := readU32 a
/-- `i16::read`. -/
def readI16 (a : Archive) : Rd Int := do return (BitVec.ofNat 16 (← readPrim a 2)).toInt

/-- `read_vec` and `read_slice`, archive.rs:131-147: `n` values one after the other. -/
def readMany {α : Type} (r : Rd α) : Nat → Rd (List α)
  | 0 => return []
  | n + 1 => do
    let x ← r
    let xs ← readMany r n
    return x :: xs

/-- Loop of `String::read`, archive.rs:225-233. -/
def readUntilNul (a : Archive) : List UInt8 → Res (List UInt8 × List UInt8)
  | [] => .error (.err .io)
  | b :: rest =>
    -- `u8::read`
    let c := UInt8.ofNat (if a.endianSwap then swapBytes 1 (nativeValue a.native [b])
      else nativeValue a.native [b])
    if c != 0 then
      match readUntilNul a rest with
      | .ok (bs, rest') => .ok (c :: bs, rest')
      | .error e => .error e
    else .ok ([], rest)

/-- A UTF-8 continuation byte in the given range. -/
def inRange (b lo hi : UInt8) : Bool := decide (lo ≤ b) && decide (b ≤ hi)

/-- UTF-8 validation as `core::str::from_utf8` does it (external to the crate): `none` if valid,
`some n` if the first `n` bytes are the longest valid start. `pos` counts the bytes seen. -/
def utf8Scan (pos : Nat) : List UInt8 → Option Nat
  | [] => none
  | b0 :: r0 =>
    if b0 < 0x80 then utf8Scan (pos + 1) r0
    else match r0 with
      | [] => some pos
      | b1 :: r1 =>
        if inRange b0 0xC2 0xDF then
          if inRange b1 0x80 0xBF then utf8Scan (pos + 2) r1 else some pos
        else match r1 with
          | [] => some pos
          | b2 :: r2 =>
            if inRange b0 0xE0 0xEF then
              if (if b0 = 0xE0 then inRange b1 0xA0 0xBF
                  else if b0 = 0xED then inRange b1 0x80 0x9F else inRange b1 0x80 0xBF) &&
                inRange b2 0x80 0xBF then utf8Scan (pos + 3) r2 else some pos
            else match r2 with
              | [] => some pos
              | b3 :: r3 =>
                if inRange b0 0xF0 0xF4 then
                  if (if b0 = 0xF0 then inRange b1 0x90 0xBF
                      else if b0 = 0xF4 then inRange b1 0x80 0x8F else inRange b1 0x80 0xBF) &&
                    inRange b2 0x80 0xBF && inRange b3 0x80 0xBF then utf8Scan (pos + 4) r3
                  else some pos
                else some pos

/-- `String::from_utf8(buf).map_err(|e| e.utf8_error())?`; a string is its bytes. -/
def fromUtf8 (bs : List UInt8) : Rd (List UInt8) := fun s =>
  match utf8Scan 0 bs with
  | none => .ok (bs, s)
  | some n => .error (.err (.utf8 (n % 2 ^ 32)))

/-- `String::read`, archive.rs:223-238. -/
def readString (a : Archive) : Rd (List UInt8) := do
  let bs ← (fun s => readUntilNul a s : Rd (List UInt8))
  fromUtf8 bs

/-- `return Err(e)`. -/
def failRd {α : Type} (e : OzzError) : Rd α := fun _ => .error (.err e)

/-- The tag and version check every loader starts with, e.g. track.rs:157-162. -/
def checkTagVersion (a : Archive) (tag : List UInt8) (version : UInt32) : Rd Unit := do
  let t ← readString a
  if t != tag then failRd .invalidTag
  else do
    let v ← readU32 a
    if v != version then failRd .invalidVersion
    else return ()

end Ozz
