import Verif.Model.Basic

/-!
Group-varint decoding of interval frames, /repo/src/sampling_job.rs:1390-1442.

Bytes are `UInt8`, decoded `u32` values are `Nat`. The unchecked pointer reads of `load`
(lines 1396-1408) may go up to three bytes past the end of the slice: those bytes come from `oob`,
an arbitrary memory content indexed by the distance past the end.
-/

namespace Ozz

/-- Memory following a slice: `oob k` is the byte `k` places after the end. -/
abbrev Oob := Nat → UInt8

/-- `*p.add(i)` where `p` is the start of `buf`. -/
def rawByte (oob : Oob) (buf : List UInt8) (i : Nat) : Nat :=
  (if h : i < buf.length then buf[i] else oob (i - buf.length)).toNat

/-- `load`, lines 1396-1408. -/
def gv4Load (oob : Oob) (buf : List UInt8) : Nat :=
  rawByte oob buf 0 ||| (rawByte oob buf 1 <<< 8) ||| (rawByte oob buf 2 <<< 16) |||
    (rawByte oob buf 3 <<< 24)

/-- `MASK`, line 1413, for the two-bit width codes. -/
def gv4Mask (k : Nat) : Nat :=
  if k = 0 then 0xff else if k = 1 then 0xffff else if k = 2 then 0xffffff else 0xffffffff

/-- `&in_buf[n..]`: panics when `n > len`. -/
def sliceFrom {α} (buf : List α) (n : Nat) : Res (List α) :=
  if n ≤ buf.length then .ok (buf.drop n) else .error .panic

/-- `decode_gv4`, lines 1392-1428, for an output chunk of length `outLen`; returns the four values
and the rest of the buffer. -/
def decodeGv4 (oob : Oob) (buffer : List UInt8) (outLen : Nat) : Res (List Nat × List UInt8) := do
  assertB (decide (buffer.length ≥ 5))
  assertB (decide (outLen = 4))
  let prefix_ ← (buffer[0]?).elim (.error .panic) (fun b => .ok b.toNat)
  let inBuf ← sliceFrom buffer 1
  let k0 := prefix_ &&& 0x3
  let o0 := gv4Load oob inBuf &&& gv4Mask k0
  let inBuf ← sliceFrom inBuf (k0 + 1)
  let k1 := (prefix_ >>> 2) &&& 0x3
  let o1 := gv4Load oob inBuf &&& gv4Mask k1
  let inBuf ← sliceFrom inBuf (k1 + 1)
  let k2 := (prefix_ >>> 4) &&& 0x3
  let o2 := gv4Load oob inBuf &&& gv4Mask k2
  let inBuf ← sliceFrom inBuf (k2 + 1)
  let k3 := prefix_ >>> 6
  let o3 := gv4Load oob inBuf &&& gv4Mask k3
  let inBuf ← sliceFrom inBuf (k3 + 1)
  return ([o0, o1, o2, o3], inBuf)

/-- The `for chunk in stream.chunks_mut(4)` loop, lines 1438-1440, for `n` remaining entries. -/
def gv4Loop (oob : Oob) (inBuf : List UInt8) (n : Nat) : Res (List Nat × List UInt8) :=
  if n = 0 then return ([], inBuf)
  else do
    let (vals, rest) ← decodeGv4 oob inBuf (min 4 n)
    let (more, rest) ← gv4Loop oob rest (n - 4)
    return (vals ++ more, rest)
termination_by n

/-- `decode_gv4_stream`, lines 1430-1442: fills a stream of `n` entries. -/
def decodeGv4Stream (oob : Oob) (buffer : List UInt8) (n : Nat) : Res (List Nat × List UInt8) := do
  assertB (decide (n % 4 = 0))
  assertB (decide (buffer.length ≥ n + n / 4))
  gv4Loop oob buffer n

end Ozz
