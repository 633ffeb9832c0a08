import Verif.Model.Loaders

/-!
The archive format, written down independently of the readers: bytes of numbers by position,
UTF-8 from code points, and the concatenations that make up each kind of file. Only the data types
(`Endian`, `Track`, `ChannelData`, `AnimationData`) are shared with the model.
-/

namespace Ozz.Format

/-- The `n` bytes of `v`, in the given order. -/
def num (o : Endian) (n v : Nat) : List UInt8 :=
  match o with
  | .little => (List.range n).map fun i => UInt8.ofNat (v / 256 ^ i)
  | .big => (List.range n).map fun i => UInt8.ofNat (v / 256 ^ (n - 1 - i))

/-- A file's first byte: 0 announces big-endian, anything else little-endian. -/
def Announces (o : Endian) (tag : UInt8) : Prop := o = .big ↔ tag = 0

/-- A terminated string. -/
def cstr (bs : List UInt8) : List UInt8 := bs ++ [0]

/-- Unicode scalar values. -/
def IsScalar (c : Nat) : Prop := c < 0xD800 ∨ (0xE000 ≤ c ∧ c < 0x110000)

/-- UTF-8 encoding of one scalar value (RFC 3629). -/
def utf8Char (c : Nat) : List UInt8 :=
  if c < 0x80 then [UInt8.ofNat c]
  else if c < 0x800 then [UInt8.ofNat (0xC0 + c / 64), UInt8.ofNat (0x80 + c % 64)]
  else if c < 0x10000 then
    [UInt8.ofNat (0xE0 + c / 4096), UInt8.ofNat (0x80 + c / 64 % 64), UInt8.ofNat (0x80 + c % 64)]
  else
    [UInt8.ofNat (0xF0 + c / 262144), UInt8.ofNat (0x80 + c / 4096 % 64),
     UInt8.ofNat (0x80 + c / 64 % 64), UInt8.ofNat (0x80 + c % 64)]

/-- A byte string that is the UTF-8 encoding of some text. -/
def IsUtf8 (bs : List UInt8) : Prop :=
  ∃ cs : List Nat, (∀ c ∈ cs, IsScalar c) ∧ bs = cs.flatMap utf8Char

/-- The longest UTF-8 start of `bs` has `n` bytes and is not all of it. -/
def ValidUpTo (bs : List UInt8) (n : Nat) : Prop :=
  n < bs.length ∧ IsUtf8 (bs.take n) ∧ ∀ m, n < m → m ≤ bs.length → ¬ IsUtf8 (bs.take m)

def u8s (xs : List UInt8) : List UInt8 := xs
def u16s (o : Endian) (xs : List UInt16) : List UInt8 := xs.flatMap fun x => num o 2 x.toNat
def u32s (o : Endian) (xs : List UInt32) : List UInt8 := xs.flatMap fun x => num o 4 x.toNat
/-- Two's complement. -/
def i16s (o : Endian) (xs : List Int) : List UInt8 :=
  xs.flatMap fun x => num o 2 (x % 65536).toNat

def str (s : String) : List UInt8 := s.toList.map fun c => UInt8.ofNat c.toNat

/-! ### Tracks -/

/-- What identifies a track file: tag and components per value. -/
def trackKind : TrackKind → String × Nat
  | .float => ("ozz-float_track", 1)
  | .float2 => ("ozz-float2_track", 2)
  | .float3 => ("ozz-float3_track", 3)
  | .float4 => ("ozz-float4_track", 4)
  | .quat => ("ozz-quat_track", 4)

/-- Tracks that have a file: one ratio and one value per key, one step bit per key, a UTF-8 name,
and counts that fit their fields. -/
structure TrackWF (k : TrackKind) (t : Track UInt32 (List UInt32)) : Prop where
  ratios : t.ratios.length = t.keyCount
  values : t.values.length = t.keyCount
  arity : ∀ v ∈ t.values, v.length = (trackKind k).2
  steps : t.steps.length = (t.keyCount + 7) / 8
  name : IsUtf8 t.name
  keyCount : t.keyCount + 7 < 2 ^ 32
  nameLen : t.name.length < 2 ^ 32

def track (o : Endian) (k : TrackKind) (t : Track UInt32 (List UInt32)) : List UInt8 :=
  cstr (str (trackKind k).1) ++ num o 4 1 ++ num o 4 t.keyCount ++ num o 4 t.name.length ++
  u32s o t.ratios ++ t.values.flatMap (u32s o) ++ u8s t.steps ++ t.name

/-! ### Skeletons -/

/-- What a skeleton file holds. A rest pose is 40 floats. -/
structure SkeletonContent where
  names : List (List UInt8)
  parents : List Int
  restPoses : List (List UInt32)

structure SkeletonWF (k : SkeletonContent) : Prop where
  count : k.names.length < 2 ^ 32
  name : ∀ n ∈ k.names, IsUtf8 n ∧ 0 ∉ n
  parents : k.parents.length = k.names.length
  parent : ∀ p ∈ k.parents, -32768 ≤ p ∧ p ≤ 32767
  restPoses : k.restPoses.length = (k.names.length + 3) / 4
  restPose : ∀ p ∈ k.restPoses, p.length = 40

/-- The count of name characters is stored but not used by the loader: any value will do. -/
def skeleton (o : Endian) (charCount : UInt32) (k : SkeletonContent) : List UInt8 :=
  cstr (str "ozz-skeleton") ++ num o 4 2 ++ num o 4 k.names.length ++ num o 4 charCount.toNat ++
  k.names.flatMap cstr ++ i16s o k.parents ++ k.restPoses.flatMap (u32s o)

/-! ### Animations -/

/-- One channel: as many ratio indices and back-offsets as keys, keys of three 16-bit words,
ratio indices that fit a byte if they are stored on one. -/
structure ChannelWF (timepoints : Nat) (c : ChannelData) : Prop where
  ratios : c.ratios.length = c.keys.length
  previouses : c.previouses.length = c.keys.length
  keys : ∀ k ∈ c.keys, k.length = 3
  small : timepoints ≤ 255 → ∀ r ∈ c.ratios, r.toNat < 256
  keyCount : c.keys.length < 2 ^ 32
  entryCount : c.iframeEntries.length < 2 ^ 32
  descCount : c.iframeDesc.length < 2 ^ 32

structure AnimationWF (x : AnimationData) : Prop where
  timepoints : x.timepoints.length < 2 ^ 32
  name : IsUtf8 x.name
  nameLen : x.name.length < 2 ^ 32
  t : ChannelWF x.timepoints.length x.t
  r : ChannelWF x.timepoints.length x.r
  s : ChannelWF x.timepoints.length x.s

/-- Ratio indices take one byte each up to 255 timepoints, two bytes beyond. -/
def ratios (o : Endian) (timepoints : Nat) (rs : List UInt16) : List UInt8 :=
  if timepoints ≤ 255 then rs.map fun r => UInt8.ofNat r.toNat else u16s o rs

def channel (o : Endian) (timepoints : Nat) (c : ChannelData) : List UInt8 :=
  ratios o timepoints c.ratios ++ u16s o c.previouses ++ u8s c.iframeEntries ++
  u32s o c.iframeDesc ++ num o 4 c.iframeInterval.toNat ++ c.keys.flatMap (u16s o)

def animation (o : Endian) (x : AnimationData) : List UInt8 :=
  cstr (str "ozz-animation") ++ num o 4 7 ++
  num o 4 x.duration.toNat ++ num o 4 x.numTracks.toNat ++ num o 4 x.name.length ++
  num o 4 x.timepoints.length ++
  num o 4 x.t.keys.length ++ num o 4 x.r.keys.length ++ num o 4 x.s.keys.length ++
  num o 4 x.t.iframeEntries.length ++ num o 4 x.t.iframeDesc.length ++
  num o 4 x.r.iframeEntries.length ++ num o 4 x.r.iframeDesc.length ++
  num o 4 x.s.iframeEntries.length ++ num o 4 x.s.iframeDesc.length ++
  x.name ++ u32s o x.timepoints ++
  channel o x.timepoints.length x.t ++ channel o x.timepoints.length x.r ++
  channel o x.timepoints.length x.s

end Ozz.Format
