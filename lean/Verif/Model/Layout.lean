import Verif.Model.Loaders

/-!
Storage of animations, skeletons and sampling contexts: one allocation carved into arrays.
/repo/src/base.rs:147-157, animation.rs:497-607, skeleton.rs:173-203, sampling_job.rs:289-351, and
the raw conversions animation.rs:424-495, skeleton.rs:152-171.

Addresses and sizes are natural numbers; `usize` has 64 bits, so that the products of 32-bit counts
do not overflow. Where the allocator places the block (`base`) and what the memory contains before
are parameters. Sizes: `f32` 4, `u16`/`i16` 2, `Float3Key`/`QuaternionKey` 6 (three `u16`, alignment
2), `SoaTransform` 160 (alignment 16), `InterpSoaFloat3` 128, `InterpSoaQuaternion` 160 (alignment
16). The size of the private header `SamplingContextInner` is a parameter.
-/

namespace Ozz

/-- `usize::is_power_of_two`. -/
def isPowerOfTwo (n : Nat) : Bool := n != 0 && (n &&& (n - 1)) == 0

/-- `align_usize`, base.rs:148-151; `!` complements 64 bits. -/
def alignUsize (size align : Nat) : Res Nat := do
  assertB (isPowerOfTwo align)
  return (size + align - 1) &&& (2 ^ 64 - 1 - (align - 1))

/-- `align_ptr`, base.rs:154-157. -/
def alignPtr (ptr align : Nat) : Res Nat := do
  assertB (isPowerOfTwo align)
  alignUsize ptr align

/-! ### Animation -/

/-- Element counts of one channel. -/
structure ChannelCounts where
  keys : Nat
  entries : Nat
  desc : Nat

/-- Array addresses of one channel. -/
structure ChannelPtrs where
  keys : Nat
  ratios : Nat
  previouses : Nat
  entries : Nat
  desc : Nat

/-- Sizes and addresses in `Animation`, animation.rs:184-220. -/
structure AnimLayout where
  size : Nat
  timepoints : Nat
  t : ChannelPtrs
  r : ChannelPtrs
  s : ChannelPtrs

/-- Contribution of a channel to the size, animation.rs:540-545, 547-552, 554-559. -/
def channelSize (size : Nat) (c : ChannelCounts) : Res Nat := do
  let size := size + (c.keys * 6 + c.keys * 2 + c.keys * 2 + c.entries * 1)
  let size ← alignUsize size 4
  return size + c.desc * 4

/-- Carving of a channel, animation.rs:568-578, 580-590, 592-602. -/
def carveChannel (ptr : Nat) (c : ChannelCounts) : Res (ChannelPtrs × Nat) := do
  let keys := ptr
  let ptr := ptr + c.keys * 6
  let ratios := ptr
  let ptr := ptr + c.keys * 2
  let previouses := ptr
  let ptr := ptr + c.keys * 2
  let entries := ptr
  let ptr := ptr + c.entries
  let ptr ← alignPtr ptr 4
  let desc := ptr
  let ptr := ptr + c.desc * 4
  return ({ keys, ratios, previouses, entries, desc }, ptr)

/-- `Animation::new`, animation.rs:497-607, for a block allocated at `base`. -/
def animationNew (base timepoints : Nat) (t r s : ChannelCounts) : Res AnimLayout := do
  let size := timepoints * 4
  let size ← channelSize size t
  let size ← channelSize size r
  let size ← channelSize size s
  let ptr := base
  let tp := ptr
  let ptr := ptr + timepoints * 4
  let (tPtrs, ptr) ← carveChannel ptr t
  let (rPtrs, ptr) ← carveChannel ptr r
  let (sPtrs, ptr) ← carveChannel ptr s
  assertB (ptr == tp + size)
  return { size, timepoints := tp, t := tPtrs, r := rPtrs, s := sPtrs }

/-! ### Skeleton -/

/-- Sizes and addresses in `Skeleton`, skeleton.rs:29-36. -/
structure SkeletonLayout where
  size : Nat
  restPoses : Nat
  parents : Nat

/-- `Skeleton::new`, skeleton.rs:173-203, for a block allocated at `base`. -/
def skeletonNew (base numJoints : Nat) : Res SkeletonLayout := do
  let size := 160 * numSoa numJoints + 2 * numJoints
  let ptr := base
  let restPoses := ptr
  let ptr := ptr + 160 * numSoa numJoints
  let parents := ptr
  let ptr := ptr + 2 * numJoints
  assertB (ptr == restPoses + size)
  return { size, restPoses, parents }

/-! ### Sampling context -/

/-- Array addresses of one channel of a sampling context. -/
structure CachePtrs where
  values : Nat
  entries : Nat
  outdated : Nat

/-- Sizes, capacities and addresses in `SamplingContextInner`, sampling_job.rs:142-165. -/
structure ContextLayout where
  size : Nat
  maxTracks : Nat
  maxSoaTracks : Nat
  maxOutdated : Nat
  t : CachePtrs
  r : CachePtrs
  s : CachePtrs

/-- Size of one channel, sampling_job.rs:294-302; `elem` is the size of an interpolation slot. -/
def cacheSize (elem maxSoa maxTracks maxOutdated : Nat) : Nat :=
  elem * maxSoa + 4 * maxTracks + 1 * maxOutdated

/-- Carving of one channel, sampling_job.rs:325-331 (and 333-339, 341-347). -/
def carveCache (ptr elem maxSoa maxTracks maxOutdated : Nat) : Res (CachePtrs × Nat) := do
  let values := ptr
  let ptr := ptr + elem * maxSoa
  let entries := ptr
  let ptr := ptr + 4 * maxTracks
  let outdated := ptr
  let ptr := ptr + maxOutdated
  let ptr ← alignPtr ptr 16
  return ({ values, entries, outdated }, ptr)

/-- `usize::div_ceil`. -/
def divCeil (a b : Nat) : Nat := if a % b > 0 then a / b + 1 else a / b

/-- `SamplingContext::new`, sampling_job.rs:289-351; `header` is the size of
`SamplingContextInner`. -/
def contextNew (base header maxTracks : Nat) : Res ContextLayout := do
  let maxSoaTracks := divCeil maxTracks 4
  let maxTracks := maxSoaTracks * 4
  let maxOutdated := divCeil maxSoaTracks 8
  let headerSize ← alignUsize header 16
  let tSize ← alignUsize (cacheSize 128 maxSoaTracks maxTracks maxOutdated) 16
  let rSize ← alignUsize (cacheSize 160 maxSoaTracks maxTracks maxOutdated) 16
  let sSize ← alignUsize (cacheSize 128 maxSoaTracks maxTracks maxOutdated) 16
  let size := headerSize + tSize + rSize + sSize
  let ptr := base + header
  let ptr ← alignPtr ptr 16
  let (t, ptr) ← carveCache ptr 128 maxSoaTracks maxTracks maxOutdated
  let (r, ptr) ← carveCache ptr 160 maxSoaTracks maxTracks maxOutdated
  let (s, ptr) ← carveCache ptr 128 maxSoaTracks maxTracks maxOutdated
  assertB (ptr == base + size)
  return { size, maxTracks, maxSoaTracks, maxOutdated, t, r, s }

/-! ### Memory and raw conversions -/

/-- Memory: the byte at each address. -/
abbrev Mem := Nat → UInt8

/-- Overwrites the bytes from `p` on. -/
def Mem.store (m : Mem) (p : Nat) (bs : List UInt8) : Mem := fun a =>
  if p ≤ a then (bs[a - p]?).getD (m a) else m a

/-- The `n` bytes from `p` on. -/
def Mem.load (m : Mem) (p n : Nat) : List UInt8 := (List.range n).map fun i => m (p + i)

/-- Bytes in memory of an `n`-byte number on the host. -/
def nativeBytes (e : Endian) (n v : Nat) : List UInt8 :=
  match e with
  | .little => leBytes n v
  | .big => (leBytes n v).reverse

/-- How an element type lies in memory. -/
structure MemRepr (α : Type) where
  size : Nat
  enc : α → List UInt8
  dec : List UInt8 → α

def reprU8 (e : Endian) : MemRepr UInt8 :=
  { size := 1, enc := fun x => nativeBytes e 1 x.toNat, dec := fun bs => UInt8.ofNat (nativeValue e bs) }
def reprU16 (e : Endian) : MemRepr UInt16 :=
  { size := 2, enc := fun x => nativeBytes e 2 x.toNat, dec := fun bs => UInt16.ofNat (nativeValue e bs) }
def reprU32 (e : Endian) : MemRepr UInt32 :=
  { size := 4, enc := fun x => nativeBytes e 4 x.toNat, dec := fun bs => UInt32.ofNat (nativeValue e bs) }
def reprI16 (e : Endian) : MemRepr Int :=
  { size := 2, enc := fun x => nativeBytes e 2 (BitVec.ofInt 16 x).toNat
    dec := fun bs => (BitVec.ofNat 16 (nativeValue e bs)).toInt }

/-- `k` elements in a row (`[u16; 3]`, the 40 floats of a `SoaTransform`). -/
def MemRepr.array {α : Type} (r : MemRepr α) (k : Nat) : MemRepr (List α) :=
  { size := k * r.size
    enc := fun xs => xs.flatMap r.enc
    dec := fun bs => (List.range k).map fun i => r.dec ((bs.drop (i * r.size)).take r.size) }

/-- `dst.copy_from_slice(&src)` for a slice of `count` elements at `p`. -/
def copyFromSlice {α : Type} (r : MemRepr α) (m : Mem) (p count : Nat) (src : List α) : Res Mem := do
  assertB (src.length == count)
  return m.store p (src.flatMap r.enc)

/-- `slice::from_raw_parts(p, count).to_vec()`. -/
def readSliceAt {α : Type} (r : MemRepr α) (m : Mem) (p count : Nat) : List α :=
  (List.range count).map fun i => r.dec (m.load (p + i * r.size) r.size)

/-- `x.len() as u32 as usize`. -/
def lenU32 {α : Type} (xs : List α) : Nat := xs.length % 2 ^ 32

/-- The fields of `Animation` that are not in the block, with the layout of the block. -/
structure AnimObj where
  layout : AnimLayout
  duration : UInt32
  numTracks : UInt32
  name : List UInt8
  timepointsCount : Nat
  tCounts : ChannelCounts
  rCounts : ChannelCounts
  sCounts : ChannelCounts
  tInterval : UInt32
  rInterval : UInt32
  sInterval : UInt32

def channelCounts (c : ChannelData) : ChannelCounts :=
  { keys := lenU32 c.keys, entries := lenU32 c.iframeEntries, desc := lenU32 c.iframeDesc }

/-- Filling one channel, animation.rs:444-449 (and 451-456, 458-463). -/
def fillChannel (e : Endian) (m : Mem) (p : ChannelPtrs) (n : ChannelCounts) (c : ChannelData) :
    Res Mem := do
  let m ← copyFromSlice ((reprU16 e).array 3) m p.keys n.keys c.keys
  let m ← copyFromSlice (reprU16 e) m p.ratios n.keys c.ratios
  let m ← copyFromSlice (reprU16 e) m p.previouses n.keys c.previouses
  let m ← copyFromSlice (reprU8 e) m p.entries n.entries c.iframeEntries
  copyFromSlice (reprU32 e) m p.desc n.desc c.iframeDesc

/-- `Animation::from_raw`, animation.rs:424-465. `AnimationRaw` (animation.rs:270-296) has the
fields of `AnimationData`. -/
def animationFromRaw (e : Endian) (base : Nat) (m : Mem) (raw : AnimationData) :
    Res (AnimObj × Mem) := do
  let n := lenU32 raw.timepoints
  let layout ← animationNew base n (channelCounts raw.t) (channelCounts raw.r) (channelCounts raw.s)
  let m ← copyFromSlice (reprU32 e) m layout.timepoints n raw.timepoints
  let m ← fillChannel e m layout.t (channelCounts raw.t) raw.t
  let m ← fillChannel e m layout.r (channelCounts raw.r) raw.r
  let m ← fillChannel e m layout.s (channelCounts raw.s) raw.s
  return ({
    layout, duration := raw.duration, numTracks := raw.numTracks, name := raw.name,
    timepointsCount := n
    tCounts := channelCounts raw.t
    rCounts := channelCounts raw.r
    sCounts := channelCounts raw.s
    tInterval := raw.t.iframeInterval
    rInterval := raw.r.iframeInterval
    sInterval := raw.s.iframeInterval }, m)

/-- Reading one channel, animation.rs:474-479 (and 481-486, 488-493). -/
def channelToRaw (e : Endian) (m : Mem) (p : ChannelPtrs) (n : ChannelCounts) (interval : UInt32) :
    ChannelData :=
  { keys := readSliceAt ((reprU16 e).array 3) m p.keys n.keys
    ratios := readSliceAt (reprU16 e) m p.ratios n.keys
    previouses := readSliceAt (reprU16 e) m p.previouses n.keys
    iframeInterval := interval
    iframeEntries := readSliceAt (reprU8 e) m p.entries n.entries
    iframeDesc := readSliceAt (reprU32 e) m p.desc n.desc }

/-- `Animation::to_raw`, animation.rs:467-495. -/
def animationToRaw (e : Endian) (x : AnimObj) (m : Mem) : AnimationData :=
  { duration := x.duration, numTracks := x.numTracks, name := x.name
    timepoints := readSliceAt (reprU32 e) m x.layout.timepoints x.timepointsCount
    t := channelToRaw e m x.layout.t x.tCounts x.tInterval
    r := channelToRaw e m x.layout.r x.rCounts x.rInterval
    s := channelToRaw e m x.layout.s x.sCounts x.sInterval }

/-- `SkeletonRaw`, skeleton.rs:65-69. -/
structure SkeletonRaw where
  jointRestPoses : List (List UInt32)
  jointParents : List Int
  jointNames : JointNames

/-- `Skeleton`, skeleton.rs:29-36, with the layout of the block. -/
structure SkeletonObj where
  layout : SkeletonLayout
  numJoints : Nat
  jointNames : JointNames

/-- `Skeleton::from_raw`, skeleton.rs:152-163. -/
def skeletonFromRaw (e : Endian) (base : Nat) (m : Mem) (raw : SkeletonRaw) :
    Res (SkeletonObj × Mem) := do
  let n := lenU32 raw.jointParents
  let layout ← skeletonNew base n
  let m ← copyFromSlice ((reprU32 e).array 40) m layout.restPoses (numSoa n) raw.jointRestPoses
  let m ← copyFromSlice (reprI16 e) m layout.parents n raw.jointParents
  return ({ layout, numJoints := n, jointNames := raw.jointNames }, m)

/-- `Skeleton::to_raw`, skeleton.rs:165-171. -/
def skeletonToRaw (e : Endian) (x : SkeletonObj) (m : Mem) : SkeletonRaw :=
  { jointRestPoses := readSliceAt ((reprU32 e).array 40) m x.layout.restPoses (numSoa x.numJoints)
    jointParents := readSliceAt (reprI16 e) m x.layout.parents x.numJoints
    jointNames := x.jointNames }

end Ozz
