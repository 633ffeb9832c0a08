import Verif.Model.Archive
import Verif.Model.Track
import Verif.Model.Skeleton

/-!
Loading tracks, skeletons and animations from archives: /repo/src/track.rs, skeleton.rs,
animation.rs. Floats are bit patterns. The destination arrays, which the code allocates with
unspecified content and then overwrites, are represented by what is read into them.
-/

namespace Ozz

/-- Bytes of an ASCII literal. -/
def ascii (s : List Char) : List UInt8 := s.map fun c => UInt8.ofNat c.toNat

/-! ### Tracks -/

/-- `Vec2::read` .. `Quat::read` and `f32::read`, archive.rs:182-221: `k` floats. -/
def readFloats (a : Archive) (k : Nat) : Rd (List UInt32) := readMany (readF32 a) k

/-- The value types of tracks, track.rs:27-110. -/
inductive TrackKind
  | float | float2 | float3 | float4 | quat
  deriving DecidableEq

/-- `TrackValue::tag`. -/
def TrackKind.tag : TrackKind → List UInt8
  | .float => ascii ['o','z','z','-','f','l','o','a','t','_','t','r','a','c','k']
  | .float2 => ascii ['o','z','z','-','f','l','o','a','t','2','_','t','r','a','c','k']
  | .float3 => ascii ['o','z','z','-','f','l','o','a','t','3','_','t','r','a','c','k']
  | .float4 => ascii ['o','z','z','-','f','l','o','a','t','4','_','t','r','a','c','k']
  | .quat => ascii ['o','z','z','-','q','u','a','t','_','t','r','a','c','k']

/-- Number of components. -/
def TrackKind.arity : TrackKind → Nat
  | .float => 1 | .float2 => 2 | .float3 => 3 | .float4 => 4 | .quat => 4

/-- The optional name at the end of a track, track.rs:171-175, and of animation metadata,
animation.rs:336-340. -/
def readName (a : Archive) (len : UInt32) : Rd (List UInt8) :=
  if len != 0 then do
    let buf ← readMany (readU8 a) len.toNat
    fromUtf8 buf
  else return []

/-- Checked `u32` addition. -/
def addU32 (x y : UInt32) : Rd UInt32 := fun s =>
  if x.toNat + y.toNat < 2 ^ 32 then .ok (x + y, s) else .error .panic

/-- `Track::from_archive`, track.rs:156-184. -/
def Track.fromArchive (k : TrackKind) (a : Archive) : Rd (Track UInt32 (List UInt32)) := do
  checkTagVersion a k.tag 1
  let keyCount ← readU32 a
  let nameLen ← readU32 a
  let ratios ← readMany (readF32 a) keyCount.toNat
  let values ← readMany (readFloats a k.arity) keyCount.toNat
  let stepBits ← addU32 keyCount 7
  let steps ← readMany (readU8 a) (stepBits.toNat / 8)
  let name ← readName a nameLen
  return { keyCount := keyCount.toNat, ratios, values, steps, name }

/-! ### Skeletons -/

/-- `JointHashMap = BiHashMap<String, i16>`, skeleton.rs:15, as its pairs. -/
abbrev JointNames := List (List UInt8 × Int)

/-- `BiHashMap::insert`: pairs sharing the name or the index are removed. -/
def JointNames.insert (m : JointNames) (name : List UInt8) (idx : Int) : JointNames :=
  (name, idx) :: m.filter fun p => !(p.1 == name) && !(p.2 == idx)

/-- `Skeleton::joint_by_name`, skeleton.rs:245-247. -/
def jointByName (m : JointNames) (name : List UInt8) : Option Int :=
  (m.find? fun p => p.1 == name).map (·.2)

/-- `Skeleton::name_by_joint`, skeleton.rs:251-253. -/
def nameByJoint (m : JointNames) (idx : Int) : Option (List UInt8) :=
  (m.find? fun p => p.2 == idx).map (·.1)

/-- `SkeletonMeta`, skeleton.rs:55-61. -/
structure SkeletonMeta where
  version : UInt32
  numJoints : UInt32
  jointNames : JointNames
  jointParents : List Int
  deriving DecidableEq

/-- A loaded `Skeleton`, skeleton.rs:29-36. A rest pose is the 40 floats of a `SoaTransform`. -/
structure SkeletonData where
  numJoints : UInt32
  jointRestPoses : List (List UInt32)
  jointNames : JointNames
  jointParents : List Int
  deriving DecidableEq

def skeletonTag : List UInt8 := ascii ['o','z','z','-','s','k','e','l','e','t','o','n']

/-- The loops inserting joint names, skeleton.rs:106-108 and 129-131; `n` joints remain, the next
one is `idx`. -/
def readNames (a : Archive) : Nat → Nat → JointNames → Rd JointNames
  | 0, _, m => return m
  | n + 1, idx, m => do
    let s ← readString a
    readNames a n (idx + 1) (m.insert s (asI16 idx))

/-- `Skeleton::read_meta`, skeleton.rs:85-121. -/
def Skeleton.readMeta (a : Archive) (withJoints : Bool) : Rd SkeletonMeta := do
  checkTagVersion a skeletonTag 2
  let numJoints ← readU32 a
  if numJoints == 0 || !withJoints then
    return { version := 2, numJoints, jointNames := [], jointParents := [] }
  else do
    let _charCount ← readU32 a
    let jointNames ← readNames a numJoints.toNat 0 []
    let jointParents ← readMany (readI16 a) numJoints.toNat
    return { version := 2, numJoints, jointNames, jointParents }

/-- `Skeleton::from_archive`, skeleton.rs:124-136. `SoaTransform::read` (math.rs:498-508) reads 40
floats. -/
def Skeleton.fromArchive (a : Archive) : Rd SkeletonData := do
  let m ← Skeleton.readMeta a false
  let _charCount ← readU32 a
  let jointNames ← readNames a m.numJoints.toNat 0 []
  let jointParents ← readMany (readI16 a) m.numJoints.toNat
  let jointRestPoses ← readMany (readFloats a 40) (numSoa m.numJoints.toNat)
  return { numJoints := m.numJoints, jointRestPoses, jointNames, jointParents }

/-! ### Animations -/

/-- `AnimationMeta`, animation.rs:250-266. -/
structure AnimationMeta where
  version : UInt32
  duration : UInt32
  numTracks : UInt32
  name : List UInt8
  timepointsCount : UInt32
  translationsCount : UInt32
  tIframeEntriesCount : UInt32
  tIframeDescCount : UInt32
  rotationsCount : UInt32
  rIframeEntriesCount : UInt32
  rIframeDescCount : UInt32
  scalesCount : UInt32
  sIframeEntriesCount : UInt32
  sIframeDescCount : UInt32
  deriving DecidableEq

/-- One channel (translations, rotations or scales) of a loaded `Animation`, animation.rs:184-220.
A `Float3Key` or `QuaternionKey` is its three `u16`. -/
structure ChannelData where
  ratios : List UInt16
  previouses : List UInt16
  iframeEntries : List UInt8
  iframeDesc : List UInt32
  iframeInterval : UInt32
  keys : List (List UInt16)
  deriving DecidableEq

/-- A loaded `Animation`, animation.rs:184-220. -/
structure AnimationData where
  duration : UInt32
  numTracks : UInt32
  name : List UInt8
  timepoints : List UInt32
  t : ChannelData
  r : ChannelData
  s : ChannelData
  deriving DecidableEq

def animationTag : List UInt8 := ascii ['o','z','z','-','a','n','i','m','a','t','i','o','n']

/-- `Animation::read_meta`, animation.rs:315-359. -/
def Animation.readMeta (a : Archive) : Rd AnimationMeta := do
  checkTagVersion a animationTag 7
  let duration ← readF32 a
  let numTracks ← readU32 a
  let nameLen ← readU32 a
  let timepointsCount ← readU32 a
  let translationsCount ← readU32 a
  let rotationsCount ← readU32 a
  let scalesCount ← readU32 a
  let tIframeEntriesCount ← readU32 a
  let tIframeDescCount ← readU32 a
  let rIframeEntriesCount ← readU32 a
  let rIframeDescCount ← readU32 a
  let sIframeEntriesCount ← readU32 a
  let sIframeDescCount ← readU32 a
  let name ← readName a nameLen
  return {
    version := 7, duration, numTracks, name, timepointsCount, translationsCount,
    tIframeEntriesCount, tIframeDescCount, rotationsCount, rIframeEntriesCount, rIframeDescCount,
    scalesCount, sIframeEntriesCount, sIframeDescCount }

/-- Key ratio indices of one channel, animation.rs:369-375. -/
def readRatios (a : Archive) (isRatioU8 : Bool) (n : Nat) : Rd (List UInt16) :=
  if isRatioU8 then readMany (do return (← readU8 a).toUInt16) n
  else readMany (readU16 a) n

/-- One channel, animation.rs:369-380 (and 382-393, 395-406). -/
def readChannel (a : Archive) (isRatioU8 : Bool) (keyCount entriesCount descCount : UInt32) :
    Rd ChannelData := do
  let ratios ← readRatios a isRatioU8 keyCount.toNat
  let previouses ← readMany (readU16 a) keyCount.toNat
  let iframeEntries ← readMany (readU8 a) entriesCount.toNat
  let iframeDesc ← readMany (readU32 a) descCount.toNat
  let iframeInterval ← readF32 a
  let keys ← readMany (readMany (readU16 a) 3) keyCount.toNat
  return { ratios, previouses, iframeEntries, iframeDesc, iframeInterval, keys }

/-- `Animation::from_archive`, animation.rs:362-408. -/
def Animation.fromArchive (a : Archive) : Rd AnimationData := do
  let m ← Animation.readMeta a
  let timepoints ← readMany (readF32 a) m.timepointsCount.toNat
  let isRatioU8 := decide (timepoints.length ≤ 255)
  let t ← readChannel a isRatioU8 m.translationsCount m.tIframeEntriesCount m.tIframeDescCount
  let r ← readChannel a isRatioU8 m.rotationsCount m.rIframeEntriesCount m.rIframeDescCount
  let s ← readChannel a isRatioU8 m.scalesCount m.sIframeEntriesCount m.sIframeDescCount
  return { duration := m.duration, numTracks := m.numTracks, name := m.name, timepoints, t, r, s }

/-! ### Whole files -/

/-- `Archive::from_slice` (archive.rs:113-118) followed by a loader, on a host of the given byte
order: the object and the bytes left over. -/
def loadWith {α : Type} (native : Endian) (loader : Archive → Rd α) : Rd α := do
  let a ← Archive.new native
  loader a

end Ozz
