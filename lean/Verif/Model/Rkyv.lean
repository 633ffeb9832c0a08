import Verif.Model.Serde

/-!
The `rkyv` implementations: /repo/src/animation.rs:16-21, 49-54, 859-1070, skeleton.rs:311-392,
track.rs:117-126, track_triggering_job.rs:14-22, sampling_job.rs:28-70, 82-121, 641-791,
math.rs:178-219, 417-458, 554-595.

The library itself (version 0.7, its default features: 32-bit relative pointers and lengths, native byte
order) is outside the crate; what is taken from it is described here and is part of the trusted base:

* a serializer is a growing buffer; `align_for::<T>()` pads it with zeros;
* serializing a slice serializes the elements' own parts, aligns for the archived element type and writes
  the archived elements one after another; its resolver is the position of the first;
* an archived value is written over zeros of its size, field by field;
* `ArchivedVec` holds a relative pointer (target minus position of the pointer, `i32`; anything else
  panics) and the length (`len as u32`);
* `usize` is archived as `u32` by `as`;
* `ArchivedString` is left open: any representation that gives the string back (`StrCodec`).

`rustc` chooses where the fields of the archived structs lie: any `StructLayout`.
-/

namespace Ozz.Rkyv

abbrev Buf := List UInt8

/-- `align_for`: zeros up to the next multiple of `a`. -/
def padTo (a : Nat) (b : Buf) : Buf := b ++ List.replicate ((a - b.length % a) % a) 0

/-- A plain archived type: size, alignment, bytes. -/
structure Pod (τ : Type) extends MemRepr τ where
  align : Nat

/-- Where the fields of an archived struct lie. -/
structure StructLayout where
  size : Nat
  align : Nat
  off : String → Nat

/-- How archived strings are written and read: `serialize_from_str` gives the resolver, `resolve` the
bytes of the archived string when it lies at a position, `get` reads the archived string at a position. -/
structure StrCodec where
  size : Nat
  align : Nat
  ser : List UInt8 → Buf → Nat × Buf
  res : List UInt8 → Nat → Nat → Option Buf
  get : Buf → Nat → Option (List UInt8)

/-- What compiler, host and library decide. -/
structure Target where
  endian : Endian
  vec : StructLayout
  str : StrCodec
  animation : StructLayout
  skeleton : StructLayout
  entry : StructLayout
  context : StructLayout
  track : StructLayout
  edge : StructLayout

/-! ### Plain types -/

def u8 (e : Endian) : Pod UInt8 := { reprU8 e with align := 1 }
def u16 (e : Endian) : Pod UInt16 := { reprU16 e with align := 2 }
def u32 (e : Endian) : Pod UInt32 := { reprU32 e with align := 4 }
def i16 (e : Endian) : Pod Int := { reprI16 e with align := 2 }

/-- Unsigned integers of `w` bytes, given as natural numbers: `x as uN`. -/
def uint (e : Endian) (w : Nat) : Pod Nat :=
  { size := w, enc := fun x => nativeBytes e w x, dec := nativeValue e, align := w }

def bool : Pod Bool :=
  { size := 1, enc := fun x => [if x then 1 else 0], dec := fun bs => bs != [0], align := 1 }

/-- `ArchivedFloat3Key`, `ArchivedQuaternionKey` (animation.rs:16-21, 49-54): `[u16; 3]`. -/
def key (e : Endian) : Pod (List UInt16) := { (reprU16 e).array 3 with align := 2 }

/-- `SoaVec3`, `SoaQuat`, `SoaTransform` are their own archived types (math.rs:184-192, 423-431, 560-568): 12,
16 and 40 floats in groups of four. -/
def soa (e : Endian) (floats : Nat) : Pod (List UInt32) := { (reprU32 e).array floats with align := 16 }

/-- The floats of an interpolation slot (`#[repr(C)]`, sampling_job.rs:17-26, 72-81). -/
def interpFloats {V : Type} (f : V → List UInt32) (x : Sampling.Interp F32 V) : List UInt32 :=
  Serde.rowOf x.ratio0 ++ Serde.rowOf x.ratio1 ++ f x.value0 ++ f x.value1

/-- The slot with the given floats; `n` is the number of floats of a value. -/
def interpOf {V : Type} (n : Nat) (f : List UInt32 → V) (p : List UInt32) : Sampling.Interp F32 V :=
  { ratio0 := Serde.ofRow p 0, ratio1 := Serde.ofRow p 1
    value0 := f ((p.drop 8).take n), value1 := f (p.drop (8 + n)) }

/-- `InterpSoaFloat3` is its own archived type (sampling_job.rs:33-41). -/
def interp3 (e : Endian) : Pod (Sampling.Interp F32 (SoaVec3 F32)) :=
  { size := 128, align := 16
    enc := fun x => ((reprU32 e).array 32).enc (interpFloats Serde.vec3Floats x)
    dec := fun bs => interpOf 12 Serde.vec3Of (((reprU32 e).array 32).dec bs) }

/-- `InterpSoaQuaternion` is its own archived type (sampling_job.rs:86-94). -/
def interpQ (e : Endian) : Pod (Sampling.Interp F32 (SoaQuat F32)) :=
  { size := 160, align := 16
    enc := fun x => ((reprU32 e).array 40).enc (interpFloats Serde.quatFloats x)
    dec := fun bs => interpOf 16 Serde.quatOf (((reprU32 e).array 40).dec bs) }

/-- Values of tracks: `f32`, and `glam`'s `Vec2`, `Vec3`, `Vec4`, `Quat`; the last two are SIMD vectors. -/
def value (e : Endian) (k : TrackKind) : Pod (List UInt32) :=
  { (reprU32 e).array k.arity with align := match k with | .float4 | .quat => 16 | _ => 4 }

/-! ### Writing -/

/-- `ArchivedVec::serialize_from_slice` for plain elements. -/
def serSlice {τ : Type} (p : Pod τ) (xs : List τ) : StateM Buf Nat := fun b =>
  let b := padTo p.align b
  (b.length, b ++ xs.flatMap p.enc)

/-- Overwrites the bytes from `o` on. -/
def putAt (buf : Buf) (o : Nat) (bs : Buf) : Buf := buf.take o ++ bs ++ buf.drop (o + bs.length)

/-- `resolve` into zeroed memory: the fields' bytes in the order they are written. -/
def resolveStruct (L : StructLayout) (fs : List (String × Buf)) : Buf :=
  fs.foldl (fun buf f => putAt buf (L.off f.1) f.2) (List.replicate L.size 0)

/-- `RelPtr::emplace`: a pointer at `from_` to `to_`. -/
def relPtr (e : Endian) (from_ to_ : Nat) : Option Buf :=
  let d : Int := (to_ : Int) - (from_ : Int)
  if -2147483648 ≤ d ∧ d ≤ 2147483647 then some (nativeBytes e 4 (BitVec.ofInt 32 d).toNat) else none

/-- `ArchivedVec::resolve_from_len`, `resolve_from_slice`: the archived vector at `pos`. -/
def vecAt (T : Target) (pos len target : Nat) : Option Buf := do
  let p ← relPtr T.endian (pos + T.vec.off "ptr") target
  return resolveStruct T.vec [("ptr", p), ("len", (uint T.endian 4).enc len)]

/-- `Serializer::serialize_value`: the position of the value and the buffer, `none` on a panic. -/
def serializeValue {R : Type} (L : StructLayout) (ser : StateM Buf R)
    (res : Nat → R → Option (List (String × Buf))) (b : Buf) : Option (Nat × Buf) :=
  let (r, b) := ser b
  let b := padTo L.align b
  (res b.length r).map fun fs => (b.length, b ++ resolveStruct L fs)

/-! ### Reading

`b` is the archive, `base` the address it lies at. `none`: the code would read outside the archive or through a
misaligned pointer, which is undefined behaviour. -/

/-- A field or value in the archive. -/
def readAt {τ : Type} (p : Pod τ) (base : Nat) (b : Buf) (pos : Nat) : Option τ :=
  if (base + pos) % p.align = 0 ∧ pos + p.size ≤ b.length then some (p.dec ((b.drop pos).take p.size)) else none

/-- `n` values one after another. -/
def readMany {τ : Type} (p : Pod τ) (base : Nat) (b : Buf) : Nat → Nat → Option (List τ)
  | 0, _ => some []
  | n + 1, pos => do
    let x ← readAt p base b pos
    let xs ← readMany p base b n (pos + p.size)
    return x :: xs

/-- `RelPtr::as_ptr` and the length of the vector at `pos`. -/
def readPtr (T : Target) (base : Nat) (b : Buf) (pos : Nat) : Option (Nat × Nat) := do
  let d ← readAt (u32 T.endian) base b (pos + T.vec.off "ptr")
  let n ← readAt (u32 T.endian) base b (pos + T.vec.off "len")
  let start : Int := (pos + T.vec.off "ptr" : Nat) + d.toBitVec.toInt
  if start < 0 then none else some (start.toNat, n.toNat)

/-- `ArchivedVec::as_slice` for plain elements. -/
def readVec {τ : Type} (T : Target) (p : Pod τ) (base : Nat) (b : Buf) (pos : Nat) : Option (List τ) := do
  let (start, n) ← readPtr T base b pos
  if (base + start) % p.align = 0 then readMany p base b n start else none

/-- An archived string. -/
def readStr (T : Target) (base : Nat) (b : Buf) (pos : Nat) : Option (List UInt8) :=
  if (base + pos) % T.str.align = 0 then T.str.get b pos else none

/-- `archived_root`: the position of the root, which is a reference and so has to be aligned. -/
def rootAt (L : StructLayout) (base : Nat) (b : Buf) : Option Nat :=
  if L.size ≤ b.length ∧ (base + (b.length - L.size)) % L.align = 0 then some (b.length - L.size) else none

/-! ### Animations -/

/-- The resolvers of one channel. -/
structure ChannelResolver where
  keys : Nat
  ratios : Nat
  previouses : Nat
  entries : Nat
  desc : Nat

/-- `AnimationResolver`, animation.rs:895-916. -/
structure AnimationResolver where
  name : Nat
  timepoints : Nat
  t : ChannelResolver
  r : ChannelResolver
  s : ChannelResolver

/-- One channel of `Animation::serialize`, animation.rs:979-983, 984-988, 989-993. -/
def serializeChannel (T : Target) (c : ChannelData) : StateM Buf ChannelResolver := do
  let keys ← serSlice (key T.endian) c.keys
  let ratios ← serSlice (u16 T.endian) c.ratios
  let previouses ← serSlice (u16 T.endian) c.previouses
  let entries ← serSlice (u8 T.endian) c.iframeEntries
  let desc ← serSlice (u32 T.endian) c.iframeDesc
  return { keys, ratios, previouses, entries, desc }

/-- `Animation::serialize`, animation.rs:974-996. The animation is given by its slices. -/
def serializeAnimation (T : Target) (a : AnimationData) : StateM Buf AnimationResolver := do
  let name ← T.str.ser a.name
  let timepoints ← serSlice (u32 T.endian) a.timepoints
  let t ← serializeChannel T a.t
  let r ← serializeChannel T a.r
  let s ← serializeChannel T a.s
  return { name, timepoints, t, r, s }

/-- `Animation::resolve`, animation.rs:922-971. -/
def resolveAnimation (T : Target) (a : AnimationData) (pos : Nat) (r : AnimationResolver) :
    Option (List (String × Buf)) := do
  let fp := fun f => pos + T.animation.off f
  let name ← T.str.res a.name (fp "name") r.name
  let timepoints ← vecAt T (fp "timepoints") a.timepoints.length r.timepoints
  let translations ← vecAt T (fp "translations") a.t.keys.length r.t.keys
  let tRatios ← vecAt T (fp "t_ratios") a.t.ratios.length r.t.ratios
  let tPreviouses ← vecAt T (fp "t_previouses") a.t.previouses.length r.t.previouses
  let tEntries ← vecAt T (fp "t_iframe_entries") a.t.iframeEntries.length r.t.entries
  let tDesc ← vecAt T (fp "t_iframe_desc") a.t.iframeDesc.length r.t.desc
  let rotations ← vecAt T (fp "rotations") a.r.keys.length r.r.keys
  let rRatios ← vecAt T (fp "r_ratios") a.r.ratios.length r.r.ratios
  let rPreviouses ← vecAt T (fp "r_previouses") a.r.previouses.length r.r.previouses
  let rEntries ← vecAt T (fp "r_iframe_entries") a.r.iframeEntries.length r.r.entries
  let rDesc ← vecAt T (fp "r_iframe_desc") a.r.iframeDesc.length r.r.desc
  let scales ← vecAt T (fp "scales") a.s.keys.length r.s.keys
  let sRatios ← vecAt T (fp "s_ratios") a.s.ratios.length r.s.ratios
  let sPreviouses ← vecAt T (fp "s_previouses") a.s.previouses.length r.s.previouses
  let sEntries ← vecAt T (fp "s_iframe_entries") a.s.iframeEntries.length r.s.entries
  let sDesc ← vecAt T (fp "s_iframe_desc") a.s.iframeDesc.length r.s.desc
  return [("duration", (u32 T.endian).enc a.duration), ("num_tracks", (u32 T.endian).enc a.numTracks),
    ("name", name), ("timepoints", timepoints),
    ("translations", translations), ("t_ratios", tRatios), ("t_previouses", tPreviouses),
    ("t_iframe_interval", (u32 T.endian).enc a.t.iframeInterval),
    ("t_iframe_entries", tEntries), ("t_iframe_desc", tDesc),
    ("rotations", rotations), ("r_ratios", rRatios), ("r_previouses", rPreviouses),
    ("r_iframe_interval", (u32 T.endian).enc a.r.iframeInterval),
    ("r_iframe_entries", rEntries), ("r_iframe_desc", rDesc),
    ("scales", scales), ("s_ratios", sRatios), ("s_previouses", sPreviouses),
    ("s_iframe_interval", (u32 T.endian).enc a.s.iframeInterval),
    ("s_iframe_entries", sEntries), ("s_iframe_desc", sDesc)]

/-- `serialize_value(&animation)` on a buffer. -/
def archiveAnimation (T : Target) (a : AnimationData) (b : Buf) : Option (Nat × Buf) :=
  serializeValue T.animation (serializeAnimation T a) (resolveAnimation T a) b

/-- The fields of an `ArchivedAnimation` at `pos`, animation.rs:859-886. -/
def readAnimation (T : Target) (base : Nat) (b : Buf) (pos : Nat) : Option AnimationData := do
  let at_ := fun f => pos + T.animation.off f
  let f32 := fun f => readAt (u32 T.endian) base b (at_ f)
  let channel := fun (keys ratios previouses interval entries desc : String) => do
    return ({
      keys := ← readVec T (key T.endian) base b (at_ keys)
      ratios := ← readVec T (u16 T.endian) base b (at_ ratios)
      previouses := ← readVec T (u16 T.endian) base b (at_ previouses)
      iframeEntries := ← readVec T (u8 T.endian) base b (at_ entries)
      iframeDesc := ← readVec T (u32 T.endian) base b (at_ desc)
      iframeInterval := ← f32 interval } : ChannelData)
  return {
    duration := ← f32 "duration"
    numTracks := ← f32 "num_tracks"
    name := ← readStr T base b (at_ "name")
    timepoints := ← readVec T (u32 T.endian) base b (at_ "timepoints")
    t := ← channel "translations" "t_ratios" "t_previouses" "t_iframe_interval" "t_iframe_entries" "t_iframe_desc"
    r := ← channel "rotations" "r_ratios" "r_previouses" "r_iframe_interval" "r_iframe_entries" "r_iframe_desc"
    s := ← channel "scales" "s_ratios" "s_previouses" "s_iframe_interval" "s_iframe_entries" "s_iframe_desc" }

/-- `ArchivedAnimation::deserialize`, animation.rs:1000-1068: `Animation::new` with the lengths of the archived
slices, then one copy for each slice, as in `Animation::from_raw` (lines 424-465). `none` if any of the fields
cannot be read, even if a copy panics before it is reached. -/
def deserializeAnimation (T : Target) (base : Nat) (b : Buf) (pos : Nat) (block : Nat) (m : Mem) :
    Option (Res (AnimObj × Mem)) :=
  (readAnimation T base b pos).map (animationFromRaw T.endian block m)

/-! ### Skeletons -/

/-- `SkeletonResolver`, skeleton.rs:327-331. -/
structure SkeletonResolver where
  poses : Nat
  names : Nat
  parents : Nat

/-- The parts of the entries' keys: `String::serialize` for each. -/
def serKeys (T : Target) : JointNames → StateM Buf (List Nat)
  | [] => return []
  | n :: ns => do
    let r ← T.str.ser n.1
    let rs ← serKeys T ns
    return r :: rs

/-- The archived entries, written from the current position on. -/
def resEntries (T : Target) : List ((List UInt8 × Int) × Nat) → Buf → Option Buf
  | [], b => some b
  | (n, r) :: ns, b => do
    let k ← T.str.res n.1 (b.length + T.entry.off "key") r
    resEntries T ns (b ++ resolveStruct T.entry [("key", k), ("value", (i16 T.endian).enc n.2)])

/-- `ArchivedVec::serialize_from_iter` on the entries of the hash map; `none` on a panic. -/
def serEntries (T : Target) (order : JointNames) (b : Buf) : Option (Nat × Buf) := do
  let (rs, b) := serKeys T order b
  let b := padTo T.entry.align b
  let b' ← resEntries T (order.zip rs) b
  return (b.length, b')

/-- `Skeleton::serialize`, skeleton.rs:350-362. `order` is the order in which the hash map yields its pairs. -/
def serializeSkeleton (T : Target) (s : SkeletonRaw) (order : JointNames) (b : Buf) :
    Option (SkeletonResolver × Buf) := do
  let b := padTo 16 b
  let (poses, b) := serSlice (soa T.endian 40) s.jointRestPoses b
  let (names, b) ← serEntries T order b
  let (parents, b) := serSlice (i16 T.endian) s.jointParents b
  return ({ poses, names, parents }, b)

/-- `Skeleton::resolve`, skeleton.rs:337-346. -/
def resolveSkeleton (T : Target) (s : SkeletonRaw) (pos : Nat) (r : SkeletonResolver) :
    Option (List (String × Buf)) := do
  let fp := fun f => pos + T.skeleton.off f
  let poses ← vecAt T (fp "joint_rest_poses") s.jointRestPoses.length r.poses
  let names ← vecAt T (fp "joint_names") s.jointNames.length r.names
  let parents ← vecAt T (fp "joint_parents") s.jointParents.length r.parents
  return [("num_joints", (uint T.endian 4).enc s.jointParents.length), ("joint_rest_poses", poses),
    ("joint_names", names), ("joint_parents", parents)]

/-- `serialize_value(&skeleton)` on a buffer. -/
def archiveSkeleton (T : Target) (s : SkeletonRaw) (order : JointNames) (b : Buf) : Option (Nat × Buf) := do
  let (r, b) ← serializeSkeleton T s order b
  serializeValue T.skeleton (fun b => (r, b)) (resolveSkeleton T s) b

/-- The archived entries of a map. -/
def readEntries (T : Target) (base : Nat) (b : Buf) : Nat → Nat → Option JointNames
  | 0, _ => some []
  | n + 1, pos => do
    let k ← readStr T base b (pos + T.entry.off "key")
    let v ← readAt (i16 T.endian) base b (pos + T.entry.off "value")
    let es ← readEntries T base b n (pos + T.entry.size)
    return (k, v) :: es

/-- `ArchivedSkeleton::deserialize`, skeleton.rs:366-391. `none` if any of the fields cannot be read, even if a
copy panics before it is reached. -/
def deserializeSkeleton (T : Target) (base : Nat) (b : Buf) (pos : Nat) (block : Nat) (m : Mem) :
    Option (Res (SkeletonObj × Mem)) := do
  let at_ := fun f => pos + T.skeleton.off f
  let n ← readAt (uint T.endian 4) base b (at_ "num_joints")
  let poses ← readVec T (soa T.endian 40) base b (at_ "joint_rest_poses")
  let (start, len) ← readPtr T base b (at_ "joint_names")
  let entries ← if (base + start) % T.entry.align = 0 then readEntries T base b len start else none
  let parents ← readVec T (i16 T.endian) base b (at_ "joint_parents")
  return do
    let layout ← skeletonNew block n
    let m ← copyFromSlice ((reprU32 T.endian).array 40) m layout.restPoses (numSoa n) poses
    let names := entries.foldl (fun (m : JointNames) e => m.insert e.1 e.2) []
    let m ← copyFromSlice (reprI16 T.endian) m layout.parents n parents
    return ({ layout, numJoints := n, jointNames := names }, m)

/-! ### Tracks and edges: derived -/

/-- The resolver derived for `Track<V>`. -/
structure TrackResolver where
  ratios : Nat
  values : Nat
  steps : Nat
  name : Nat

/-- `Track::serialize`, track.rs:117-126. -/
def serializeTrack (T : Target) (k : TrackKind) (t : Track UInt32 (List UInt32)) : StateM Buf TrackResolver := do
  let ratios ← serSlice (u32 T.endian) t.ratios
  let values ← serSlice (value T.endian k) t.values
  let steps ← serSlice (u8 T.endian) t.steps
  let name ← T.str.ser t.name
  return { ratios, values, steps, name }

/-- `Track::resolve`. -/
def resolveTrack (T : Target) (t : Track UInt32 (List UInt32)) (pos : Nat) (r : TrackResolver) :
    Option (List (String × Buf)) := do
  let fp := fun f => pos + T.track.off f
  let ratios ← vecAt T (fp "ratios") t.ratios.length r.ratios
  let values ← vecAt T (fp "values") t.values.length r.values
  let steps ← vecAt T (fp "steps") t.steps.length r.steps
  let name ← T.str.res t.name (fp "name") r.name
  return [("key_count", (uint T.endian 4).enc t.keyCount), ("ratios", ratios), ("values", values), ("steps", steps),
    ("name", name)]

def archiveTrack (T : Target) (k : TrackKind) (t : Track UInt32 (List UInt32)) (b : Buf) : Option (Nat × Buf) :=
  serializeValue T.track (serializeTrack T k t) (resolveTrack T t) b

/-- `ArchivedTrack::deserialize`. -/
def deserializeTrack (T : Target) (k : TrackKind) (base : Nat) (b : Buf) (pos : Nat) :
    Option (Track UInt32 (List UInt32)) := do
  let at_ := fun f => pos + T.track.off f
  return {
    keyCount := ← readAt (uint T.endian 4) base b (at_ "key_count")
    ratios := ← readVec T (u32 T.endian) base b (at_ "ratios")
    values := ← readVec T (value T.endian k) base b (at_ "values")
    steps := ← readVec T (u8 T.endian) base b (at_ "steps")
    name := ← readStr T base b (at_ "name") }

/-- `Edge`, track_triggering_job.rs:14-22. -/
def archiveEdge (T : Target) (ratio : UInt32) (rising : Bool) (b : Buf) : Option (Nat × Buf) :=
  serializeValue T.edge (fun b => ((), b))
    (fun _ _ => some [("ratio", (u32 T.endian).enc ratio), ("rising", bool.enc rising)]) b

def deserializeEdge (T : Target) (base : Nat) (b : Buf) (pos : Nat) : Option (UInt32 × Bool) := do
  let ratio ← readAt (u32 T.endian) base b (pos + T.edge.off "ratio")
  let rising ← readAt bool base b (pos + T.edge.off "rising")
  return (ratio, rising)

/-! ### SoA values -/

/-- `serialize_value` on a `SoaVec3`, `SoaQuat` or `SoaTransform` of so many floats (math.rs:184-199, 423-438,
560-575). -/
def archiveSoa (T : Target) (floats : Nat) (v : List UInt32) (b : Buf) : Nat × Buf := serSlice (soa T.endian floats) [v] b

/-- `check_bytes`, math.rs:208-218, 447-457, 584-594. -/
def checkSoa (base pos : Nat) : Bool := (base + pos) % 16 == 0

/-! ### Sampling contexts -/

/-- `SamplingContextResolver`, sampling_job.rs:671-683. -/
structure ContextResolver where
  translations : Nat
  rotations : Nat
  scales : Nat
  translationEntries : Nat
  rotationEntries : Nat
  scaleEntries : Nat
  translationOutdated : Nat
  rotationOutdated : Nat
  scaleOutdated : Nat

/-- `u8` masks. -/
def mask (e : Endian) : Pod (BitVec 8) :=
  { size := 1, align := 1, enc := fun x => nativeBytes e 1 x.toNat, dec := fun bs => BitVec.ofNat 8 (nativeValue e bs) }

/-- `SamplingContext::serialize`, sampling_job.rs:731-746. -/
def serializeContext (T : Target) (c : Serde.Ctx) : StateM Buf ContextResolver := do
  modify (padTo 16)
  let translations ← serSlice (interp3 T.endian) c.translations.values
  let rotations ← serSlice (interpQ T.endian) c.rotations.values
  let scales ← serSlice (interp3 T.endian) c.scales.values
  let translationEntries ← serSlice (uint T.endian 4) c.translations.entries
  let rotationEntries ← serSlice (uint T.endian 4) c.rotations.entries
  let scaleEntries ← serSlice (uint T.endian 4) c.scales.entries
  let translationOutdated ← serSlice (mask T.endian) c.translations.outdated
  let rotationOutdated ← serSlice (mask T.endian) c.rotations.outdated
  let scaleOutdated ← serSlice (mask T.endian) c.scales.outdated
  return { translations, rotations, scales, translationEntries, rotationEntries, scaleEntries,
           translationOutdated, rotationOutdated, scaleOutdated }

/-- `SamplingContext::resolve`, sampling_job.rs:689-728. -/
def resolveContext (T : Target) (c : Serde.Ctx) (pos : Nat) (r : ContextResolver) :
    Option (List (String × Buf)) := do
  let fp := fun f => pos + T.context.off f
  let translations ← vecAt T (fp "translations") c.translations.values.length r.translations
  let rotations ← vecAt T (fp "rotations") c.rotations.values.length r.rotations
  let scales ← vecAt T (fp "scales") c.scales.values.length r.scales
  let translationEntries ← vecAt T (fp "translation_entries") c.translations.entries.length r.translationEntries
  let rotationEntries ← vecAt T (fp "rotation_entries") c.rotations.entries.length r.rotationEntries
  let scaleEntries ← vecAt T (fp "scale_entries") c.scales.entries.length r.scaleEntries
  let translationOutdated ← vecAt T (fp "translation_outdated") c.translations.outdated.length r.translationOutdated
  let rotationOutdated ← vecAt T (fp "rotation_outdated") c.rotations.outdated.length r.rotationOutdated
  let scaleOutdated ← vecAt T (fp "scale_outdated") c.scales.outdated.length r.scaleOutdated
  return [("max_tracks", (uint T.endian 4).enc (c.maxSoa * 4)), ("animation_id", (uint T.endian 8).enc c.animationId),
    ("ratio", (u32 T.endian).enc (Serde.bitsOf c.ratio)),
    ("translations", translations), ("rotations", rotations), ("scales", scales),
    ("translation_entries", translationEntries), ("rotation_entries", rotationEntries), ("scale_entries", scaleEntries),
    ("translation_outdated", translationOutdated), ("rotation_outdated", rotationOutdated),
    ("scale_outdated", scaleOutdated),
    ("translation_next", (uint T.endian 4).enc c.translations.next),
    ("rotation_next", (uint T.endian 4).enc c.rotations.next), ("scale_next", (uint T.endian 4).enc c.scales.next)]

def archiveContext (T : Target) (c : Serde.Ctx) (b : Buf) : Option (Nat × Buf) :=
  serializeValue T.context (serializeContext T c) (resolveContext T c) b

/-- `check_archived_root`: the library checks that the root lies inside the archive and is aligned, then
`ArchivedSamplingContext::check_bytes`, sampling_job.rs:780-790, compares its address with the alignment of
`f32x4`. -/
def checkContext (T : Target) (base : Nat) (b : Buf) : Option Nat :=
  match rootAt T.context base b with
  | none => none
  | some pos => if (base + pos) % 16 ≠ 0 then none else some pos

/-- `ArchivedSamplingContext::deserialize`, sampling_job.rs:749-776. `none` if any of the fields cannot be read,
even if a copy panics before it is reached. -/
def deserializeContext (T : Target) (base : Nat) (b : Buf) (pos : Nat) (mt : Sampling.Mem F32 (SoaVec3 F32))
    (mr : Sampling.Mem F32 (SoaQuat F32)) (ms : Sampling.Mem F32 (SoaVec3 F32)) : Option (Res Serde.Ctx) := do
  let at_ := fun f => pos + T.context.off f
  let size := fun f => readAt (uint T.endian 4) base b (at_ f)
  let maxTracks ← size "max_tracks"
  let animationId ← readAt (uint T.endian 8) base b (at_ "animation_id")
  let ratio ← readAt (u32 T.endian) base b (at_ "ratio")
  let translations ← readVec T (interp3 T.endian) base b (at_ "translations")
  let rotations ← readVec T (interpQ T.endian) base b (at_ "rotations")
  let scales ← readVec T (interp3 T.endian) base b (at_ "scales")
  let translationEntries ← readVec T (uint T.endian 4) base b (at_ "translation_entries")
  let rotationEntries ← readVec T (uint T.endian 4) base b (at_ "rotation_entries")
  let scaleEntries ← readVec T (uint T.endian 4) base b (at_ "scale_entries")
  let translationOutdated ← readVec T (mask T.endian) base b (at_ "translation_outdated")
  let rotationOutdated ← readVec T (mask T.endian) base b (at_ "rotation_outdated")
  let scaleOutdated ← readVec T (mask T.endian) base b (at_ "scale_outdated")
  let translationNext ← size "translation_next"
  let rotationNext ← size "rotation_next"
  let scaleNext ← size "scale_next"
  return (Sampling.Context.new maxTracks mt mr ms).setFields
    [.animationId animationId, .ratio (Serde.ofBits ratio),
     .translations translations, .rotations rotations, .scales scales,
     .translationEntries translationEntries, .rotationEntries rotationEntries, .scaleEntries scaleEntries,
     .translationOutdated translationOutdated, .rotationOutdated rotationOutdated, .scaleOutdated scaleOutdated,
     .translationNext translationNext, .rotationNext rotationNext, .scaleNext scaleNext]

end Ozz.Rkyv
