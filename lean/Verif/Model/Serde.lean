import Verif.Model.Layout
import Verif.Model.Math
import Verif.Model.Interpolate
import Verif.Model.Triggering

/-!
The `serde` implementations: /repo/src/math.rs:221-243, 460-482, 485-496, animation.rs:16-21, 49-54,
268-296, 1072-1090, skeleton.rs:63-69, 394-410, track.rs:117-126, track_triggering_job.rs:14-22,
sampling_job.rs:17-26, 123-141, 793-903.

A `Serialize` implementation tells a format which shapes follow each other; what comes out depends
on the format. Two formats are modelled, both outside the crate:

* `Json`: a tree whose arrays and objects carry their own extent and whose object entries carry
  their names, like `serde_json` (the crate's own tests use it). Numbers are tokens: a printed
  integer or finite float is taken to be read back as it was. Other floats are printed as `null`.
* bytes: positional, without any description of types, like `bincode`: little-endian numbers, the
  length of a sequence, string or map as a `u64` in front of it, tuples and structs as their parts
  one after another. A sequence or map of unannounced length is an error.

Not modelled: reading a struct from a JSON array, reading a float from an integer token, UTF-8 checks
of strings (Rust's `String` is UTF-8 by type), recursion limits.
-/

namespace Ozz.Serde

/-! ### Formats -/

abbrev Bytes := List UInt8

/-- A JSON document. Objects written for structs and for maps whose keys are literals are `obj`;
objects written for maps whose keys are data (UTF-8 bytes) are `dict`. -/
inductive Json where
  | null
  | bool (b : Bool)
  | int (i : Int)
  | flt (bits : UInt32)
  | str (s : List UInt8)
  | arr (xs : List Json)
  | obj (fs : List (String × Json))
  | dict (es : List (List UInt8 × Json))

/-- What a value becomes in each format; `none` is an error of the serializer. -/
structure Out where
  json : Json
  bin : Option Bytes

/-- How a type is read in each format; `none` is an error of the deserializer. Reading bytes leaves
the bytes that follow. -/
structure De (τ : Type) where
  json : Json → Option τ
  bin : Bytes → Option (τ × Bytes)

/-- Not an infinity or NaN: the exponent bits are not all ones. -/
def finiteBits (x : UInt32) : Bool := decide (x.toNat % 2 ^ 31 < 255 * 2 ^ 23)

/-! ### Writing -/

/-- Unsigned integer of `w` bytes. -/
def Out.uint (w n : Nat) : Out := ⟨.int n, some (leBytes w n)⟩

/-- `serialize_i16`. -/
def Out.i16 (i : Int) : Out := ⟨.int i, some (leBytes 2 (BitVec.ofInt 16 i).toNat)⟩

def Out.bool (b : Bool) : Out := ⟨.bool b, some [if b then 1 else 0]⟩

/-- `serialize_f32`: JSON has no infinities and NaN. -/
def Out.f32 (x : UInt32) : Out :=
  ⟨if finiteBits x then .flt x else .null, some (leBytes 4 x.toNat)⟩

/-- The parts one after another. -/
def catBins : List (Option Bytes) → Option Bytes
  | [] => some []
  | b :: bs => do
    let x ← b
    let y ← catBins bs
    return x ++ y

/-- `serialize_str`. -/
def Out.str (s : List UInt8) : Out := ⟨.str s, some (leBytes 8 s.length ++ s)⟩

/-- `serialize_seq(declared)`, the elements, `end`. The bytes announce the declared length, whatever
number of elements follows. -/
def Out.seq (declared : Option Nat) (xs : List Out) : Out :=
  ⟨.arr (xs.map (·.json)),
   match declared with
   | none => none
   | some n => (catBins (xs.map (·.bin))).map (leBytes 8 n ++ ·)⟩

/-- `serialize_tuple`, `serialize_tuple_struct`. -/
def Out.tuple (xs : List Out) : Out := ⟨.arr (xs.map (·.json)), catBins (xs.map (·.bin))⟩

/-- `serialize_struct`. -/
def Out.struct (fs : List (String × Out)) : Out :=
  ⟨.obj (fs.map fun f => (f.1, f.2.json)), catBins (fs.map (·.2.bin))⟩

/-- `serialize_map(declared)` with literal keys. -/
def Out.map (declared : Option Nat) (fs : List (String × Out)) : Out :=
  ⟨.obj (fs.map fun f => (f.1, f.2.json)),
   match declared with
   | none => none
   | some n => (catBins (fs.map fun f =>
      catBins [some (leBytes 8 f.1.utf8ByteSize ++ f.1.toUTF8.toList), f.2.bin])).map (leBytes 8 n ++ ·)⟩

/-- `serialize_map(declared)` with string keys that are data. -/
def Out.dict (declared : Option Nat) (es : List (List UInt8 × Out)) : Out :=
  ⟨.dict (es.map fun f => (f.1, f.2.json)),
   match declared with
   | none => none
   | some n => (catBins (es.map fun f =>
      catBins [some (leBytes 8 f.1.length ++ f.1), f.2.bin])).map (leBytes 8 n ++ ·)⟩

/-- `Vec<T>` and slices: `serialize_seq(Some(len))`. -/
def Out.vec {τ : Type} (f : τ → Out) (xs : List τ) : Out := Out.seq (some xs.length) (xs.map f)

/-- `[T; n]`: `serialize_tuple(n)`. -/
def Out.array {τ : Type} (f : τ → Out) (xs : List τ) : Out := Out.tuple (xs.map f)

/-! ### Reading -/

/-- `n` bytes, or an error at the end of the input. -/
def takeBytes (n : Nat) (bs : Bytes) : Option (Bytes × Bytes) :=
  if n ≤ bs.length then some (bs.take n, bs.drop n) else none

/-- Unsigned integer of `w` bytes; JSON integers out of range are errors. -/
def De.uint (w : Nat) : De Nat where
  json
    | .int i => if 0 ≤ i ∧ i < 256 ^ w then some i.toNat else none
    | _ => none
  bin bs := (takeBytes w bs).map fun p => (leValue p.1, p.2)

/-- `deserialize_i16`. -/
def De.i16 : De Int where
  json
    | .int i => if -32768 ≤ i ∧ i ≤ 32767 then some i else none
    | _ => none
  bin bs := (takeBytes 2 bs).map fun p => ((BitVec.ofNat 16 (leValue p.1)).toInt, p.2)

def De.bool : De Bool where
  json
    | .bool b => some b
    | _ => none
  bin
    | 0 :: bs => some (false, bs)
    | 1 :: bs => some (true, bs)
    | _ => none

/-- `deserialize_f32`; `null` is not a float. -/
def De.f32 : De UInt32 where
  json
    | .flt x => some x
    | _ => none
  bin bs := (takeBytes 4 bs).map fun p => (UInt32.ofNat (leValue p.1), p.2)

/-- `deserialize_string`. -/
def De.str : De (List UInt8) where
  json
    | .str s => some s
    | _ => none
  bin bs := do
    let (n, bs) ← takeBytes 8 bs
    takeBytes (leValue n) bs

/-- Applies `f` to what is read. -/
def De.map {σ τ : Type} (f : σ → τ) (d : De σ) : De τ where
  json j := (d.json j).map f
  bin bs := (d.bin bs).map fun p => (f p.1, p.2)

def De.u8 : De UInt8 := (De.uint 1).map UInt8.ofNat
def De.u16 : De UInt16 := (De.uint 2).map UInt16.ofNat
def De.u32 : De UInt32 := (De.uint 4).map UInt32.ofNat

/-- Every element of a JSON array. -/
def allJson {τ : Type} (f : Json → Option τ) : List Json → Option (List τ)
  | [] => some []
  | j :: js => do
    let x ← f j
    let xs ← allJson f js
    return x :: xs

/-- `n` values in a row. -/
def manyBin {τ : Type} (f : Bytes → Option (τ × Bytes)) : Nat → Bytes → Option (List τ × Bytes)
  | 0, bs => some ([], bs)
  | n + 1, bs => do
    let (x, bs) ← f bs
    let (xs, bs) ← manyBin f n bs
    return (x :: xs, bs)

/-- `Vec<T>`. -/
def De.vec {τ : Type} (d : De τ) : De (List τ) where
  json
    | .arr js => allJson d.json js
    | _ => none
  bin bs := do
    let (n, bs) ← takeBytes 8 bs
    manyBin d.bin (leValue n) bs

/-- `[T; n]`: exactly `n` elements. -/
def De.array {τ : Type} (n : Nat) (d : De τ) : De (List τ) where
  json
    | .arr js => if js.length = n then allJson d.json js else none
    | _ => none
  bin bs := manyBin d.bin n bs

/-- How the fields of a derived struct are read: by name from a JSON object, in order from bytes. -/
structure Fields (τ : Type) where
  json : List (String × Json) → Option τ
  bin : Bytes → Option (τ × Bytes)

/-- The value of a field; a missing or repeated field is an error, unknown fields are ignored. -/
def getField (o : List (String × Json)) (name : String) : Option Json :=
  match o.filter fun f => f.1 == name with
  | [f] => some f.2
  | _ => none

def Fields.done {τ : Type} (x : τ) : Fields τ := ⟨fun _ => some x, fun bs => some (x, bs)⟩

/-- One more field, in front. -/
def Fields.field {σ τ : Type} (name : String) (d : De σ) (k : σ → Fields τ) : Fields τ where
  json o := do
    let j ← getField o name
    let x ← d.json j
    (k x).json o
  bin bs := do
    let (x, bs) ← d.bin bs
    (k x).bin bs

/-- `derive(Deserialize)` for a struct. -/
def De.struct {τ : Type} (f : Fields τ) : De τ where
  json
    | .obj o => f.json o
    | _ => none
  bin := f.bin

/-- Every entry of a JSON object with data keys. -/
def allEntries {τ : Type} (f : Json → Option τ) :
    List (List UInt8 × Json) → Option (List (List UInt8 × τ))
  | [] => some []
  | e :: es => do
    let x ← f e.2
    let xs ← allEntries f es
    return (e.1, x) :: xs

/-- The entries of a map with string keys, in the order of the input. -/
def De.entries {τ : Type} (d : De τ) : De (List (List UInt8 × τ)) where
  json
    | .dict es => allEntries d.json es
    | _ => none
  bin bs := do
    let (n, bs) ← takeBytes 8 bs
    manyBin (fun bs => do
      let (k, bs) ← De.str.bin bs
      let (v, bs) ← d.bin bs
      return ((k, v), bs)) (leValue n) bs

/-! ### SoA values. A value is its floats, component after component, lane after lane. -/

/-- The four floats of component `i`; `f32x4::as_array`. -/
def row (p : List UInt32) (i : Nat) : List UInt32 := (p.drop (4 * i)).take 4

/-- A `[f32; 4]`. -/
def outRow (p : List UInt32) (i : Nat) : Out := Out.array Out.f32 (row p i)

/-- `SoaVec3::serialize`, math.rs:227-233: a sequence of three tuples. -/
def outVec3 (v : List UInt32) : Out := Out.seq (some 3) [outRow v 0, outRow v 1, outRow v 2]

/-- `SoaVec3::deserialize`, math.rs:237-240: a `[[f32; 4]; 3]`. -/
def deVec3 : De (List UInt32) := ((De.f32.array 4).array 3).map List.flatten

/-- `SoaQuat::serialize`, math.rs:466-473: announced as a sequence of three, writes four. -/
def outQuat (q : List UInt32) : Out :=
  Out.seq (some 3) [outRow q 0, outRow q 1, outRow q 2, outRow q 3]

/-- `SoaQuat::deserialize`, math.rs:477-480: a `[[f32; 4]; 4]`. -/
def deQuat : De (List UInt32) := ((De.f32.array 4).array 4).map List.flatten

/-- `SoaTransform`, math.rs:489-496. -/
def outTransform (p : List UInt32) : Out :=
  Out.struct [("translation", outVec3 (p.take 12)), ("rotation", outQuat ((p.drop 12).take 16)),
    ("scale", outVec3 (p.drop 28))]

def deTransform : De (List UInt32) := De.struct <|
  .field "translation" deVec3 fun t => .field "rotation" deQuat fun r =>
  .field "scale" deVec3 fun s => .done (t ++ r ++ s)

/-! ### Animations -/

/-- `Float3Key` and `QuaternionKey`, animation.rs:20-21, 53-54: newtypes around `[u16; 3]`, written as
that array. -/
def outKey (k : List UInt16) : Out := Out.array (fun x => Out.uint 2 x.toNat) k

def deKey : De (List UInt16) := De.u16.array 3

/-- `AnimationRaw`, animation.rs:268-296; `Animation::serialize` (1075-1080) writes it. -/
def outAnimation (a : AnimationData) : Out :=
  Out.struct
    [("duration", Out.f32 a.duration),
     ("num_tracks", Out.uint 4 a.numTracks.toNat),
     ("name", Out.str a.name),
     ("timepoints", Out.vec Out.f32 a.timepoints),
     ("translations", Out.vec outKey a.t.keys),
     ("t_ratios", Out.vec (fun x => Out.uint 2 x.toNat) a.t.ratios),
     ("t_previouses", Out.vec (fun x => Out.uint 2 x.toNat) a.t.previouses),
     ("t_iframe_interval", Out.f32 a.t.iframeInterval),
     ("t_iframe_entries", Out.vec (fun x => Out.uint 1 x.toNat) a.t.iframeEntries),
     ("t_iframe_desc", Out.vec (fun x => Out.uint 4 x.toNat) a.t.iframeDesc),
     ("rotations", Out.vec outKey a.r.keys),
     ("r_ratios", Out.vec (fun x => Out.uint 2 x.toNat) a.r.ratios),
     ("r_previouses", Out.vec (fun x => Out.uint 2 x.toNat) a.r.previouses),
     ("r_iframe_interval", Out.f32 a.r.iframeInterval),
     ("r_iframe_entries", Out.vec (fun x => Out.uint 1 x.toNat) a.r.iframeEntries),
     ("r_iframe_desc", Out.vec (fun x => Out.uint 4 x.toNat) a.r.iframeDesc),
     ("scales", Out.vec outKey a.s.keys),
     ("s_ratios", Out.vec (fun x => Out.uint 2 x.toNat) a.s.ratios),
     ("s_previouses", Out.vec (fun x => Out.uint 2 x.toNat) a.s.previouses),
     ("s_iframe_interval", Out.f32 a.s.iframeInterval),
     ("s_iframe_entries", Out.vec (fun x => Out.uint 1 x.toNat) a.s.iframeEntries),
     ("s_iframe_desc", Out.vec (fun x => Out.uint 4 x.toNat) a.s.iframeDesc)]

/-- `AnimationRaw::deserialize`, derived. -/
def deAnimation : De AnimationData := De.struct <|
  .field "duration" .f32 fun duration =>
  .field "num_tracks" .u32 fun numTracks =>
  .field "name" .str fun name =>
  .field "timepoints" (.vec .f32) fun timepoints =>
  .field "translations" (.vec deKey) fun tKeys =>
  .field "t_ratios" (.vec .u16) fun tRatios =>
  .field "t_previouses" (.vec .u16) fun tPreviouses =>
  .field "t_iframe_interval" .f32 fun tInterval =>
  .field "t_iframe_entries" (.vec .u8) fun tEntries =>
  .field "t_iframe_desc" (.vec .u32) fun tDesc =>
  .field "rotations" (.vec deKey) fun rKeys =>
  .field "r_ratios" (.vec .u16) fun rRatios =>
  .field "r_previouses" (.vec .u16) fun rPreviouses =>
  .field "r_iframe_interval" .f32 fun rInterval =>
  .field "r_iframe_entries" (.vec .u8) fun rEntries =>
  .field "r_iframe_desc" (.vec .u32) fun rDesc =>
  .field "scales" (.vec deKey) fun sKeys =>
  .field "s_ratios" (.vec .u16) fun sRatios =>
  .field "s_previouses" (.vec .u16) fun sPreviouses =>
  .field "s_iframe_interval" .f32 fun sInterval =>
  .field "s_iframe_entries" (.vec .u8) fun sEntries =>
  .field "s_iframe_desc" (.vec .u32) fun sDesc =>
  .done
    { duration, numTracks, name, timepoints
      t := ⟨tRatios, tPreviouses, tEntries, tDesc, tInterval, tKeys⟩
      r := ⟨rRatios, rPreviouses, rEntries, rDesc, rInterval, rKeys⟩
      s := ⟨sRatios, sPreviouses, sEntries, sDesc, sInterval, sKeys⟩ }

/-! ### Skeletons -/

/-- `SkeletonRaw`, skeleton.rs:63-69; `Skeleton::serialize` (397-402) writes it. `order` is the order
in which the hash map of joint names yields its pairs; `bimap` writes them as a map of known
length. -/
def outSkeleton (s : SkeletonRaw) (order : JointNames) : Out :=
  Out.struct
    [("joint_rest_poses", Out.vec outTransform s.jointRestPoses),
     ("joint_parents", Out.vec Out.i16 s.jointParents),
     ("joint_names", Out.dict (some order.length) (order.map fun p => (p.1, Out.i16 p.2)))]

/-- `bimap` inserts the entries in the order of the input. -/
def deNames : De JointNames :=
  (De.i16.entries).map fun es => es.foldl (fun m e => m.insert e.1 e.2) []

/-- `SkeletonRaw::deserialize`, derived. -/
def deSkeleton : De SkeletonRaw := De.struct <|
  .field "joint_rest_poses" (.vec deTransform) fun jointRestPoses =>
  .field "joint_parents" (.vec .i16) fun jointParents =>
  .field "joint_names" deNames fun jointNames =>
  .done { jointRestPoses, jointParents, jointNames }

/-! ### Tracks and edges -/

/-- A track value: `f32` is a float, `Vec2` to `Quat` are tuples of floats (`glam`). -/
def outValue (k : TrackKind) (v : List UInt32) : Out :=
  match k with
  | .float => Out.f32 (v.headD 0)
  | _ => Out.array Out.f32 v

def deValue (k : TrackKind) : De (List UInt32) :=
  match k with
  | .float => De.f32.map fun x => [x]
  | _ => De.f32.array k.arity

/-- `Track<V>`, track.rs:117-126. -/
def outTrack (k : TrackKind) (t : Track UInt32 (List UInt32)) : Out :=
  Out.struct
    [("key_count", Out.uint 4 t.keyCount),
     ("ratios", Out.vec Out.f32 t.ratios),
     ("values", Out.vec (outValue k) t.values),
     ("steps", Out.vec (fun x => Out.uint 1 x.toNat) t.steps),
     ("name", Out.str t.name)]

def deTrack (k : TrackKind) : De (Track UInt32 (List UInt32)) := De.struct <|
  .field "key_count" (.uint 4) fun keyCount =>
  .field "ratios" (.vec .f32) fun ratios =>
  .field "values" (.vec (deValue k)) fun values =>
  .field "steps" (.vec .u8) fun steps =>
  .field "name" .str fun name =>
  .done { keyCount, ratios, values, steps, name }

/-- `Edge`, track_triggering_job.rs:14-22. -/
def outEdge (ratio : UInt32) (rising : Bool) : Out :=
  Out.struct [("ratio", Out.f32 ratio), ("rising", Out.bool rising)]

def deEdge : De (UInt32 × Bool) := De.struct <|
  .field "ratio" .f32 fun ratio => .field "rising" .bool fun rising => .done (ratio, rising)

/-! ### Sampling contexts -/

open Sampling (Interp Context)

/-- A float by its bits. -/
def bitsOf (x : F32) : UInt32 := UInt32.ofBitVec x.bits
def ofBits (x : UInt32) : F32 := ⟨x.toBitVec⟩

/-- `f32x4::as_array`. -/
def rowOf (v : F4 F32) : List UInt32 := [bitsOf (v 0), bitsOf (v 1), bitsOf (v 2), bitsOf (v 3)]

/-- `f32x4::from_array`; component `i` of a value given by its floats. -/
def ofRow (p : List UInt32) (i : Nat) : F4 F32 := fun l => ofBits (p.getD (4 * i + l) 0)

def vec3Floats (v : SoaVec3 F32) : List UInt32 := rowOf v.x ++ rowOf v.y ++ rowOf v.z
def vec3Of (p : List UInt32) : SoaVec3 F32 := ⟨ofRow p 0, ofRow p 1, ofRow p 2⟩
def quatFloats (q : SoaQuat F32) : List UInt32 := rowOf q.x ++ rowOf q.y ++ rowOf q.z ++ rowOf q.w
def quatOf (p : List UInt32) : SoaQuat F32 := ⟨ofRow p 0, ofRow p 1, ofRow p 2, ofRow p 3⟩

/-- `InterpSoaFloat3` and `InterpSoaQuaternion`, sampling_job.rs:17-26 and 72-81: the ratios by
`serde_interp` (lines 129-134: a sequence of two tuples), the values as an array of two. -/
def outInterp {V : Type} (f : V → Out) (x : Interp F32 V) : Out :=
  Out.struct
    [("ratio", Out.seq (some 2) [Out.array Out.f32 (rowOf x.ratio0), Out.array Out.f32 (rowOf x.ratio1)]),
     ("value", Out.tuple [f x.value0, f x.value1])]

/-- The same, reading; the ratios as a `[[f32; 4]; 2]` (lines 136-139). -/
def deInterp {V : Type} [Inhabited V] (d : De V) : De (Interp F32 V) := De.struct <|
  .field "ratio" ((De.f32.array 4).array 2) fun r =>
  .field "value" (d.array 2) fun v =>
  .done { ratio0 := ofRow (r.getD 0 []) 0, ratio1 := ofRow (r.getD 1 []) 0
          value0 := v.getD 0 default, value1 := v.getD 1 default }

instance : Inhabited (SoaVec3 F32) := ⟨vec3Of []⟩
instance : Inhabited (SoaQuat F32) := ⟨quatOf []⟩

def outInterp3 : Interp F32 (SoaVec3 F32) → Out := outInterp fun v => outVec3 (vec3Floats v)
def outInterpQ : Interp F32 (SoaQuat F32) → Out := outInterp fun q => outQuat (quatFloats q)
def deInterp3 : De (Interp F32 (SoaVec3 F32)) := deInterp (deVec3.map vec3Of)
def deInterpQ : De (Interp F32 (SoaQuat F32)) := deInterp (deQuat.map quatOf)

/-- A context whose floats are `f32`. -/
abbrev Ctx := Context F32 (SoaVec3 F32) (SoaQuat F32)

/-- `SamplingContext::serialize`, lines 799-821: a map of unannounced length. Machine words are
64 bits. -/
def outContext (c : Ctx) (size : Nat) : Out :=
  Out.map none
    [("size", Out.uint 8 size),
     ("max_tracks", Out.uint 8 (c.maxSoa * 4)),
     ("max_soa_tracks", Out.uint 8 c.maxSoa),
     ("max_outdated", Out.uint 8 ((c.maxSoa + 7) / 8)),
     ("animation_id", Out.uint 8 c.animationId),
     ("ratio", Out.f32 (bitsOf c.ratio)),
     ("translations", Out.vec outInterp3 c.translations.values),
     ("rotations", Out.vec outInterpQ c.rotations.values),
     ("scales", Out.vec outInterp3 c.scales.values),
     ("translation_entries", Out.vec (Out.uint 4) c.translations.entries),
     ("translation_outdated", Out.vec (fun x => Out.uint 1 x.toNat) c.translations.outdated),
     ("translation_next", Out.uint 8 c.translations.next),
     ("rotation_entries", Out.vec (Out.uint 4) c.rotations.entries),
     ("rotation_outdated", Out.vec (fun x => Out.uint 1 x.toNat) c.rotations.outdated),
     ("rotation_next", Out.uint 8 c.rotations.next),
     ("scale_entries", Out.vec (Out.uint 4) c.scales.entries),
     ("scale_outdated", Out.vec (fun x => Out.uint 1 x.toNat) c.scales.outdated),
     ("scale_next", Out.uint 8 c.scales.next)]

def deOutdated : De (List (BitVec 8)) := ((De.uint 1).map (BitVec.ofNat 8)).vec

/-- The value of one entry in the second loop of `visit_map`, lines 854-899, as the assignment it
leads to; unknown keys are skipped whatever their value (`size 0` assigns nothing). -/
def entryField (key : String) (j : Json) : Option (Sampling.Field F32 (SoaVec3 F32) (SoaQuat F32)) :=
  match key with
  | "animation_id" => ((De.uint 8).json j).map .animationId
  | "ratio" => (De.f32.json j).map fun x => .ratio (ofBits x)
  | "translations" => (deInterp3.vec.json j).map .translations
  | "translation_entries" => ((De.uint 4).vec.json j).map .translationEntries
  | "translation_outdated" => (deOutdated.json j).map .translationOutdated
  | "translation_next" => ((De.uint 8).json j).map .translationNext
  | "rotations" => (deInterpQ.vec.json j).map .rotations
  | "rotation_entries" => ((De.uint 4).vec.json j).map .rotationEntries
  | "rotation_outdated" => (deOutdated.json j).map .rotationOutdated
  | "rotation_next" => ((De.uint 8).json j).map .rotationNext
  | "scales" => (deInterp3.vec.json j).map .scales
  | "scale_entries" => ((De.uint 4).vec.json j).map .scaleEntries
  | "scale_outdated" => (deOutdated.json j).map .scaleOutdated
  | "scale_next" => ((De.uint 8).json j).map .scaleNext
  | _ => some (.size 0)

/-- First loop of `visit_map`, lines 840-848: up to `max_tracks`. -/
def seekTracks : List (String × Json) → Option (Nat × List (String × Json))
  | [] => none
  | (key, j) :: rest =>
    if key = "max_tracks" then ((De.uint 8).json j).map fun n => (n, rest) else seekTracks rest

/-- Second loop of `visit_map`, lines 854-899: `none` is an error of the deserializer, and
`copy_from_slice` panics on a wrong length. -/
def setEntries (c : Ctx) : List (String × Json) → Option (Res Ctx)
  | [] => some (.ok c)
  | (key, j) :: rest =>
    match entryField key j with
    | none => none
    | some f =>
      match c.setField f with
      | .error e => some (.error e)
      | .ok c => setEntries c rest

/-- `SamplingContext::deserialize`, lines 824-901. `borrowed`: the input lends out its keys
(`next_key::<&str>`, line 841), as a text in memory does for keys without escapes; a reader or an
owned document does not, and any key is then an error. Machine words are 64 bits. -/
def readContext (borrowed : Bool) (j : Json) (mt : Sampling.Mem F32 (SoaVec3 F32))
    (mr : Sampling.Mem F32 (SoaQuat F32)) (ms : Sampling.Mem F32 (SoaVec3 F32)) : Option (Res Ctx) :=
  match j with
  | .obj es =>
    if borrowed || es.isEmpty then
      match seekTracks es with
      | none => none
      | some (n, rest) => setEntries (Context.new n mt mr ms) rest
    else none
  | _ => none

end Ozz.Serde
