import Verif.Model.Rkyv

/-!
What is assumed of the compiler's layouts and of the library's strings, and the sizes of what is archived.
-/

namespace Ozz.Spec

open Rkyv

/-- The bytes `bs` stand at position `p` of `F`. -/
def At (F : Buf) (p : Nat) (bs : Buf) : Prop := ∀ i x, bs[i]? = some x → F[p + i]? = some x

/-- A field of a struct: name, size and alignment. -/
structure FieldSpec where
  name : String
  size : Nat
  align : Nat

/-- A layout for a struct with these fields: they lie inside the struct, apart from each other and
aligned; the struct is aligned as its strictest field. -/
structure Fits (L : StructLayout) (fs : List FieldSpec) : Prop where
  inside : ∀ f ∈ fs, L.off f.name + f.size ≤ L.size
  apart : fs.Pairwise fun f g => L.off f.name + f.size ≤ L.off g.name ∨ L.off g.name + g.size ≤ L.off f.name
  aligned : ∀ f ∈ fs, f.align ∣ L.off f.name
  divides : ∀ f ∈ fs, f.align ∣ L.align
  strictest : ∃ f ∈ fs, L.align = f.align
  stride : L.align ∣ L.size

/-- Archived strings give the string back when the archived string lies behind its bytes. -/
structure StrOk (S : StrCodec) : Prop where
  align : S.align = 4
  /-- Only the string's bytes are written in advance. -/
  appends : ∀ s b, ∃ tail, (S.ser s b).2 = b ++ tail ∧ tail.length ≤ s.length
  length : ∀ s p r bs, S.res s p r = some bs → bs.length = S.size
  /-- Positions up to 2 GiB can be reached. -/
  reaches : ∀ s b p, (S.ser s b).2.length ≤ p → p < 2 ^ 31 → S.res s p (S.ser s b).1 ≠ none
  reads : ∀ s b p bs F, (S.ser s b).2.length ≤ p → (S.ser s b).2 <+: F → S.res s p (S.ser s b).1 = some bs →
    At F p bs → S.get F p = some s

/-- The archived structs of the crate, as the compiler may lay them out. -/
structure TargetOk (T : Target) : Prop where
  str : StrOk T.str
  vec : Fits T.vec [⟨"ptr", 4, 4⟩, ⟨"len", 4, 4⟩]
  /-- `ArchivedAnimation`, animation.rs:859-886 -/
  animation : Fits T.animation
    [⟨"duration", 4, 4⟩, ⟨"num_tracks", 4, 4⟩, ⟨"name", T.str.size, 4⟩, ⟨"timepoints", T.vec.size, 4⟩,
     ⟨"translations", T.vec.size, 4⟩, ⟨"t_ratios", T.vec.size, 4⟩, ⟨"t_previouses", T.vec.size, 4⟩,
     ⟨"t_iframe_interval", 4, 4⟩, ⟨"t_iframe_entries", T.vec.size, 4⟩, ⟨"t_iframe_desc", T.vec.size, 4⟩,
     ⟨"rotations", T.vec.size, 4⟩, ⟨"r_ratios", T.vec.size, 4⟩, ⟨"r_previouses", T.vec.size, 4⟩,
     ⟨"r_iframe_interval", 4, 4⟩, ⟨"r_iframe_entries", T.vec.size, 4⟩, ⟨"r_iframe_desc", T.vec.size, 4⟩,
     ⟨"scales", T.vec.size, 4⟩, ⟨"s_ratios", T.vec.size, 4⟩, ⟨"s_previouses", T.vec.size, 4⟩,
     ⟨"s_iframe_interval", 4, 4⟩, ⟨"s_iframe_entries", T.vec.size, 4⟩, ⟨"s_iframe_desc", T.vec.size, 4⟩]
  /-- `ArchivedSkeleton`, skeleton.rs:311-318 -/
  skeleton : Fits T.skeleton
    [⟨"num_joints", 4, 4⟩, ⟨"joint_rest_poses", T.vec.size, 4⟩, ⟨"joint_names", T.vec.size, 4⟩,
     ⟨"joint_parents", T.vec.size, 4⟩]
  /-- `Entry<ArchivedString, i16>` -/
  entry : Fits T.entry [⟨"key", T.str.size, 4⟩, ⟨"value", 2, 2⟩]
  /-- `ArchivedSamplingContext`, sampling_job.rs:641-662 -/
  context : Fits T.context
    [⟨"max_tracks", 4, 4⟩, ⟨"animation_id", 8, 8⟩, ⟨"ratio", 4, 4⟩,
     ⟨"translations", T.vec.size, 4⟩, ⟨"translation_entries", T.vec.size, 4⟩,
     ⟨"translation_outdated", T.vec.size, 4⟩, ⟨"translation_next", 4, 4⟩,
     ⟨"rotations", T.vec.size, 4⟩, ⟨"rotation_entries", T.vec.size, 4⟩,
     ⟨"rotation_outdated", T.vec.size, 4⟩, ⟨"rotation_next", 4, 4⟩,
     ⟨"scales", T.vec.size, 4⟩, ⟨"scale_entries", T.vec.size, 4⟩,
     ⟨"scale_outdated", T.vec.size, 4⟩, ⟨"scale_next", 4, 4⟩]
  /-- `ArchivedTrack<V>`, derived -/
  track : Fits T.track
    [⟨"key_count", 4, 4⟩, ⟨"ratios", T.vec.size, 4⟩, ⟨"values", T.vec.size, 4⟩, ⟨"steps", T.vec.size, 4⟩,
     ⟨"name", T.str.size, 4⟩]
  /-- `ArchivedEdge`, derived -/
  edge : Fits T.edge [⟨"ratio", 4, 4⟩, ⟨"rising", 1, 1⟩]

/-- Bytes of a channel's arrays. -/
def channelBytes (c : ChannelData) : Nat :=
  6 * c.keys.length + 2 * c.ratios.length + 2 * c.previouses.length + c.iframeEntries.length +
    4 * c.iframeDesc.length

/-- Bytes of an animation's name and arrays. -/
def animationBytes (a : AnimationData) : Nat :=
  a.name.length + 4 * a.timepoints.length + channelBytes a.t + channelBytes a.r + channelBytes a.s

/-- Bytes of a track's name and arrays. -/
def trackBytes (k : TrackKind) (t : Track UInt32 (List UInt32)) : Nat :=
  4 * t.ratios.length + 4 * k.arity * t.values.length + t.steps.length + t.name.length

/-- Bytes of the names. -/
def namesBytes (m : JointNames) : Nat := (m.map fun n => n.1.length).sum

/-- Bytes of a skeleton's arrays, names and entries. -/
def skeletonBytes (T : Target) (s : SkeletonRaw) : Nat :=
  160 * s.jointRestPoses.length + 2 * s.jointParents.length + namesBytes s.jointNames +
    s.jointNames.length * T.entry.size

/-- The numbers of a channel fit the archived types: entries are `u32`, the cursor is archived as `u32`. -/
structure CacheFits {V : Type} (c : Sampling.Cache F32 V) : Prop where
  next : c.next < 2 ^ 32
  entries : ∀ e ∈ c.entries, e < 2 ^ 32

/-- The numbers of a context fit the archived types. -/
structure ContextFits (c : Serde.Ctx) : Prop where
  animationId : c.animationId < 2 ^ 64
  translations : CacheFits c.translations
  rotations : CacheFits c.rotations
  scales : CacheFits c.scales

/-- Bytes of a context's arrays. -/
def contextBytes (c : Serde.Ctx) : Nat :=
  128 * c.translations.values.length + 160 * c.rotations.values.length + 128 * c.scales.values.length +
    4 * (c.translations.entries.length + c.rotations.entries.length + c.scales.entries.length) +
    (c.translations.outdated.length + c.rotations.outdated.length + c.scales.outdated.length)

end Ozz.Spec
