import Verif.Proofs.SerdeSorted
import Verif.Props.Layout
import Verif.Props.Sampling
import Verif.Props.FloatSampling

/-!
C69, C70: values written through `serde` are read back.
-/

namespace Ozz.Props

open Serde Spec Ozz.Layout
open Sampling (Context)

/-! ### Animations -/

/-- **C69, animations.** An animation (made from raw data whose arrays go together) written as JSON
and read back into another block of memory has the same content, if its floats are finite. -/
theorem C69_animation_json (e : Endian) (base base' : Nat) (m : Mem) (raw : AnimationData)
    (h : RawWF raw) (hf : AnimationFinite raw) (hb : base < 2 ^ 63) (h4 : 4 ∣ base)
    (hb' : base' < 2 ^ 63) (h4' : 4 ∣ base') {x : AnimObj} {m' : Mem}
    (hx : animationFromRaw e base m raw = .ok (x, m')) :
    ∃ raw' x' m'', deAnimation.json (outAnimation (animationToRaw e x m')).json = some raw' ∧
      animationFromRaw e base' m' raw' = .ok (x', m'') ∧
      animationToRaw e x' m'' = animationToRaw e x m' ∧ animationToRaw e x m' = raw := by
  obtain ⟨y, n, h1, h2, _⟩ := animation_raw_round_trip e base m raw h hb h4
  rw [hx] at h1
  cases h1
  rw [h2]
  obtain ⟨y', n', h1', h2', _⟩ := animation_raw_round_trip e base' m' raw h hb' h4'
  exact ⟨raw, y', n', rtj_animation h hf, h1', h2', rfl⟩

/-- With a float that is not finite, reading what was written is an error. -/
theorem C69_animation_json_nonfinite (a : AnimationData) (h : ¬ AnimationFinite a) :
    deAnimation.json (outAnimation a).json = none := animation_nonfinite h

/-- As bytes every animation is read back, whatever its floats, and the bytes that follow it are
left alone. -/
theorem C69_animation_bytes (a : AnimationData) (h : RawWF a) (hn : a.name.length < 2 ^ 64) :
    ∃ bs, (outAnimation a).bin = some bs ∧
      ∀ rest, deAnimation.bin (bs ++ rest) = some (a, rest) := rtb_animation h hn

/-! ### Skeletons -/

/-- **C69, skeletons.** A skeleton written as JSON, its joint names in whatever order the hash map
yields them, and read back has the same rest poses and parents and answers every question about
names and joints the same way. -/
theorem C69_skeleton_json (s : SkeletonRaw) (order : JointNames) (hs : SkeletonShape s)
    (hf : ∀ p ∈ s.jointRestPoses, ∀ x ∈ p, FiniteBits x) (h1 : OneToOne s.jointNames)
    (hp : s.jointNames.Perm order) :
    ∃ s', deSkeleton.json (outSkeleton s order).json = some s' ∧
      s'.jointRestPoses = s.jointRestPoses ∧ s'.jointParents = s.jointParents ∧
      s'.jointNames.Perm s.jointNames ∧
      (∀ n, jointByName s'.jointNames n = jointByName s.jointNames n) ∧
      ∀ i, nameByJoint s'.jointNames i = nameByJoint s.jointNames i := by
  have hperm : (order.reverse).Perm s.jointNames := (List.reverse_perm _).trans hp.symm
  have hl := lookup_perm h1 hperm.symm
  exact ⟨_, rtj_skeleton hs hf h1 hp, rfl, rfl, hperm, fun n => (hl.1 n).symm, fun i => (hl.2 i).symm⟩

/-! ### SoA values -/

theorem C69_soa_json :
    (∀ v : List UInt32, v.length = 12 → (∀ x ∈ v, FiniteBits x) →
      deVec3.json (outVec3 v).json = some v) ∧
    (∀ q : List UInt32, q.length = 16 → (∀ x ∈ q, FiniteBits x) →
      deQuat.json (outQuat q).json = some q) ∧
    ∀ p : List UInt32, p.length = 40 → (∀ x ∈ p, FiniteBits x) →
      deTransform.json (outTransform p).json = some p :=
  ⟨fun _ h hf => rtj_vec3 h hf, fun _ h hf => rtj_quat h hf, fun _ h hf => rtj_transform h hf⟩

/-- As bytes SoA values are not read back: the length written in front of the components is read
as the first two floats (3·2⁻¹⁴⁹ and 0), everything moves up by two, and the last two floats stay
behind for whoever reads next. For `SoaQuat` the length written is 3 although four components
follow. -/
theorem C69_soa_bytes_misread :
    (∀ (v : List UInt32) (rest : Bytes), v.length = 12 → ∃ bs, (outVec3 v).bin = some bs ∧
      ∃ tail, tail.length = 8 ∧
      deVec3.bin (bs ++ rest) = some (3 :: 0 :: v.take 10, tail ++ rest)) ∧
    ∀ (q : List UInt32) (rest : Bytes), q.length = 16 → ∃ bs, (outQuat q).bin = some bs ∧
      ∃ tail, tail.length = 8 ∧
      deQuat.bin (bs ++ rest) = some (3 :: 0 :: q.take 14, tail ++ rest) := by
  have len : ∀ xs : List UInt32, (floatBytes xs).length = 4 * xs.length := by
    intro xs
    induction xs with
    | nil => rfl
    | cons x xs ih =>
      have : floatBytes (x :: xs) = leBytes 4 x.toNat ++ floatBytes xs := rfl
      rw [this, List.length_append, leBytes_length, ih, List.length_cons]
      omega
  constructor
  · intro v rest h
    obtain ⟨bs, h1, h2⟩ := vec3_misread h rest
    exact ⟨bs, h1, _, by rw [len]; simp [h], h2⟩
  · intro v rest h
    obtain ⟨bs, h1, h2⟩ := quat_misread h rest
    exact ⟨bs, h1, _, by rw [len]; simp [h], h2⟩

/-- So skeletons are not read back from bytes either: the first float of the first rest pose that is
read is always 3·2⁻¹⁴⁹. -/
theorem C69_skeleton_bytes_misread (s s' : SkeletonRaw) (order : JointNames) (p : List UInt32)
    (ps : List (List UInt32)) (hs : s.jointRestPoses = p :: ps) (hp : p.length = 40)
    (hl : s.jointRestPoses.length < 2 ^ 64) (bs rest r : Bytes)
    (hb : (outSkeleton s order).bin = some bs) (h : deSkeleton.bin (bs ++ rest) = some (s', r)) :
    (∃ q qs, s'.jointRestPoses = q :: qs ∧ q.head? = some 3) ∧
    (p.head? ≠ some 3 → s'.jointRestPoses ≠ s.jointRestPoses) := by
  obtain ⟨q, qs, h1, h2⟩ := skeleton_misread hs hp hl hb h
  refine ⟨⟨q, qs, h1, h2⟩, fun hne he => hne ?_⟩
  rw [h1, hs] at he
  cases he
  exact h2

/-- The joint names alone are read back as bytes, in whatever order the hash map yields them, and the
bytes that follow are left alone. -/
theorem C69_names_bytes (names order : JointNames) (h1 : OneToOne names) (hp : names.Perm order)
    (hl : names.length < 2 ^ 64) (hn : ∀ p ∈ names, p.1.length < 2 ^ 64)
    (hi : ∀ p ∈ names, -32768 ≤ p.2 ∧ p.2 ≤ 32767) :
    ∃ bs names', (Out.dict (some order.length) (order.map fun p => (p.1, Out.i16 p.2))).bin = some bs ∧
      (∀ rest, deNames.bin (bs ++ rest) = some (names', rest)) ∧
      (∀ n, jointByName names' n = jointByName names n) ∧
      ∀ i, nameByJoint names' i = nameByJoint names i := by
  have hperm : (order.reverse).Perm names := (List.reverse_perm _).trans hp.symm
  have hk := lookup_perm h1 hperm.symm
  obtain ⟨bs, e1, e2⟩ := rtb_names (oneToOne_perm h1 hp) (by rwa [← hp.length_eq])
    (fun p hm => hn p (hp.mem_iff.2 hm)) (fun p hm => hi p (hp.mem_iff.2 hm))
  exact ⟨bs, _, e1, e2, fun n => (hk.1 n).symm, fun i => (hk.2 i).symm⟩

/-! ### Tracks and edges -/

/-- **C69, tracks.** -/
theorem C69_track_json (k : TrackKind) (t : Track UInt32 (List UInt32)) (hs : TrackShape k t) :
    (TrackFinite t → (deTrack k).json (outTrack k t).json = some t) ∧
    (¬ TrackFinite t → (deTrack k).json (outTrack k t).json = none) :=
  ⟨fun hf => rtj_track hs hf, fun hf => track_nonfinite hs hf⟩

theorem C69_track_bytes (k : TrackKind) (t : Track UInt32 (List UInt32)) (hs : TrackShape k t)
    (h1 : t.ratios.length < 2 ^ 64) (h2 : t.values.length < 2 ^ 64) (h3 : t.steps.length < 2 ^ 64)
    (h4 : t.name.length < 2 ^ 64) :
    ∃ bs, (outTrack k t).bin = some bs ∧ ∀ rest, (deTrack k).bin (bs ++ rest) = some (t, rest) :=
  rtb_track hs h1 h2 h3 h4

theorem C69_edge (ratio : UInt32) (rising : Bool) :
    (FiniteBits ratio → deEdge.json (outEdge ratio rising).json = some (ratio, rising)) ∧
    ∃ bs, (outEdge ratio rising).bin = some bs ∧
      ∀ rest, deEdge.bin (bs ++ rest) = some ((ratio, rising), rest) := by
  constructor
  · intro h
    show (Fields.field "ratio" _ _).json _ = some _
    refine rtj_field (by field_at) (rtj_f32 h) ?_
    exact rtj_field (by field_at) (rtj_bool rising) rfl
  · exact rtb_struct (rtf_field (rtb_f32 _) (rtf_field (rtb_bool _) (rtf_done _)))

/-! ### Order of fields -/

/-- The fields of animations, skeletons and tracks may come in any order, mixed with entries of
other names. -/
theorem C69_field_order (o o' extra : List (String × Json)) (hp : (o ++ extra).Perm o')
    (hx : ∀ f ∈ extra, ∀ g ∈ o, f.1 ≠ g.1) :
    (∀ a, deAnimation.json (.obj o) = some a → deAnimation.json (.obj o') = some a) ∧
    (∀ s, deSkeleton.json (.obj o) = some s → deSkeleton.json (.obj o') = some s) ∧
    ∀ k t, (deTrack k).json (.obj o) = some t → (deTrack k).json (.obj o') = some t := by
  have hg : ∀ n j, getField o n = some j → getField o' n = some j := by
    intro n j hj
    rw [← getField_perm hp, getField_append, hj]
    intro f hf hn
    have : ∃ g ∈ o, g.1 = n := by
      simp only [getField] at hj
      split at hj
      · rename_i g hg
        have : g ∈ o.filter fun f => f.1 == n := by rw [hg]; simp
        rw [List.mem_filter] at this
        exact ⟨g, this.1, by simpa using this.2⟩
      · cases hj
    obtain ⟨g, hgo, hgn⟩ := this
    exact hx f hf g hgo (hn.trans hgn.symm)
  have step : ∀ {σ τ : Type} {name : String} {d : De σ} {k : σ → Fields τ} {z : τ},
      (∀ x, (k x).json o = some z → (k x).json o' = some z) →
      (Fields.field name d k).json o = some z → (Fields.field name d k).json o' = some z := by
    intro σ τ name d k z hk h
    simp only [Fields.field, bind, Option.bind] at h ⊢
    cases hn : getField o name with
    | none => rw [hn] at h; cases h
    | some j =>
      rw [hn] at h
      rw [hg name j hn]
      simp only at h ⊢
      cases hd : d.json j with
      | none => rw [hd] at h; cases h
      | some x => rw [hd] at h; exact hk x h
  refine ⟨fun a => ?_, fun s => ?_, fun k t => ?_⟩
  · simp only [deAnimation, De.struct]
    iterate 22 refine step fun _ => ?_
    exact id
  · simp only [deSkeleton, De.struct]
    iterate 3 refine step fun _ => ?_
    exact id
  · simp only [deTrack, De.struct]
    iterate 5 refine step fun _ => ?_
    exact id

/-! ### Sampling contexts -/

section
variable {α K3 KQ O : Type} {N : Sampling.Numerics F32 K3 KQ (SoaVec3 F32) (SoaQuat F32) O} {lo hi : F32}

/-- **C70.** A context in use, written as JSON and read from text, is the same context,
whatever the memory it is read into held before. -/
theorem C70_json
    {anims : Nat → Option (Sampling.Animation F32 K3 KQ)} {n : Nat}
    (hst : StoreOk lo hi ((n + 3) / 4) anims) {c : Ctx} (hc : Reached N lo hi anims n c)
    (h : ContextStorable c) (size : Nat) (mt : Sampling.Mem F32 (SoaVec3 F32))
    (mr : Sampling.Mem F32 (SoaQuat F32)) (ms : Sampling.Mem F32 (SoaVec3 F32)) :
    readContext true (outContext c size).json mt mr ms = some (.ok c) := by
  rw [readContext_eq h size mt mr ms]
  exact (C55_clone_and_save_load Sampling.f32Order hst hc size mt mr ms).2

end

/-- Formats without lengths at the end of a map cannot write contexts at all. -/
theorem C70_bytes_fail (c : Ctx) (size : Nat) : (outContext c size).bin = none := rfl

/-- A context can be read only from input that lends out its keys: from a reader, or from an owned
document, nothing that was written is accepted. -/
theorem C70_owned_keys_fail (c : Ctx) (size : Nat) (mt : Sampling.Mem F32 (SoaVec3 F32))
    (mr : Sampling.Mem F32 (SoaQuat F32)) (ms : Sampling.Mem F32 (SoaVec3 F32)) :
    readContext false (outContext c size).json mt mr ms = none := by
  rw [outContext_json]; rfl

/-- A context whose entries have been sorted by name (as a JSON document held in memory does by
default) forgets its animation id, which then precedes `max_tracks`: what is read is not the context
that was written. -/
theorem C70_sorted_forgets {K3 KQ O : Type}
    {N : Sampling.Numerics F32 K3 KQ (SoaVec3 F32) (SoaQuat F32) O} {lo hi : F32}
    {anims : Nat → Option (Sampling.Animation F32 K3 KQ)} {n : Nat}
    (hst : StoreOk lo hi ((n + 3) / 4) anims) {c : Ctx} (hc : Reached N lo hi anims n c)
    (h : ContextStorable c) (size : Nat) (mt : Sampling.Mem F32 (SoaVec3 F32))
    (mr : Sampling.Mem F32 (SoaQuat F32)) (ms : Sampling.Mem F32 (SoaVec3 F32)) :
    ∃ es es', (outContext c size).json = .obj es ∧ es.Perm es' ∧
      es'.Pairwise (fun a b => a.1 < b.1) ∧
      readContext true (.obj es') mt mr ms = some (.ok { c with animationId := 0 }) := by
  have hu := reached_usable Sampling.f32Order hst hc
  refine ⟨_, _, entries_eq c size, sorted_perm c size, ?_, ?_⟩
  · show List.Pairwise _ [_, _, _, _, _, _, _, _, _, _, _, _, _, _, _, _, _, _]
    exact sorted_keys c size
  · rw [read_sorted h, setFields_sorted hu]

/-- A context holding a float that is not finite, for instance in the part of its memory that no
sampling has yet initialised, cannot be read back. -/
theorem C70_nonfinite (c : Ctx) (size : Nat) (h1 : c.maxSoa * 4 < 2 ^ 64)
    (h2 : c.animationId < 2 ^ 64)
    (h : ∃ x ∈ c.translations.values, ∃ l, (x.ratio0 l).isFinite = false)
    (mt : Sampling.Mem F32 (SoaVec3 F32)) (mr : Sampling.Mem F32 (SoaQuat F32))
    (ms : Sampling.Mem F32 (SoaVec3 F32)) :
    readContext true (outContext c size).json mt mr ms = none := by
  rw [outContext_json, readContext_obj (u64 _ h1), contextTail,
    setEntries_step (entry_max_soa_tracks _) rfl, setEntries_step (entry_max_outdated _) rfl,
    setEntries_step (entry_animation_id (u64 _ h2)) rfl]
  by_cases hr : FiniteBits (bitsOf c.ratio)
  · rw [setEntries_step (entry_ratio (rtj_f32 hr)) rfl]
    obtain ⟨x, hx, l, hl⟩ := h
    have : deInterp3.vec.json (Out.vec outInterp3 c.translations.values).json = none :=
      vec_json_none ⟨x, hx, interp_nonfinite hl⟩
    exact setEntries_none (entry_translations_none this)
  · exact setEntries_none (entry_ratio_none (json_f32_none hr))

/-- An array of another length than the context's is a panic, not an error. -/
theorem C70_wrong_length_panics (n : Nat) (hn : n < 2 ^ 64) (entries : List Nat)
    (he : ∀ x ∈ entries, x < 2 ^ 32) (hl : entries.length ≠ (n + 3) / 4 * 4)
    (mt : Sampling.Mem F32 (SoaVec3 F32)) (mr : Sampling.Mem F32 (SoaQuat F32))
    (ms : Sampling.Mem F32 (SoaVec3 F32)) :
    readContext true (.obj [("max_tracks", (Out.uint 8 n).json),
      ("translation_entries", (Out.vec (Out.uint 4) entries).json)]) mt mr ms =
      some (.error .panic) := by
  have h2 : (De.uint 4).vec.json (Out.vec (Out.uint 4) entries).json = some entries := en _ he
  rw [readContext_first (u64 n hn)]
  refine setEntries_panic (entry_translation_entries h2) ?_
  simp only [Context.setField, Sampling.copyFromSlice, Context.new, Sampling.Cache.new,
    List.length_map, List.length_range, bind, Except.bind]
  rw [if_neg (Ne.symm hl)]

/-! ### Examples -/

/-- A raw animation meeting the hypotheses. -/
def rawExample : AnimationData :=
  { duration := 0x3F800000, numTracks := 1, name := [120], timepoints := [0, 0x3F800000]
    t := ⟨[0, 0, 1], [0, 0, 4], [7], [1, 2], 0x3F000000, List.replicate 3 [1, 2, 0xffff]⟩
    r := ⟨[0], [0], [], [], 0, [[5, 6, 7]]⟩
    s := ⟨[], [], [], [], 0, []⟩ }

theorem rawExample_ok : RawWF rawExample ∧ AnimationFinite rawExample := by
  refine ⟨⟨by decide, ?_, ?_, ?_⟩, by decide, by decide, by decide, by decide, by decide⟩ <;>
    exact ⟨rfl, rfl, by decide, by decide, by decide, by decide⟩

example : ∃ x m' raw' x' m'', animationFromRaw .little 64 (fun _ => 170) rawExample = .ok (x, m') ∧
    deAnimation.json (outAnimation (animationToRaw .little x m')).json = some raw' ∧
    animationFromRaw .little 4096 m' raw' = .ok (x', m'') ∧
    animationToRaw .little x' m'' = rawExample := by
  obtain ⟨x, m', hx, _⟩ := C56_animation_raw .little 64 (fun _ => 170) rawExample rawExample_ok.1
    (by decide) (by decide)
  obtain ⟨r, x', m'', h1, h2, h3, h4⟩ := C69_animation_json .little 64 4096 _ _ rawExample_ok.1
    rawExample_ok.2 (by decide) (by decide) (by decide) (by decide) hx
  exact ⟨x, m', r, x', m'', hx, h1, h2, h3.trans h4⟩

/-- An infinite duration is lost. -/
example : deAnimation.json (outAnimation { rawExample with duration := 0x7F800000 }).json = none :=
  C69_animation_json_nonfinite _ fun h => absurd h.1 (by decide)

/-- An edge at ratio 1/2, as bytes. -/
example : (outEdge 0x3F000000 true).bin = some [0, 0, 0, 0x3F, 1] := by decide +kernel

/-- A skeleton of two joints; the hash map yields the second name first. -/
def skelExample : SkeletonRaw :=
  ⟨[List.replicate 40 0x3F800000], [-1, 0], [([97], 0), ([98], 1)]⟩

theorem skelExample_ok : SkeletonShape skelExample ∧ OneToOne skelExample.jointNames :=
  ⟨⟨by decide, by decide, by decide⟩, by decide, by decide⟩

example : ∃ s', deSkeleton.json (outSkeleton skelExample [([98], 1), ([97], 0)]).json = some s' ∧
    s'.jointParents = [-1, 0] ∧ jointByName s'.jointNames [98] = some 1 ∧
    nameByJoint s'.jointNames 0 = some [97] := by
  obtain ⟨s', h1, h2, h3, h4, h5, h6⟩ := C69_skeleton_json skelExample [([98], 1), ([97], 0)]
    skelExample_ok.1 (by decide) skelExample_ok.2 (by decide)
  exact ⟨s', h1, h3, h5 _, h6 _⟩

example : ∃ bs names', (Out.dict (some 2) [([98], Out.i16 1), ([97], Out.i16 0)]).bin = some bs ∧
    (∀ rest, deNames.bin (bs ++ rest) = some (names', rest)) ∧ jointByName names' [98] = some 1 ∧
    nameByJoint names' 0 = some [97] := by
  obtain ⟨bs, names', h1, h2, h3, h4⟩ := C69_names_bytes skelExample.jointNames [([98], 1), ([97], 0)]
    skelExample_ok.2 (by decide) (by decide) (by decide) (by decide)
  exact ⟨bs, names', h1, h2, h3 _, h4 _⟩

/-- As bytes the same skeleton is not read back, whatever is read. -/
example (s' : SkeletonRaw) (bs r : Bytes) (hb : (outSkeleton skelExample skelExample.jointNames).bin = some bs)
    (h : deSkeleton.bin bs = some (s', r)) : s'.jointRestPoses ≠ skelExample.jointRestPoses :=
  (C69_skeleton_bytes_misread skelExample s' _ _ _ rfl rfl (by decide) bs [] r hb
    (by rwa [List.append_nil])).2 (by decide)

example : ∃ bs, (outVec3 (List.replicate 12 0x3F800000)).bin = some bs ∧ bs.length = 56 ∧
    deVec3.bin bs = some (3 :: 0 :: List.replicate 10 0x3F800000, [0, 0, 128, 63, 0, 0, 128, 63]) := by
  refine ⟨_, vec3_bin rfl, by decide +kernel, by decide +kernel⟩

def trackExample : Track UInt32 (List UInt32) :=
  ⟨2, [0, 0x3F800000], [[1, 2, 3], [4, 5, 6]], [2], [110]⟩

example : (deTrack .float3).json (outTrack .float3 trackExample).json = some trackExample ∧
    (deTrack .float3).json (outTrack .float3 { trackExample with ratios := [0x7FC00000] }).json = none :=
  ⟨(C69_track_json .float3 trackExample ⟨by decide, by decide⟩).1 ⟨by decide, by decide⟩,
   (C69_track_json .float3 { trackExample with ratios := [0x7FC00000] } ⟨by decide, by decide⟩).2
     fun h => absurd (h.1 0x7FC00000 (by simp)) (by decide)⟩

/-- Memory of zeros, and memory that reads as NaN. -/
def zeroMem (V : Type) (v : V) : Sampling.Mem F32 V :=
  ⟨fun _ => 0, fun _ => 0, fun _ => ⟨fun _ => F32.zero, fun _ => F32.zero, v, v⟩⟩

def nanMem : Sampling.Mem F32 (SoaVec3 F32) :=
  ⟨fun _ => 0, fun _ => 0, fun _ => ⟨fun _ => F32.nan, fun _ => F32.nan, default, default⟩⟩

theorem finite_row0 (p : List UInt32) (i : Nat) (h : p = []) : RowFinite (ofRow p i) := by
  subst h
  intro l
  simp only [ofRow, List.getD_nil]
  decide +kernel

/-- A new context whose memory happened to hold zeros: it is written and read back. -/
example (size : Nat) :
    let c : Ctx := Context.new 2 (zeroMem _ default) (zeroMem _ default) (zeroMem _ default)
    readContext true (outContext c size).json nanMem (zeroMem _ default) nanMem = some (.ok c) := by
  intro c
  have v3 : Vec3Finite default :=
    ⟨finite_row0 _ _ rfl, finite_row0 _ _ rfl, finite_row0 _ _ rfl⟩
  have q : QuatFinite default :=
    ⟨finite_row0 _ _ rfl, finite_row0 _ _ rfl, finite_row0 _ _ rfl, finite_row0 _ _ rfl⟩
  have z0 : F32.zero.isFinite = true := by decide +kernel
  have zr : RowFinite fun _ => F32.zero := fun _ => z0
  have cache : ∀ {V : Type} {F : V → Prop} {v : V}, F v →
      CacheStorable F (Sampling.Cache.new ((2 + 3) / 4) (zeroMem V v)) := by
    intro V F v hv
    refine ⟨by simp [Sampling.Cache.new], ?_, ?_⟩
    · intro e he
      simp only [Sampling.Cache.new, zeroMem, List.mem_map] at he
      obtain ⟨_, _, rfl⟩ := he
      decide
    · intro x hx
      simp only [Sampling.Cache.new, zeroMem, List.mem_map] at hx
      obtain ⟨_, _, rfl⟩ := hx
      exact ⟨zr, zr, hv, hv⟩
  exact C70_json (N := Sampling.codeNumerics) Sampling.FloatExample.store32_ok (n := 2)
    ⟨_, _, _, [], by simp [OpsOk], .nil _⟩
    ⟨by decide, by decide, by decide +kernel, cache v3, cache q, cache v3⟩ size _ _ _

/-- A new context whose memory happened to hold NaN: it is not read back. -/
example (size : Nat) :
    readContext true (outContext (Context.new 2 nanMem (zeroMem _ default) nanMem) size).json
      nanMem (zeroMem _ default) nanMem = none := by
  refine C70_nonfinite _ _ (by decide) (by decide) ?_ _ _ _
  exact ⟨⟨fun _ => F32.nan, fun _ => F32.nan, default, default⟩,
    by simp [Context.new, Sampling.Cache.new, nanMem], 0, by decide +kernel⟩

end Ozz.Props
