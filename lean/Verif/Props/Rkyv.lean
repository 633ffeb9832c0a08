import Verif.Proofs.RkyvContext
import Verif.Props.Serde
import Verif.Proofs.RkyvExample

/-!
C74, C75: values archived with `rkyv` are read back; what the validation of archived contexts is worth.
-/

namespace Ozz.Props

open Rkyv Spec Ozz.Layout
open Sampling (Context)

/-! ### Animations -/

/-- **C74, animations.** An animation (made from raw data whose arrays go together) archived behind whatever a
buffer holds, at an address that is a multiple of 16: the root is where `archived_root` looks for it, every field can
be read, whatever follows the archive, and deserializing into another block of memory gives the same content. -/
theorem C74_animation {T : Target} (hT : TargetOk T) (block block' base : Nat) (m : Mem) (raw : AnimationData)
    (h : RawWF raw) (hb : block < 2 ^ 63) (h4 : 4 ∣ block) (hb' : block' < 2 ^ 63) (h4' : 4 ∣ block') (h16 : 16 ∣ base)
    {x : AnimObj} {m' : Mem} (hx : animationFromRaw T.endian block m raw = .ok (x, m')) {b b' : Buf} {pos : Nat}
    (ha : archiveAnimation T (animationToRaw T.endian x m') b = some (pos, b')) :
    b <+: b' ∧ rootAt T.animation base b' = some pos ∧
    ∀ rest, ∃ x' m'', deserializeAnimation T base (b' ++ rest) pos block' m' = some (.ok (x', m'')) ∧
      animationToRaw T.endian x' m'' = animationToRaw T.endian x m' ∧ animationToRaw T.endian x m' = raw := by
  obtain ⟨y, n, h1, h2, _⟩ := animation_raw_round_trip T.endian block m raw h hb h4
  rw [hx] at h1
  cases h1
  rw [h2] at ha ⊢
  obtain ⟨r1, r2, r3⟩ := readAnimation_ok hT ⟨h.t.keys, h.r.keys, h.s.keys⟩ ha h16
  obtain ⟨y', n', h1', h2', _⟩ := animation_raw_round_trip T.endian block' m' raw h hb' h4'
  exact ⟨r2, r1, fun rest => ⟨y', n', by rw [deserializeAnimation, r3 rest, Option.map_some, h1'], h2', rfl⟩⟩

/-- Archiving does not panic as long as everything lies within 2 GiB. -/
theorem C74_animation_archives {T : Target} (hT : TargetOk T) (a : AnimationData) (h : RawWF a) (b : Buf)
    (hs : b.length + animationBytes a + 244 + T.animation.size + T.vec.size < 2 ^ 31) :
    ∃ out, archiveAnimation T a b = some out :=
  archiveAnimation_some hT ⟨h.t.keys, h.r.keys, h.s.keys⟩ hs

/-! ### Skeletons -/

/-- **C74, skeletons.** The joint names may come in whatever order the hash map yields them. -/
theorem C74_skeleton {T : Target} (hT : TargetOk T) (block' base : Nat) (m : Mem) (s : SkeletonRaw) (order : JointNames)
    (hs : SkeletonShape s) (hl : s.jointRestPoses.length = (s.jointParents.length + 3) / 4) (h1 : OneToOne s.jointNames)
    (hp : s.jointNames.Perm order) (hb' : 16 ∣ block') (h16 : 16 ∣ base) {b b' : Buf} {pos : Nat}
    (ha : archiveSkeleton T s order b = some (pos, b')) :
    b <+: b' ∧ rootAt T.skeleton base b' = some pos ∧
    ∀ rest, ∃ x m', deserializeSkeleton T base (b' ++ rest) pos block' m = some (.ok (x, m')) ∧
      (skeletonToRaw T.endian x m').jointRestPoses = s.jointRestPoses ∧
      (skeletonToRaw T.endian x m').jointParents = s.jointParents ∧
      x.jointNames.Perm s.jointNames ∧
      (∀ n, jointByName x.jointNames n = jointByName s.jointNames n) ∧
      ∀ i, nameByJoint x.jointNames i = nameByJoint s.jointNames i := by
  obtain ⟨hlen, hpre, hgood, _⟩ := deserializeSkeleton_ok hT hs hp ha (base := base)
  obtain ⟨hroot, hde⟩ := hgood h16
  refine ⟨hpre, hroot, fun rest => ?_⟩
  have hone := Serde.oneToOne_perm h1 hp
  have hfold : order.foldl (fun (m : JointNames) e => m.insert e.1 e.2) [] = order.reverse := by
    have := Serde.foldl_insert order [] (by rwa [List.append_nil])
    rwa [List.append_nil] at this
  rw [hfold] at hde
  obtain ⟨x, m', e1, e2, _⟩ := skeleton_raw_round_trip T.endian block' m
    ⟨s.jointRestPoses, s.jointParents, order.reverse⟩ hlen hl hs.poses hs.parents hb'
  have hn : x.jointNames = order.reverse := congrArg SkeletonRaw.jointNames e2
  have hperm : (order.reverse).Perm s.jointNames := (List.reverse_perm _).trans hp.symm
  have hlk := Serde.lookup_perm h1 hperm.symm
  refine ⟨x, m', by rw [hde, e1], by rw [e2], by rw [e2], ?_⟩
  rw [hn]
  exact ⟨hperm, fun n => (hlk.1 n).symm, fun i => (hlk.2 i).symm⟩

theorem C74_skeleton_archives {T : Target} (hT : TargetOk T) (s : SkeletonRaw) (order : JointNames)
    (hk : SkeletonShape s) (hp : s.jointNames.Perm order) (b : Buf)
    (hs : b.length + skeletonBytes T s + 64 + T.skeleton.size + T.vec.size < 2 ^ 31) :
    ∃ out, archiveSkeleton T s order b = some out := archiveSkeleton_some hT hk hp hs

/-- Archived skeletons cannot be read at addresses that are not multiples of 16, although the root is found at every
multiple of 4: the rest poses are misaligned. -/
theorem C74_skeleton_misaligned {T : Target} (hT : TargetOk T) (block' base : Nat) (m : Mem) (s : SkeletonRaw)
    (order : JointNames) (hs : SkeletonShape s) (hp : s.jointNames.Perm order) (h4 : 4 ∣ base) (h16 : ¬ 16 ∣ base)
    {b b' : Buf} {pos : Nat} (ha : archiveSkeleton T s order b = some (pos, b')) :
    ∀ rest, deserializeSkeleton T base (b' ++ rest) pos block' m = none := by
  obtain ⟨_, _, _, hbad⟩ := deserializeSkeleton_ok hT hs hp ha (base := base)
  exact fun rest => hbad h4 h16 rest block' m

/-! ### Tracks, edges, SoA values -/

/-- **C74, tracks.** -/
theorem C74_track {T : Target} (hT : TargetOk T) (base : Nat) (k : TrackKind) (t : Track UInt32 (List UInt32))
    (hs : TrackShape k t) (h16 : 16 ∣ base) (b : Buf) :
    (∀ pos b', archiveTrack T k t b = some (pos, b') →
      b <+: b' ∧ rootAt T.track base b' = some pos ∧ ∀ rest, deserializeTrack T k base (b' ++ rest) pos = some t) ∧
    (b.length + trackBytes k t + 49 + T.track.size + T.vec.size < 2 ^ 31 → ∃ out, archiveTrack T k t b = some out) :=
  ⟨fun _ _ ha => have h := deserializeTrack_ok hT hs ha h16; ⟨h.2.1, h.1, h.2.2⟩, fun hl => archiveTrack_some hT hs hl⟩

/-- **C74, edges.** -/
theorem C74_edge {T : Target} (hT : TargetOk T) (base : Nat) (ratio : UInt32) (rising : Bool) (h16 : 16 ∣ base) (b : Buf) :
    ∃ pos b', archiveEdge T ratio rising b = some (pos, b') ∧ rootAt T.edge base b' = some pos ∧ b <+: b' ∧
      ∀ rest, deserializeEdge T base (b' ++ rest) pos = some (ratio, rising) := edge_ok hT ratio rising b h16

/-- **C74, SoA values** (12, 16 or 40 floats): they pass their check and are read back. -/
theorem C74_soa (T : Target) (base n : Nat) (v : List UInt32) (hn : n = 12 ∨ n = 16 ∨ n = 40) (hv : v.length = n)
    (h16 : 16 ∣ base) (b : Buf) :
    ∃ pos b', archiveSoa T n v b = (pos, b') ∧ rootAt ⟨n * 4, 16, fun _ => 0⟩ base b' = some pos ∧ b <+: b' ∧
      checkSoa base pos = true ∧ ∀ rest, readAt (soa T.endian n) base (b' ++ rest) pos = some v :=
  ⟨_, _, rfl, soa_ok T (by omega) (by omega) hv b h16⟩

/-! ### Sampling contexts -/

section
variable {K3 KQ O : Type} {N : Sampling.Numerics F32 K3 KQ (SoaVec3 F32) (SoaQuat F32) O} {lo hi : F32}
  {anims : Nat → Option (Sampling.Animation F32 K3 KQ)} {n : Nat}

/-- **C74, contexts.** A context in use, archived and read back, is the same context, whatever its floats and
whatever the memory it is read into held before. -/
theorem C74_context {T : Target} (hT : TargetOk T) (base : Nat) (hst : StoreOk lo hi ((n + 3) / 4) anims)
    {c : Serde.Ctx} (hc : Reached N lo hi anims n c) (hf : ContextFits c) (h16 : 16 ∣ base) {b b' : Buf} {pos : Nat}
    (ha : archiveContext T c b = some (pos, b')) :
    b <+: b' ∧ rootAt T.context base b' = some pos ∧
    ∀ rest mt mr ms, deserializeContext T base (b' ++ rest) pos mt mr ms = some (.ok c) := by
  have hu := reached_usable Sampling.f32Order hst hc
  have e := hu.maxSoa
  have h := deserializeContext_ok hT hf (by rw [e]; exact hu.translations) (by rw [e]; exact hu.rotations)
    (by rw [e]; exact hu.scales) ha h16
  exact ⟨h.2.1, h.1, h.2.2⟩

theorem C74_context_archives {T : Target} (hT : TargetOk T) (c : Serde.Ctx) (hf : ContextFits c) (b : Buf)
    (hs : b.length + contextBytes c + 159 + T.context.size + T.vec.size < 2 ^ 31) :
    ∃ out, archiveContext T c b = some out := archiveContext_some hT hf hs

/-! ### Validation of contexts -/

/-- **C75, when a context's own archive is accepted.** The check asks for an address that is a multiple of 16, but
the archived struct is only placed at multiples of 8. A context archived at a multiple of 16 passes if and only if the
masks happen to end in the upper half of 16 bytes. -/
theorem C75_check_own_archive {T : Target} (hT : TargetOk T) (base : Nat) (hst : StoreOk lo hi ((n + 3) / 4) anims)
    {c : Serde.Ctx} (hc : Reached N lo hi anims n c) (hf : ContextFits c) (h16 : 16 ∣ base) {b b' : Buf} {pos : Nat}
    (hb : 16 ∣ b.length) (ha : archiveContext T c b = some (pos, b')) :
    checkContext T base b' =
      if (3 * (((n + 3) / 4 + 7) / 8) + 7) / 8 % 2 = 0 then some pos else none := by
  have hu := reached_usable Sampling.f32Order hst hc
  have e := hu.maxSoa
  have hp := context_pos hT hf (by rw [e]; exact hu.translations) (by rw [e]; exact hu.rotations)
    (by rw [e]; exact hu.scales) ha hb
  obtain ⟨_, hr, _⟩ := C74_context hT base hst hc hf h16 ha
  rw [e] at hp
  simp only [checkContext, hr]
  generalize (3 * (((n + 3) / 4 + 7) / 8) + 7) / 8 = k at hp
  by_cases hk : k % 2 = 0
  · rw [if_pos hk, if_neg (by omega)]
  · rw [if_neg hk, if_pos (by omega)]

/-- So the archive of every context for 1 to 64 tracks is rejected: validation fails on valid data. -/
theorem C75_small_contexts_rejected {T : Target} (hT : TargetOk T) (base : Nat)
    (hst : StoreOk lo hi ((n + 3) / 4) anims) {c : Serde.Ctx} (hc : Reached N lo hi anims n c) (hf : ContextFits c)
    (h16 : 16 ∣ base) {b b' : Buf} {pos : Nat} (hb : 16 ∣ b.length) (ha : archiveContext T c b = some (pos, b'))
    (h0 : 0 < n) (h64 : n ≤ 64) : checkContext T base b' = none := by
  rw [C75_check_own_archive hT base hst hc hf h16 hb ha]
  have h1 : 1 ≤ (n + 3) / 4 := by omega
  have h2 : (n + 3) / 4 ≤ 16 := by omega
  have h3 : 1 ≤ ((n + 3) / 4 + 7) / 8 := by omega
  have h4 : ((n + 3) / 4 + 7) / 8 ≤ 2 := by omega
  have h5 : (3 * (((n + 3) / 4 + 7) / 8) + 7) / 8 = 1 := by omega
  rw [h5, if_neg (by decide)]

/-- **C75, what holds.** If the archive of a context passes the check, reading what the check returns gives the context
back. Missing: that it passes (`C75_small_contexts_rejected`), and that other bytes which pass can be read
(`C75_garbage_accepted`). -/
theorem C75_checked_partial {T : Target} (hT : TargetOk T) (base : Nat) (hst : StoreOk lo hi ((n + 3) / 4) anims)
    {c : Serde.Ctx} (hc : Reached N lo hi anims n c) (hf : ContextFits c) (h16 : 16 ∣ base) {b b' : Buf} {pos q : Nat}
    (ha : archiveContext T c b = some (pos, b')) (hq : checkContext T base b' = some q) :
    ∀ mt mr ms, deserializeContext T base b' q mt mr ms = some (.ok c) := by
  obtain ⟨_, hr, hd⟩ := C74_context hT base hst hc hf h16 ha
  simp only [checkContext, hr] at hq
  split at hq
  · cases hq
  · cases hq
    intro mt mr ms
    have := hd [] mt mr ms
    rwa [List.append_nil] at this

end

/-- Bytes that no context was archived to pass the check: only the address is looked at. Deserializing them goes
through a misaligned pointer or one before the buffer. -/
theorem C75_garbage_accepted {T : Target} (hT : TargetOk T) (base : Nat) (h16 : 16 ∣ base)
    (mt : Sampling.Mem F32 (SoaVec3 F32)) (mr : Sampling.Mem F32 (SoaQuat F32)) (ms : Sampling.Mem F32 (SoaVec3 F32)) :
    checkContext T base (List.replicate T.context.size 255) = some 0 ∧
    deserializeContext T base (List.replicate T.context.size 255) 0 mt mr ms = none := by
  have hal := context_align hT
  have hroot : rootAt T.context base (List.replicate T.context.size 255) = some 0 :=
    rootAt_ok (by simp) (by rw [hal, Nat.add_zero]; exact Nat.dvd_trans (by decide) h16)
  constructor
  · simp only [checkContext, hroot]
    rw [if_neg (by omega)]
  · have i := hT.context.inside ⟨"translations", T.vec.size, 4⟩ (by simp)
    have a := hT.context.aligned ⟨"translations", T.vec.size, 4⟩ (by simp)
    simp only at i a
    have v := garbage_vec hT (p := interp3 T.endian) (by show 2 ∣ 16; decide) (base := base)
      (pos := 0 + T.context.off "translations") (n := T.context.size) (by omega) h16 (by omega)
    simp only [deserializeContext, bind, Option.bind, v]
    repeat' split
    all_goals rfl

/-! ### Examples -/

open Rkyv.Example (target target_ok)

/-- The raw animation of C69, archived behind three bytes, read at address 4096 with two bytes behind it. -/
example : ∃ x m' pos b' x' m'', animationFromRaw .little 64 (fun _ => 170) rawExample = .ok (x, m') ∧
    archiveAnimation target (animationToRaw .little x m') [1, 2, 3] = some (pos, b') ∧
    rootAt target.animation 4096 b' = some pos ∧
    deserializeAnimation target 4096 (b' ++ [4, 5]) pos 8192 m' = some (.ok (x', m'')) ∧
    animationToRaw .little x' m'' = rawExample := by
  obtain ⟨x, m', hx, hraw, _⟩ := C56_animation_raw .little 64 (fun _ => 170) rawExample rawExample_ok.1
    (by decide) (by decide)
  obtain ⟨⟨pos, b'⟩, ha⟩ := C74_animation_archives target_ok rawExample rawExample_ok.1 [1, 2, 3] (by decide)
  rw [← hraw] at ha
  obtain ⟨_, h2, h3⟩ := C74_animation target_ok 64 8192 4096 _ rawExample rawExample_ok.1 (by decide) (by decide)
    (by decide) (by decide) (by decide) hx ha
  obtain ⟨x', m'', h4, h5, h6⟩ := h3 [4, 5]
  exact ⟨x, m', pos, b', x', m'', hx, ha, h2, h4, h5.trans h6⟩

/-- The same archive, byte for byte: the root of 156 bytes, four-aligned. -/
example : (archiveAnimation target rawExample [1, 2, 3]).map (fun r => (r.1, r.2.length)) = some (64, 220) := by
  decide +kernel

/-- The skeleton of C69; the second name first. At address 4100 it cannot be read. -/
example : ∃ pos b' x m', archiveSkeleton target skelExample [([98], 1), ([97], 0)] [] = some (pos, b') ∧
    deserializeSkeleton target 4096 b' pos 64 (fun _ => 0) = some (.ok (x, m')) ∧
    (skeletonToRaw .little x m').jointParents = [-1, 0] ∧ jointByName x.jointNames [98] = some 1 ∧
    deserializeSkeleton target 4100 b' pos 64 (fun _ => 0) = none := by
  obtain ⟨⟨pos, b'⟩, ha⟩ := C74_skeleton_archives target_ok skelExample [([98], 1), ([97], 0)] skelExample_ok.1
    (by decide) [] (by decide)
  obtain ⟨_, _, h⟩ := C74_skeleton target_ok 64 4096 (fun _ => 0) skelExample _ skelExample_ok.1 (by decide)
    skelExample_ok.2 (by decide) (by decide) (by decide) ha
  obtain ⟨x, m', h1, _, h3, _, h5, _⟩ := h []
  have h6 := C74_skeleton_misaligned target_ok 64 4100 (fun _ => 0) skelExample _ skelExample_ok.1 (by decide) (by decide)
    (by decide) ha []
  rw [List.append_nil] at h1 h6
  exact ⟨pos, b', x, m', ha, h1, h3, h5 _, h6⟩

example : ∃ pos b', archiveTrack target .float3 trackExample [] = some (pos, b') ∧
    deserializeTrack target .float3 0 b' pos = some trackExample := by
  obtain ⟨h1, h2⟩ := C74_track target_ok 0 .float3 trackExample ⟨by decide, by decide⟩ (by decide) []
  obtain ⟨⟨pos, b'⟩, ha⟩ := h2 (by decide)
  have := (h1 pos b' ha).2.2 []
  rw [List.append_nil] at this
  exact ⟨pos, b', ha, this⟩

/-- An edge at ratio 1/2. -/
example : archiveEdge target 0x3F000000 true [9] = some (4, [9, 0, 0, 0, 0, 0, 0, 0x3F, 1, 0, 0, 0]) := by decide +kernel

example : (archiveSoa target 12 (List.replicate 12 0x3F800000) [9]).1 = 16 := by decide +kernel

/-- A new context for two tracks: archived and read back although its memory holds NaN, and rejected by the check. -/
example :
    let c : Serde.Ctx := Context.new 2 nanMem (zeroMem _ default) nanMem
    ∃ pos b', archiveContext target c [] = some (pos, b') ∧
      deserializeContext target 4096 b' pos nanMem (zeroMem _ default) nanMem = some (.ok c) ∧
      checkContext target 4096 b' = none := by
  intro c
  have cache : ∀ {V : Type} (f : Nat → Sampling.Interp F32 V),
      CacheFits (Sampling.Cache.new ((2 + 3) / 4) (⟨fun _ => 0, fun _ => 0, f⟩ : Sampling.Mem F32 V)) := by
    intro V f
    refine ⟨by simp [Sampling.Cache.new], ?_⟩
    intro e he
    simp only [Sampling.Cache.new, List.mem_map] at he
    obtain ⟨_, _, rfl⟩ := he
    decide
  have hf : ContextFits c := ⟨by decide, cache _, cache _, cache _⟩
  obtain ⟨⟨pos, b'⟩, ha⟩ := C74_context_archives target_ok c hf [] (by decide)
  obtain ⟨_, _, h⟩ := C74_context target_ok 4096 Sampling.FloatExample.store32_ok (N := Sampling.codeNumerics) (n := 2)
    ⟨_, _, _, [], by simp [OpsOk], .nil _⟩ hf (by decide) ha
  have h1 := h [] nanMem (zeroMem _ default) nanMem
  rw [List.append_nil] at h1
  exact ⟨pos, b', ha, h1, C75_small_contexts_rejected target_ok 4096 Sampling.FloatExample.store32_ok (N := Sampling.codeNumerics) (n := 2)
    ⟨_, _, _, [], by simp [OpsOk], .nil _⟩ hf (by decide)
    (by decide) ha (by decide) (by decide)⟩

/-- 104 bytes 0xFF pass as a context. -/
example : checkContext target 0 (List.replicate 104 255) = some 0 :=
  (C75_garbage_accepted target_ok 0 (by decide) nanMem (zeroMem _ default) nanMem).1

end Ozz.Props
