import Verif.Proofs.Raw

set_option linter.unusedVariables false

/-!
Properties C08–C10 and C56: storage layout and raw conversions.

`base` is the address returned by the allocator: aligned as requested and, as Rust guarantees for
any allocation, such that the block ends below 2⁶³ + its size. Counts are 32-bit (the code stores
them as `u32`).
-/

namespace Ozz.Props

open Layout

/-! ### C08: animation -/

/-- **C08.** For any 32-bit counts `Animation::new` succeeds (its size assertion holds) and carves
the block into aligned, disjoint arrays inside the block, the first one at its start; the block ends
where the last array ends. -/
theorem C08_animation_layout (base tp : Nat) (t r s : ChannelCounts) (hb : base < 2 ^ 63)
    (h4 : 4 ∣ base) (htp : tp < 2 ^ 32)
    (ht : t.keys < 2 ^ 32 ∧ t.entries < 2 ^ 32 ∧ t.desc < 2 ^ 32)
    (hr : r.keys < 2 ^ 32 ∧ r.entries < 2 ^ 32 ∧ r.desc < 2 ^ 32)
    (hs : s.keys < 2 ^ 32 ∧ s.entries < 2 ^ 32 ∧ s.desc < 2 ^ 32) :
    ∃ x, animationNew base tp t r s = .ok x ∧ x.timepoints = base ∧
      Safe base x.size (animationRegions x tp t r s) ∧
      x.s.desc + s.desc * 4 = base + x.size := by
  obtain ⟨x, hx, h1, h2, _⟩ := animationNew_ok base tp t r s hb h4 htp ht hr hs
  refine ⟨x, hx, h1, h2, ?_⟩
  -- the final assertion compares the end of the last array with the end of the block
  simp only [animationNew, bind, Except.bind] at hx
  split at hx; · cases hx
  split at hx; · cases hx
  split at hx; · cases hx
  split at hx; · cases hx
  split at hx; · cases hx
  split at hx; · cases hx
  rename_i q hq
  simp only [assertB] at hx
  split at hx
  · cases hx
  · rename_i he
    split at he
    · rename_i heq
      cases hx
      simp only [carveChannel, bind, Except.bind] at hq
      split at hq
      · cases hq
      · cases hq
        simpa using heq
    · cases he

/-- The allocation is empty (undefined behaviour of `alloc`) exactly for an animation without any
data. -/
theorem C08_empty_allocation (base tp : Nat) (t r s : ChannelCounts) (hb : base < 2 ^ 63)
    (h4 : 4 ∣ base) (htp : tp < 2 ^ 32)
    (ht : t.keys < 2 ^ 32 ∧ t.entries < 2 ^ 32 ∧ t.desc < 2 ^ 32)
    (hr : r.keys < 2 ^ 32 ∧ r.entries < 2 ^ 32 ∧ r.desc < 2 ^ 32)
    (hs : s.keys < 2 ^ 32 ∧ s.entries < 2 ^ 32 ∧ s.desc < 2 ^ 32) :
    ∃ x, animationNew base tp t r s = .ok x ∧
      (x.size = 0 ↔ tp = 0 ∧ (t.keys = 0 ∧ t.entries = 0 ∧ t.desc = 0) ∧
        (r.keys = 0 ∧ r.entries = 0 ∧ r.desc = 0) ∧ (s.keys = 0 ∧ s.entries = 0 ∧ s.desc = 0)) := by
  obtain ⟨x, hx, _, _, h⟩ := animationNew_ok base tp t r s hb h4 htp ht hr hs
  exact ⟨x, hx, h⟩

/-- The group varint decoder loads up to three bytes past the interval frame entries (C14). When
there is at least one descriptor these bytes belong to the block. -/
theorem C08_overread_stays_inside (base tp : Nat) (t r s : ChannelCounts) (hb : base < 2 ^ 63)
    (h4 : 4 ∣ base) (htp : tp < 2 ^ 32)
    (ht : t.keys < 2 ^ 32 ∧ t.entries < 2 ^ 32 ∧ t.desc < 2 ^ 32)
    (hr : r.keys < 2 ^ 32 ∧ r.entries < 2 ^ 32 ∧ r.desc < 2 ^ 32)
    (hs : s.keys < 2 ^ 32 ∧ s.entries < 2 ^ 32 ∧ s.desc < 2 ^ 32) :
    ∃ x, animationNew base tp t r s = .ok x ∧
      (0 < t.desc → x.t.entries + t.entries + 3 < base + x.size) ∧
      (0 < r.desc → x.r.entries + r.entries + 3 < base + x.size) ∧
      (0 < s.desc → x.s.entries + s.entries + 3 < base + x.size) := by
  obtain ⟨x, hx, _, hsafe, _⟩ := animationNew_ok base tp t r s hb h4 htp ht hr hs
  refine ⟨x, hx, ?_⟩
  have hin := hsafe.inside
  have hal := hsafe.aligned
  have hdj := hsafe.disjoint
  -- the descriptors come after the entries
  have key : ∀ (c : ChannelCounts) (p : ChannelPtrs), 0 < c.desc →
      (∀ q ∈ channelRegions p c, q ∈ animationRegions x tp t r s) →
      p.entries + c.entries ≤ p.desc → p.entries + c.entries + 3 < base + x.size := by
    intro c p hc hsub hle
    have h1 := hin _ (hsub ⟨p.desc, c.desc, 4, 4⟩ (by simp [channelRegions]))
    simp only [Region.stop] at h1
    omega
  have order : x.t.entries + t.entries ≤ x.t.desc ∧ x.r.entries + r.entries ≤ x.r.desc ∧
      x.s.entries + s.entries ≤ x.s.desc := by
    simp only [animationNew, bind, Except.bind] at hx
    rw [channelSize_ok _ t (by omega) ht.1 ht.2.1] at hx
    simp only at hx
    rw [channelSize_ok _ r (by omega) hr.1 hr.2.1] at hx
    simp only at hx
    rw [channelSize_ok _ s (by omega) hs.1 hs.2.1] at hx
    simp only at hx
    obtain ⟨q1, c1, o1, a1⟩ := carveChannel_ok (base + tp * 4) t (by omega) (by omega) ht.1 ht.2.1
    rw [c1] at hx
    simp only at hx
    obtain ⟨q2, c2, o2, a2⟩ := carveChannel_ok ((base + tp * 4 + (t.keys * 10 + t.entries) + 3) / 4
      * 4 + t.desc * 4) r (by omega) (by omega) hr.1 hr.2.1
    rw [c2] at hx
    simp only at hx
    obtain ⟨q3, c3, o3, a3⟩ := carveChannel_ok (((base + tp * 4 + (t.keys * 10 + t.entries) + 3) / 4
      * 4 + t.desc * 4 + (r.keys * 10 + r.entries) + 3) / 4 * 4 + r.desc * 4) s (by omega)
      (by omega) hs.1 hs.2.1
    rw [c3] at hx
    simp only [assertB] at hx
    split at hx
    · cases hx
    · cases hx
      simp only [channelRegions, InOrder, Region.stop] at o1 o2 o3
      simp only
      omega
  refine ⟨fun h => key t x.t h ?_ order.1, fun h => key r x.r h ?_ order.2.1,
    fun h => key s x.s h ?_ order.2.2⟩ <;>
  · intro q hq
    simp [animationRegions, hq]

example : ∃ x, animationNew 4096 3 ⟨8, 5, 2⟩ ⟨7, 0, 0⟩ ⟨1, 1, 0⟩ = .ok x ∧ x.size = 192 ∧
    x.t.desc = 4096 + 100 ∧ x.r.keys = 4096 + 108 := by
  exact ⟨_, rfl, by decide +kernel, by decide +kernel, by decide +kernel⟩

/-! ### C09: sampling context -/

/-- **C09.** For any capacity `SamplingContext::new` succeeds and carves the block into its header
and aligned, disjoint arrays inside the block; capacities are rounded up to whole SoA slots, with one
flag bit per slot. -/
theorem C09_context_layout (base header n : Nat) (h16 : 16 ∣ base) (hb : base < 2 ^ 63)
    (hn : n < 2 ^ 48) (hh : 0 < header ∧ header < 2 ^ 48) :
    ∃ x, contextNew base header n = .ok x ∧
      Safe base x.size (contextRegions base header x) ∧ 0 < x.size ∧
      n ≤ x.maxTracks ∧ x.maxTracks < n + 4 ∧ x.maxTracks = 4 * x.maxSoaTracks ∧
      x.maxSoaTracks ≤ 8 * x.maxOutdated ∧ 8 * x.maxOutdated < x.maxSoaTracks + 8 := by
  obtain ⟨x, h1, h2, h3, h4, h5, h6⟩ := contextNew_ok base header n h16 hb hn hh
  refine ⟨x, h1, h2, h3, ?_, ?_, h5, ?_, ?_⟩ <;> omega

example : ∃ x, contextNew 4096 144 67 = .ok x ∧ x.maxTracks = 68 ∧ x.maxSoaTracks = 17 ∧
    x.maxOutdated = 3 := by
  exact ⟨_, rfl, by decide +kernel, by decide +kernel, by decide +kernel⟩

/-! ### C10: skeleton -/

/-- **C10.** For any joint count `Skeleton::new` succeeds and carves the block into aligned,
disjoint arrays that fill it: one SoA rest pose per four joints and one parent per joint. -/
theorem C10_skeleton_layout (base n : Nat) (h16 : 16 ∣ base) :
    ∃ x, skeletonNew base n = .ok x ∧ x.restPoses = base ∧
      Safe base x.size (skeletonRegions x n ((n + 3) / 4)) ∧
      x.parents + 2 * n = base + x.size := by
  obtain ⟨x, h1, h2, h3, _⟩ := skeletonNew_ok base n h16
  refine ⟨x, h1, h2, h3, ?_⟩
  simp only [skeletonNew, bind, Except.bind, assertB] at h1
  split at h1
  · cases h1
  · cases h1
    simp only
    omega

/-- The allocation is empty (undefined behaviour of `alloc`) exactly for a skeleton without
joints. -/
theorem C10_empty_allocation (base n : Nat) (h16 : 16 ∣ base) :
    ∃ x, skeletonNew base n = .ok x ∧ (x.size = 0 ↔ n = 0) := by
  obtain ⟨x, h1, _, _, h⟩ := skeletonNew_ok base n h16
  exact ⟨x, h1, h⟩

example : ∃ x, skeletonNew 4096 67 = .ok x ∧ x.size = 2854 := ⟨_, rfl, by decide +kernel⟩

/-! ### C56: raw conversions -/

/-- **C56.** `from_raw` succeeds on every raw animation whose arrays go together, `to_raw` gives it
back, and no byte outside the allocated block is written. -/
theorem C56_animation_raw (e : Endian) (base : Nat) (m : Mem) (raw : AnimationData)
    (h : RawWF raw) (hb : base < 2 ^ 63) (h4 : 4 ∣ base) :
    ∃ x m', animationFromRaw e base m raw = .ok (x, m') ∧ animationToRaw e x m' = raw ∧
      ∀ a, ¬ (base ≤ a ∧ a < base + x.layout.size) → m' a = m a :=
  animation_raw_round_trip e base m raw h hb h4

/-- An animation converted to raw and back, into another block, has the same content. -/
theorem C56_animation_there_and_back (e : Endian) (base base' : Nat) (m : Mem)
    (raw : AnimationData) (h : RawWF raw) (hb : base < 2 ^ 63) (h4 : 4 ∣ base)
    (hb' : base' < 2 ^ 63) (h4' : 4 ∣ base') (x : AnimObj) (m' : Mem)
    (hx : animationFromRaw e base m raw = .ok (x, m')) :
    ∃ x' m'', animationFromRaw e base' m' (animationToRaw e x m') = .ok (x', m'') ∧
      animationToRaw e x' m'' = animationToRaw e x m' := by
  obtain ⟨y, n, h1, h2, _⟩ := animation_raw_round_trip e base m raw h hb h4
  rw [hx] at h1
  cases h1
  rw [h2]
  obtain ⟨y', n', h1', h2', _⟩ := animation_raw_round_trip e base' m' raw h hb' h4'
  exact ⟨y', n', h1', h2'⟩

/-- Raw arrays that do not go together (for instance from a hand-written serialized form) make
`from_raw` panic rather than produce an animation. -/
theorem C56_mismatched_raw_panics (e : Endian) (base : Nat) (m : Mem) (raw : AnimationData)
    (hb : base < 2 ^ 63) (h4 : 4 ∣ base) (h : raw.t.ratios.length ≠ lenU32 raw.t.keys) :
    animationFromRaw e base m raw = .error .panic := by
  have lt : ∀ {α : Type} (xs : List α), lenU32 xs < 2 ^ 32 := fun xs => Nat.mod_lt _ (by omega)
  obtain ⟨L, hL, _⟩ := animationNew_ok base (lenU32 raw.timepoints) (channelCounts raw.t)
    (channelCounts raw.r) (channelCounts raw.s) hb h4 (lt _) ⟨lt _, lt _, lt _⟩
    ⟨lt _, lt _, lt _⟩ ⟨lt _, lt _, lt _⟩
  simp only [animationFromRaw, bind, Except.bind, hL]
  have copy : ∀ {α : Type} (r : MemRepr α) (m : Mem) (p n : Nat) (xs : List α),
      (∃ m', copyFromSlice r m p n xs = .ok m') ∨ copyFromSlice r m p n xs = .error .panic := by
    intro α r m p n xs
    simp only [copyFromSlice, assertB, bind, Except.bind]
    split
    · rename_i he; split at he
      · cases he
      · cases he; exact .inr rfl
    · exact .inl ⟨_, rfl⟩
  have bad : ∀ m p, copyFromSlice (reprU16 e) m p (channelCounts raw.t).keys raw.t.ratios =
      .error .panic := by
    intro m p
    have hne : ¬ (raw.t.ratios.length == (channelCounts raw.t).keys) = true := by
      simpa [channelCounts] using h
    simp only [copyFromSlice, assertB, bind, Except.bind]
    rw [if_neg hne]
  rcases copy (reprU32 e) m L.timepoints (lenU32 raw.timepoints) raw.timepoints with ⟨m', hm⟩ | hm
  · rw [hm]
    simp only [fillChannel, bind, Except.bind]
    rcases copy ((reprU16 e).array 3) m' L.t.keys (channelCounts raw.t).keys raw.t.keys with
      ⟨m'', hm'⟩ | hm'
    · rw [hm']
      simp only [bad]
    · rw [hm']
  · rw [hm]

/-- **C56, skeletons.** -/
theorem C56_skeleton_raw (e : Endian) (base : Nat) (m : Mem) (raw : SkeletonRaw)
    (hl : raw.jointParents.length < 2 ^ 32)
    (hp : raw.jointRestPoses.length = (raw.jointParents.length + 3) / 4)
    (hpose : ∀ p ∈ raw.jointRestPoses, p.length = 40)
    (hpar : ∀ p ∈ raw.jointParents, -32768 ≤ p ∧ p ≤ 32767) (h16 : 16 ∣ base) :
    ∃ x m', skeletonFromRaw e base m raw = .ok (x, m') ∧ skeletonToRaw e x m' = raw ∧
      ∀ a, ¬ (base ≤ a ∧ a < base + x.layout.size) → m' a = m a :=
  skeleton_raw_round_trip e base m raw hl hp hpose hpar h16

example : RawWF { duration := 0, numTracks := 1, name := [120], timepoints := [0, 5]
                  t := ⟨[0, 0, 1], [0, 0, 4], [7], [1, 2], 3, List.replicate 3 [1, 2, 0xffff]⟩
                  r := ⟨[0], [0], [], [], 0, [[5, 6, 7]]⟩
                  s := ⟨[], [], [], [], 0, []⟩ } := by
  refine ⟨by decide, ?_, ?_, ?_⟩ <;>
    exact ⟨rfl, rfl, by decide, by decide, by decide, by decide⟩

example : ∃ x m', skeletonFromRaw .little 32 (fun _ => 170)
    ⟨[List.replicate 40 7], [-1, 0], [([97], 0), ([98], 1)]⟩ = .ok (x, m') ∧
    m' 31 = 170 ∧ m' 32 = 7 ∧ m' 33 = 0 ∧ m' (32 + 160) = 255 ∧ m' (32 + 162) = 0 ∧
    m' (32 + 164) = 170 := by
  exact ⟨_, _, rfl, by decide +kernel, by decide +kernel, by decide +kernel, by decide +kernel,
    by decide +kernel, by decide +kernel⟩

end Ozz.Props
