import Verif.Model.Layout

/-! What a safe carving of a block into arrays is. -/

namespace Ozz.Layout

/-- An array: address, number of elements, element size, element alignment. -/
structure Region where
  start : Nat
  count : Nat
  size : Nat
  align : Nat

def Region.stop (r : Region) : Nat := r.start + r.count * r.size

/-- Addresses of the bytes of the array. -/
def Region.Has (r : Region) (a : Nat) : Prop := r.start ≤ a ∧ a < r.stop

/-- `regions` are aligned, lie in the block `[base, base + size)` and share no byte. -/
structure Safe (base size : Nat) (regions : List Region) : Prop where
  aligned : ∀ r ∈ regions, r.align ∣ r.start
  inside : ∀ r ∈ regions, base ≤ r.start ∧ r.stop ≤ base + size
  disjoint : regions.Pairwise fun r r' => ∀ a, ¬ (r.Has a ∧ r'.Has a)

/-- The arrays of one animation channel. -/
def channelRegions (p : ChannelPtrs) (c : ChannelCounts) : List Region :=
  [⟨p.keys, c.keys, 6, 2⟩, ⟨p.ratios, c.keys, 2, 2⟩, ⟨p.previouses, c.keys, 2, 2⟩,
   ⟨p.entries, c.entries, 1, 1⟩, ⟨p.desc, c.desc, 4, 4⟩]

def animationRegions (x : AnimLayout) (timepoints : Nat) (t r s : ChannelCounts) : List Region :=
  ⟨x.timepoints, timepoints, 4, 4⟩ ::
    (channelRegions x.t t ++ channelRegions x.r r ++ channelRegions x.s s)

def skeletonRegions (x : SkeletonLayout) (joints soa : Nat) : List Region :=
  [⟨x.restPoses, soa, 160, 16⟩, ⟨x.parents, joints, 2, 2⟩]

def cacheRegions (p : CachePtrs) (elem soa tracks outdated : Nat) : List Region :=
  [⟨p.values, soa, elem, 16⟩, ⟨p.entries, tracks, 4, 4⟩, ⟨p.outdated, outdated, 1, 1⟩]

/-- The arrays of a context and, at the start of the block, its header. -/
def contextRegions (base header : Nat) (x : ContextLayout) : List Region :=
  ⟨base, 1, header, 16⟩ ::
    (cacheRegions x.t 128 x.maxSoaTracks x.maxTracks x.maxOutdated ++
     cacheRegions x.r 160 x.maxSoaTracks x.maxTracks x.maxOutdated ++
     cacheRegions x.s 128 x.maxSoaTracks x.maxTracks x.maxOutdated)

/-- A raw channel whose arrays go together. -/
structure RawChannelWF (c : ChannelData) : Prop where
  ratios : c.ratios.length = c.keys.length
  previouses : c.previouses.length = c.keys.length
  keys : ∀ k ∈ c.keys, k.length = 3
  keyCount : c.keys.length < 2 ^ 32
  entryCount : c.iframeEntries.length < 2 ^ 32
  descCount : c.iframeDesc.length < 2 ^ 32

/-- A raw animation whose arrays go together. -/
structure RawWF (x : AnimationData) : Prop where
  timepoints : x.timepoints.length < 2 ^ 32
  t : RawChannelWF x.t
  r : RawChannelWF x.r
  s : RawChannelWF x.s

end Ozz.Layout
