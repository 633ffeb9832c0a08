import Verif.Proofs.TrackSampled
import Verif.Props.Sampling
import Verif.Props.FloatSampling

/-!
C101: sampling treats every track by itself. Keys of all tracks are stored in one sorted array and read with one cursor,
four tracks share each register, and where the cursor is depends on all tracks and on the history; still the pose of a
track is determined by the ratio and the track's own keys.
-/

namespace Ozz.Props

open Sampling Spec F32 Keys

/-- C101: two animations, contexts with any histories of their own, the same ratio, and one track of each animation with
the same keys at the same times. Both runs succeed and the tracks get the same pose, whatever the other tracks are and
wherever the two tracks are stored. -/
theorem C101_track_alone {α K3 KQ : Type} [RatioOps α] [Mul α] [Neg α] [NumOps α] (Ord : RatioOrder α) {lo hi : α}
    {v3 : K3 → Fin 3 → α} {vq : KQ → Fin 4 → α} {anims anims' : Nat → Option (Animation α K3 KQ)} {n n' : Nat}
    (hst : StoreOk lo hi ((n + 3) / 4) anims) (hst' : StoreOk lo hi ((n' + 3) / 4) anims')
    {c c' : Context α (SoaVec3 α) (SoaQuat α)} (hc : Reached (jobNumerics v3 vq) lo hi anims n c)
    (hc' : Reached (jobNumerics v3 vq) lo hi anims' n' c') {addr addr' : Nat} {a a' : Animation α K3 KQ}
    (ha : anims addr = some a) (ha' : anims' addr' = some a')
    (hn : (a.numTracks + 3) / 4 = (n + 3) / 4) (hn' : (a'.numTracks + 3) / 4 = (n' + 3) / 4)
    {r : α} (hr1 : lo ≤ r) (hr2 : r ≤ hi) {out out' : List (SoaTransform α)}
    (hout : (n + 3) / 4 ≤ out.length) (hout' : (n' + 3) / 4 ≤ out'.length)
    (t t' : Nat) (ht : t < a.numTracks) (ht' : t' < a'.numTracks) (hs : SameTracks lo hi a a' t t') :
    ∃ d d' pose pose' o o', run (jobNumerics v3 vq) a addr r c out = .ok (d, pose) ∧
      run (jobNumerics v3 vq) a' addr' r c' out' = .ok (d', pose') ∧
      pose[t / 4]? = some o ∧ pose'[t' / 4]? = some o' ∧ SameLane o (laneIn t) o' (laneIn t') := by
  have wf : WellFormed lo hi a := by
    obtain ⟨⟨_, _, _, _, _, _, h1, -⟩, ⟨_, _, _, _, _, _, h2, -⟩, _, _, _, _, _, _, h3, -⟩ := hs
    exact ⟨⟨_, _, _, h1⟩, ⟨_, _, _, h2⟩, ⟨_, _, _, h3⟩⟩
  have wf' : WellFormed lo hi a' := by
    obtain ⟨⟨_, _, _, _, _, _, -, h1, -⟩, ⟨_, _, _, _, _, _, -, h2, -⟩, _, _, _, _, _, _, -, h3, -⟩ := hs
    exact ⟨⟨_, _, _, h1⟩, ⟨_, _, _, h2⟩, ⟨_, _, _, h3⟩⟩
  obtain ⟨d, pose, h1, h2⟩ := C16_sampling_brackets (N := jobNumerics v3 vq) Ord hst hc ha wf hn hr1 hr2 hout
  obtain ⟨d', pose', g1, g2⟩ := C16_sampling_brackets (N := jobNumerics v3 vq) Ord hst' hc' ha' wf' hn' hr1 hr2 hout'
  obtain ⟨o, h3, h4⟩ := h2 (t / 4) (by omega)
  obtain ⟨o', g3, g4⟩ := g2 (t' / 4) (by omega)
  exact ⟨d, d', pose, pose', o, o', h1, g1, h3, g3, sampled_same Ord hs h4 g4⟩

/-- C101 for the crate's own decompression, comparisons and interpolation in single precision. -/
theorem C101_f32 {anims anims' : Nat → Option (Animation F32 Float3Key QuatKey)} {n n' : Nat}
    (hst : StoreOk F32.zero F32.one ((n + 3) / 4) anims) (hst' : StoreOk F32.zero F32.one ((n' + 3) / 4) anims')
    {c c' : Context F32 (SoaVec3 F32) (SoaQuat F32)} (hc : Reached codeNumerics F32.zero F32.one anims n c)
    (hc' : Reached codeNumerics F32.zero F32.one anims' n' c') {addr addr' : Nat} {a a' : Animation F32 Float3Key QuatKey}
    (ha : anims addr = some a) (ha' : anims' addr' = some a')
    (hn : (a.numTracks + 3) / 4 = (n + 3) / 4) (hn' : (a'.numTracks + 3) / 4 = (n' + 3) / 4)
    {r : F32} (hr1 : F32.zero ≤ r) (hr2 : r ≤ F32.one) {out out' : List (SoaTransform F32)}
    (hout : (n + 3) / 4 ≤ out.length) (hout' : (n' + 3) / 4 ≤ out'.length)
    (t t' : Nat) (ht : t < a.numTracks) (ht' : t' < a'.numTracks) (hs : SameTracks F32.zero F32.one a a' t t') :
    ∃ d d' pose pose' o o', run codeNumerics a addr r c out = .ok (d, pose) ∧
      run codeNumerics a' addr' r c' out' = .ok (d', pose') ∧
      pose[t / 4]? = some o ∧ pose'[t' / 4]? = some o' ∧ SameLane o (laneIn t) o' (laneIn t') := by
  rw [code_eq] at hc hc' ⊢
  exact C101_track_alone f32Order hst hst' hc hc' ha ha' hn hn' hr1 hr2 hout hout' t t' ht ht' hs

/-! ### Example

`anim32` has two tracks; in `animSpoiled` the keys of the second one are all infinity. The first track has the same pose
in both. -/

section
open Ozz.Sampling.FloatExample Ozz.Sampling.Example

/-- Infinity at the keys of track 1. -/
def spoiledKeys : List Float3Key :=
  [same 0x3C00, same 0x7C00, same 0, same 0, same 0x4200, same 0x7C00, same 0, same 0, same 0x6400]

def animSpoiled : Animation F32 Float3Key QuatKey :=
  { anim32 with translations := chan32 spoiledKeys, scales := chan32 spoiledKeys }

def storeSpoiled (addr : Nat) : Option (Animation F32 Float3Key QuatKey) := if addr = 8 then some animSpoiled else none

theorem storeSpoiled_ok : StoreOk F32.zero F32.one ((2 + 3) / 4) storeSpoiled := by
  refine ⟨by simp [storeSpoiled], fun addr a h => Or.inr (Or.inr ?_)⟩
  simp only [storeSpoiled] at h
  split at h
  · cases h; exact ⟨rfl, ⟨_, _, _, chan32_ok _ rfl⟩, ⟨_, _, _, chan32_ok _ rfl⟩, ⟨_, _, _, chan32_ok _ rfl⟩⟩
  · cases h

theorem spoiled_same : SameTracks F32.zero F32.one anim32 animSpoiled 0 0 :=
  ⟨⟨_, _, _, _, _, _, chan32_ok _ rfl, chan32_ok _ rfl, rfl⟩, ⟨_, _, _, _, _, _, chan32_ok _ rfl, chan32_ok _ rfl, rfl⟩,
    ⟨_, _, _, _, _, _, chan32_ok _ rfl, chan32_ok _ rfl, rfl⟩⟩

example (c c' : Context F32 (SoaVec3 F32) (SoaQuat F32)) (hc : Reached codeNumerics F32.zero F32.one store32 2 c)
    (hc' : Reached codeNumerics F32.zero F32.one storeSpoiled 2 c') (out out' : SoaTransform F32) :
    ∃ d d' pose pose' o o', run codeNumerics anim32 100 half c [out] = .ok (d, pose) ∧
      run codeNumerics animSpoiled 8 half c' [out'] = .ok (d', pose') ∧
      pose[0]? = some o ∧ pose'[0]? = some o' ∧ SameLane o 0 o' 0 :=
  C101_f32 store32_ok storeSpoiled_ok hc hc' (by simp [store32]) (by simp [storeSpoiled]) rfl rfl
    (by decide +kernel) (by decide +kernel) (by simp) (by simp) 0 0 (by decide) (by decide) spoiled_same

end

end Ozz.Props
