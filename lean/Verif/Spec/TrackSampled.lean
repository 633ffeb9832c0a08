import Verif.Spec.Sampling
import Verif.Spec.FrameLocality

/-! What one track gives to a sampling job: its own keys and their times. -/

namespace Ozz.Spec

open Sampling

/-- The keys of track `t` with their times, one after the other. -/
def trackKeys {α K : Type} (ch : Chan α K) (time : Nat → α) (track : Nat → Nat) (t : Nat) : List (α × Option K) :=
  ((List.range ch.previouses.length).filter fun k => track k = t).map fun k => (time k, ch.keys[k]?)

/-- Track `t` of one channel and track `t'` of another have the same keys at the same times. Nothing is said about the
other tracks, the number of tracks, where the keys are stored and the interval frames, beyond being well-formed. -/
def SameTrack {α K : Type} [RatioOps α] (lo hi : α) (real T : Nat) (tps : List α) (ch : Chan α K) (t : Nat)
    (real' T' : Nat) (tps' : List α) (ch' : Chan α K) (t' : Nat) : Prop :=
  ∃ time pred track time' pred' track', ChanOk lo hi real T tps ch time pred track ∧
    ChanOk lo hi real' T' tps' ch' time' pred' track' ∧ trackKeys ch time track t = trackKeys ch' time' track' t'

/-- The same for all three channels of two animations. -/
structure SameTracks {α K3 KQ : Type} [RatioOps α] (lo hi : α) (a a' : Animation α K3 KQ) (t t' : Nat) : Prop where
  translations : SameTrack lo hi a.numTracks (4 * ((a.numTracks + 3) / 4)) a.timepoints a.translations t
    a'.numTracks (4 * ((a'.numTracks + 3) / 4)) a'.timepoints a'.translations t'
  rotations : SameTrack lo hi a.numTracks (4 * ((a.numTracks + 3) / 4)) a.timepoints a.rotations t
    a'.numTracks (4 * ((a'.numTracks + 3) / 4)) a'.timepoints a'.rotations t'
  scales : SameTrack lo hi a.numTracks (4 * ((a.numTracks + 3) / 4)) a.timepoints a.scales t
    a'.numTracks (4 * ((a'.numTracks + 3) / 4)) a'.timepoints a'.scales t'

end Ozz.Spec
