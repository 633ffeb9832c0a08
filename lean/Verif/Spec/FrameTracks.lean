import Verif.Spec.TrackSampled
import Verif.Spec.BlendedFrame

/-! Frames made from animations: what they say about a joint. -/

namespace Ozz.Spec

open Sampling Keys

/-- A play that can be sampled: the animation is stored at its address and well-formed, the context has been used with stored
animations only, the ratio is from 0 to 1 and the buffer is long enough. Weights are arbitrary, NaN included. -/
structure PlayRuns (anims : Nat → Option (Animation F32 Float3Key QuatKey)) (n : Nat) (p : Play) : Prop where
  stored : anims p.addr = some p.animation
  reached : Props.Reached codeNumerics F32.zero F32.one anims n p.context
  blocks : (p.animation.numTracks + 3) / 4 = (n + 3) / 4
  ratio : F32.zero ≤ p.ratio ∧ p.ratio ≤ F32.one
  buffer : (n + 3) / 4 ≤ p.buffer.length

/-- The layer is what sampling the play gives. -/
def LayerOf (p : Play) (y : Blending.Layer F32) : Prop :=
  ∃ c pose, Sampling.run codeNumerics p.animation p.addr p.ratio p.context p.buffer = .ok (c, pose) ∧ y = p.layer pose

/-- Two plays say the same about joint `k`: the same ratio and weight, the same joint weight, and tracks with the same keys. -/
structure SamePlay (k : Nat) (p p' : Play) : Prop where
  ratio : p.ratio = p'.ratio
  weight : p.weight = p'.weight
  masked : p.jointWeights = [] ↔ p'.jointWeights = []
  jointWeight : (p.jointWeights[k / 4]?).map (· (laneIn k)) = (p'.jointWeights[k / 4]?).map (· (laneIn k))
  inside : k < p.animation.numTracks ∧ k < p'.animation.numTracks
  tracks : SameTracks F32.zero F32.one p.animation p'.animation k k

/-- Two frames say the same about joint `k`: in the rest pose, in all plays and in all additive plays. -/
structure SameSources (plays plays' adds adds' : List Play) (rest rest' : List (SoaTransform F32)) (k : Nat) : Prop where
  rest : ∃ r r', rest[k / 4]? = some r ∧ rest'[k / 4]? = some r' ∧ SameLane r (laneIn k) r' (laneIn k)
  plays : List.Forall₂ (SamePlay k) plays plays'
  adds : List.Forall₂ (SamePlay k) adds adds'

end Ozz.Spec
