import Verif.Model.Blending

/-! What one joint gives to a blending job: its own numbers in every layer and in the rest pose. -/

namespace Ozz.Spec

open Blending

/-- Lane `l` of one SoA transform holds the same ten numbers as lane `l'` of another one. -/
structure SameLane {α : Type} (t : SoaTransform α) (l : Fin 4) (t' : SoaTransform α) (l' : Fin 4) : Prop where
  tx : t.translation.x l = t'.translation.x l'
  ty : t.translation.y l = t'.translation.y l'
  tz : t.translation.z l = t'.translation.z l'
  rx : t.rotation.x l = t'.rotation.x l'
  ry : t.rotation.y l = t'.rotation.y l'
  rz : t.rotation.z l = t'.rotation.z l'
  rw : t.rotation.w l = t'.rotation.w l'
  sx : t.scale.x l = t'.scale.x l'
  sy : t.scale.y l = t'.scale.y l'
  sz : t.scale.z l = t'.scale.z l'

/-- Two layers say the same about two joints, lane `l` of SoA joint `i` and lane `l'` of SoA joint `i'`: the
weight of the layer, whether there are joint weights, the joint's weight and its pose. Nothing is said
about any other joint. -/
structure SameForJoint {α : Type} (i : Nat) (l : Fin 4) (i' : Nat) (l' : Fin 4) (y y' : Layer α) : Prop where
  weight : y.weight = y'.weight
  masked : y.jointWeights = [] ↔ y'.jointWeights = []
  jointWeight : (y.jointWeights[i]?).map (· l) = (y'.jointWeights[i']?).map (· l')
  pose : ∃ ts ts' t t', y.transform = .ok ts ∧ y'.transform = .ok ts' ∧ ts[i]? = some t ∧ ts'[i']? = some t' ∧
    SameLane t l t' l'

end Ozz.Spec
