import Mathlib.Data.List.Forall2
import Verif.Spec.JointBlending
import Verif.Spec.LocalToModel

/-! What a frame may depend on: the inputs of a joint and of its ancestors. -/

namespace Ozz.Spec

open Blending

/-- The lane of a joint in its SoA element. -/
def laneIn (k : Nat) : Fin 4 := ⟨k % 4, Nat.mod_lt _ (by decide)⟩

/-- Two blending jobs say the same about joint `k`: in the rest pose, in every layer and in every additive layer. -/
structure SameAbout {α : Type} (j j' : Blending.Job α) (rest rest' : List (SoaTransform α)) (k : Nat) : Prop where
  rest : ∃ r r', rest[k / 4]? = some r ∧ rest'[k / 4]? = some r' ∧ SameLane r (laneIn k) r' (laneIn k)
  layers : List.Forall₂ (SameForJoint (k / 4) (laneIn k) (k / 4) (laneIn k)) j.layers j'.layers
  additive : List.Forall₂ (SameForJoint (k / 4) (laneIn k) (k / 4) (laneIn k)) j.additiveLayers j'.additiveLayers

/-- They say the same about joint `i` and all its ancestors. -/
def SameUpwards {α : Type} (ps : List Int) (j j' : Blending.Job α) (rest rest' : List (SoaTransform α)) (i : Nat) : Prop :=
  ∀ path, PathTo ps i path → ∀ k ∈ path, SameAbout j j' rest rest' k

end Ozz.Spec
