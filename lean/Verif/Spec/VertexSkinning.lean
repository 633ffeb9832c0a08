import Verif.Model.Skinning

/-! What one vertex gives to a skinning job: the matrices it refers to and its weights. -/

namespace Ozz.Spec

/-- Vertex `v` of one mesh and vertex `v'` of another one, both with `n` influences, refer to the same matrices, in
the same order. The joints may have different indices. -/
def SameMatrices {α : Type} (n : Nat) (ms : List (Mat4 α)) (ix : List Nat) (v : Nat) (ms' : List (Mat4 α)) (ix' : List Nat)
    (v' : Nat) : Prop :=
  ∀ k < n, ∃ a a' m, ix[v * n + k]? = some a ∧ ix'[v' * n + k]? = some a' ∧ ms[a]? = some m ∧ ms'[a']? = some m

/-- They have the same weights; one less than the influences is stored. -/
def SameWeights {α : Type} (n : Nat) (ws : List α) (v : Nat) (ws' : List α) (v' : Nat) : Prop :=
  ∀ k < n - 1, ws[v * (n - 1) + k]? = ws'[v' * (n - 1) + k]?

/-- Element `v` of one buffer and element `v'` of another one are there and the same. -/
def SameElem {A : Type} (b : Skinning.Buf A) (v : Nat) (b' : Skinning.Buf A) (v' : Nat) : Prop :=
  ∃ xs ys p, b = some (.ok xs) ∧ b' = some (.ok ys) ∧ xs[v]? = some p ∧ ys[v']? = some p

end Ozz.Spec
