import Verif.Spec.Tree

/-!
What a local-to-model update should do, stated without the traversal.
-/

namespace Ozz.Spec

/-- Joints an update is asked to recompute: index at most `to`, in the subtree of `from_`
(`from_` itself left out when `excl`); a negative `from_` means the whole hierarchy. -/
def Requested (ps : List Int) (from_ to : Int) (excl : Bool) (i : Nat) : Prop :=
  i < ps.length ∧ (i : Int) ≤ to ∧
    (from_ < 0 ∨ ∃ a : Nat, from_ = a ∧ Desc ps a i ∧ (excl = true → i ≠ a))

/-- `l` is the local matrix of joint `i`: lane `i % 4` of the conversion of block `i / 4`. -/
def LocalMatrix {S M : Type} (toAos : S → Fin 4 → M) (input : List S) (i : Nat) (l : M) : Prop :=
  ∃ s, input[i / 4]? = some s ∧ l = toAos s ⟨i % 4, Nat.mod_lt _ (by decide)⟩

/-- `m` is the model-space matrix of joint `i`: the root matrix multiplied, from the left, by the
local matrices met on the path from the hierarchy's root down to `i`. -/
def IsModelMatrix {M : Type} (mul : M → M → M) (root : M) (loc : Nat → M) (ps : List Int)
    (i : Nat) (m : M) : Prop :=
  ∃ path, PathTo ps i path ∧ m = path.foldl (fun acc k => mul acc (loc k)) root

end Ozz.Spec
