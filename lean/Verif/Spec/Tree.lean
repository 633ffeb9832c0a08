/-!
Specification vocabulary for joint hierarchies given as parent arrays
(-1 = root). Nothing here refers to the traversal code.
-/

namespace Ozz.Spec

/-- Every joint's parent is -1 or an earlier joint. -/
def ParentsFirst (ps : List Int) : Prop :=
  ∀ i (h : i < ps.length), -1 ≤ ps[i] ∧ ps[i] < (i : Int)

/-- `Desc ps a b`: joint `b` is `a` or a descendant of `a`. -/
inductive Desc (ps : List Int) (a : Nat) : Nat → Prop
  | refl : a < ps.length → Desc ps a a
  | step {b c : Nat} : ps[b]? = some (c : Int) → Desc ps a c → Desc ps a b

/-- Depth-first (pre-)order: each joint hangs below the joint visited just before it or below one
of that joint's ancestors (or is a root). -/
def DepthFirst (ps : List Int) : Prop :=
  ParentsFirst ps ∧
  ∀ i p : Nat, 0 < i → ps[i]? = some (p : Int) → Desc ps p (i - 1)

/-- `PathTo ps i l`: `l` lists the ancestors of `i` from its root down to `i` itself. -/
inductive PathTo (ps : List Int) : Nat → List Nat → Prop
  | root {i : Nat} : ps[i]? = some (-1) → PathTo ps i [i]
  | child {i p : Nat} {l : List Nat} : ps[i]? = some (p : Int) → PathTo ps p l → PathTo ps i (l ++ [i])

/-! ### Adequacy of `DepthFirst`: it is what flattening a forest in pre-order produces. -/

/-- Finite ordered trees. -/
inductive Tree
  | node (children : List Tree)

mutual
/-- Pre-order flattening of a tree whose root gets index `base` and has parent `parent`. -/
def Tree.flatten (parent : Int) (base : Nat) : Tree → List Int
  | .node cs => parent :: Tree.flattenAll (base : Int) (base + 1) cs
/-- Pre-order flattening of consecutive sibling trees. -/
def Tree.flattenAll (parent : Int) (base : Nat) : List Tree → List Int
  | [] => []
  | t :: ts =>
    let l := Tree.flatten parent base t
    l ++ Tree.flattenAll parent (base + l.length) ts
end

/-- The parent array of a forest laid out in pre-order. -/
def forestParents (ts : List Tree) : List Int := Tree.flattenAll (-1) 0 ts

end Ozz.Spec
