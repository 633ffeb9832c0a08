import Verif.Model.Basic

/-!
Skeleton hierarchy queries, /repo/src/skeleton.rs.
A hierarchy is its parent array (`joint_parents`, i16 values as `Int`, -1 = no parent).
Indexing carries its bounds proof wherever the code's own loop guard provides it.
-/

namespace Ozz

/-- `Skeleton::is_leaf`, skeleton.rs:276-279. Panics when `joint + 1 > num_joints`. -/
def isLeaf (ps : List Int) (joint : Nat) : Res Bool :=
  let next := joint + 1
  if next = ps.length then .ok true
  else do
    let p ← getIdx ps next
    return (p != (joint : Int))

/-- The `while process` loop of `iter_depth_first`, skeleton.rs:291-295: visit `i`, advance, go on
while in range and the next joint's parent is `>= from`. Returns the calls made to `f`. -/
def iterDepthFirstLoop (ps : List Int) (from_ : Int) (i : Nat) (h : i < ps.length) :
    List (Int × Int) :=
  (asI16 i, ps[i]) ::
    (if h' : i + 1 < ps.length then
      if ps[i + 1] ≥ from_ then iterDepthFirstLoop ps from_ (i + 1) h' else []
     else [])
termination_by ps.length - i

/-- `Skeleton::iter_depth_first`, skeleton.rs:285-296. -/
def iterDepthFirst (ps : List Int) (from_ : Int) : List (Int × Int) :=
  let i := if from_ < 0 then 0 else from_.toNat
  if h : i < ps.length then iterDepthFirstLoop ps from_ i h else []

/-- Body of the `for i in (0..num_joints).rev()` loop of `iter_depth_first_reverse`,
skeleton.rs:305-308, for the remaining indices `< i`. -/
def iterReverseLoop (ps : List Int) : (i : Nat) → i ≤ ps.length → List (Int × Int)
  | 0, _ => []
  | i + 1, h => (asI16 i, ps[i]) :: iterReverseLoop ps i (by omega)

/-- `Skeleton::iter_depth_first_reverse`, skeleton.rs:301-309. -/
def iterDepthFirstReverse (ps : List Int) : List (Int × Int) :=
  iterReverseLoop ps ps.length (Nat.le_refl _)

/-- `Skeleton::num_soa_joints` (computed in `new`, skeleton.rs:177 `div_ceil(4)`). -/
def numSoa (n : Nat) : Nat := (n + 3) / 4

/-- `Skeleton::num_aligned_joints`, skeleton.rs:215 `(n + 3) & !3`. -/
def numAligned (n : Nat) : Nat := (n + 3) - (n + 3) % 4

end Ozz
