import Verif.Spec.FloatSkin
import Verif.Spec.Frame

/-! Skinning with the model matrices of a frame: where a vertex should end up. -/

namespace Ozz.Skinning

open Ieee Spec

/-- An inverse bind matrix of floats: affine, the entries of its linear part at most `β`, those of its translation at most `γ`. -/
structure Bind32Ok (b : Mat4 F32) (β γ : ℝ) : Prop where
  finite : ∀ c r, Finite32 (b c r).bits
  last : ∀ c, c ≠ 3 → val (b c 3) = 0
  one : val (b 3 3) = 1
  linear : ∀ c r, c ≠ 3 → r ≠ 3 → |val (b c r)| ≤ β
  translation : ∀ r, r ≠ 3 → |val (b 3 r)| ≤ γ

/-- A matrix of floats takes points to where `X` takes them, up to `a` times their distance from the origin plus `e`; its entries
are at most `μ` and `τ`. -/
structure MovesNear (m : Mat4 F32) (X : F4 ℝ → F4 ℝ) (μ τ a e : ℝ) : Prop where
  entries : Matrix32Ok m μ τ
  near : ∀ p r, r ≠ 3 → |(valMat m).transformPoint p r - X p r| ≤ a * len (p 0) (p 1) (p 2) + e

/-- The vertex as a point. -/
def vertex (p : P3 ℝ) : F4 ℝ := f4 (p 0) (p 1) (p 2) 1

/-- The average, over the influences on vertex `i`, of where `moves` of each joint takes the vertex. -/
noncomputable def averaged (moves : Nat → F4 ℝ → F4 ℝ) (ix : List Nat) (ws : List ℝ) (n i : Nat) (p : P3 ℝ) : P3 ℝ := fun r =>
  ∑ k ∈ Finset.range n, influence ws n i k * moves (ix.getD (i * n + k) 0) (vertex p) r.castSucc

/-- The pure quaternion as a point. -/
noncomputable def spot (q : Quaternion ℝ) : F4 ℝ := f4 q.imI q.imJ q.imK 1

/-- What joint `k` should do to a vertex: the inverse bind matrix takes it to the space of the joint, the poses on the path to the
joint take it to the space of the skeleton, and the root matrix takes it from there. -/
noncomputable def carried (root : Mat4 F32) (pose : Nat → JointPose) (path : Nat → List Nat) (binds : List (Mat4 F32)) (k : Nat)
    (v : F4 ℝ) : F4 ℝ :=
  (valMat root).transformPoint (spot (moveAlong pose (path k) (pureQuat (((binds.map valMat).getD k 0).transformPoint v))))

/-- A skinning job for a skeleton of `joints` joints with joint matrices `ms`, joint indices `ix` and weights `ws`: it is valid, the
number of all influences fits in a machine word, vertices have at most 2^20 influences, and the stored weights of a vertex add up to
at most `Ω` in absolute value. -/
structure MeshOk (ck : Bool) (job : Job F32) (state : State F32) (ms : List (Mat4 F32)) (joints : Nat) (ix : List Nat) (ws : List F32)
    (Ω : ℝ) : Prop where
  valid : validate ck job state = .ok true
  size : job.vertexCount * job.influences < 2 ^ 64
  few : job.influences ≤ 2 ^ 20
  matrices : job.matrices = some (.ok ms)
  noInverse : job.itMatrices = none
  indices : job.indices = some (.ok ix)
  inRange : ∀ k i, k < job.vertexCount * job.influences → ix[k]? = some i → i < joints
  weights : 1 < job.influences → job.weights = some (.ok ws)
  weightsOk : 1 < job.influences → Weights32Ok ws job.influences job.vertexCount Ω

/-- At most how far from the origin a vertex is once in the space of a joint. -/
def bound3 (β γ : ℝ) (p : P3 ℝ) : ℝ := 3 * (β * norm1 p + γ)

end Ozz.Skinning
