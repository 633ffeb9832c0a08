import Verif.Model.LocalToModelCode
import Verif.Spec.Pipeline
import Verif.Proofs.LocalToModel
import Verif.Props.Math

/-! Helpers for the theorems about poses, model matrices and skinning together. -/

namespace Ozz.Pipeline

open Spec LocalToModel

theorem pureQuat_iff {a b : F4 ℝ} : pureQuat a = pureQuat b ↔ a 0 = b 0 ∧ a 1 = b 1 ∧ a 2 = b 2 := by
  constructor
  · intro h
    exact ⟨congrArg QuaternionAlgebra.imI h, congrArg QuaternionAlgebra.imJ h, congrArg QuaternionAlgebra.imK h⟩
  · rintro ⟨h1, h2, h3⟩
    rw [pureQuat, pureQuat, h1, h2, h3]

theorem transformPoint_pure (m : Mat4 ℝ) {a b : F4 ℝ} (h : pureQuat a = pureQuat b) :
    m.transformPoint a = m.transformPoint b := by
  obtain ⟨h0, h1, h2⟩ := pureQuat_iff.mp h
  apply ext4 <;> simp [Mat4.transformPoint, swz, h0, h1, h2]

/-- One joint. -/
theorem local_point {input : List (SoaTransform ℝ)} {i : Nat} {m : Mat4 ℝ} {j : JointPose}
    (hm : LocalMatrix localMatrices input i m) (hj : jointPose input i = some j)
    (hu : Quaternion.normSq j.rotation = 1) (p : F4 ℝ) :
    pureQuat (m.transformPoint p) = j.move (pureQuat p) := by
  obtain ⟨t, ht, rfl⟩ := hm
  rw [jointPose, ht] at hj
  simp only [Option.map_some, Option.some.injEq] at hj
  subst hj
  rw [localMatrices, (Props.C50_point t.translation t.rotation t.scale p _ (by
    simpa [toQuat, SoaQuat.lane] using hu)).1]
  rfl

theorem local_affine {input : List (SoaTransform ℝ)} {i : Nat} {m : Mat4 ℝ}
    (hm : LocalMatrix localMatrices input i m) : m 0 3 = 0 ∧ m 1 3 = 0 ∧ m 2 3 = 0 ∧ m 3 3 = 1 := by
  obtain ⟨t, ht, rfl⟩ := hm
  exact Props.C50_affine t.translation t.rotation t.scale _

/-- The determinant of a local matrix. -/
theorem local_det {input : List (SoaTransform ℝ)} {i : Nat} {m : Mat4 ℝ} {j : JointPose}
    (hm : LocalMatrix localMatrices input i m) (hj : jointPose input i = some j)
    (hu : Quaternion.normSq j.rotation = 1) : (toMatrix m).det = j.scale.1 * j.scale.2.1 * j.scale.2.2 := by
  obtain ⟨t, ht, rfl⟩ := hm
  rw [jointPose, ht] at hj
  simp only [Option.map_some, Option.some.injEq] at hj
  subst hj
  generalize (⟨i % 4, _⟩ : Fin 4) = l at *
  rw [Quaternion.normSq_def'] at hu
  simp only at hu
  rw [Matrix.det_succ_row _ 3]
  simp only [Fin.sum_univ_four, Matrix.det_fin_three, Matrix.submatrix_apply, toMatrix, localMatrices, toAos_apply]
  simp [Fin.succAbove, SoaMat4.fromAffine, zero4, one4, splat]
  have h2 : (two4 : F4 ℝ) l = 2 := by simp [two4, splat]
  rw [h2]
  linear_combination (4 * (t.rotation.x l ^ 2 + t.rotation.y l ^ 2 + t.rotation.z l ^ 2) *
    (t.scale.x l * t.scale.y l * t.scale.z l)) * hu

/-- The matrices along a path. -/
theorem path_point {input : List (SoaTransform ℝ)} {loc : Nat → Mat4 ℝ} {pose : Nat → JointPose} (root : Mat4 ℝ)
    (path : List Nat)
    (hloc : ∀ k ∈ path, LocalMatrix localMatrices input k (loc k))
    (hpose : ∀ k ∈ path, jointPose input k = some (pose k))
    (hu : ∀ k ∈ path, Quaternion.normSq (pose k).rotation = 1) (p x : F4 ℝ)
    (hx : pureQuat x = moveAlong pose path (pureQuat p)) :
    (path.foldl (fun acc k => Mat4.mul acc (loc k)) root).transformPoint p = root.transformPoint x := by
  induction path using List.reverseRecOn generalizing p x with
  | nil => exact (transformPoint_pure root hx).symm
  | append_singleton l k ih =>
    rw [List.foldl_append, List.foldl_cons, List.foldl_nil,
      Props.C50_compose _ _ _ (local_affine (hloc k (by simp)))]
    apply ih (fun i hi => hloc i (by simp [hi])) (fun i hi => hpose i (by simp [hi])) (fun i hi => hu i (by simp [hi]))
    rw [hx, moveAlong, List.foldr_append, List.foldr_cons, List.foldr_nil,
      ← local_point (hloc k (by simp)) (hpose k (by simp)) (hu k (by simp))]
    rfl

/-- The root matrix comes first in every product. -/
theorem path_root {loc : Nat → Mat4 ℝ} (root one : Mat4 ℝ) (h1 : toMatrix one = 1) (path : List Nat) :
    toMatrix (path.foldl (fun acc k => Mat4.mul acc (loc k)) root) =
      toMatrix root * toMatrix (path.foldl (fun acc k => Mat4.mul acc (loc k)) one) := by
  induction path using List.reverseRecOn with
  | nil => rw [List.foldl_nil, List.foldl_nil, h1, mul_one]
  | append_singleton l k ih =>
    rw [List.foldl_append, List.foldl_append, List.foldl_cons, List.foldl_nil, List.foldl_cons, List.foldl_nil,
      toMatrix_mul, toMatrix_mul, ih, mul_assoc]

theorem path_det {loc : Nat → Mat4 ℝ} (root : Mat4 ℝ) (h1 : (toMatrix root).det ≠ 0) (path : List Nat)
    (h : ∀ k ∈ path, (toMatrix (loc k)).det ≠ 0) :
    (toMatrix (path.foldl (fun acc k => Mat4.mul acc (loc k)) root)).det ≠ 0 := by
  induction path using List.reverseRecOn with
  | nil => exact h1
  | append_singleton l k ih =>
    rw [List.foldl_append, List.foldl_cons, List.foldl_nil, toMatrix_mul, Matrix.det_mul]
    exact mul_ne_zero (ih (fun i hi => h i (by simp [hi]))) (h k (by simp))

theorem path_lt {ps : List Int} {i : Nat} {l : List Nat} (h : PathTo ps i l) : ∀ k ∈ l, k < ps.length := by
  have hlt : ∀ {i : Nat} {x : Int}, ps[i]? = some x → i < ps.length := fun h => by
    obtain ⟨h', _⟩ := List.getElem?_eq_some_iff.mp h
    exact h'
  induction h with
  | root h => intro k hk; simp only [List.mem_singleton] at hk; subst hk; exact hlt h
  | child h _ ih =>
    intro k hk
    rw [List.mem_append, List.mem_singleton] at hk
    rcases hk with hk | rfl
    · exact ih k hk
    · exact hlt h

theorem toMatrix_inj {a b : Mat4 ℝ} (h : toMatrix a = toMatrix b) : a = b := by
  funext c r
  exact congrFun (congrFun h r) c

/-- The local matrices of a pose that has all its blocks. -/
theorem local_exists {input : List (SoaTransform ℝ)} {n : Nat} (h : numSoa n ≤ input.length) : ∃ loc : Nat → Mat4 ℝ,
    ∀ i, i < n → LocalMatrix localMatrices input i (loc i) := by
  have hl : ∀ i, i < n → i / 4 < input.length := by
    intro i hi; unfold numSoa at h; omega
  refine ⟨fun i => if h : i < n then localMatrices (input[i / 4]'(hl i h)) ⟨i % 4, Nat.mod_lt _ (by decide)⟩ else 0, ?_⟩
  intro i hi
  exact ⟨input[i / 4]'(hl i hi), List.getElem?_eq_getElem _, by simp [hi]⟩

/-- A joint without scale keeps distances. -/
theorem move_rigid {j : JointPose} (hu : Quaternion.normSq j.rotation = 1) (hs : j.scale = (1, 1, 1))
    {v w : Quaternion ℝ} (hv : v.re = 0) (hw : w.re = 0) :
    Quaternion.normSq (j.move v - j.move w) = Quaternion.normSq (v - w) := by
  have h : j.move v - j.move w = j.rotation * (v - w) * j.rotation⁻¹ := by
    have e : ∀ u : Quaternion ℝ, u.re = 0 →
        (⟨0, j.scale.1 * u.imI, j.scale.2.1 * u.imJ, j.scale.2.2 * u.imK⟩ : Quaternion ℝ) = u := by
      intro u hu
      rw [hs]
      ext <;> simp [hu]
    rw [JointPose.move, JointPose.move, e v hv, e w hw]
    rw [mul_sub, sub_mul]
    abel
  rw [h, map_mul, map_mul, map_inv₀, hu]
  simp

theorem move_re {j : JointPose} (hu : Quaternion.normSq j.rotation = 1) (ht : j.translation.re = 0) (v : Quaternion ℝ) :
    (j.move v).re = 0 := by
  rw [JointPose.move, Quaternion.inv_def, hu]
  obtain ⟨x, hx, hx0⟩ : ∃ x : Quaternion ℝ,
      (⟨0, j.scale.1 * v.imI, j.scale.2.1 * v.imJ, j.scale.2.2 * v.imK⟩ : Quaternion ℝ) = x ∧ x.re = 0 := ⟨_, rfl, rfl⟩
  rw [hx]
  simp only [hx0, inv_one, one_smul, Quaternion.re_add, ht, add_zero, Quaternion.re_mul, Quaternion.re_star, Quaternion.imI_star,
    Quaternion.imJ_star, Quaternion.imK_star, Quaternion.imI_mul, Quaternion.imJ_mul, Quaternion.imK_mul]
  ring

theorem move_def (j : JointPose) {v x : Quaternion ℝ} (h : x.re = 0 ∧ x.imI = j.scale.1 * v.imI ∧ x.imJ = j.scale.2.1 * v.imJ ∧
    x.imK = j.scale.2.2 * v.imK) : j.move v = j.rotation * x * j.rotation⁻¹ + j.translation := by
  obtain ⟨h0, h1, h2, h3⟩ := h
  rcases x with ⟨a, b, c, d⟩
  simp only at h0 h1 h2 h3
  subst h0 h1 h2 h3
  rfl

theorem jointPose_re {input : List (SoaTransform ℝ)} {i : Nat} {j : JointPose} (h : jointPose input i = some j) :
    j.translation.re = 0 := by
  rw [jointPose, Option.map_eq_some_iff] at h
  obtain ⟨t, -, rfl⟩ := h
  rfl

theorem moveAlong_rigid {input : List (SoaTransform ℝ)} {pose : Nat → JointPose} (path : List Nat)
    (hpose : ∀ k ∈ path, jointPose input k = some (pose k))
    (hu : ∀ k ∈ path, Quaternion.normSq (pose k).rotation = 1) (hs : ∀ k ∈ path, (pose k).scale = (1, 1, 1))
    {v w : Quaternion ℝ} (hv : v.re = 0) (hw : w.re = 0) :
    (moveAlong pose path v).re = 0 ∧ (moveAlong pose path w).re = 0 ∧
      Quaternion.normSq (moveAlong pose path v - moveAlong pose path w) = Quaternion.normSq (v - w) := by
  induction path with
  | nil => exact ⟨hv, hw, rfl⟩
  | cons k l ih =>
    obtain ⟨i1, i2, i3⟩ := ih (fun i hi => hpose i (by simp [hi])) (fun i hi => hu i (by simp [hi]))
      (fun i hi => hs i (by simp [hi]))
    have hk := jointPose_re (hpose k (by simp))
    have hk' := hu k (by simp)
    refine ⟨move_re hk' hk _, move_re hk' hk _, ?_⟩
    rw [← i3]
    exact move_rigid hk' (hs k (by simp)) i1 i2

theorem pure_exists {v : Quaternion ℝ} (h : v.re = 0) : ∃ x : F4 ℝ, pureQuat x = v := by
  refine ⟨f4 v.imI v.imJ v.imK 0, ?_⟩
  ext <;> simp [pureQuat, h]

theorem eye_point {m : Mat4 ℝ} (h : toMatrix m = 1) (x : F4 ℝ) : pureQuat (m.transformPoint x) = pureQuat x := by
  have e : ∀ c r, m c r = if r = c then 1 else 0 := fun c r => by
    have := congrFun (congrFun h r) c
    rw [Matrix.one_apply] at this
    exact this
  rw [pureQuat_iff]
  refine ⟨?_, ?_, ?_⟩ <;> simp [Mat4.transformPoint, swz, e]

theorem pureQuat_at (c : F4 ℝ) : (pureQuat c).re = 0 ∧ (pureQuat c).imI = c 0 ∧ (pureQuat c).imJ = c 1 ∧
    (pureQuat c).imK = c 2 := ⟨rfl, rfl, rfl, rfl⟩

theorem normSq_pure_sub (a b : F4 ℝ) : Quaternion.normSq (pureQuat a - pureQuat b) = dot3 (a - b) (a - b) := by
  rw [Quaternion.normSq_def']
  simp [pureQuat_at, dot3]
  ring

end Ozz.Pipeline
