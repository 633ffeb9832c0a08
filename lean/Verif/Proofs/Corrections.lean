import Verif.Model.Corrections
import Verif.Spec.Corrections
import Verif.Proofs.Pipeline
import Verif.Proofs.Tree
import Verif.Proofs.IK
import Verif.Props.LocalToModel

/-! Helpers for the theorems about corrected poses. -/

namespace Ozz.Corrections

open Spec Pipeline

/-! ### Paths -/

theorem parent_lt {ps : List Int} (hp : ParentsFirst ps) {b c : Nat} (h : ps[b]? = some (c : Int)) : c < b := by
  obtain ⟨h1, h2⟩ := List.getElem?_eq_some_iff.mp h
  have := (hp b h1).2
  rw [h2] at this
  omega

/-- The path to a joint goes through its ancestors. -/
theorem path_through {ps : List Int} (hp : ParentsFirst ps) {s m : Nat} {l : List Nat} (h : Desc ps s m) (hl : PathTo ps s l) :
    ∃ b, PathTo ps m (l ++ b) ∧ (∀ k ∈ b, s < k ∧ k ≤ m ∧ Desc ps s k ∧ Desc ps k m) ∧ (s ≠ m → ∃ b', b = b' ++ [m] ∧ ∀ k ∈ b', k < m) := by
  induction h with
  | refl h => exact ⟨[], by simpa using hl, by simp, fun h => absurd rfl h⟩
  | @step b c hb hd ih =>
    obtain ⟨q, h1, h2, -⟩ := ih
    have hlt := parent_lt hp hb
    have hbl : b < ps.length := (List.getElem?_eq_some_iff.mp hb).1
    have hsc := Desc.le hp hd
    refine ⟨q ++ [b], ?_, ?_, fun _ => ⟨q, rfl, fun k hk => by have := h2 k hk; omega⟩⟩
    · rw [← List.append_assoc]
      exact .child hb h1
    · intro k hk
      rw [List.mem_append, List.mem_singleton] at hk
      rcases hk with hk | rfl
      · obtain ⟨a1, a2, a3, a4⟩ := h2 k hk
        exact ⟨a1, by omega, a3, .step hb a4⟩
      · exact ⟨by omega, le_rfl, .step hb hd, .refl hbl⟩

theorem path_end {ps : List Int} (hp : ParentsFirst ps) {s : Nat} {l : List Nat} (hl : PathTo ps s l) :
    ∃ a, l = a ++ [s] ∧ ∀ k ∈ a, k < s := by
  induction hl with
  | root h => exact ⟨[], rfl, by simp⟩
  | @child i p l h _ ih =>
    obtain ⟨a, rfl, ha⟩ := ih
    have := parent_lt hp h
    refine ⟨_, rfl, fun k hk => ?_⟩
    rw [List.mem_append, List.mem_singleton] at hk
    rcases hk with hk | rfl
    · have := ha k hk; omega
    · exact this

/-! ### Poses -/

theorem scaled_uniform {c : ℝ} {v : Quaternion ℝ} (hv : v.re = 0) :
    ((c : Quaternion ℝ) * v).re = 0 ∧ ((c : Quaternion ℝ) * v).imI = c * v.imI ∧ ((c : Quaternion ℝ) * v).imJ = c * v.imJ ∧
      ((c : Quaternion ℝ) * v).imK = c * v.imK := by
  refine ⟨?_, ?_, ?_, ?_⟩ <;> simp [hv]

theorem conj_re {c v : Quaternion ℝ} (hv : v.re = 0) : (c * v * c⁻¹).re = 0 := by
  rw [Quaternion.inv_def, ← Quaternion.coe_mul_eq_smul, ← mul_assoc, ← Quaternion.coe_commutes, mul_assoc]
  generalize (Quaternion.normSq c)⁻¹ = n
  simp [hv]
  right
  ring

theorem move_uniform {p : JointPose} {c : ℝ} (h : p.scale = (c, c, c)) {v : Quaternion ℝ} (hv : v.re = 0) :
    p.move v = (c : Quaternion ℝ) * (p.rotation * v * p.rotation⁻¹) + p.translation := by
  rw [move_def p (x := (c : Quaternion ℝ) * v) (by rw [h]; exact scaled_uniform hv), ← mul_assoc, ← Quaternion.coe_commutes]
  simp only [mul_assoc]

/-- A joint with the same scale on all axes can be turned before or after. -/
theorem move_turn {p : JointPose} (h : p.Uniform) (c : Quaternion ℝ) {v : Quaternion ℝ} (hv : v.re = 0) :
    (p.turn c).move v = p.move (c * v * c⁻¹) := by
  obtain ⟨k, -, hk⟩ := h
  rw [move_uniform (p := p.turn c) hk hv, move_uniform hk (conj_re hv)]
  simp only [JointPose.turn, mul_inv_rev, mul_assoc]

theorem moveAlong_append (pose : Nat → JointPose) (a b : List Nat) (v : Quaternion ℝ) :
    moveAlong pose (a ++ b) v = moveAlong pose a (moveAlong pose b v) := by
  simp [moveAlong, List.foldr_append]

theorem moveAlong_same {pose pose' : Nat → JointPose} {l : List Nat} (h : ∀ k ∈ l, pose k = pose' k) (v : Quaternion ℝ) :
    moveAlong pose l v = moveAlong pose' l v := by
  induction l with
  | nil => rfl
  | cons k l ih =>
    show (pose k).move (moveAlong pose l v) = (pose' k).move (moveAlong pose' l v)
    rw [ih fun i hi => h i (by simp [hi]), h k (by simp)]

theorem moveAlong_re {pose : Nat → JointPose} {l : List Nat} (ht : ∀ k ∈ l, (pose k).translation.re = 0)
    (hu : ∀ k ∈ l, Quaternion.normSq (pose k).rotation = 1) {v : Quaternion ℝ} (hv : v.re = 0) : (moveAlong pose l v).re = 0 := by
  cases l with
  | nil => exact hv
  | cons k l => exact move_re (hu k (by simp)) (ht k (by simp)) _

/-- Joints with the same scale on all axes scale all distances alike. -/
theorem moveAlong_similar {pose : Nat → JointPose} {l : List Nat} (ht : ∀ k ∈ l, (pose k).translation.re = 0)
    (hu : ∀ k ∈ l, Quaternion.normSq (pose k).rotation = 1) (hs : ∀ k ∈ l, (pose k).Uniform) :
    ∃ c : ℝ, ∀ v w : Quaternion ℝ, v.re = 0 → w.re = 0 →
      Quaternion.normSq (moveAlong pose l v - moveAlong pose l w) = c * Quaternion.normSq (v - w) := by
  induction l with
  | nil => exact ⟨1, fun v w _ _ => (one_mul _).symm⟩
  | cons k l ih =>
    obtain ⟨c, hc⟩ := ih (fun i hi => ht i (by simp [hi])) (fun i hi => hu i (by simp [hi])) (fun i hi => hs i (by simp [hi]))
    obtain ⟨d, -, hd⟩ := hs k (by simp)
    refine ⟨d ^ 2 * c, fun v w hv hw => ?_⟩
    have r1 := moveAlong_re (pose := pose) (l := l) (fun i hi => ht i (by simp [hi])) (fun i hi => hu i (by simp [hi])) hv
    have r2 := moveAlong_re (pose := pose) (l := l) (fun i hi => ht i (by simp [hi])) (fun i hi => hu i (by simp [hi])) hw
    show Quaternion.normSq ((pose k).move (moveAlong pose l v) - (pose k).move (moveAlong pose l w)) = _
    rw [move_uniform hd r1, move_uniform hd r2, add_sub_add_right_eq_sub, ← mul_sub, ← sub_mul, ← mul_sub,
      map_mul, Quaternion.normSq_coe, map_mul, map_mul, map_inv₀, hu k (by simp), hc v w hv hw]
    ring

/-! ### The corrected locals -/

theorem apply_ok {qmul : F4 ℝ → F4 ℝ → F4 ℝ} (hq : ∀ a b, toQuat (qmul a b) = toQuat a * toQuat b)
    {locals : List (SoaTransform ℝ)} {i : Nat} {c : F4 ℝ} {p : JointPose} (hp : jointPose locals i = some p) :
    ∃ locals', applyCorrection qmul locals i c = Except.ok locals' ∧ locals'.length = locals.length ∧
      jointPose locals' i = some (p.turn (toQuat c)) ∧ ∀ k, k ≠ i → jointPose locals' k = jointPose locals k := by
  rw [jointPose, Option.map_eq_some_iff] at hp
  obtain ⟨t, ht, rfl⟩ := hp
  obtain ⟨hlt, he⟩ := List.getElem?_eq_some_iff.mp ht
  have hrun : applyCorrection qmul locals i c = Except.ok (locals.set (i / 4)
      (SoaTransform.mk t.translation (t.rotation.setQuat ⟨i % 4, Nat.mod_lt _ (by decide)⟩
        (qmul (t.rotation.quat ⟨i % 4, Nat.mod_lt _ (by decide)⟩) c)) t.scale)) := by
    simp only [applyCorrection, getIdx, ht, setIdx, hlt, if_true]
    rfl
  refine ⟨_, hrun, by simp, ?_, fun k hk => ?_⟩
  · rw [jointPose, List.getElem?_set_self hlt, Option.map_some]
    have e := hq (t.rotation.quat ⟨i % 4, Nat.mod_lt _ (by decide)⟩) c
    refine congrArg some ?_
    simp only [JointPose.turn, SoaQuat.setQuat, if_true]
    congr 1
  · by_cases h4 : k / 4 = i / 4
    · have hl : (⟨k % 4, Nat.mod_lt _ (by decide)⟩ : Fin 4) ≠ ⟨i % 4, Nat.mod_lt _ (by decide)⟩ := by
        intro h
        have := congrArg Fin.val h
        simp only at this
        omega
      rw [jointPose, jointPose, h4, List.getElem?_set_self hlt, ht, Option.map_some, Option.map_some]
      simp only [SoaQuat.setQuat, hl, if_false]
    · rw [jointPose, jointPose, List.getElem?_set_ne (Ne.symm h4)]

/-! ### Model matrices -/

/-- What is known about the model matrix of a joint. -/
structure ModelAt (root : Mat4 ℝ) (pose : Nat → JointPose) (path : List Nat) (M : Mat4 ℝ) : Prop where
  affine : AffineMat M
  det : (toMatrix M).det ≠ 0
  point : ∀ p x : F4 ℝ, pureQuat x = moveAlong pose path (pureQuat p) → M.transformPoint p = root.transformPoint x

theorem mul_affine {a b : Mat4 ℝ} (ha : AffineMat a) (hb : AffineMat b) : AffineMat (Mat4.mul a b) := by
  obtain ⟨a0, a1, a2, a3⟩ := ha
  obtain ⟨b0, b1, b2, b3⟩ := hb
  refine ⟨?_, ?_, ?_, ?_⟩ <;> simp [Mat4.mul, Mat4.mulCol, swz, a0, a1, a2, a3, b0, b1, b2, b3]

theorem path_affine {loc : Nat → Mat4 ℝ} {root : Mat4 ℝ} (h1 : AffineMat root) (path : List Nat) (h : ∀ k ∈ path, AffineMat (loc k)) :
    AffineMat (path.foldl (fun acc k => Mat4.mul acc (loc k)) root) := by
  induction path using List.reverseRecOn with
  | nil => exact h1
  | append_singleton l k ih =>
    rw [List.foldl_append, List.foldl_cons, List.foldl_nil]
    exact mul_affine (ih (fun i hi => h i (by simp [hi]))) (h k (by simp))

/-- A full run. -/
theorem full_models (j : LocalToModel.Job (SoaTransform ℝ) (Mat4 ℝ)) (out : List (Mat4 ℝ)) (hp : ParentsFirst j.parents)
    (hv : LocalToModel.validate j out = true) (pose : Nat → JointPose)
    (hpose : ∀ i < j.parents.length, jointPose j.input i = some (pose i))
    (hu : ∀ i < j.parents.length, Quaternion.normSq (pose i).rotation = 1)
    (hs : ∀ i < j.parents.length, (pose i).Regular) (hr : AffineMat j.root) (hd : (toMatrix j.root).det ≠ 0)
    (hf1 : -(2:Int)^31 ≤ j.from_) (hf2 : j.from_ < 0)
    (ht1 : (j.parents.length : Int) ≤ j.to + 1) (ht2 : j.to < 2^31 - 1) :
    ∃ out', LocalToModel.run Mat4.mul LocalToModel.localMatrices j out = .ok out' ∧ out'.length = out.length ∧
      ∀ i < j.parents.length, ∃ m path, out'[i]? = some m ∧ PathTo j.parents i path ∧ ModelAt j.root pose path m := by
  have hv' := hv
  simp only [LocalToModel.validate, Bool.and_eq_true, decide_eq_true_eq] at hv'
  obtain ⟨loc, hloc⟩ := local_exists hv'.1
  obtain ⟨out', h1, h2, -, h3⟩ := Props.C28_full_run Mat4.mul LocalToModel.localMatrices j out hp hv loc hloc hf1 hf2 ht1 ht2
  refine ⟨out', h1, h2, fun i hi => ?_⟩
  obtain ⟨m, hm, path, hpath, rfl⟩ := h3 i hi
  have hlt := path_lt hpath
  refine ⟨_, path, hm, hpath, path_affine hr path fun k hk => local_affine (hloc k (hlt k hk)), path_det _ hd path fun k hk => ?_,
    fun p x hx => path_point j.root path (fun k hk => hloc k (hlt k hk))
      (fun k hk => hpose k (hlt k hk)) (fun k hk => hu k (hlt k hk)) p x hx⟩
  rw [local_det (hloc k (hlt k hk)) (hpose k (hlt k hk)) (hu k (hlt k hk))]
  obtain ⟨a, b, c⟩ := hs k (hlt k hk)
  exact mul_ne_zero (mul_ne_zero a b) c

theorem sends_unique {m : Mat4 ℝ} (ha : AffineMat m) (hd : (toMatrix m).det ≠ 0) {p q x : F4 ℝ} (h : SendsPoint m p x)
    (h' : SendsPoint m q x) : Same3 p q :=
  IK.Same3.trans (IK.Same3.symm (IK.point_invert ha hd h)) (IK.point_invert ha hd h')

/-- From joint to joint. -/
theorem model_relative {root : Mat4 ℝ} {pose : Nat → JointPose} {a b : List Nat} {S M : Mat4 ℝ} (hS : ModelAt root pose a S)
    (hM : ModelAt root pose (a ++ b) M) {p y : F4 ℝ} (hy : pureQuat y = moveAlong pose b (pureQuat p))
    (hr : (moveAlong pose a (pureQuat y)).re = 0) : M.transformPoint p = S.transformPoint y := by
  obtain ⟨z, hz⟩ := pure_exists hr
  rw [hS.point y z hz, hM.point p z (by rw [moveAlong_append, ← hy, hz])]

/-- A local matrix depends only on the pose of its joint. -/
theorem local_same {a b : List (SoaTransform ℝ)} {i : Nat} (h : jointPose a i = jointPose b i) (m : Mat4 ℝ) :
    LocalMatrix LocalToModel.localMatrices a i m ↔ LocalMatrix LocalToModel.localMatrices b i m := by
  have key : ∀ {a b : List (SoaTransform ℝ)}, jointPose a i = jointPose b i → LocalMatrix LocalToModel.localMatrices a i m →
      LocalMatrix LocalToModel.localMatrices b i m := by
    rintro a b h ⟨t, ht, rfl⟩
    rw [jointPose, jointPose, ht, Option.map_some] at h
    obtain ⟨u, hu, he⟩ := Option.map_eq_some_iff.mp h.symm
    refine ⟨u, hu, ?_⟩
    have h1 := congrArg JointPose.translation he
    have h2 := congrArg JointPose.rotation he
    have h3 := congrArg (fun p => p.scale.1) he
    have h4 := congrArg (fun p => p.scale.2.1) he
    have h5 := congrArg (fun p => p.scale.2.2) he
    have t1 := congrArg QuaternionAlgebra.imI h1
    have t2 := congrArg QuaternionAlgebra.imJ h1
    have t3 := congrArg QuaternionAlgebra.imK h1
    have r1 := congrArg QuaternionAlgebra.imI h2
    have r2 := congrArg QuaternionAlgebra.imJ h2
    have r3 := congrArg QuaternionAlgebra.imK h2
    have r4 := congrArg QuaternionAlgebra.re h2
    simp only at t1 t2 t3 r1 r2 r3 r4 h3 h4 h5
    clear h1 h2 he h
    funext c
    funext r
    generalize (⟨i % 4, _⟩ : Fin 4) = l at *
    rw [LocalToModel.localMatrices, LocalToModel.localMatrices, toAos_apply, toAos_apply]
    fin_cases c <;> fin_cases r <;> simp [SoaMat4.fromAffine, zero4, one4, splat, t1, t2, t3, r1, r2, r3, r4, h3, h4, h5, two4]
  exact ⟨key h, key h.symm⟩

/-- The end of a matrix is where it sends the origin. -/
theorem origin_point (m : Mat4 ℝ) : SendsPoint m (f4 0 0 0 0) (m 3) := by
  intro i; simp

end Ozz.Corrections
