import Verif.Proofs.Entries
import Verif.Proofs.SkinnedFrame
import Verif.Spec.SkinnedNormals

/-! Normals and tangents of an animated mesh. -/

namespace Ozz.Skinning

open Spec Ieee F32

theorem straight_comp {X Y : F4 ℝ → F4 ℝ} (hX : Straight X) (hY : Straight Y) : Straight fun p => X (Y p) :=
  fun x y z K h r hr => hX _ _ _ K (fun c hc => hY x y z K h c hc) r hr

theorem straight_matrix (m : Mat4 ℝ) : Straight m.transformPoint := by
  intro x y z K h r hr
  rw [tp_row, tp_row, tp_row, h 0 (by decide), h 1 (by decide), h 2 (by decide)]
  ring

theorem pure_line {x y z : F4 ℝ} {K : ℝ} (h : ∀ c, c ≠ 3 → z c = x c + K * (y c - x c)) :
    pureQuat z = pureQuat x + (K : Quaternion ℝ) * (pureQuat y - pureQuat x) := by
  have f : ∀ v : F4 ℝ, (pureQuat v).re = 0 ∧ (pureQuat v).imI = v 0 ∧ (pureQuat v).imJ = v 1 ∧ (pureQuat v).imK = v 2 :=
    fun v => ⟨rfl, rfl, rfl, rfl⟩
  ext <;> simp [(f _).1, (f _).2.1, (f _).2.2.1, (f _).2.2.2, h 0 (by decide), h 1 (by decide), h 2 (by decide)]

theorem move_line (P : JointPose) {x y z : Quaternion ℝ} {K : ℝ} (hi : z.imI = x.imI + K * (y.imI - x.imI))
    (hj : z.imJ = x.imJ + K * (y.imJ - x.imJ)) (hk : z.imK = x.imK + K * (y.imK - x.imK)) :
    P.move z = P.move x + (K : Quaternion ℝ) * (P.move y - P.move x) := by
  have g : ∀ v : Quaternion ℝ, P.move v =
      P.rotation * pureQuat (f4 (P.scale.1 * v.imI) (P.scale.2.1 * v.imJ) (P.scale.2.2 * v.imK) 0) * P.rotation⁻¹ + P.translation :=
    fun v => rfl
  have e := pure_line (x := f4 (P.scale.1 * x.imI) (P.scale.2.1 * x.imJ) (P.scale.2.2 * x.imK) 0)
    (y := f4 (P.scale.1 * y.imI) (P.scale.2.1 * y.imJ) (P.scale.2.2 * y.imK) 0)
    (z := f4 (P.scale.1 * z.imI) (P.scale.2.1 * z.imJ) (P.scale.2.2 * z.imK) 0) (K := K) (by
      intro c hc
      fin_cases c
      · show P.scale.1 * z.imI = P.scale.1 * x.imI + K * (P.scale.1 * y.imI - P.scale.1 * x.imI)
        rw [hi]; ring
      · show P.scale.2.1 * z.imJ = P.scale.2.1 * x.imJ + K * (P.scale.2.1 * y.imJ - P.scale.2.1 * x.imJ)
        rw [hj]; ring
      · show P.scale.2.2 * z.imK = P.scale.2.2 * x.imK + K * (P.scale.2.2 * y.imK - P.scale.2.2 * x.imK)
        rw [hk]; ring
      · exact absurd rfl hc)
  rw [g, g, g, e, mul_add, ← mul_assoc, ← Quaternion.coe_commutes K P.rotation]
  noncomm_ring

theorem along_line (pose : Nat → JointPose) (path : List Nat) {x y z : Quaternion ℝ} {K : ℝ}
    (h : z = x + (K : Quaternion ℝ) * (y - x)) :
    moveAlong pose path z = moveAlong pose path x + (K : Quaternion ℝ) * (moveAlong pose path y - moveAlong pose path x) := by
  induction path with
  | nil => exact h
  | cons k l ih =>
    show (pose k).move (moveAlong pose l z) = (pose k).move (moveAlong pose l x) + (K : Quaternion ℝ) *
      ((pose k).move (moveAlong pose l y) - (pose k).move (moveAlong pose l x))
    refine move_line _ ?_ ?_ ?_ <;> rw [ih] <;> simp

theorem straight_along (pose : Nat → JointPose) (path : List Nat) : Straight fun p => spot (moveAlong pose path (pureQuat p)) := by
  intro x y z K h r hr
  have e := along_line pose path (x := pureQuat x) (y := pureQuat y) (z := pureQuat z) (K := K) (pure_line h)
  simp only [e]
  fin_cases r
  · simp [spot, f4]
  · simp [spot, f4]
  · simp [spot, f4]
  · exact absurd rfl hr

theorem straight_pose (root : Mat4 ℝ) (pose : Nat → JointPose) (path : List Nat) :
    Straight fun p => root.transformPoint (spot (moveAlong pose path (pureQuat p))) :=
  straight_comp (straight_matrix root) (straight_along pose path)

/-- What both ends of an arrow do under the product of a model matrix and an inverse bind matrix. -/
theorem skin_vector {m b : Mat4 F32} {X : F4 ℝ → F4 ℝ} {μ τ a e β γ : ℝ} (hm : MovesNear m X μ τ a e) (hb : Bind32Ok b β γ)
    (hX : Straight X) (hμ : 1 ≤ μ) (hτ : 1 / 2 ^ 100 ≤ τ) (hβ : 1 ≤ β) (hγ : 0 ≤ γ) (ha : 0 ≤ a) (h1 : μ * β ≤ 2 ^ 100)
    (h2 : μ * γ + τ ≤ 2 ^ 100) (p v : P3 ℝ) (r : Fin 4) (hr : r ≠ 3) :
    |valMat (m.mul b) 0 r * v 0 + valMat (m.mul b) 1 r * v 1 + valMat (m.mul b) 2 r * v 2 -
        (X ((valMat b).transformPoint (vertex (p + v))) r - X ((valMat b).transformPoint (vertex p)) r)| ≤
      (a + 5 / 2 ^ 24 * μ) * (3 * (β * norm1 v)) := by
  have near := (skin_matrix hm hb hμ hτ hβ hγ ha h1 h2).2
  have hS : Straight fun x => X ((valMat b).transformPoint x) := straight_comp hX (straight_matrix _)
  refine Frame.slope_le (b := (valMat (m.mul b)).transformPoint (vertex p) r - X ((valMat b).transformPoint (vertex p)) r)
    (C := (a + 5 / 2 ^ 24 * μ) * bound3 β γ p + (e + 5 / 2 ^ 24 * τ)) fun K hK => ?_
  have hn := near (p + K • v) r hr
  have hl := hS (vertex p) (vertex (p + v)) (vertex (p + K • v)) K (by
    intro c hc
    fin_cases c
    · simp [vertex, f4]
    · simp [vertex, f4]
    · simp [vertex, f4]
    · exact absurd rfl hc) r hr
  beta_reduce at hl
  rw [hl, tp_row] at hn
  rw [tp_row]
  have hv : ∀ x : P3 ℝ, vertex x 0 = x 0 ∧ vertex x 1 = x 1 ∧ vertex x 2 = x 2 := fun x => ⟨rfl, rfl, rfl⟩
  rw [(hv _).1, (hv _).2.1, (hv _).2.2] at hn ⊢
  simp only [Pi.add_apply, Pi.smul_apply, smul_eq_mul] at hn
  refine le_trans (le_of_eq (congrArg abs ?_)) (hn.trans ?_)
  · ring
  · have hN : norm1 (p + K • v) ≤ norm1 p + K * norm1 v := by
      unfold norm1
      simp only [Pi.add_apply, Pi.smul_apply, smul_eq_mul]
      have key : ∀ s t : ℝ, |s + K * t| ≤ |s| + K * |t| := fun s t => by
        refine (abs_add_le _ _).trans ?_
        rw [abs_mul, abs_of_nonneg hK]
      have := key (p 0) (v 0)
      have := key (p 1) (v 1)
      have := key (p 2) (v 2)
      linarith
    have hB : bound3 β γ (p + K • v) ≤ bound3 β γ p + 3 * (β * norm1 v) * K := by
      unfold bound3
      have := mul_le_mul_of_nonneg_left hN (show 0 ≤ β by linarith)
      linarith
    have hA : 0 ≤ a + 5 / 2 ^ 24 * μ := by positivity
    have := mul_le_mul_of_nonneg_left hB hA
    linarith

/-- Averages of nearby arrows are near each other. -/
theorem arrow_near {ms : List (Mat4 ℝ)} {moves : Nat → F4 ℝ → F4 ℝ} {ix : List Nat} {ws : List ℝ} {n i : Nat} {p v : P3 ℝ} {E W : ℝ}
    (hE : 0 ≤ E) (hw : ∑ k ∈ Finset.range n, |influence ws n i k| ≤ W)
    (h : ∀ k < n, ∀ r : Fin 4, r ≠ 3 → |joint ms ix n i k 0 r * v 0 + joint ms ix n i k 1 r * v 1 + joint ms ix n i k 2 r * v 2 -
      (moves (ix.getD (i * n + k) 0) (vertex (p + v)) r - moves (ix.getD (i * n + k) 0) (vertex p) r)| ≤ E) (r : Fin 3) :
    |skinned ms ix ws n i v 0 r - arrow moves ix ws n i p v r| ≤ W * E := by
  unfold arrow
  rw [Pi.sub_apply]
  unfold skinned averaged
  rw [← Finset.sum_sub_distrib, ← Finset.sum_sub_distrib]
  refine (Finset.abs_sum_le_sum_abs _ _).trans ?_
  refine le_trans (Finset.sum_le_sum fun k hk => ?_) ((Finset.sum_mul _ _ _).symm.le.trans (mul_le_mul_of_nonneg_right hw hE))
  rw [← mul_sub, ← mul_sub, abs_mul]
  refine mul_le_mul_of_nonneg_left ?_ (abs_nonneg _)
  have := h k (Finset.mem_range.mp hk) r.castSucc (castSucc_ne r)
  unfold applyH
  rw [mul_zero, add_zero]
  exact this

/-- The products of model matrices and inverse bind matrices. -/
theorem mesh_products {models binds : List (Mat4 F32)} {μ τ a e : ℝ} {X : Nat → F4 ℝ → F4 ℝ}
    (hmodels : ∀ i < binds.length, ∃ m, models[i]? = some m ∧ MovesNear m (X i) μ τ a e) :
    (List.zipWith Mat4.mul models binds).length = binds.length ∧
    ∀ i < binds.length, ∃ m b, binds[i]? = some b ∧ b ∈ binds ∧
      (List.zipWith Mat4.mul models binds)[i]? = some (m.mul b) ∧ MovesNear m (X i) μ τ a e := by
  refine ⟨?_, fun i hi => ?_⟩
  · rw [List.length_zipWith]
    refine min_eq_right ?_
    by_contra hc
    push Not at hc
    obtain ⟨m, h3, -⟩ := hmodels models.length hc
    rw [List.getElem?_eq_none le_rfl] at h3
    cases h3
  · obtain ⟨m, h3, h4⟩ := hmodels i hi
    refine ⟨m, binds[i], List.getElem?_eq_getElem hi, List.getElem_mem hi, ?_, h4⟩
    rw [List.getElem?_zipWith, h3, List.getElem?_eq_getElem hi]

end Ozz.Skinning
