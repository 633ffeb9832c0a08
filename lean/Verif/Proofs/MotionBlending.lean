import Verif.Spec.MotionBlending
import Verif.Proofs.BlendingExact

/-! Helper lemmas for motion blending. -/

namespace Ozz.MotionBlending

open Blending (dot4 addAligned alignedSum unitOf norm2_unitOf unitOf_smul)

theorem length3_eq (v : V3 ℝ) : length3 v = norm3 v := by
  unfold length3 norm3
  show √_ = √_
  congr 1; ring

theorem norm3_nonneg (v : V3 ℝ) : 0 ≤ norm3 v := Real.sqrt_nonneg _

theorem norm3_eq_zero (v : V3 ℝ) : norm3 v = 0 ↔ v = 0 := by
  unfold norm3
  rw [Real.sqrt_eq_zero (by positivity)]
  constructor
  · intro h
    have h0 : v 0 = 0 := by nlinarith [sq_nonneg (v 0), sq_nonneg (v 1), sq_nonneg (v 2)]
    have h1 : v 1 = 0 := by nlinarith [sq_nonneg (v 0), sq_nonneg (v 1), sq_nonneg (v 2)]
    have h2 : v 2 = 0 := by nlinarith [sq_nonneg (v 0), sq_nonneg (v 1), sq_nonneg (v 2)]
    funext i
    fin_cases i
    · exact h0
    · exact h1
    · exact h2
  · rintro rfl; simp

theorem norm3_smul (k : ℝ) (hk : 0 ≤ k) (v : V3 ℝ) : norm3 (k • v) = k * norm3 v := by
  unfold norm3
  have : (k • v) 0 ^ 2 + (k • v) 1 ^ 2 + (k • v) 2 ^ 2 = k ^ 2 * (v 0 ^ 2 + v 1 ^ 2 + v 2 ^ 2) := by
    simp; ring
  rw [this, Real.sqrt_mul (by positivity), Real.sqrt_sq hk]

/-- The rotations that count, with their weights. -/
noncomputable def rotations (ls : List (Layer ℝ)) : List (ℝ × F4 ℝ) :=
  (positives ls).map fun y => (y.weight, y.delta.rotation)

theorem fold_eq (ls : List (Layer ℝ)) (s : Acc ℝ) :
    ls.foldl accumulate s =
      ⟨s.weight + weightSum ls, s.dl + ((positives ls).map fun y => y.weight * norm3 y.delta.translation).sum,
        s.dt + directionSum ls, (rotations ls).foldl addAligned s.dr⟩ := by
  induction ls generalizing s with
  | nil => simp [weightSum, positives, directionSum, rotations]
  | cons y ys ih =>
    rw [List.foldl_cons, ih]
    by_cases h : 0 < y.weight
    · have hp : positives (y :: ys) = y :: positives ys := by simp [positives, h]
      have hl : NumOps.le y.weight (NumOps.zero : ℝ) = false := by simpa using h
      have ha : accumulate s y = ⟨s.weight + y.weight, s.dl + y.weight * norm3 y.delta.translation,
          s.dt + y.weight • direction y.delta.translation, addAligned s.dr (y.weight, y.delta.rotation)⟩ := by
        unfold accumulate accumulateWith inOrder
        simp only [hl, Bool.false_eq_true, if_false, length3_eq]
        congr 1
        · ring
        · funext i
          simp only [Pi.add_apply, Pi.smul_apply, smul_eq_mul]
          congr 1
          unfold direction
          by_cases hz : y.delta.translation = 0
          · simp [hz]
          · have hn : norm3 y.delta.translation ≠ 0 := fun h => hz ((norm3_eq_zero _).mp h)
            simp [hz, hn]
            field_simp
        · funext i
          unfold addAligned withSign
          have hd : dotV4 s.dr y.delta.rotation = dot4 s.dr y.delta.rotation := rfl
          rw [hd]
          simp only [Pi.add_apply, Pi.smul_apply, smul_eq_mul, real_le, real_zero, decide_eq_true_eq]
          have habs : (NumOps.abs y.weight : ℝ) = y.weight := abs_of_pos h
          rw [habs]
          by_cases hneg : dot4 s.dr y.delta.rotation < 0
          · rw [if_neg (by linarith), if_pos hneg, Pi.neg_apply]; ring
          · rw [if_pos (by linarith), if_neg hneg]; ring
      rw [ha]
      simp only [weightSum, directionSum, rotations, hp, List.map_cons, List.sum_cons, List.foldl_cons]
      congr 1 <;> abel
    · have hp : positives (y :: ys) = positives ys := by simp [positives, h]
      have hl : NumOps.le y.weight (NumOps.zero : ℝ) = true := by simpa using h
      have ha : accumulate s y = s := by unfold accumulate accumulateWith inOrder; simp only [hl, if_true]
      rw [ha]
      simp only [weightSum, directionSum, rotations, hp]

/-- The result of a run, in terms of the sums. -/
theorem run_eq (ls : List (Layer ℝ)) :
    (run ls).translation = (if norm3 (directionSum ls) * weightSum ls = 0 then (0 : ℝ)
      else averageLength ls / norm3 (directionSum ls)) • directionSum ls ∧
    (run ls).rotation = (if alignedSum (rotations ls) = 0 then f4 0 0 0 1 else unitOf (alignedSum (rotations ls))) ∧
    (run ls).scale = fun _ => 1 := by
  unfold run
  rw [fold_eq]
  have hz : (Acc.zero : Acc ℝ).dt = 0 := rfl
  have hw : (Acc.zero : Acc ℝ).weight = 0 := rfl
  have hl : (Acc.zero : Acc ℝ).dl = 0 := rfl
  have hr : (Acc.zero : Acc ℝ).dr = 0 := rfl
  rw [hz, hw, hl, hr, zero_add, zero_add, zero_add]
  unfold finish finishWith inOrder
  refine ⟨?_, ?_, rfl⟩
  · funext i
    simp only [length3_eq, real_eq, decide_eq_true_eq, real_zero, Pi.smul_apply, smul_eq_mul]
    split
    · simp
    · unfold averageLength
      rw [div_div, mul_comm (weightSum ls), mul_comm]
  · have hd : ∀ q : F4 ℝ, dotV4 q q = norm2 q := by intro q; simp only [dotV4, norm2]; ring
    have h0 : ∀ q : F4 ℝ, norm2 q = 0 ↔ q = 0 := by
      intro q
      constructor
      · intro h
        unfold norm2 at h
        apply ext4 <;>
          · simp only [Pi.zero_apply]
            nlinarith [sq_nonneg (q 0), sq_nonneg (q 1), sq_nonneg (q 2), sq_nonneg (q 3)]
      · rintro rfl; simp [norm2]
    simp only [hd, real_eq, decide_eq_true_eq, real_zero, h0]
    unfold alignedSum
    split
    · rfl
    · funext i
      simp only [unitOf, Pi.smul_apply, smul_eq_mul]
      show _ / √_ = _
      rw [div_eq_inv_mul]

/-- All weights multiplied by one factor. -/
def scaleWeights (k : ℝ) (ls : List (Layer ℝ)) : List (Layer ℝ) := ls.map fun y => ⟨k * y.weight, y.delta⟩

theorem positives_scale (k : ℝ) (hk : 0 < k) (ls : List (Layer ℝ)) :
    positives (scaleWeights k ls) = scaleWeights k (positives ls) := by
  unfold positives scaleWeights
  rw [List.filter_map]
  congr 1
  apply List.filter_congr
  intro y _
  simp [hk]

theorem sums_scale (k : ℝ) (hk : 0 < k) (ls : List (Layer ℝ)) :
    weightSum (scaleWeights k ls) = k * weightSum ls ∧ directionSum (scaleWeights k ls) = k • directionSum ls ∧
    averageLength (scaleWeights k ls) = averageLength ls ∧
    alignedSum (rotations (scaleWeights k ls)) = k • alignedSum (rotations ls) := by
  have hw : weightSum (scaleWeights k ls) = k * weightSum ls := by
    unfold weightSum
    rw [positives_scale k hk]
    unfold scaleWeights
    rw [List.map_map, ← List.sum_map_mul_left]; rfl
  refine ⟨hw, ?_, ?_, ?_⟩
  · unfold directionSum
    rw [positives_scale k hk]
    unfold scaleWeights
    rw [List.map_map, List.smul_sum, List.map_map]
    congr 1
    apply List.map_congr_left
    intro y _
    simp [mul_smul]
  · unfold averageLength
    rw [hw, positives_scale k hk]
    unfold scaleWeights
    rw [List.map_map, ← mul_div_mul_left _ (weightSum ls) hk.ne', ← List.sum_map_mul_left]
    congr 2
    apply List.map_congr_left
    intro y _
    simp [mul_assoc]
  · unfold alignedSum rotations
    rw [positives_scale k hk]
    unfold scaleWeights
    rw [List.map_map]
    have : ∀ (ms : List (Layer ℝ)) (a : F4 ℝ),
        List.foldl addAligned (k • a) (List.map ((fun y => (y.weight, y.delta.rotation)) ∘ fun y => (⟨k * y.weight, y.delta⟩ : Layer ℝ)) ms)
        = k • List.foldl addAligned a (ms.map fun y => (y.weight, y.delta.rotation)) := by
      intro ms
      induction ms with
      | nil => intro a; rfl
      | cons m ms ih =>
        intro a
        rw [List.map_cons, List.map_cons, List.foldl_cons, List.foldl_cons, ← ih]
        congr 1
        unfold addAligned
        have hd : dot4 (k • a) m.delta.rotation = k * dot4 a m.delta.rotation := by simp [dot4]; ring
        simp only [Function.comp, hd, smul_add, ← mul_smul]
        by_cases h : dot4 a m.delta.rotation < 0
        · rw [if_pos h, if_pos (by nlinarith)]
        · rw [if_neg h, if_neg (by push Not at h ⊢; positivity)]
    have h := this (positives ls) 0
    rwa [smul_zero] at h

end Ozz.MotionBlending
