import Verif.Proofs.MotionBlending

/-! Property theorems about motion blending: C37, C38. -/

namespace Ozz.Props

open MotionBlending
open Ozz.Blending (unitOf alignedSum norm2_unitOf unitOf_smul)

/-- C37: the rotation is unit, the scale is one. -/
theorem C37_unit (ls : List (MotionBlending.Layer ℝ)) :
    Quaternion.normSq (toQuat (MotionBlending.run ls).rotation) = 1 ∧ (MotionBlending.run ls).scale = fun _ => 1 := by
  obtain ⟨-, h2, h3⟩ := run_eq ls
  refine ⟨?_, h3⟩
  rw [h2]
  split
  · simp [Quaternion.normSq_def']
  · next h => rw [norm2_toQuat]; exact norm2_unitOf _ h

/-- C37: multiplying all weights by a positive factor changes nothing. -/
theorem C37_scale_invariant (k : ℝ) (hk : 0 < k) (ls : List (MotionBlending.Layer ℝ)) :
    MotionBlending.run (ls.map fun y => ⟨k * y.weight, y.delta⟩) = MotionBlending.run ls := by
  obtain ⟨a1, a2, a3⟩ := run_eq (scaleWeights k ls)
  obtain ⟨b1, b2, b3⟩ := run_eq ls
  obtain ⟨s1, s2, s3, s4⟩ := sums_scale k hk ls
  rw [s1, s2, s3, norm3_smul k hk.le] at a1
  rw [s4] at a2
  show MotionBlending.run (scaleWeights k ls) = _
  have h1 : (MotionBlending.run (scaleWeights k ls)).translation = (MotionBlending.run ls).translation := by
    rw [a1, b1]
    by_cases h : norm3 (directionSum ls) * weightSum ls = 0
    · rw [if_pos h, if_pos (by rw [mul_mul_mul_comm, h, mul_zero]), zero_smul, zero_smul]
    · have hn : norm3 (directionSum ls) ≠ 0 := fun h0 => h (by rw [h0, zero_mul])
      rw [if_neg h, if_neg (by rw [mul_mul_mul_comm]; exact mul_ne_zero (by positivity) h), ← mul_smul]
      congr 1
      field_simp
  have h2 : (MotionBlending.run (scaleWeights k ls)).rotation = (MotionBlending.run ls).rotation := by
    rw [a2, b2]
    by_cases h : alignedSum (rotations ls) = 0
    · rw [if_pos h, if_pos (by rw [h, smul_zero])]
    · rw [if_neg h, if_neg (by rw [smul_eq_zero, not_or]; exact ⟨hk.ne', h⟩), unitOf_smul k hk]
  have h3 : (MotionBlending.run (scaleWeights k ls)).scale = (MotionBlending.run ls).scale := by rw [a3, b3]
  cases hx : MotionBlending.run (scaleWeights k ls)
  cases hy : MotionBlending.run ls
  rw [hx, hy] at h1 h2 h3
  simp_all

/-- C37: motions whose weight is not positive are ignored, in any arithmetic. -/
theorem C37_ignored {α : Type} [Add α] [Sub α] [Mul α] [Div α] [Neg α] [NumOps α]
    (pre post : List (MotionBlending.Layer α)) (y : MotionBlending.Layer α)
    (h : NumOps.le y.weight NumOps.zero = true) :
    MotionBlending.run (pre ++ y :: post) = MotionBlending.run (pre ++ post) := by
  unfold MotionBlending.run
  rw [List.foldl_append, List.foldl_append, List.foldl_cons]
  congr 2
  unfold accumulate accumulateWith inOrder
  simp only [h, if_true]

/-- C37: without positive weights the result is the identity. -/
theorem C37_identity (ls : List (MotionBlending.Layer ℝ)) (h : ∀ y ∈ ls, y.weight ≤ 0) :
    MotionBlending.run ls = ⟨0, f4 0 0 0 1, fun _ => 1⟩ := by
  have hp : positives ls = [] := by
    unfold positives
    rw [List.filter_eq_nil_iff]
    intro y hy
    simpa using h y hy
  obtain ⟨a1, a2, a3⟩ := run_eq ls
  have hd : directionSum ls = 0 := by unfold directionSum; rw [hp]; rfl
  have hr : alignedSum (rotations ls) = 0 := by unfold rotations; rw [hp]; rfl
  rw [hd, smul_zero] at a1
  rw [hr, if_pos rfl] at a2
  cases hx : MotionBlending.run ls
  rw [hx] at a1 a2 a3
  simp_all

/-- C37: a single positive motion is reproduced, its rotation made unit. -/
theorem C37_single (pre post : List (MotionBlending.Layer ℝ)) (y : MotionBlending.Layer ℝ) (hy : 0 < y.weight)
    (hpre : ∀ z ∈ pre, z.weight ≤ 0) (hpost : ∀ z ∈ post, z.weight ≤ 0) (hq : y.delta.rotation ≠ 0) :
    (MotionBlending.run (pre ++ y :: post)).translation = y.delta.translation ∧
    (MotionBlending.run (pre ++ y :: post)).rotation = unitOf y.delta.rotation := by
  have hn : ∀ ls : List (MotionBlending.Layer ℝ), (∀ z ∈ ls, z.weight ≤ 0) → positives ls = [] := by
    intro ls h
    unfold positives
    rw [List.filter_eq_nil_iff]
    intro y hy
    simpa using h y hy
  have hp : positives (pre ++ y :: post) = [y] := by
    have h1 := hn pre hpre
    have h2 := hn post hpost
    unfold positives at h1 h2 ⊢
    rw [List.filter_append, h1, List.filter_cons, h2]
    simp [hy]
  obtain ⟨a1, a2, -⟩ := run_eq (pre ++ y :: post)
  have hw : weightSum (pre ++ y :: post) = y.weight := by unfold weightSum; rw [hp]; simp
  have hd : directionSum (pre ++ y :: post) = y.weight • direction y.delta.translation := by
    unfold directionSum; rw [hp]; simp
  have ha : averageLength (pre ++ y :: post) = norm3 y.delta.translation := by
    unfold averageLength; rw [hw, hp]; simp; field_simp
  have hr : alignedSum (rotations (pre ++ y :: post)) = y.weight • y.delta.rotation := by
    unfold rotations alignedSum; rw [hp]
    simp only [List.map_cons, List.map_nil, List.foldl_cons, List.foldl_nil, Blending.addAligned_zero]
  constructor
  · rw [a1, hw, hd, ha, norm3_smul _ hy.le, smul_smul]
    by_cases hz : y.delta.translation = 0
    · simp [hz, direction]
    · have hnz : norm3 y.delta.translation ≠ 0 := fun h => hz ((norm3_eq_zero _).mp h)
      have hnp : 0 < norm3 y.delta.translation := lt_of_le_of_ne (norm3_nonneg _) (Ne.symm hnz)
      have h1 : norm3 (direction y.delta.translation) = 1 := by
        unfold direction
        rw [if_neg hz, norm3_smul _ (by positivity)]
        field_simp
      rw [h1, if_neg (by positivity)]
      unfold direction
      rw [if_neg hz, smul_smul]
      have : norm3 y.delta.translation / (y.weight * 1) * y.weight * (norm3 y.delta.translation)⁻¹ = 1 := by
        field_simp
      rw [this, one_smul]
  · rw [a2, hr, if_neg (by rw [smul_eq_zero, not_or]; exact ⟨hy.ne', hq⟩), unitOf_smul _ hy]

/-- C38: if the weighted directions do not cancel out, the blended translation points along their sum and
its length is the weighted average of the lengths. -/
theorem C38_length (ls : List (MotionBlending.Layer ℝ)) (h : directionSum ls ≠ 0) :
    norm3 (MotionBlending.run ls).translation = averageLength ls ∧
    (averageLength ls ≠ 0 → direction (MotionBlending.run ls).translation = direction (directionSum ls)) := by
  obtain ⟨a1, -, -⟩ := run_eq ls
  have hn : norm3 (directionSum ls) ≠ 0 := fun h0 => h ((norm3_eq_zero _).mp h0)
  have hnp : 0 < norm3 (directionSum ls) := lt_of_le_of_ne (norm3_nonneg _) (Ne.symm hn)
  have hpos : ∀ y ∈ positives ls, 0 < y.weight := by
    intro y hy
    have := (List.mem_filter.mp hy).2
    simpa using this
  have hne : positives ls ≠ [] := by
    intro h0; apply h; unfold directionSum; rw [h0]; rfl
  have hw : 0 < weightSum ls := by
    unfold weightSum
    apply List.sum_pos
    · intro x hx
      obtain ⟨y, hy, rfl⟩ := List.mem_map.mp hx
      exact hpos y hy
    · simpa using hne
  have ha : 0 ≤ averageLength ls := by
    unfold averageLength
    apply div_nonneg _ hw.le
    apply List.sum_nonneg
    intro x hx
    obtain ⟨y, hy, rfl⟩ := List.mem_map.mp hx
    exact mul_nonneg (hpos y hy).le (norm3_nonneg _)
  have e : (MotionBlending.run ls).translation = (averageLength ls / norm3 (directionSum ls)) • directionSum ls := by
    rw [a1, if_neg (mul_ne_zero hn hw.ne')]
  have e2 : norm3 (MotionBlending.run ls).translation = averageLength ls := by
    rw [e, norm3_smul _ (by positivity)]
    field_simp
  refine ⟨e2, fun hne => ?_⟩
  have hap : 0 < averageLength ls := lt_of_le_of_ne ha (Ne.symm hne)
  unfold direction
  rw [if_neg h, e2, if_neg (by intro h0; rw [h0, (norm3_eq_zero _).mpr rfl] at e2; exact hne e2.symm), e, smul_smul]
  congr 1
  field_simp

/-- C38: the zero translation when the directions cancel out. -/
theorem C38_cancelled (ls : List (MotionBlending.Layer ℝ)) (h : directionSum ls = 0) :
    (MotionBlending.run ls).translation = 0 := by
  rw [(run_eq ls).1, h, smul_zero]

/-- Two motions of lengths 3 and 1 along x and y with weights 1 and 2: average length 5/3. -/
example : directionSum [⟨1, ⟨v3 3 0 0, f4 0 0 0 1, 1⟩⟩, ⟨-4, ⟨v3 7 0 0, f4 0 0 0 1, 1⟩⟩, ⟨2, ⟨v3 0 1 0, f4 0 0 0 1, 1⟩⟩] ≠ 0 ∧
    norm3 (MotionBlending.run [⟨1, ⟨v3 3 0 0, f4 0 0 0 1, 1⟩⟩, ⟨-4, ⟨v3 7 0 0, f4 0 0 0 1, 1⟩⟩,
      ⟨2, ⟨v3 0 1 0, f4 0 0 0 1, 1⟩⟩]).translation = 5 / 3 := by
  have hp : positives [⟨1, ⟨v3 3 0 0, f4 0 0 0 1, 1⟩⟩, ⟨-4, ⟨v3 7 0 0, f4 0 0 0 1, 1⟩⟩, ⟨2, ⟨v3 0 1 0, f4 0 0 0 1, 1⟩⟩]
      = [⟨1, ⟨v3 3 0 0, f4 0 0 0 1, 1⟩⟩, ⟨2, ⟨v3 0 1 0, f4 0 0 0 1, 1⟩⟩] := by
    unfold positives
    norm_num [List.filter]
  have n1 : norm3 (v3 3 0 0) = 3 := by
    rw [norm3, show (v3 (3:ℝ) 0 0 0 ^ 2 + v3 (3:ℝ) 0 0 1 ^ 2 + v3 (3:ℝ) 0 0 2 ^ 2) = 3 ^ 2 by norm_num [v3],
      Real.sqrt_sq (by norm_num)]
  have n2 : norm3 (v3 0 1 0) = 1 := by
    norm_num [norm3, v3]
  have z1 : v3 (3 : ℝ) 0 0 ≠ 0 := fun h => by
    rw [h, (norm3_eq_zero _).mpr rfl] at n1; norm_num at n1
  have z2 : v3 (0 : ℝ) 1 0 ≠ 0 := fun h => by
    rw [h, (norm3_eq_zero _).mpr rfl] at n2; norm_num at n2
  have hd : directionSum [⟨1, ⟨v3 3 0 0, f4 0 0 0 1, 1⟩⟩, ⟨-4, ⟨v3 7 0 0, f4 0 0 0 1, 1⟩⟩,
      ⟨2, ⟨v3 0 1 0, f4 0 0 0 1, 1⟩⟩] ≠ 0 := by
    unfold directionSum
    rw [hp]
    intro h
    have := congrFun h 1
    simp [direction, z1, z2, n1, n2] at this
    norm_num [v3] at this
  refine ⟨hd, ?_⟩
  rw [(C38_length _ hd).1]
  unfold averageLength weightSum
  rw [hp]
  norm_num [n1, n2]

/-- One motion counts; it comes out as it went in. -/
example : (MotionBlending.run ([⟨-1, ⟨v3 9 9 9, f4 1 0 0 0, 1⟩⟩, ⟨2, ⟨v3 1 2 3, f4 0 0 0 1, 1⟩⟩] : List (MotionBlending.Layer ℝ))).translation = v3 1 2 3 :=
  (C37_single [⟨-1, ⟨v3 9 9 9, f4 1 0 0 0, 1⟩⟩] [] ⟨2, ⟨v3 1 2 3, f4 0 0 0 1, 1⟩⟩ (by norm_num) (by simp) (by simp)
    (fun h => by simpa using congrFun h 3)).1

/-- Opposite directions cancel out. -/
example : (MotionBlending.run ([⟨1, ⟨v3 2 0 0, f4 0 0 0 1, 1⟩⟩, ⟨1, ⟨v3 (-2) 0 0, f4 0 0 0 1, 1⟩⟩] : List (MotionBlending.Layer ℝ))).translation = 0 := by
  apply C38_cancelled
  have n1 : ∀ x : ℝ, x ^ 2 = 2 ^ 2 → norm3 (v3 x 0 0) = 2 := by
    intro x hx
    rw [norm3, show (v3 x 0 0 0 ^ 2 + v3 x 0 0 1 ^ 2 + v3 x 0 0 2 ^ 2) = 2 ^ 2 by simpa [v3] using hx,
      Real.sqrt_sq (by norm_num)]
  have z : ∀ x : ℝ, x ^ 2 = 2 ^ 2 → v3 x 0 0 ≠ 0 := fun x hx h => by
    have := n1 x hx
    rw [h, (norm3_eq_zero _).mpr rfl] at this; norm_num at this
  have hp : positives [⟨1, ⟨v3 2 0 0, f4 0 0 0 1, 1⟩⟩, ⟨1, ⟨v3 (-2) 0 0, f4 0 0 0 1, 1⟩⟩]
      = [⟨1, ⟨v3 2 0 0, f4 0 0 0 1, 1⟩⟩, ⟨1, ⟨v3 (-2) 0 0, f4 0 0 0 1, 1⟩⟩] := by
    unfold positives
    norm_num [List.filter]
  unfold directionSum
  rw [hp]
  funext i
  simp only [List.map_cons, List.map_nil, List.sum_cons, List.sum_nil, direction, z 2 rfl, z (-2) (by norm_num), if_false,
    n1 2 rfl, n1 (-2) (by norm_num)]
  fin_cases i <;> norm_num [v3]

end Ozz.Props
