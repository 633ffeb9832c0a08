import Verif.Proofs.FloatMotion

/-! Property theorems about motion blending in single precision: C88. -/

namespace Ozz.Props

open F32 Ieee Spec MotionBlending
open Ozz.Blending (AlignedUpTo ClearSigns unitOf alignedSum unitOf_neg clear_signs dot4)

/-- C88: the assumptions about glam hold for three ways of computing. -/
theorem C88_glam : Accurate inOrder ∧ Accurate inPairs ∧ Accurate byReciprocal := ⟨inOrder_accurate, inPairs_accurate, byReciprocal_accurate⟩

/-- C88: unless the directions nearly cancel out, the blended translation is as long as the lengths are on average. -/
theorem C88_speed {g : Glam F32} (hg : Accurate g) {ls : List (MotionBlending.Layer F32)} (h : Motions32Ok ls)
    (far : 512 * (positives (ls.map valMotion)).length * weightSum (ls.map valMotion) / 2 ^ 24 ≤ norm3 (directionSum (ls.map valMotion))) :
    (∀ i, Finite32 ((runWith g ls).translation i).bits) ∧
    |norm3 (val3 (runWith g ls).translation) - averageLength (ls.map valMotion)| ≤
      12 * ((positives (ls.map valMotion)).length + 1) / 2 ^ 24 * averageLength (ls.map valMotion) := by
  obtain ⟨f, v, -, v0, a0, e⟩ := used_move hg h far
  refine ⟨f, ?_⟩
  have n1 := norm3_sub_le (val3 (runWith g ls).translation) ((averageLength (ls.map valMotion) / norm3 v) • v)
  have n2 := norm3_sub_le ((averageLength (ls.map valMotion) / norm3 v) • v) (val3 (runWith g ls).translation)
  rw [norm3_comm] at n2
  have n3 : norm3 ((averageLength (ls.map valMotion) / norm3 v) • v) = averageLength (ls.map valMotion) := by
    rw [norm3_smul _ (div_pos a0 v0).le, div_mul_cancel₀ _ v0.ne']
  rw [n3] at n1 n2
  rw [abs_le]
  constructor <;> linarith

/-- C88: and it points along the weighted sum of the directions; the less they agree, the less exactly. -/
theorem C88_translation {g : Glam F32} (hg : Accurate g) {ls : List (MotionBlending.Layer F32)} (h : Motions32Ok ls)
    (far : 512 * (positives (ls.map valMotion)).length * weightSum (ls.map valMotion) / 2 ^ 24 ≤ norm3 (directionSum (ls.map valMotion))) :
    norm3 (val3 (runWith g ls).translation - averageLength (ls.map valMotion) • direction (directionSum (ls.map valMotion))) ≤
      averageLength (ls.map valMotion) * ((12 * ((positives (ls.map valMotion)).length + 1) +
        32 * (positives (ls.map valMotion)).length * weightSum (ls.map valMotion) / norm3 (directionSum (ls.map valMotion))) / 2 ^ 24) := by
  obtain ⟨-, v, hv, v0, a0, e⟩ := used_move hg h far
  obtain ⟨-, -, -, -, -, n1, hM⟩ := used_list h
  have M0 : 0 < weightSum (ls.map valMotion) := lt_of_lt_of_le (by positivity) hM.ge
  generalize directionSum (ls.map valMotion) = D at *
  generalize averageLength (ls.map valMotion) = a at *
  generalize weightSum (ls.map valMotion) = M at *
  generalize hn : ((positives (ls.map valMotion)).length : ℝ) = n at *
  have n0 : 0 < n := by rw [← hn]; exact_mod_cast n1
  have D0 : 0 < norm3 D := lt_of_lt_of_le (by positivity) far
  have Dn : D ≠ 0 := by
    intro hc
    rw [hc] at D0
    simp [norm3] at D0
  have hd : direction D = (norm3 D)⁻¹ • D := if_neg Dn
  have t1 := norm3_add_le (val3 (runWith g ls).translation - (a / norm3 v) • v) ((a / norm3 v) • v - a • direction D)
  rw [sub_add_sub_cancel] at t1
  refine t1.trans ?_
  -- the two directions
  have key : norm3 ((norm3 v)⁻¹ • v - (norm3 D)⁻¹ • D) ≤ 2 * norm3 (v - D) / norm3 D := by
    have s : (norm3 v)⁻¹ • v - (norm3 D)⁻¹ • D = ((norm3 v)⁻¹ - (norm3 D)⁻¹) • v + (norm3 D)⁻¹ • (v - D) := by
      rw [sub_smul, smul_sub]; abel
    rw [s]
    refine (norm3_add_le _ _).trans ?_
    have sm : ∀ (k : ℝ) (x : V3 ℝ), norm3 (k • x) = |k| * norm3 x := by
      intro k x
      rcases le_total 0 k with hk | hk
      · rw [norm3_smul k hk, abs_of_nonneg hk]
      · rw [abs_of_nonpos hk, ← norm3_smul (-k) (by linarith)]
        unfold norm3; congr 1; simp
    rw [sm, sm, abs_of_pos (inv_pos.mpr D0)]
    have e1 : |(norm3 v)⁻¹ - (norm3 D)⁻¹| * norm3 v = |norm3 D - norm3 v| / norm3 D := by
      rw [inv_sub_inv v0.ne' D0.ne', abs_div, abs_of_pos (mul_pos v0 D0)]
      field_simp
    have e2 : |norm3 D - norm3 v| ≤ norm3 (v - D) := by
      have q1 := norm3_sub_le v D
      have q2 := norm3_sub_le D v
      rw [norm3_comm D] at q2
      rw [abs_le]; constructor <;> linarith
    rw [e1, inv_mul_eq_div, ← add_div]
    exact div_le_div_of_nonneg_right (by linarith) D0.le
  have e3 : (a / norm3 v) • v - a • direction D = a • ((norm3 v)⁻¹ • v - (norm3 D)⁻¹ • D) := by
    rw [hd, smul_sub, smul_smul, smul_smul, div_eq_mul_inv]
  rw [e3, norm3_smul a a0.le]
  have k2 : 2 * norm3 (v - D) / norm3 D ≤ 32 * n * M / norm3 D / 2 ^ 24 := by
    rw [div_div, mul_comm (norm3 D), ← div_div]
    exact div_le_div_of_nonneg_right (by
      rw [show 15.6 * n * M = 15.6 * (n * M) by ring] at hv
      have : 0 < n * M := mul_pos n0 M0
      rw [show 32 * n * M = 32 * (n * M) by ring]
      linarith) D0.le
  have := mul_le_mul_of_nonneg_left (key.trans k2) a0.le
  linarith

/-- C88: motions that do not move stay put exactly, whatever their rotations. -/
theorem C88_still {g : Glam F32} (hg : Accurate g) {ls : List (MotionBlending.Layer F32)} (h : Motions32Ok ls)
    (hz : ∀ y ∈ ls, 0 < val y.weight → ∀ i, val (y.delta.translation i) = 0) (i : Fin 3) :
    Finite32 ((runWith g ls).translation i).bits ∧ val ((runWith g ls).translation i) = 0 := by
  obtain ⟨h1, h2, -, -, -, -, -⟩ := used_list h
  have key : ∀ (ms : List (MotionBlending.Layer F32)), (∀ y ∈ ms, y ∈ ls.filter used) → ∀ s : Acc F32,
      (∀ i, Finite32 (s.dt i).bits ∧ val (s.dt i) = 0) →
      ∀ i, Finite32 ((ms.foldl (accumulateWith g) s).dt i).bits ∧ val ((ms.foldl (accumulateWith g) s).dt i) = 0 := by
    intro ms
    induction ms with
    | nil => intro _ s hs; exact hs
    | cons y ys ih =>
      intro hm s hs
      rw [List.forall_mem_cons] at hm
      rw [List.foldl_cons]
      apply ih hm.2
      intro i
      rw [acc_used g s (h2 y hm.1)]
      have wp := (used_val (h1 y hm.1).weight).mp (h2 y hm.1)
      have yz := hz y (List.mem_filter.mp hm.1).1 wp
      have yf := (h1 y hm.1).translationFinite wp
      obtain ⟨fl, el⟩ := hg.still _ yf yz
      have he : NumOps.eq (g.length y.delta.translation) (NumOps.zero : F32) = true := (eq_val32 fl zero_finite).mpr (by rw [el, valZero])
      simp only [he, if_true]
      have m := mul_still (yf i) zero_finite (.inl (yz i))
      exact add_still (hs i).1 m.1 (hs i).2 m.2
  have dt := key _ (fun y hy => hy) Acc.zero (fun _ => ⟨zero_finite, valZero⟩)
  rw [← fold_used] at dt
  obtain ⟨fw, -⟩ := used_weight (g := g) h
  obtain ⟨fl, el⟩ := hg.still _ (fun i => (dt i).1) (fun i => (dt i).2)
  have m := mul_still fl fw (.inl el)
  unfold runWith finishWith
  have he : NumOps.eq (g.length (ls.foldl (accumulateWith g) Acc.zero).dt * (ls.foldl (accumulateWith g) Acc.zero).weight) (NumOps.zero : F32) = true :=
    (eq_val32 m.1 zero_finite).mpr (by rw [m.2, valZero])
  simp only [he, if_true]
  exact mul_still (dt i).1 zero_finite (.inl (dt i).2)

/-- C88: the rotation is nearly unit and near the normalized sum of the rotations, each added with the sign that agrees with
the sum before it; the scale is one. -/
theorem C88_rotation {g : Glam F32} (hg : Accurate g) {ls : List (MotionBlending.Layer F32)} (h : Motions32Ok ls) :
    (∀ c, Finite32 ((runWith g ls).rotation c).bits) ∧ |norm2 (fun c => val ((runWith g ls).rotation c)) - 1| ≤ 1 / 2 ^ 19 ∧
    (∀ i, val ((runWith g ls).scale i) = 1) ∧
    ∃ R, AlignedUpTo (12 * (positives (ls.map valMotion)).length * weightSum (ls.map valMotion) / 2 ^ 24) 0 (turns (ls.map valMotion)) R ∧
      weightSum (ls.map valMotion) ^ 2 ≤ 2 * (positives (ls.map valMotion)).length * norm2 R ∧
      ∀ c, |val ((runWith g ls).rotation c) - unitOf R c| ≤
        9 * (positives (ls.map valMotion)).length * weightSum (ls.map valMotion) / 2 ^ 24 / √(norm2 R) + 7 / 2 ^ 24 := by
  obtain ⟨R, a1, a2, a3, a4, a5⟩ := used_turn hg h
  exact ⟨a3, a5, fun _ => valOne, R, a1, a2, a4⟩

/-- C88: where the signs are clear, the rotation is near that of a run in exact arithmetic, up to sign. -/
theorem C88_rotation_exact {g : Glam F32} (hg : Accurate g) {ls : List (MotionBlending.Layer F32)} (h : Motions32Ok ls)
    (hc : ClearSigns (12 * (positives (ls.map valMotion)).length * weightSum (ls.map valMotion) / 2 ^ 24) 0 (turns (ls.map valMotion))) :
    ∃ σ : ℝ, (σ = 1 ∨ σ = -1) ∧ ∀ c, |val ((runWith g ls).rotation c) - σ * (MotionBlending.run (ls.map valMotion)).rotation c| ≤
      9 * (positives (ls.map valMotion)).length * √(2 * (positives (ls.map valMotion)).length) / 2 ^ 24 + 7 / 2 ^ 24 := by
  obtain ⟨R, a1, a2, -, a4, -⟩ := used_turn hg h
  obtain ⟨-, -, -, -, -, n1, hM⟩ := used_list h
  have M0 : 0 < weightSum (ls.map valMotion) := lt_of_lt_of_le (by positivity) hM.ge
  have n0 : (0:ℝ) < (positives (ls.map valMotion)).length := by exact_mod_cast n1
  have R0 : 0 < norm2 R := by
    by_contra hn
    push Not at hn
    have : 2 * ((positives (ls.map valMotion)).length : ℝ) * norm2 R ≤ 0 := mul_nonpos_of_nonneg_of_nonpos (by positivity) hn
    have : 0 < weightSum (ls.map valMotion) ^ 2 := by positivity
    linarith
  have sq : 0 < √(norm2 R) := Real.sqrt_pos.mpr R0
  have ratio : weightSum (ls.map valMotion) / √(norm2 R) ≤ √(2 * (positives (ls.map valMotion)).length) := by
    rw [div_le_iff₀ sq, ← Real.sqrt_mul (by positivity)]
    exact Real.le_sqrt_of_sq_le a2
  have bound : 9 * ((positives (ls.map valMotion)).length : ℝ) * weightSum (ls.map valMotion) / 2 ^ 24 / √(norm2 R) ≤
      9 * (positives (ls.map valMotion)).length * √(2 * (positives (ls.map valMotion)).length) / 2 ^ 24 := by
    have := mul_le_mul_of_nonneg_left ratio (show (0:ℝ) ≤ 9 * (positives (ls.map valMotion)).length / 2 ^ 24 by positivity)
    refine le_trans (le_of_eq ?_) (this.trans (le_of_eq ?_)) <;> ring
  have rr := (run_eq (ls.map valMotion)).2.1
  have signs := clear_signs a1 (.inl rfl) (by positivity) hc
  have es : (turns (ls.map valMotion)).foldl Blending.addAligned 0 = alignedSum (rotations (ls.map valMotion)) := rfl
  rw [es] at signs
  have ne : alignedSum (rotations (ls.map valMotion)) ≠ 0 := by
    intro hz
    rw [hz, neg_zero, or_self] at signs
    rw [signs] at R0
    simp [norm2] at R0
  rw [if_neg ne] at rr
  rw [rr]
  rcases signs with rfl | rfl
  · refine ⟨1, .inl rfl, fun c => ?_⟩
    rw [one_mul]
    exact (a4 c).trans (by linarith)
  · refine ⟨-1, .inr rfl, fun c => ?_⟩
    have := a4 c
    rw [unitOf_neg, Pi.neg_apply] at this
    rw [neg_one_mul]
    exact this.trans (by linarith)

/-! ### An example -/

private def f0 : F32 := ⟨0x00000000⟩
private def f1 : F32 := ⟨0x3f800000⟩
private def fm : F32 := ⟨0xbf800000⟩
private def f3' : F32 := ⟨0x40400000⟩
private def f4' : F32 := ⟨0x40800000⟩
private def fnan : F32 := ⟨0x7fc00000⟩

/-- Two motions at right angles, of lengths 3 and 4; the rotations are equal but opposite in sign. A third motion is not
used: its translation is not a number. -/
private def moves : List (MotionBlending.Layer F32) :=
  [⟨f1, ⟨v3 f3' f0 f0, f4 f0 f0 f0 f1, v3 f1 f1 f1⟩⟩,
   ⟨fm, ⟨v3 fnan f0 f0, f4 f0 f0 f0 fnan, v3 f1 f1 f1⟩⟩,
   ⟨f1, ⟨v3 f0 f4' f0, f4 f0 f0 f0 fm, v3 f1 f1 f1⟩⟩]

private theorem vals : val f0 = 0 ∧ val f1 = 1 ∧ val fm = -1 ∧ val f3' = 3 ∧ val f4' = 4 := by
  have h0 : value32 0 = 0 := by decide +kernel
  have h1 : value32 0x3f800000 = 1 := by decide +kernel
  have h2 : value32 0xbf800000 = -1 := by decide +kernel
  have h3 : value32 0x40400000 = 3 := by decide +kernel
  have h4 : value32 0x40800000 = 4 := by decide +kernel
  refine ⟨?_, ?_, ?_, ?_, ?_⟩ <;> simp only [val, real, f0, f1, fm, f3', f4', h0, h1, h2, h3, h4] <;> norm_num

private theorem len34 : norm3 (v3 3 0 0) = 3 ∧ norm3 (v3 0 4 0) = 4 := by
  constructor <;> unfold norm3 <;> simp [v3]

private theorem moves_val : positives (moves.map valMotion) =
    [⟨1, ⟨v3 3 0 0, f4 0 0 0 1, v3 1 1 1⟩⟩, ⟨1, ⟨v3 0 4 0, f4 0 0 0 (-1), v3 1 1 1⟩⟩] := by
  obtain ⟨z, o, m, t, f⟩ := vals
  have e3 : ∀ a b c : F32, val3 (v3 a b c) = v3 (val a) (val b) (val c) := by
    intro a b c; funext i; fin_cases i <;> rfl
  have e4 : ∀ a b c d : F32, (fun i => val (f4 a b c d i)) = f4 (val a) (val b) (val c) (val d) := by
    intro a b c d; funext i; fin_cases i <;> rfl
  simp only [moves, List.map_cons, List.map_nil, valMotion, e3, e4, z, o, m, t, f]
  unfold positives
  rw [List.filter_cons_of_pos (by norm_num), List.filter_cons_of_neg (by norm_num), List.filter_cons_of_pos (by norm_num), List.filter_nil]

private theorem moves_sums : (positives (moves.map valMotion)).length = 2 ∧ weightSum (moves.map valMotion) = 2 ∧
    averageLength (moves.map valMotion) = 7 / 2 ∧ directionSum (moves.map valMotion) = v3 1 1 0 := by
  have hw : weightSum (moves.map valMotion) = 2 := by
    unfold weightSum; rw [moves_val]; norm_num
  obtain ⟨l3, l4⟩ := len34
  refine ⟨by rw [moves_val]; rfl, hw, ?_, ?_⟩
  · unfold averageLength
    rw [hw, moves_val]
    simp only [List.map_cons, List.map_nil, List.sum_cons, List.sum_nil, l3, l4]
    norm_num
  · unfold directionSum
    rw [moves_val]
    have n3 : v3 (3:ℝ) 0 0 ≠ 0 := fun h => by have := congrFun h 0; simp [v3] at this
    have n4 : v3 (0:ℝ) 4 0 ≠ 0 := fun h => by have := congrFun h 1; simp [v3] at this
    simp only [List.map_cons, List.map_nil, List.sum_cons, List.sum_nil, direction, n3, n4, if_false, l3, l4]
    funext i
    fin_cases i <;> norm_num [v3]

private theorem moves_ok : Motions32Ok moves := by
  obtain ⟨z, o, m, t, f⟩ := vals
  obtain ⟨s1, s2, -, -⟩ := moves_sums
  obtain ⟨l3, l4⟩ := len34
  have e3 : ∀ a b c : F32, val3 (v3 a b c) = v3 (val a) (val b) (val c) := by
    intro a b c; funext i; fin_cases i <;> rfl
  have e4 : ∀ a b c d : F32, (fun i => val (f4 a b c d i)) = f4 (val a) (val b) (val c) (val d) := by
    intro a b c d; funext i; fin_cases i <;> rfl
  have fin : Finite32 f0.bits ∧ Finite32 f1.bits ∧ Finite32 fm.bits ∧ Finite32 f3'.bits ∧ Finite32 f4'.bits := by
    refine ⟨?_, ?_, ?_, ?_, ?_⟩ <;> decide +kernel
  obtain ⟨g0, g1, gm, g3, g4⟩ := fin
  refine ⟨?_, by rw [s1]; norm_num, by rw [s2]; norm_num, by rw [s2]; norm_num⟩
  intro y hy
  simp only [moves, List.mem_cons, List.not_mem_nil, or_false] at hy
  rcases hy with rfl | rfl | rfl
  · refine ⟨g1, fun _ i => ?_, fun _ => .inr ?_, fun _ c => ?_, fun _ => ?_⟩
    · fin_cases i <;> first | exact g3 | exact g0
    · simp only [e3, z, t, l3]; norm_num
    · fin_cases c <;> first | exact g0 | exact g1
    · simp only [e4, z, o]; norm_num [norm2, f4]
  · have hm : ¬ 0 < val fm := by rw [m]; norm_num
    exact ⟨gm, fun h => absurd h hm, fun h => absurd h hm, fun h => absurd h hm, fun h => absurd h hm⟩
  · refine ⟨g1, fun _ i => ?_, fun _ => .inr ?_, fun _ c => ?_, fun _ => ?_⟩
    · fin_cases i <;> first | exact g4 | exact g0
    · simp only [e3, z, f, l4]; norm_num
    · fin_cases c <;> first | exact g0 | exact gm
    · simp only [e4, z, m]; norm_num [norm2, f4]

private theorem moves_far : 512 * (positives (moves.map valMotion)).length * weightSum (moves.map valMotion) / 2 ^ 24 ≤
    norm3 (directionSum (moves.map valMotion)) := by
  obtain ⟨s1, s2, -, s4⟩ := moves_sums
  rw [s1, s2, s4]
  refine le_trans (b := 1) (by norm_num) ?_
  unfold norm3
  rw [Real.one_le_sqrt]
  norm_num [v3]

/-- The blended translation has length 7/2, within 2^-16. -/
example : |norm3 (val3 (runWith inPairs moves).translation) - 7 / 2| ≤ 1 / 2 ^ 16 := by
  have := (C88_speed inPairs_accurate moves_ok moves_far).2
  obtain ⟨s1, -, s3, -⟩ := moves_sums
  rw [s1, s3] at this
  exact this.trans (by norm_num)

/-- It points in between the two. -/
example : norm3 (val3 (runWith inPairs moves).translation - (7 / 2 : ℝ) • direction (v3 1 1 0)) ≤ 1 / 2 ^ 14 := by
  have := C88_translation inPairs_accurate moves_ok moves_far
  obtain ⟨s1, s2, s3, s4⟩ := moves_sums
  rw [s1, s2, s3, s4] at this
  refine this.trans ?_
  have : 32 * ((2:ℕ):ℝ) * 2 / norm3 (v3 1 1 0) ≤ 128 := by
    have h1 : 1 ≤ norm3 (v3 1 1 0) := by unfold norm3; rw [Real.one_le_sqrt]; norm_num [v3]
    refine (div_le_self (by norm_num) h1).trans (by norm_num)
  norm_num at this ⊢
  linarith

/-- The signs are clear: the rotation is plus or minus the identity, within 2^-18. -/
example : ∃ σ : ℝ, (σ = 1 ∨ σ = -1) ∧ ∀ c, |val ((runWith inPairs moves).rotation c) - σ * f4 0 0 0 1 c| ≤ 1 / 2 ^ 18 := by
  obtain ⟨s1, s2, -, -⟩ := moves_sums
  have a1 : Blending.addAligned 0 ((1:ℝ), f4 0 0 0 1) = f4 0 0 0 1 := by rw [Blending.addAligned_zero, one_smul]
  have a2 : Blending.addAligned (f4 0 0 0 1) ((1:ℝ), f4 0 0 0 (-1)) = f4 0 0 0 2 := by
    apply ext4 <;> norm_num [Blending.addAligned, dot4]
  have clear : ClearSigns (12 * (positives (moves.map valMotion)).length * weightSum (moves.map valMotion) / 2 ^ 24) 0 (turns (moves.map valMotion)) := by
    unfold turns
    rw [moves_val]
    refine ⟨.inr (.inl rfl), .inr (.inr ?_), trivial⟩
    rw [← moves_val, s1, s2]
    change _ < |dot4 (Blending.addAligned 0 ((1:ℝ), f4 0 0 0 1)) (f4 0 0 0 (-1))|
    rw [a1]
    norm_num [dot4]
  obtain ⟨σ, h1, h2⟩ := C88_rotation_exact inPairs_accurate moves_ok clear
  refine ⟨σ, h1, fun c => ?_⟩
  have h3 := h2 c
  have rr := (run_eq (moves.map valMotion)).2.1
  have es : alignedSum (rotations (moves.map valMotion)) = f4 0 0 0 2 := by
    unfold rotations alignedSum
    rw [moves_val]
    simp only [List.map_cons, List.map_nil, List.foldl_cons, List.foldl_nil, a1, a2]
  have hn : norm2 (f4 0 0 0 2) = 2 ^ 2 := by norm_num [norm2]
  have hu : unitOf (f4 0 0 0 2) = f4 0 0 0 1 := by
    unfold unitOf
    rw [hn, Real.sqrt_sq (by norm_num)]
    apply ext4 <;> norm_num
  have ne : f4 (0:ℝ) 0 0 2 ≠ 0 := fun h => by have := congrFun h 3; norm_num at this
  rw [es, if_neg ne, hu] at rr
  rw [rr, s1] at h3
  refine h3.trans ?_
  have : √(2 * ((2:ℕ):ℝ)) = 2 := by
    rw [show (2:ℝ) * ((2:ℕ):ℝ) = 2 ^ 2 by norm_num, Real.sqrt_sq (by norm_num)]
  rw [this]
  norm_num

/-- `C88_still`: a turn on the spot. -/
example (g : Glam F32) (hg : Accurate g) (i : Fin 3) :
    val ((runWith g [⟨f1, ⟨v3 f0 f0 f0, f4 f0 f1 f0 f0, v3 f1 f1 f1⟩⟩]).translation i) = 0 := by
  obtain ⟨z, o, m, t, f⟩ := vals
  have g0 : Finite32 f0.bits := by decide +kernel
  have g1 : Finite32 f1.bits := by decide +kernel
  have hp : positives ([(⟨f1, ⟨v3 f0 f0 f0, f4 f0 f1 f0 f0, v3 f1 f1 f1⟩⟩ : MotionBlending.Layer F32)].map valMotion) =
      [valMotion ⟨f1, ⟨v3 f0 f0 f0, f4 f0 f1 f0 f0, v3 f1 f1 f1⟩⟩] := by
    unfold positives
    rw [List.map_cons, List.map_nil, List.filter_cons_of_pos (by simp [valMotion, o]), List.filter_nil]
  have hw : weightSum ([(⟨f1, ⟨v3 f0 f0 f0, f4 f0 f1 f0 f0, v3 f1 f1 f1⟩⟩ : MotionBlending.Layer F32)].map valMotion) = 1 := by
    unfold weightSum; rw [hp]; simp [valMotion, o]
  have hz : ∀ i : Fin 3, val ((v3 f0 f0 f0 : V3 F32) i) = 0 := by intro i; fin_cases i <;> exact z
  refine (C88_still hg (ls := [⟨f1, ⟨v3 f0 f0 f0, f4 f0 f1 f0 f0, v3 f1 f1 f1⟩⟩]) ⟨?_, by rw [hp]; norm_num, by rw [hw]; norm_num, by rw [hw]; norm_num⟩ ?_ i).2
  · intro y hy
    rw [List.mem_singleton] at hy
    subst hy
    refine ⟨g1, fun _ i => ?_, fun _ => .inl hz, fun _ c => ?_, fun _ => ?_⟩
    · fin_cases i <;> exact g0
    · fin_cases c <;> first | exact g0 | exact g1
    · have : (fun c => val ((f4 f0 f1 f0 f0 : F4 F32) c)) = f4 0 1 0 0 := by
        funext c; fin_cases c <;> first | exact z | exact o
      rw [this]
      norm_num [norm2]
  · intro y hy _
    rw [List.mem_singleton] at hy
    subst hy
    exact hz

end Ozz.Props
