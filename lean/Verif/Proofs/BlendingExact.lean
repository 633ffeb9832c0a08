import Verif.Proofs.Blending
import Verif.Proofs.Math
import Verif.Spec.Blending
import Mathlib.Algebra.BigOperators.Group.List.Basic

/-! The blending job in exact arithmetic. -/

namespace Ozz.Blending

theorem mulNum_lane (v : SoaVec3 ℝ) (w : F4 ℝ) (l : Fin 4) : (v.mulNum w).lane l = w l • v.lane l := by
  apply ext4 <;> simp [SoaVec3.mulNum, SoaVec3.lane, mul_comm]

theorem add_lane (v u : SoaVec3 ℝ) (l : Fin 4) : (v.add u).lane l = v.lane l + u.lane l := by
  apply ext4 <;> simp [SoaVec3.add, SoaVec3.lane]

theorem mulNum_qlane (v : SoaQuat ℝ) (w : F4 ℝ) (l : Fin 4) : (v.mulNum w).lane l = w l • v.lane l := by
  apply ext4 <;> simp [SoaQuat.mulNum, SoaQuat.lane, mul_comm]

theorem add_qlane (v u : SoaQuat ℝ) (l : Fin 4) : (v.add u).lane l = v.lane l + u.lane l := by
  apply ext4 <;> simp [SoaQuat.add, SoaQuat.lane]

theorem dot_lane (v u : SoaQuat ℝ) (l : Fin 4) : v.dot u l = dot4 (v.lane l) (u.lane l) := by
  simp [SoaQuat.dot, SoaQuat.lane, dot4]

theorem xorNum_lane (v : SoaQuat ℝ) (s : F4 Bool) (l : Fin 4) :
    (v.xorNum s).lane l = if s l = true then -v.lane l else v.lane l := by
  cases h : s l <;> apply ext4 <;> simp [SoaQuat.xorNum, SoaQuat.lane, xor4, flip, h]

theorem blendN_lane (t : SoaTransform ℝ) (w : F4 ℝ) (o : SoaTransform ℝ) (l : Fin 4) :
    (blendN t w o).translation.lane l = o.translation.lane l + w l • t.translation.lane l ∧
    (blendN t w o).rotation.lane l = addAligned (o.rotation.lane l) (w l, t.rotation.lane l) ∧
    (blendN t w o).scale.lane l = o.scale.lane l + w l • t.scale.lane l := by
  refine ⟨?_, ?_, ?_⟩
  · simp only [blendN, add_lane, mulNum_lane]
  · simp only [blendN, add_qlane, mulNum_qlane, xorNum_lane, addAligned, sign4, dot_lane, real_lt, real_zero,
      decide_eq_true_eq]
  · simp only [blendN, add_lane, mulNum_lane]

theorem dot4_zero (q : F4 ℝ) : dot4 0 q = 0 := by simp [dot4]

theorem addAligned_zero (c : ℝ × F4 ℝ) : addAligned 0 c = c.1 • c.2 := by
  unfold addAligned; rw [dot4_zero]; simp

theorem addAligned_weightless (acc q : F4 ℝ) : addAligned acc (0, q) = acc := by
  unfold addAligned; simp

theorem active_iff (y : Layer ℝ) : y.active = true ↔ 0 < y.weight := by simp [Layer.active]

theorem weightAt_eq (y : Layer ℝ) (i : Nat) (l : Fin 4) (h : y.active = true) :
    y.weightAt i l = laneWeight y i l := by
  have hw := (active_iff y).mp h
  unfold Layer.weightAt laneWeight
  rw [if_neg (not_le.mpr hw)]
  cases hj : y.jointWeights with
  | nil => simp [Layer.isPartial, hj, splat]
  | cons a as =>
    have hp : y.isPartial = true := by simp [Layer.isPartial, hj]
    rw [if_pos hp]
    cases (a :: as)[i]? with
    | none => simp [splat, max4, zero4]
    | some w => simp [splat, max4, zero4, max_comm]

theorem poseAt_eq (y : Layer ℝ) (i : Nat) : y.poseAt i = poseOf y i := by
  unfold Layer.poseAt poseOf
  cases y.transform <;> rfl

/-- Inactive layers have no weight. -/
theorem laneWeight_inactive (y : Layer ℝ) (i : Nat) (l : Fin 4) (h : y.active = false) : laneWeight y i l = 0 := by
  unfold laneWeight
  rw [if_pos]
  have : ¬ y.active = true := by simp [h]
  rw [active_iff] at this
  exact not_lt.mp this

/-- Sums over all layers are sums over the active ones. -/
theorem sum_active (ls : List (Layer ℝ)) (i : Nat) (l : Fin 4) (f : Layer ℝ → F4 ℝ) :
    ((ls.filter Layer.active).map fun y => laneWeight y i l • f y).sum = (ls.map fun y => laneWeight y i l • f y).sum ∧
    ((ls.filter Layer.active).map fun y => laneWeight y i l).sum = totalWeight ls i l ∧
    (((ls.filter Layer.active).map fun y => (laneWeight y i l, f y)).foldl addAligned 0
      = (ls.map fun y => (laneWeight y i l, f y)).foldl addAligned 0) := by
  refine ⟨?_, ?_, ?_⟩
  · induction ls with
    | nil => rfl
    | cons y ys ih =>
      rw [List.filter_cons]
      cases h : y.active with
      | true => simp only [if_true, List.map_cons, List.sum_cons, ih]
      | false => simp [laneWeight_inactive y i l h, ih]
  · unfold totalWeight
    induction ls with
    | nil => rfl
    | cons y ys ih =>
      rw [List.filter_cons]
      cases h : y.active with
      | true => simp only [if_true, List.map_cons, List.sum_cons, ih]
      | false => simp [laneWeight_inactive y i l h, ih]
  · generalize (0 : F4 ℝ) = acc
    induction ls generalizing acc with
    | nil => rfl
    | cons y ys ih =>
      rw [List.filter_cons]
      cases h : y.active with
      | true => simp only [if_true, List.map_cons, List.foldl_cons, ih]
      | false =>
        simp only [Bool.false_eq_true, if_false, List.map_cons, List.foldl_cons, laneWeight_inactive y i l h,
          addAligned_weightless, ih]

/-- The passes of `blend_layers` after the first. -/
theorem fold_some (i : Nat) (l : Fin 4) (ms : List (Layer ℝ)) (hm : ∀ y ∈ ms, y.active = true) (a : F4 ℝ) (o : SoaTransform ℝ) :
    ∃ a' o', ms.foldl (jointStep i) (some (a, o)) = some (a', o') ∧
      a' l = a l + (ms.map fun y => laneWeight y i l).sum ∧
      o'.translation.lane l = o.translation.lane l + (ms.map fun y => laneWeight y i l • (poseOf y i).translation.lane l).sum ∧
      o'.rotation.lane l = (ms.map fun y => (laneWeight y i l, (poseOf y i).rotation.lane l)).foldl addAligned (o.rotation.lane l) ∧
      o'.scale.lane l = o.scale.lane l + (ms.map fun y => laneWeight y i l • (poseOf y i).scale.lane l).sum := by
  induction ms generalizing a o with
  | nil => exact ⟨a, o, rfl, by simp, by simp, rfl, by simp⟩
  | cons y ys ih =>
    rw [List.forall_mem_cons] at hm
    obtain ⟨a', o', h1, h2, h3, h4, h5⟩ := ih hm.2 (a + y.weightAt i) (blendN (y.poseAt i) (y.weightAt i) o)
    obtain ⟨e1, e2, e3⟩ := blendN_lane (y.poseAt i) (y.weightAt i) o l
    rw [weightAt_eq y i l hm.1, poseAt_eq] at e1 e2 e3
    refine ⟨a', o', h1, ?_, ?_, ?_, ?_⟩
    · rw [h2, Pi.add_apply, weightAt_eq y i l hm.1, List.map_cons, List.sum_cons, add_assoc]
    · rw [h3, poseAt_eq, e1, List.map_cons, List.sum_cons, add_assoc]
    · rw [h4, poseAt_eq, e2, List.map_cons, List.foldl_cons]
    · rw [h5, poseAt_eq, e3, List.map_cons, List.sum_cons, add_assoc]

/-- All passes of `blend_layers`, for a layer list with an active layer. -/
theorem fold_none (i : Nat) (l : Fin 4) (ls : List (Layer ℝ)) (hn : numActive ls ≠ 0) :
    ∃ a o, jointFold i ls none = some (a, o) ∧ a l = totalWeight ls i l ∧
      o.translation.lane l = (ls.map fun y => laneWeight y i l • (poseOf y i).translation.lane l).sum ∧
      o.rotation.lane l = alignedSum (ls.map fun y => (laneWeight y i l, (poseOf y i).rotation.lane l)) ∧
      o.scale.lane l = (ls.map fun y => laneWeight y i l • (poseOf y i).scale.lane l).sum := by
  obtain ⟨s1, s2, -⟩ := sum_active ls i l (fun y => (poseOf y i).translation.lane l)
  obtain ⟨s4, -, -⟩ := sum_active ls i l (fun y => (poseOf y i).scale.lane l)
  obtain ⟨-, -, s6⟩ := sum_active ls i l (fun y => (poseOf y i).rotation.lane l)
  unfold jointFold
  unfold numActive at hn
  have hall : ∀ y ∈ ls.filter Layer.active, y.active = true := fun y hy => (List.mem_filter.mp hy).2
  rw [← s1, ← s2, ← s4]
  unfold alignedSum
  rw [← s6]
  cases hf : ls.filter Layer.active with
  | nil => rw [hf] at hn; simp at hn
  | cons y ys =>
    rw [hf, List.forall_mem_cons] at hall
    obtain ⟨a, o, h1, h2, h3, h4, h5⟩ := fold_some i l ys hall.2 (y.weightAt i) (blend1 (y.poseAt i) (y.weightAt i))
    refine ⟨a, o, h1, ?_, ?_, ?_, ?_⟩
    · rw [h2, weightAt_eq y i l hall.1, List.map_cons, List.sum_cons]
    · rw [h3, poseAt_eq, List.map_cons, List.sum_cons]
      simp only [blend1, mulNum_lane, weightAt_eq y i l hall.1]
    · rw [h4, poseAt_eq, List.map_cons, List.foldl_cons, addAligned_zero]
      simp only [blend1, mulNum_qlane, weightAt_eq y i l hall.1]
    · rw [h5, poseAt_eq, List.map_cons, List.sum_cons]
      simp only [blend1, mulNum_lane, weightAt_eq y i l hall.1]

theorem sumWeights_full (ls : List (Layer ℝ)) (i : Nat) (l : Fin 4) (h : numPartial ls = 0) :
    sumWeights ls 0 = totalWeight ls i l := by
  rw [← (sum_active ls i l (fun _ => 0)).2.1]
  unfold sumWeights
  unfold numPartial at h
  have hall : ∀ y ∈ ls.filter Layer.active, y.active = true := fun y hy => (List.mem_filter.mp hy).2
  have hnp : ∀ y ∈ ls.filter Layer.active, y.isPartial = false := by
    intro y hy
    by_contra hc
    have : y ∈ (ls.filter Layer.active).filter Layer.isPartial := List.mem_filter.mpr ⟨hy, by simpa using hc⟩
    rw [List.length_eq_zero_iff.mp h] at this
    cases this
  generalize ls.filter Layer.active = ms at *
  have : ∀ x : ℝ, ms.foldl (fun a y => a + y.weight) x = x + (ms.map fun y => laneWeight y i l).sum := by
    induction ms with
    | nil => intro x; simp
    | cons y ys ih =>
      rw [List.forall_mem_cons] at hall hnp
      intro x
      have hw : laneWeight y i l = y.weight := by
        rw [← weightAt_eq y i l hall.1]; unfold Layer.weightAt; rw [hnp.1]; rfl
      rw [List.foldl_cons, ih (by
        have := hnp.2
        rw [List.length_eq_zero_iff, List.filter_eq_nil_iff]
        intro z hz; rw [this z hz]; simp) hall.2 hnp.2, List.map_cons, List.sum_cons, hw, add_assoc]
  rw [this, zero_add]

theorem laneWeight_nonneg (y : Layer ℝ) (i : Nat) (l : Fin 4) : 0 ≤ laneWeight y i l := by
  unfold laneWeight
  split
  · exact le_refl _
  · next h =>
    have hw : 0 ≤ y.weight := le_of_lt (not_le.mp h)
    split
    · simpa using hw
    · split
      · exact mul_nonneg hw (le_max_left _ _)
      · simp

theorem totalWeight_nonneg (ls : List (Layer ℝ)) (i : Nat) (l : Fin 4) : 0 ≤ totalWeight ls i l := by
  unfold totalWeight
  apply List.sum_nonneg
  intro x hx
  obtain ⟨y, -, rfl⟩ := List.mem_map.mp hx
  exact laneWeight_nonneg y i l

theorem unitOf_smul (k : ℝ) (hk : 0 < k) (q : F4 ℝ) : unitOf (k • q) = unitOf q := by
  have : norm2 (k • q) = k ^ 2 * norm2 q := by simp [norm2]; ring
  unfold unitOf
  rw [this, Real.sqrt_mul (by positivity), Real.sqrt_sq hk.le, smul_smul, mul_inv, mul_comm k⁻¹, mul_assoc,
    inv_mul_cancel₀ hk.ne', mul_one]

theorem normalize_lane (q : SoaQuat ℝ) (l : Fin 4) : q.normalize.lane l = unitOf (q.lane l) := by
  apply ext4 <;>
    simp [SoaQuat.normalize, SoaQuat.lane, unitOf, norm2, recip4, recip, sqrt4, mul_comm] <;>
    · left; ring_nf

theorem normalizeBy_lane (a : F4 ℝ) (o : SoaTransform ℝ) (l : Fin 4) :
    (normalizeBy (recip4 a) o).translation.lane l = (a l)⁻¹ • o.translation.lane l ∧
    (normalizeBy (recip4 a) o).rotation.lane l = unitOf (o.rotation.lane l) ∧
    (normalizeBy (recip4 a) o).scale.lane l = (a l)⁻¹ • o.scale.lane l := by
  refine ⟨?_, ?_, ?_⟩
  · simp only [normalizeBy, mulNum_lane, recip4, recip, real_one, one_div]
  · simp only [normalizeBy, normalize_lane]
  · simp only [normalizeBy, mulNum_lane, recip4, recip, real_one, one_div]

/-- No active layer: no weight at all. -/
theorem inactive_zero (ls : List (Layer ℝ)) (h : numActive ls = 0) (i : Nat) (l : Fin 4) (y : Layer ℝ) (hy : y ∈ ls) :
    laneWeight y i l = 0 := by
  apply laneWeight_inactive
  unfold numActive at h
  by_contra hc
  have : y ∈ ls.filter Layer.active := List.mem_filter.mpr ⟨hy, by simpa using hc⟩
  rw [List.length_eq_zero_iff.mp h] at this
  cases this

theorem total_inactive (ls : List (Layer ℝ)) (h : numActive ls = 0) (i : Nat) (l : Fin 4) : totalWeight ls i l = 0 := by
  rw [← (sum_active ls i l (fun _ => 0)).2.1]
  unfold numActive at h
  rw [List.length_eq_zero_iff.mp h]; rfl

/-- The blended transform of one lane. -/
theorem jointBlend_lane (threshold : ℝ) (hthr : 0 < threshold) (ls : List (Layer ℝ)) (r : SoaTransform ℝ) (i : Nat)
    (old : F4 ℝ × SoaTransform ℝ) (l : Fin 4) :
    (jointBlend threshold ls r i old).translation.lane l = average (contributions threshold ls r i l fun t => t.translation.lane l) ∧
    (jointBlend threshold ls r i old).rotation.lane l = unitOf (alignedSum (contributions threshold ls r i l fun t => t.rotation.lane l)) ∧
    (jointBlend threshold ls r i old).scale.lane l = average (contributions threshold ls r i l fun t => t.scale.lane l) := by
  have hT := totalWeight_nonneg ls i l
  have hsumc : ∀ f, ((contributions threshold ls r i l f).map fun c => c.1).sum = totalWeight ls i l + max 0 (threshold - totalWeight ls i l) := by
    intro f
    unfold contributions
    rw [List.map_append, List.sum_append, List.map_map]
    simp [totalWeight, Function.comp_def]
  have hvalc : ∀ f, ((contributions threshold ls r i l f).map fun c => c.1 • c.2).sum
      = (ls.map fun y => laneWeight y i l • f (poseOf y i)).sum + max 0 (threshold - totalWeight ls i l) • f r := by
    intro f
    unfold contributions
    rw [List.map_append, List.sum_append, List.map_map]
    simp [Function.comp_def]
  have hrot : ∀ f, alignedSum (contributions threshold ls r i l f)
      = addAligned (alignedSum (ls.map fun y => (laneWeight y i l, f (poseOf y i)))) (max 0 (threshold - totalWeight ls i l), f r) := by
    intro f
    unfold contributions alignedSum
    rw [List.foldl_append]; rfl
  unfold average
  rw [hsumc, hvalc, hrot, hsumc, hvalc]
  unfold jointBlend
  by_cases hn : numActive ls = 0
  · -- only the rest pose
    have hp : numPartial ls = 0 := by
      unfold numPartial; unfold numActive at hn; rw [List.length_eq_zero_iff.mp hn]; rfl
    have h0 := total_inactive ls hn i l
    have hz := inactive_zero ls hn i l
    have hs : sumWeights ls NumOps.zero = 0 := by
      rw [real_zero, sumWeights_full ls i l hp, h0]
    rw [real_zero] at hs
    have hsum : ∀ f : SoaTransform ℝ → F4 ℝ, (ls.map fun y => laneWeight y i l • f (poseOf y i)).sum = 0 := by
      intro f
      apply List.sum_eq_zero
      intro x hx
      obtain ⟨y, hy, rfl⟩ := List.mem_map.mp hx
      rw [hz y hy, zero_smul]
    have hal : ∀ f : SoaTransform ℝ → F4 ℝ, alignedSum (ls.map fun y => (laneWeight y i l, f (poseOf y i))) = 0 := by
      intro f
      rw [alignedSum, ← (sum_active ls i l (fun y => f (poseOf y i))).2.2]
      unfold numActive at hn; rw [List.length_eq_zero_iff.mp hn]; rfl
    rw [jointFold_inactive i ls hn, hsum (fun t => t.translation.lane l), hsum (fun t => t.scale.lane l),
      hal (fun t => t.rotation.lane l), h0]
    simp only [withRest, finalWeight, hp, hs, hn, if_true, sub_zero, real_lt, real_zero, hthr, decide_true]
    obtain ⟨e1, e2, e3⟩ := normalizeBy_lane (splat NumOps.one) r l
    rw [e1, e2, e3, addAligned_zero, max_eq_right hthr.le, unitOf_smul _ hthr]
    simp only [splat, real_one, inv_one, one_smul, zero_add, smul_smul, inv_mul_cancel₀ hthr.ne', and_self]
  · obtain ⟨a, o, h1, h2, h3, h4, h5⟩ := fold_none i l ls hn
    rw [h1]
    simp only [Option.getD_some]
    rw [← h3, ← h4, ← h5]
    by_cases hp : numPartial ls = 0
    · have hs : sumWeights ls NumOps.zero = totalWeight ls i l := by
        rw [real_zero, sumWeights_full ls i l hp]
      rw [real_zero] at hs
      simp only [withRest, finalWeight, hp, hs, hn, if_true, if_false, real_lt, real_zero, decide_eq_true_eq]
      by_cases hb : 0 < threshold - totalWeight ls i l
      · rw [if_pos hb, if_pos hb]
        obtain ⟨e1, e2, e3⟩ := normalizeBy_lane (splat threshold) (blendN r (splat (threshold - totalWeight ls i l)) o) l
        obtain ⟨f1, f2, f3⟩ := blendN_lane r (splat (threshold - totalWeight ls i l)) o l
        rw [e1, e2, e3, f1, f2, f3, max_eq_right hb.le]
        simp [splat]
      · rw [if_neg hb, if_neg hb]
        obtain ⟨e1, e2, e3⟩ := normalizeBy_lane (splat (totalWeight ls i l)) o l
        rw [e1, e2, e3, max_eq_left (not_lt.mp hb), addAligned_weightless]
        simp [splat]
    · simp only [withRest, finalWeight, hp, if_false]
      obtain ⟨e1, e2, e3⟩ := normalizeBy_lane (max4 (splat threshold) a) (blendN r (max4 (splat threshold - a) zero4) o) l
      obtain ⟨f1, f2, f3⟩ := blendN_lane r (max4 (splat threshold - a) zero4) o l
      rw [e1, e2, e3, f1, f2, f3]
      have hw : max4 (splat threshold - a) zero4 l = max 0 (threshold - totalWeight ls i l) := by
        simp only [max4, Pi.sub_apply, splat, zero4, real_max, real_zero, h2, max_comm]
      have hf : max4 (splat threshold) a l = totalWeight ls i l + max 0 (threshold - totalWeight ls i l) := by
        simp only [max4, splat, real_max, h2]
        rcases le_total threshold (totalWeight ls i l) with h | h
        · rw [max_eq_right h, max_eq_left (by linarith)]; ring
        · rw [max_eq_left h, max_eq_right (by linarith)]; ring
      rw [hw, hf]
      exact ⟨rfl, rfl, rfl⟩

end Ozz.Blending

namespace Ozz.Blending

/-! ### Layers without weight -/

theorem contributions_split (threshold : ℝ) (pre post : List (Layer ℝ)) (y : Layer ℝ) (r : SoaTransform ℝ) (i : Nat)
    (l : Fin 4) (f : SoaTransform ℝ → F4 ℝ) (h : laneWeight y i l = 0) :
    average (contributions threshold (pre ++ y :: post) r i l f) = average (contributions threshold (pre ++ post) r i l f) ∧
    alignedSum (contributions threshold (pre ++ y :: post) r i l f) = alignedSum (contributions threshold (pre ++ post) r i l f) := by
  have ht : totalWeight (pre ++ y :: post) i l = totalWeight (pre ++ post) i l := by
    simp [totalWeight, h]
  unfold average alignedSum contributions
  rw [ht]
  constructor
  · simp [h]
  · simp only [List.map_append, List.map_cons, List.foldl_append, List.foldl_cons, h, addAligned_weightless]

/-! ### Signs of rotations -/

theorem dot4_neg_right (a b : F4 ℝ) : dot4 a (-b) = -dot4 a b := by simp [dot4]; ring
theorem dot4_neg_left (a b : F4 ℝ) : dot4 (-a) b = -dot4 a b := by simp [dot4]; ring

theorem addAligned_neg (acc : F4 ℝ) (w : ℝ) (q : F4 ℝ) (h : dot4 acc q ≠ 0) :
    addAligned acc (w, -q) = addAligned acc (w, q) := by
  unfold addAligned
  simp only [dot4_neg_right]
  rcases lt_or_gt_of_ne h with h1 | h1
  · rw [if_neg (by linarith), if_pos h1]
  · rw [if_pos (by linarith), if_neg (by linarith), neg_neg]

theorem addAligned_neg_both (acc : F4 ℝ) (w : ℝ) (q : F4 ℝ) :
    addAligned (-acc) (w, -q) = -addAligned acc (w, q) := by
  unfold addAligned
  simp only [dot4_neg_right, dot4_neg_left, neg_neg]
  split
  · rw [smul_neg, neg_add, neg_neg]
  · rw [smul_neg, neg_add]

theorem foldl_neg (cs : List (ℝ × F4 ℝ)) (acc : F4 ℝ) :
    (cs.map fun c => (c.1, -c.2)).foldl addAligned (-acc) = -(cs.foldl addAligned acc) := by
  induction cs generalizing acc with
  | nil => rfl
  | cons c cs ih => rw [List.map_cons, List.foldl_cons, List.foldl_cons, addAligned_neg_both, ih]

theorem unitOf_neg (q : F4 ℝ) : unitOf (-q) = -unitOf q := by
  unfold unitOf
  have : norm2 (-q) = norm2 q := by simp [norm2]
  rw [this, smul_neg]

theorem norm2_unitOf (q : F4 ℝ) (h : q ≠ 0) : norm2 (unitOf q) = 1 := by
  have hpos : 0 < norm2 q := by
    have h0 : 0 ≤ norm2 q := by unfold norm2; positivity
    rcases h0.lt_or_eq with h1 | h1
    · exact h1
    · exfalso; apply h
      unfold norm2 at h1
      have z0 := sq_nonneg (q 0); have z1 := sq_nonneg (q 1)
      have z2 := sq_nonneg (q 2); have z3 := sq_nonneg (q 3)
      apply ext4
      · exact pow_eq_zero_iff (n := 2) (by norm_num) |>.mp (by linarith)
      · exact pow_eq_zero_iff (n := 2) (by norm_num) |>.mp (by linarith)
      · exact pow_eq_zero_iff (n := 2) (by norm_num) |>.mp (by linarith)
      · exact pow_eq_zero_iff (n := 2) (by norm_num) |>.mp (by linarith)
  have e : norm2 (unitOf q) = ((√(norm2 q))⁻¹) ^ 2 * norm2 q := by
    have : ∀ k : ℝ, norm2 (k • q) = k ^ 2 * norm2 q := by intro k; simp [norm2]; ring
    exact this _
  rw [e, inv_pow, Real.sq_sqrt hpos.le, inv_mul_cancel₀ hpos.ne']

/-! ### Additive layers -/

theorem mul_conj (o n : SoaQuat ℝ) (h : ∀ l, norm2 (n.lane l) = 1) : (o.mul n).mul n.conjugate = o := by
  have h' : ∀ l, n.x l ^ 2 + n.y l ^ 2 + n.z l ^ 2 + n.w l ^ 2 = 1 := h
  obtain ⟨ox, oy, oz, ow⟩ := o
  unfold SoaQuat.mul SoaQuat.conjugate
  congr 1 <;> funext l <;> simp only [Pi.add_apply, Pi.sub_apply, Pi.mul_apply, Pi.neg_apply]
  · linear_combination (ox l) * h' l
  · linear_combination (oy l) * h' l
  · linear_combination (oz l) * h' l
  · linear_combination (ow l) * h' l

theorem conj_mul (o n : SoaQuat ℝ) (h : ∀ l, norm2 (n.lane l) = 1) : (o.mul n.conjugate).mul n = o := by
  have h' : ∀ l, n.x l ^ 2 + n.y l ^ 2 + n.z l ^ 2 + n.w l ^ 2 = 1 := h
  obtain ⟨ox, oy, oz, ow⟩ := o
  unfold SoaQuat.mul SoaQuat.conjugate
  congr 1 <;> funext l <;> simp only [Pi.add_apply, Pi.sub_apply, Pi.mul_apply, Pi.neg_apply]
  · linear_combination (ox l) * h' l
  · linear_combination (oy l) * h' l
  · linear_combination (oz l) * h' l
  · linear_combination (ow l) * h' l

/-- The interpolated rotation of an additive layer is not zero when its rotation is unit. -/
theorem interpQuat_ne (q : SoaQuat ℝ) (w : F4 ℝ) (l : Fin 4) (h : norm2 (q.lane l) = 1) :
    (interpQuat q w).lane l ≠ 0 := by
  intro hz
  have hp : ∃ x y z v : ℝ, 0 ≤ v ∧ x ^ 2 + y ^ 2 + z ^ 2 + v ^ 2 = 1 ∧ q.positiveW.lane l = f4 x y z v := by
    have h' : q.x l ^ 2 + q.y l ^ 2 + q.z l ^ 2 + q.w l ^ 2 = 1 := h
    unfold SoaQuat.positiveW
    rw [xorNum_lane]
    by_cases hs : sign4 q.w l = true
    · rw [if_pos hs]
      have : q.w l < 0 := by simpa [sign4] using hs
      refine ⟨-q.x l, -q.y l, -q.z l, -q.w l, by linarith, by linarith, ?_⟩
      apply ext4 <;> rfl
    · rw [if_neg hs]
      have : 0 ≤ q.w l := by simpa [sign4] using hs
      exact ⟨q.x l, q.y l, q.z l, q.w l, this, h', rfl⟩
  obtain ⟨x, y, z, v, hv, hn, he⟩ := hp
  have e0 : q.positiveW.x l = x := congrFun he 0
  have e1 : q.positiveW.y l = y := congrFun he 1
  have e2 : q.positiveW.z l = z := congrFun he 2
  have e3 : q.positiveW.w l = v := congrFun he 3
  have z0 : x * w l = 0 := by rw [← e0]; exact congrFun hz 0
  have z1 : y * w l = 0 := by rw [← e1]; exact congrFun hz 1
  have z2 : z * w l = 0 := by rw [← e2]; exact congrFun hz 2
  have z3 : (v - 1) * w l + 1 = 0 := by rw [← e3]; exact congrFun hz 3
  have hw : w l ≠ 0 := by rintro h0; rw [h0] at z3; norm_num at z3
  have x0 : x = 0 := by rcases mul_eq_zero.mp z0 with h | h; exacts [h, absurd h hw]
  have y0 : y = 0 := by rcases mul_eq_zero.mp z1 with h | h; exacts [h, absurd h hw]
  have z0' : z = 0 := by rcases mul_eq_zero.mp z2 with h | h; exacts [h, absurd h hw]
  rw [x0, y0, z0'] at hn
  have : v = 1 := by nlinarith
  rw [this] at z3
  norm_num at z3

theorem scale_cancel (s f : ℝ) (h : f ≠ 0) : s * f * (1 / f) = s := by field_simp
theorem scale_cancel' (s f : ℝ) (h : f ≠ 0) : s * (1 / f) * f = s := by field_simp

theorem blendSub_blendAdd (t : SoaTransform ℝ) (w : F4 ℝ) (o : SoaTransform ℝ)
    (hq : ∀ l, norm2 (t.rotation.lane l) = 1)
    (hs : ∀ l, 1 - w l + t.scale.x l * w l ≠ 0 ∧ 1 - w l + t.scale.y l * w l ≠ 0 ∧ 1 - w l + t.scale.z l * w l ≠ 0) :
    blendSub t w (one4 - w) (blendAdd t w (one4 - w) o) = o ∧
    blendAdd t w (one4 - w) (blendSub t w (one4 - w) o) = o := by
  have hn : ∀ l, norm2 ((interpQuat t.rotation w).normalize.lane l) = 1 := by
    intro l; rw [normalize_lane]; exact norm2_unitOf _ (interpQuat_ne _ _ _ (hq l))
  obtain ⟨⟨tx, ty, tz⟩, r, ⟨sx, sy, sz⟩⟩ := o
  constructor
  · unfold blendSub blendAdd
    simp only [mul_conj _ _ hn]
    congr 1
    · simp only [SoaVec3.add, SoaVec3.sub, SoaVec3.mulNum]
      congr 1 <;> funext l <;> simp
    · congr 1 <;> funext l <;> simp only [Pi.mul_apply, Pi.add_apply, Pi.sub_apply, recip4, recip, one4, splat, real_one]
      · have := (hs l).1; rw [show t.scale.x l * w l + (1 - w l) = 1 - w l + t.scale.x l * w l by ring]; exact scale_cancel _ _ this
      · have := (hs l).2.1; rw [show t.scale.y l * w l + (1 - w l) = 1 - w l + t.scale.y l * w l by ring]; exact scale_cancel _ _ this
      · have := (hs l).2.2; rw [show t.scale.z l * w l + (1 - w l) = 1 - w l + t.scale.z l * w l by ring]; exact scale_cancel _ _ this
  · unfold blendSub blendAdd
    simp only [conj_mul _ _ hn]
    congr 1
    · simp only [SoaVec3.add, SoaVec3.sub, SoaVec3.mulNum]
      congr 1 <;> funext l <;> simp
    · congr 1 <;> funext l <;> simp only [Pi.mul_apply, Pi.add_apply, Pi.sub_apply, recip4, recip, one4, splat, real_one]
      · have := (hs l).1; rw [show t.scale.x l * w l + (1 - w l) = 1 - w l + t.scale.x l * w l by ring]; exact scale_cancel' _ _ this
      · have := (hs l).2.1; rw [show t.scale.y l * w l + (1 - w l) = 1 - w l + t.scale.y l * w l by ring]; exact scale_cancel' _ _ this
      · have := (hs l).2.2; rw [show t.scale.z l * w l + (1 - w l) = 1 - w l + t.scale.z l * w l by ring]; exact scale_cancel' _ _ this

end Ozz.Blending
