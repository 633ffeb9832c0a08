import Verif.Proofs.BlendingExact
import Verif.Proofs.Float

/-!
Property theorems about the blending job: C31 (weighted average), C32 (layers without weight), C33
(rotations), C34 (additive layers), C35 (valid jobs run), C36 (invalid jobs), C57 (no memory).
Theorems over `α` hold for every arithmetic, in particular for `f32`; theorems over ℝ are about exact
arithmetic.
-/

namespace Ozz.Props

open Ozz Blending

/-! ### C31, C33 -/

/-- The blended pose of a job run, for one SoA joint. -/
theorem blended {α : Type} [Add α] [Sub α] [Mul α] [Div α] [Neg α] [NumOps α]
    {j : Job α} {rest : List (SoaTransform α)} {c : Context α} {out : List (SoaTransform α)} {s' : State α}
    (hs : j.skeleton = some rest) (hrun : run j ⟨some c, some (.ok out)⟩ = .ok s') :
    ∃ c' out', s' = ⟨some c', some (.ok out')⟩ ∧ out'.length = out.length ∧
      (∀ i r, rest[i]? = some r → ∃ old, out'[i]? = some (jointRun j r i old)) ∧
      (∀ i, rest.length ≤ i → out'[i]? = out[i]?) := by
  have hv := run_ok_validate _ _ _ hrun
  obtain ⟨rest', c', out', h1, h2, h3, h4, h5, h6, h7⟩ := (validate_iff _ _).mp hv
  rw [hs] at h1; cases h1; cases h2; cases h3
  by_cases hc : numActive j.layers ≠ 0 ∨ out.length = rest.length ∨
      NumOps.lt NumOps.zero (j.threshold - sumWeights j.layers NumOps.zero) = false
  · obtain ⟨c', out', k1, k2, k3, k4⟩ := run_ok j rest c out hv hs hc
    rw [k1] at hrun
    cases hrun
    refine ⟨c', out', rfl, k2, ?_, k4⟩
    intro i r hr
    have hi := (List.getElem?_eq_some_iff.mp hr).1
    obtain ⟨a, ha⟩ := resetContext_get rest.length c i hi
    exact ⟨_, k3 i a _ r hr ha (List.getElem?_eq_getElem (by omega))⟩
  · exfalso
    push Not at hc
    obtain ⟨h8, h9, h10⟩ := hc
    exact absurd hrun (by rw [run_panic j rest c out hs h4 h5 h6 h8 h9 (by simpa using h10)]; simp)

/-- C31: without additive layers, the translation and scale of every joint are the weighted averages of
the layers and of the rest pose, which fills up to the threshold. -/
theorem C31_weighted_average (j : Job ℝ) (rest : List (SoaTransform ℝ)) (c : Context ℝ) (out : List (SoaTransform ℝ))
    (s' : State ℝ) (hs : j.skeleton = some rest) (hadd : j.additiveLayers = [])
    (hrun : run j ⟨some c, some (.ok out)⟩ = .ok s') :
    ∃ c' out', s' = ⟨some c', some (.ok out')⟩ ∧ ∀ i r, rest[i]? = some r → ∃ o, out'[i]? = some o ∧ ∀ l,
      o.translation.lane l = average (contributions j.threshold j.layers r i l fun t => t.translation.lane l) ∧
      o.scale.lane l = average (contributions j.threshold j.layers r i l fun t => t.scale.lane l) := by
  have hv := run_ok_validate _ _ _ hrun
  obtain ⟨rest', c', out', h1, h2, h3, h4, -⟩ := (validate_iff _ _).mp hv
  have hthr : 0 < j.threshold := by simpa using h4
  obtain ⟨c', out', rfl, -, h5, -⟩ := blended hs hrun
  refine ⟨c', out', rfl, fun i r hr => ?_⟩
  obtain ⟨old, ho⟩ := h5 i r hr
  refine ⟨_, ho, fun l => ?_⟩
  obtain ⟨e1, -, e3⟩ := jointBlend_lane j.threshold hthr j.layers r i old l
  simp only [jointRun, hadd, List.foldl_nil]
  exact ⟨e1, e3⟩

/-- C31: the weights add up to the larger of the layers' total and the threshold, which is positive. -/
theorem C31_total (threshold : ℝ) (ls : List (Layer ℝ)) (r : SoaTransform ℝ) (i : Nat) (l : Fin 4)
    (f : SoaTransform ℝ → F4 ℝ) :
    ((contributions threshold ls r i l f).map fun c => c.1).sum = max threshold (totalWeight ls i l) := by
  unfold contributions
  rw [List.map_append, List.sum_append, List.map_map]
  have : (List.map ((fun c => c.1) ∘ fun y => (laneWeight y i l, f (poseOf y i))) ls).sum = totalWeight ls i l := rfl
  rw [this]
  simp only [List.map_cons, List.map_nil, List.sum_cons, List.sum_nil, add_zero]
  rcases le_total threshold (totalWeight ls i l) with h | h
  · rw [max_eq_right h, max_eq_left (by linarith)]; ring
  · rw [max_eq_left h, max_eq_right (by linarith)]; ring

/-- C33: without additive layers the rotation of every joint is the unit quaternion along the aligned
sum of the layers' rotations and the rest rotation; it is unit whenever that sum is not zero. -/
theorem C33_unit (j : Job ℝ) (rest : List (SoaTransform ℝ)) (c : Context ℝ) (out : List (SoaTransform ℝ))
    (s' : State ℝ) (hs : j.skeleton = some rest) (hadd : j.additiveLayers = [])
    (hrun : run j ⟨some c, some (.ok out)⟩ = .ok s') :
    ∃ c' out', s' = ⟨some c', some (.ok out')⟩ ∧ ∀ i r, rest[i]? = some r → ∃ o, out'[i]? = some o ∧ ∀ l,
      o.rotation.lane l = unitOf (alignedSum (contributions j.threshold j.layers r i l fun t => t.rotation.lane l)) ∧
      (alignedSum (contributions j.threshold j.layers r i l fun t => t.rotation.lane l) ≠ 0 →
        Quaternion.normSq (toQuat (o.rotation.lane l)) = 1) := by
  have hv := run_ok_validate _ _ _ hrun
  obtain ⟨rest', c', out', h1, h2, h3, h4, -⟩ := (validate_iff _ _).mp hv
  have hthr : 0 < j.threshold := by simpa using h4
  obtain ⟨c', out', rfl, -, h5, -⟩ := blended hs hrun
  refine ⟨c', out', rfl, fun i r hr => ?_⟩
  obtain ⟨old, ho⟩ := h5 i r hr
  refine ⟨_, ho, fun l => ?_⟩
  obtain ⟨-, e2, -⟩ := jointBlend_lane j.threshold hthr j.layers r i old l
  simp only [jointRun, hadd, List.foldl_nil]
  refine ⟨e2, fun hne => ?_⟩
  rw [e2, norm2_toQuat]
  exact norm2_unitOf _ hne

/-- C33: changing the sign of a contribution that is not orthogonal to the sum before it changes
nothing. Missing: orthogonal ones (see `C33_orthogonal_layer`). -/
theorem C33_sign_partial (pre post : List (ℝ × F4 ℝ)) (w : ℝ) (q : F4 ℝ) (h : dot4 (alignedSum pre) q ≠ 0) :
    alignedSum (pre ++ (w, -q) :: post) = alignedSum (pre ++ (w, q) :: post) := by
  unfold alignedSum at h ⊢
  rw [List.foldl_append, List.foldl_append, List.foldl_cons, List.foldl_cons, addAligned_neg _ _ _ h]

/-- C33 is false for a rotation orthogonal to the sum before it: its sign changes the result. -/
theorem C33_orthogonal_layer : ∃ p q : F4 ℝ, norm2 p = 1 ∧ norm2 q = 1 ∧
    unitOf (alignedSum [(1, p), (1, -q)]) ≠ unitOf (alignedSum [(1, p), (1, q)]) ∧
    unitOf (alignedSum [(1, p), (1, -q)]) ≠ -unitOf (alignedSum [(1, p), (1, q)]) := by
  refine ⟨f4 0 0 0 1, f4 1 0 0 0, by norm_num [norm2], by norm_num [norm2], ?_⟩
  have h1 : alignedSum [(1, f4 0 0 0 1), (1, f4 1 0 0 0)] = f4 1 0 0 1 := by
    unfold alignedSum
    apply ext4 <;> norm_num [List.foldl, addAligned, dot4]
  have h2 : alignedSum [(1, f4 0 0 0 1), (1, -f4 1 0 0 0)] = f4 (-1) 0 0 1 := by
    unfold alignedSum
    apply ext4 <;> norm_num [List.foldl, addAligned, dot4]
  have hs : (√2 : ℝ)⁻¹ ≠ 0 := by positivity
  rw [h1, h2]
  have n1 : norm2 (f4 1 0 0 1) = 2 := by norm_num [norm2]
  have n2 : norm2 (f4 (-1) 0 0 1) = 2 := by norm_num [norm2]
  unfold unitOf
  rw [n1, n2]
  refine ⟨fun h => hs ?_, fun h => hs ?_⟩
  · have := congrFun h 0
    simp at this
    linarith
  · have := congrFun h 3
    simp at this
    linarith

/-- C33: changing the sign of every layer changes the sign of the sum of the layers, hence of the result
when the rest pose does not contribute or is not orthogonal to the sum of the layers. -/
theorem C33_all_signs (cs : List (ℝ × F4 ℝ)) (w : ℝ) (q : F4 ℝ) (h : w = 0 ∨ dot4 (alignedSum cs) q ≠ 0) :
    alignedSum (cs.map fun c => (c.1, -c.2)) = -alignedSum cs ∧
    unitOf (alignedSum ((cs.map fun c => (c.1, -c.2)) ++ [(w, q)])) = -unitOf (alignedSum (cs ++ [(w, q)])) := by
  have h1 : alignedSum (cs.map fun c => (c.1, -c.2)) = -alignedSum cs := by
    have := foldl_neg cs 0
    rwa [neg_zero] at this
  refine ⟨h1, ?_⟩
  rw [← unitOf_neg]
  congr 1
  unfold alignedSum at *
  rw [List.foldl_append, List.foldl_append, h1]
  simp only [List.foldl_cons, List.foldl_nil]
  rcases h with rfl | h
  · rw [addAligned_weightless, addAligned_weightless]
  · rw [← addAligned_neg_both, addAligned_neg]
    rw [dot4_neg_left]; simpa using h

/-! ### C32 -/

/-- C32: a readable layer whose weight is not positive can be removed without changing anything in the
outcome of the run, whatever the arithmetic. -/
theorem C32_layer_removed {α : Type} [Add α] [Sub α] [Mul α] [Div α] [Neg α] [NumOps α]
    (j : Job α) (pre post : List (Layer α)) (z : Layer α) (s : State α)
    (hz : NumOps.le z.weight NumOps.zero = true) (hok : ∀ rest, j.skeleton = some rest → z.Ok rest.length) :
    run { j with layers := pre ++ z :: post } s = run { j with layers := pre ++ post } s := by
  have key : ∀ (n : Nat), z.Ok n → ∀ (pre : List (Layer α)) (c : Context α) (out : List (SoaTransform α)),
      blendLayers n (pre ++ z :: post) c out = blendLayers n (pre ++ post) c out := by
    intro n hn pre
    induction pre with
    | nil =>
      intro c out
      obtain ⟨t, ht⟩ := hn
      simp only [List.nil_append, blendLayers, ht, hz, if_true]
    | cons y ys ih =>
      intro c out
      simp only [List.cons_append, blendLayers, ih]
  unfold run
  cases hs : j.skeleton with
  | none => rfl
  | some rest =>
    cases hc : s.context with
    | none => rfl
    | some c =>
      cases ho : s.output with
      | none => rfl
      | some b =>
        cases b with
        | error e => rfl
        | ok out =>
          simp only [runBody, key rest.length (hok rest hs)]

/-- C32: in exact arithmetic a layer without weight for a joint (its weight or its joint weight is zero
or negative) does not change that joint: both runs give the same blended transform there. -/
theorem C32_joint (j : Job ℝ) (pre post : List (Layer ℝ)) (y : Layer ℝ) (rest : List (SoaTransform ℝ))
    (c c' : Context ℝ) (out out' : List (SoaTransform ℝ)) (s s' : State ℝ) (hs : j.skeleton = some rest)
    (hadd : j.additiveLayers = [])
    (h : run { j with layers := pre ++ y :: post } ⟨some c, some (.ok out)⟩ = .ok s)
    (h' : run { j with layers := pre ++ post } ⟨some c', some (.ok out')⟩ = .ok s')
    (i : Nat) (l : Fin 4) (hi : i < rest.length) (hw : laneWeight y i l = 0) :
    ∃ c1 o1 c2 o2 x x', s = ⟨some c1, some (.ok o1)⟩ ∧ s' = ⟨some c2, some (.ok o2)⟩ ∧
      o1[i]? = some x ∧ o2[i]? = some x' ∧ x.translation.lane l = x'.translation.lane l ∧
      x.rotation.lane l = x'.rotation.lane l ∧ x.scale.lane l = x'.scale.lane l := by
  have hr : rest[i]? = some rest[i] := List.getElem?_eq_getElem hi
  have hv := run_ok_validate _ _ _ h
  obtain ⟨_, _, _, -, -, -, h4, -⟩ := (validate_iff _ _).mp hv
  have hthr : 0 < j.threshold := by simpa using h4
  obtain ⟨c1, o1, rfl, -, e1, -⟩ := blended (j := { j with layers := pre ++ y :: post }) hs h
  obtain ⟨c2, o2, rfl, -, e2, -⟩ := blended (j := { j with layers := pre ++ post }) hs h'
  obtain ⟨old1, f1⟩ := e1 i _ hr
  obtain ⟨old2, f2⟩ := e2 i _ hr
  refine ⟨c1, o1, c2, o2, _, _, rfl, rfl, f1, f2, ?_⟩
  simp only [jointRun, hadd, List.foldl_nil]
  obtain ⟨a1, a2, a3⟩ := jointBlend_lane j.threshold hthr (pre ++ y :: post) rest[i] i old1 l
  obtain ⟨b1, b2, b3⟩ := jointBlend_lane j.threshold hthr (pre ++ post) rest[i] i old2 l
  rw [a1, a2, a3, b1, b2, b3]
  exact ⟨(contributions_split _ _ _ _ _ _ _ _ hw).1, by rw [(contributions_split _ _ _ _ _ _ _ _ hw).2],
    (contributions_split _ _ _ _ _ _ _ _ hw).1⟩

/-- C32: when a layer has no weight for a joint. -/
theorem C32_weightless (y : Layer ℝ) (i : Nat) (l : Fin 4) : laneWeight y i l = 0 ↔
    y.weight ≤ 0 ∨ (y.jointWeights ≠ [] ∧ ∀ w, y.jointWeights[i]? = some w → w l ≤ 0) := by
  unfold laneWeight
  by_cases h : y.weight ≤ 0
  · simp [h]
  · rw [if_neg h]
    have hw : y.weight ≠ 0 := by intro h0; exact h h0.le
    simp only [h, false_or, mul_eq_zero, hw]
    cases hj : y.jointWeights with
    | nil => simp
    | cons a as =>
      cases hi : (a :: as)[i]? with
      | none => simp
      | some w => simp

/-! ### C34 -/

/-- C34: adding an additive layer and then the same layer with the opposite weight leaves every joint as
without them, if the layer's rotations are unit and no scale factor is zero. -/
theorem C34_subtract_undoes_add (j : Job ℝ) (y : Layer ℝ) (rest : List (SoaTransform ℝ)) (c : Context ℝ)
    (out : List (SoaTransform ℝ)) (hs : j.skeleton = some rest) (hy : y.Ok rest.length)
    (hq : ∀ i < rest.length, ∀ l, Quaternion.normSq (toQuat ((poseOf y i).rotation.lane l)) = 1)
    (hsc : ∀ i < rest.length, ∀ l, ∀ w : ℝ, w = laneWeight { y with weight := |y.weight| } i l →
      1 - w + (poseOf y i).scale.x l * w ≠ 0 ∧ 1 - w + (poseOf y i).scale.y l * w ≠ 0 ∧
      1 - w + (poseOf y i).scale.z l * w ≠ 0) (s' : State ℝ) :
    run { j with additiveLayers := j.additiveLayers ++ [y, { y with weight := -y.weight }] } ⟨some c, some (.ok out)⟩ = .ok s' ↔
    run j ⟨some c, some (.ok out)⟩ = .ok s' := by
  have hy' : ({ y with weight := -y.weight } : Layer ℝ).Ok rest.length := by
    rw [Layer.ok_iff] at hy ⊢; exact hy
  have hstep : ∀ (i : Nat) (o : SoaTransform ℝ), i < rest.length →
      additiveStep i (additiveStep i o y) { y with weight := -y.weight } = o := by
    intro i o hi
    rcases lt_trichotomy y.weight 0 with h0 | h0 | h0
    · have e1 : NumOps.lt (NumOps.zero : ℝ) y.weight = false := by simp; linarith
      have e2 : NumOps.lt y.weight (NumOps.zero : ℝ) = true := by simpa using h0
      have e3 : NumOps.lt (NumOps.zero : ℝ) (-y.weight) = true := by simpa using h0
      have hw := weightAt_eq { y with weight := |y.weight| } i
      have hw' : ∀ l, ({ y with weight := |y.weight| } : Layer ℝ).weightAt i l = laneWeight { y with weight := |y.weight| } i l :=
        fun l => hw l (by rw [active_iff]; exact abs_pos.mpr h0.ne)
      rw [abs_of_neg h0] at hw'
      unfold additiveStep
      simp only [e1, e2, e3, if_true, Bool.false_eq_true, if_false]
      refine (blendSub_blendAdd _ _ o ?_ ?_).2
      · intro l; rw [← norm2_toQuat, poseAt_eq]; exact hq i hi l
      · intro l
        rw [poseAt_eq]
        refine hsc i hi l _ ?_
        rw [abs_of_neg h0, ← hw' l]
        rfl
    · have e1 : NumOps.lt (NumOps.zero : ℝ) y.weight = false := by simp [h0]
      have e2 : NumOps.lt y.weight (NumOps.zero : ℝ) = false := by simp [h0]
      have e3 : NumOps.lt (NumOps.zero : ℝ) (-y.weight) = false := by simp [h0]
      have e4 : NumOps.lt (-y.weight) (NumOps.zero : ℝ) = false := by simp [h0]
      unfold additiveStep
      simp only [e1, e2, e3, e4, Bool.false_eq_true, if_false]
    · have e1 : NumOps.lt (NumOps.zero : ℝ) y.weight = true := by simpa using h0
      have e3 : NumOps.lt (NumOps.zero : ℝ) (-y.weight) = false := by simp; linarith
      have e4 : NumOps.lt (-y.weight) (NumOps.zero : ℝ) = true := by simpa using h0
      have hw' : ∀ l, y.weightAt i l = laneWeight y i l :=
        fun l => weightAt_eq y i l (by rw [active_iff]; exact h0)
      have hpose : ({ y with weight := -y.weight } : Layer ℝ).poseAt i = y.poseAt i := rfl
      unfold additiveStep
      simp only [e1, e3, e4, if_true, Bool.false_eq_true, if_false, neg_neg, hpose]
      refine (blendSub_blendAdd _ _ o ?_ ?_).1
      · intro l; rw [← norm2_toQuat, poseAt_eq]; exact hq i hi l
      · intro l
        rw [poseAt_eq]
        refine hsc i hi l _ ?_
        have : ({ y with weight := |y.weight| } : Layer ℝ) = y := by rw [abs_of_pos h0]
        rw [this, ← hw' l]
        rfl
  -- the additive phase of both runs
  have hadd : ∀ z, rest.length ≤ z.length →
      addLayers rest.length (j.additiveLayers ++ [y, { y with weight := -y.weight }]) z = addLayers rest.length j.additiveLayers z := by
    intro z hz
    rw [addLayers_append]
    cases hz' : addLayers rest.length j.additiveLayers z with
    | panic => rfl
    | err e o => rfl
    | ok o =>
      have hl := addLayers_length _ _ _ hz' hz
      obtain ⟨o', k1, k2, k3, k4⟩ := addLayers_ok rest.length [y, { y with weight := -y.weight }] o
        (by
          intro l hl
          simp only [List.mem_cons, List.not_mem_nil, or_false] at hl
          rcases hl with rfl | rfl
          · exact hy
          · exact hy') (by omega)
      have : o' = o := by
        apply List.ext_getElem? 
        intro i
        rcases Nat.lt_or_ge i rest.length with hi | hi
        · have ho : o[i]? = some o[i] := List.getElem?_eq_getElem (by omega)
          rw [k3 i _ hi ho, ho]
          simp only [List.foldl_cons, List.foldl_nil, hstep i _ hi]
        · exact k4 i hi
      rw [← this] at k1 ⊢
      exact k1
  have : run { j with additiveLayers := j.additiveLayers ++ [y, { y with weight := -y.weight }] } ⟨some c, some (.ok out)⟩
      = run j ⟨some c, some (.ok out)⟩ := by
    unfold run
    simp only [hs]
    by_cases hv : (NumOps.lt NumOps.zero j.threshold && decide (rest.length ≤ out.length)) = true
    · rw [if_pos hv, if_pos hv]
      have hlen : rest.length ≤ out.length := by
        rw [Bool.and_eq_true, decide_eq_true_eq] at hv; exact hv.2
      unfold runBody
      simp only
      cases hb : blendLayers rest.length j.layers (resetContext rest.length c) out with
      | panic => rfl
      | err e x => rfl
      | ok x =>
        obtain ⟨x1, x2⟩ := x
        have l1 := blendLayers_length _ _ _ _ hb (resetContext_length _ _) hlen
        simp only
        cases hr : blendRestPose rest j.threshold x1 x2 with
        | error e => rfl
        | ok y =>
          obtain ⟨y1, y2⟩ := y
          have l2 := blendRestPose_length _ _ _ _ hr
          simp only
          cases hn : normalize rest y1 y2 with
          | error e => rfl
          | ok z =>
            have l3 := normalize_length _ _ _ hn
            simp only
            rw [hadd z (by omega)]
    · rw [if_neg hv, if_neg hv]
  rw [this]

/-! ### C35, C36, C57 -/

section
variable {α : Type} [Add α] [Sub α] [Mul α] [Div α] [Neg α] [NumOps α]

/-- C35: a valid job runs and changes nothing past the joints of the skeleton, if the output is exactly
as long as the rest pose or some layer has positive weight.
Missing: longer outputs without such a layer (see `C35_longer_output_panics`). -/
theorem C35_valid_runs_partial (j : Job α) (rest : List (SoaTransform α)) (c : Context α)
    (out : List (SoaTransform α)) (hv : validate j ⟨some c, some (.ok out)⟩ = true) (hs : j.skeleton = some rest)
    (hc : (∃ y ∈ j.layers, NumOps.le y.weight NumOps.zero = false) ∨ out.length = rest.length) :
    ∃ c' out', run j ⟨some c, some (.ok out)⟩ = .ok ⟨some c', some (.ok out')⟩ ∧ out'.length = out.length ∧
      ∀ i, rest.length ≤ i → out'[i]? = out[i]? := by
  obtain ⟨c', out', h1, h2, -, h4⟩ := run_ok j rest c out hv hs (by
    rcases hc with ⟨y, hy, hw⟩ | h
    · left
      unfold numActive
      rw [Ne, List.length_eq_zero_iff, List.filter_eq_nil_iff]
      intro h
      exact h y hy (by simp [Layer.active, hw])
    · exact .inr (.inl h))
  exact ⟨c', out', h1, h2, h4⟩

/-- C35 is false: without a layer of positive weight the rest pose is copied with `copy_from_slice`,
which panics if the output is longer. The additive layers do not matter: with an invalid one the run
panics too, where C36 asks for an error. -/
theorem C35_longer_output_panics (j : Job α) (rest : List (SoaTransform α)) (c : Context α)
    (out : List (SoaTransform α)) (hpos : NumOps.lt NumOps.zero j.threshold = true)
    (hok : ∀ y ∈ j.layers, y.Ok rest.length) (hs : j.skeleton = some rest)
    (hl : rest.length < out.length) (hw : ∀ y ∈ j.layers, NumOps.le y.weight NumOps.zero = true)
    (ht : NumOps.lt NumOps.zero (j.threshold - NumOps.zero) = true) :
    run j ⟨some c, some (.ok out)⟩ = .panic := by
  have hn : j.layers.filter Layer.active = [] := by
    rw [List.filter_eq_nil_iff]
    intro y hy
    simp [Layer.active, hw y hy]
  refine run_panic j rest c out hs hpos (by omega) hok ?_ (by omega) ?_
  · unfold numActive; rw [hn]; rfl
  · unfold sumWeights; rw [hn]; exact ht

/-- C36: a run whose job is invalid does not succeed.
Missing: that it fails with an error and leaves the output unchanged (see the next three theorems). -/
theorem C36_rejected_partial (j : Job α) (s : State α) (h : validate j s = false) : ∀ s', run j s ≠ .ok s' := by
  intro s' hr
  rw [run_ok_validate j s s' hr] at h
  cases h

/-- C36: without skeleton, context or output, with an unreadable or short output or with a threshold that
is not positive, the run fails and nothing is changed. -/
theorem C36_early_errors (j : Job α) (s : State α)
    (h : j.skeleton = none ∨ s.context = none ∨ s.output = none ∨ (∃ e, s.output = some (.error e)) ∨
      NumOps.lt NumOps.zero j.threshold = false ∨
      ∃ rest out, j.skeleton = some rest ∧ s.output = some (.ok out) ∧ out.length < rest.length) :
    ∃ e, run j s = .err e s := by
  unfold run
  cases hs : j.skeleton with
  | none => exact ⟨_, rfl⟩
  | some rest =>
    cases hc : s.context with
    | none => exact ⟨_, rfl⟩
    | some c =>
      cases ho : s.output with
      | none => exact ⟨_, rfl⟩
      | some b =>
        cases b with
        | error e => exact ⟨_, rfl⟩
        | ok out =>
          simp only [hs, hc, ho] at h
          simp only
          rw [if_neg]
          · exact ⟨_, rfl⟩
          · rw [Bool.and_eq_true, decide_eq_true_eq]
            rintro ⟨h1, h2⟩
            rcases h with h | h | h | ⟨e, h⟩ | h | ⟨r, o, h3, h4, h5⟩
            · cases h
            · cases h
            · cases h
            · cases h
            · rw [h1] at h; cases h
            · cases h3; cases h4; omega

/-- C36 is false: layers are checked one after the other, so an unreadable second layer is found when the
first one has been written to the output. -/
theorem C36_output_changed (j : Job α) (rest : List (SoaTransform α)) (c : Context α) (out : List (SoaTransform α))
    (y z : Layer α) (zs : List (Layer α)) (e : OzzError) (hs : j.skeleton = some rest)
    (hpos : NumOps.lt NumOps.zero j.threshold = true) (hlen : rest.length ≤ out.length)
    (hl : j.layers = y :: z :: zs) (hy : y.Ok rest.length) (hw : NumOps.le y.weight NumOps.zero = false)
    (hfull : y.jointWeights = []) (hz : z.transform = .error e) :
    validate j ⟨some c, some (.ok out)⟩ = false ∧
    ∃ c' out', run j ⟨some c, some (.ok out)⟩ = .err e ⟨some c', some (.ok out')⟩ ∧
      ∀ i < rest.length, ∃ ts t, y.transform = .ok ts ∧ ts[i]? = some t ∧ out'[i]? = some (blend1 t (splat y.weight)) := by
  constructor
  · rw [Bool.eq_false_iff, Ne, validate_iff]
    rintro ⟨rest', _, _, h1, -, -, -, -, h6, -⟩
    have := h6 z (by simp [hl])
    rw [Layer.ok_iff, hz] at this
    obtain ⟨t, h, -⟩ := this
    cases h
  obtain ⟨t, ht, htl, -⟩ := (Layer.ok_iff _ _).mp hy
  obtain ⟨aw', out', k1, k2, k3, k4, -⟩ := layerPass_ok rest.length y t (resetContext rest.length c) out ht hy
    (resetContext_length _ _) hlen
  obtain ⟨c1, hc1⟩ : ∃ c1, layerPass rest.length y t (resetContext rest.length c) out = .ok (c1, out') := ⟨_, k1⟩
  refine ⟨c1, out', ?_, ?_⟩
  · have hzc : checkLayer rest.length z = .error e := by simp only [checkLayer, hz]
    simp only [run, hs, hpos, hlen, decide_true, Bool.and_self, if_true, runBody, hl, blendLayers, Layer.ok_check hy ht,
      hw, Bool.false_eq_true, if_false, hc1, hzc]
  · intro i hi
    obtain ⟨a, ha⟩ := resetContext_get rest.length c i hi
    have ho : out[i]? = some out[i] := List.getElem?_eq_getElem (by omega)
    refine ⟨t, t[i], ht, List.getElem?_eq_getElem (by omega), ?_⟩
    obtain ⟨r, hr⟩ := jointStep_isSome i (if (resetContext rest.length c).numPasses = 0 then none else some (a, out[i])) y
    obtain ⟨-, q⟩ := k4 i a _ hi ha ho r hr
    rw [q]
    rw [show (resetContext rest.length c).numPasses = 0 from rfl, if_pos rfl] at hr
    simp only [jointStep, Option.some.injEq] at hr
    subst hr
    have hp : y.poseAt i = t[i] := by
      simp [Layer.poseAt, ht, List.getElem?_eq_getElem (show i < t.length by omega)]
    have hwt : y.weightAt i = splat y.weight := by simp [Layer.weightAt, Layer.isPartial, hfull]
    rw [hp, hwt]

/-- C57: the output of a run does not depend on what the context and the output held before, in any
arithmetic where subtracting zero keeps positive thresholds positive. -/
theorem C57_no_memory (j : Job α) (rest : List (SoaTransform α)) (c₁ c₂ : Context α)
    (out₁ out₂ : List (SoaTransform α)) (hs : j.skeleton = some rest)
    (h0 : NumOps.lt NumOps.zero j.threshold = true → NumOps.lt NumOps.zero (j.threshold - NumOps.zero) = true)
    (s₁ s₂ : State α) (h₁ : run j ⟨some c₁, some (.ok out₁)⟩ = .ok s₁)
    (h₂ : run j ⟨some c₂, some (.ok out₂)⟩ = .ok s₂) :
    ∃ c₁' c₂' out₁' out₂', s₁ = ⟨some c₁', some (.ok out₁')⟩ ∧ s₂ = ⟨some c₂', some (.ok out₂')⟩ ∧
      ∀ i < rest.length, out₁'[i]? = out₂'[i]? := by
  have hv := run_ok_validate _ _ _ h₁
  obtain ⟨_, _, _, -, -, -, h4, -⟩ := (validate_iff _ _).mp hv
  obtain ⟨c₁', out₁', rfl, -, e1, -⟩ := blended hs h₁
  obtain ⟨c₂', out₂', rfl, -, e2, -⟩ := blended hs h₂
  refine ⟨c₁', c₂', out₁', out₂', rfl, rfl, fun i hi => ?_⟩
  have hr : rest[i]? = some rest[i] := List.getElem?_eq_getElem hi
  obtain ⟨old1, f1⟩ := e1 i _ hr
  obtain ⟨old2, f2⟩ := e2 i _ hr
  rw [f1, f2]
  congr 1
  unfold jointRun jointBlend
  by_cases hn : numActive j.layers = 0
  · have hp : numPartial j.layers = 0 := by
      unfold numPartial; unfold numActive at hn; rw [List.length_eq_zero_iff.mp hn]; rfl
    have hsw : sumWeights j.layers NumOps.zero = NumOps.zero := by
      unfold sumWeights; unfold numActive at hn; rw [List.length_eq_zero_iff.mp hn]; rfl
    rw [jointFold_inactive i j.layers hn]
    simp only [finalWeight, withRest, hp, hn, hsw, h0 h4, if_true]
  · obtain ⟨x, hx⟩ := jointFold_none i j.layers hn
    rw [hx]; rfl

end

theorem f32_sub_zero (t : F32) (h : F32.lt F32.zero t = true) : F32.sub t F32.zero = t := by
  have hz : F32.zero.low = 0 := F32.pack_low false (by norm_num)
  have hzs : F32.zero.negative = false := F32.pack_negative false (by norm_num)
  have hzn : F32.zero.isNaN = false := by simp [F32.isNaN, hz]
  have hnl : (F32.neg F32.zero).low = 0 := by
    unfold F32.neg; rw [F32.pack_low _ (by rw [hz]; norm_num), hz]
  have hnn : (F32.neg F32.zero).isNaN = false := by simp [F32.isNaN, hnl]
  have hni : (F32.neg F32.zero).isInf = false := by simp [F32.isInf, hnl]
  have hnm : (F32.neg F32.zero).signedMag = 0 := by simp [F32.signedMag, F32.mag, hnl, F32.magOf_zero]
  unfold F32.lt at h
  simp only [Bool.and_eq_true, Bool.not_eq_true', decide_eq_true_eq] at h
  obtain ⟨⟨-, h1⟩, h2⟩ := h
  have h3 : t.negative = false ∧ 0 < t.low := by
    unfold F32.rank at h2
    rw [hzs, hz] at h2
    cases hn : t.negative with
    | true => rw [hn] at h2; simp at h2; omega
    | false => rw [hn] at h2; simp at h2; exact ⟨rfl, h2⟩
  unfold F32.sub F32.add
  simp only [h1, hzn, hnn, hni, Bool.or_self, Bool.false_eq_true, if_false, Bool.false_and, hnm, add_zero]
  split
  · rfl
  · have hm : 0 < t.mag := by
      have := F32.magOf_strictMono h3.2
      rw [F32.magOf_zero] at this
      exact this
    have hs : t.signedMag = t.mag := by unfold F32.signedMag; rw [h3.1]; rfl
    rw [if_neg (by rw [hs]; omega), hs, decide_eq_false (by omega), Int.natAbs_natCast]
    have hle : t.low ≤ 255 * 2 ^ 23 := by
      unfold F32.isNaN at h1; simpa using h1
    have := F32.roundMag_exact t.low 1 (by norm_num) hle
    rw [mul_one] at this
    unfold F32.mag
    rw [this, ← h3.1, F32.pack_self]

/-- C57 for single precision: subtracting zero from a positive `f32` gives it back. -/
theorem C57_f32 (t : F32) (h : NumOps.lt NumOps.zero t = true) : t - NumOps.zero = t :=
  f32_sub_zero t h

/-! ### Examples -/

/-- A pose translated along x, without rotation. -/
def poseX (x : ℝ) : SoaTransform ℝ :=
  ⟨⟨splat x, splat 0, splat 0⟩, ⟨splat 0, splat 0, splat 0, splat 1⟩, ⟨splat 1, splat 1, splat 1⟩⟩

/-- Two layers, the second only for the first of four joints; rest pose at zero. -/
noncomputable def jobX : Job ℝ :=
  ⟨some [poseX 0], 1 / 2, [⟨.ok [poseX 2], 1, []⟩, ⟨.ok [poseX 6], 3, [f4 1 0 0 0]⟩], []⟩

def ctxX : Context ℝ := ⟨7, 7, 7, []⟩

theorem jobX_runs : ∃ s', run jobX ⟨some ctxX, some (.ok [poseX 9, poseX 9])⟩ = .ok s' := by
  obtain ⟨c', out', h, -⟩ := C35_valid_runs_partial jobX [poseX 0] ctxX [poseX 9, poseX 9]
    (by
      rw [validate_iff]
      refine ⟨_, _, _, rfl, rfl, rfl, by simp [jobX], by simp, ?_, by simp [jobX]⟩
      intro l hl
      simp only [jobX, List.mem_cons, List.not_mem_nil, or_false] at hl
      rw [Layer.ok_iff]
      rcases hl with rfl | rfl
      · exact ⟨_, rfl, by simp, by simp⟩
      · exact ⟨_, rfl, by simp, by simp⟩) rfl (.inl ⟨_, by simp [jobX]; left; rfl, by simp⟩)
  exact ⟨_, h⟩

/-- The first joint is at (1·2 + 3·6) / 4 = 5, the second, which has only the first layer, at 2. -/
example : ∃ c' out' o, run jobX ⟨some ctxX, some (.ok [poseX 9, poseX 9])⟩ = .ok ⟨some c', some (.ok out')⟩ ∧
    out'[0]? = some o ∧ o.translation.lane 0 0 = 5 ∧ o.translation.lane 1 0 = 2 := by
  obtain ⟨s', h⟩ := jobX_runs
  obtain ⟨c', out', rfl, h1⟩ := C31_weighted_average jobX _ _ _ s' rfl rfl h
  obtain ⟨o, h2, h3⟩ := h1 0 _ rfl
  refine ⟨c', out', o, h, h2, ?_, ?_⟩
  · rw [(h3 0).1]
    norm_num [average, contributions, jobX, laneWeight, poseOf, totalWeight, poseX, SoaVec3.lane, splat]
  · rw [(h3 1).1]
    norm_num [average, contributions, jobX, laneWeight, poseOf, totalWeight, poseX, SoaVec3.lane, splat]

/-- The second layer has no weight for the second joint. -/
example : laneWeight ⟨.ok [poseX 6], 3, [f4 1 0 0 0]⟩ 0 1 = 0 := by
  rw [C32_weightless]; right; simp

example : NumOps.le (Layer.weight (⟨.ok [poseX 6], -3, []⟩ : Layer ℝ)) NumOps.zero = true ∧
    (⟨.ok [poseX 6], -3, []⟩ : Layer ℝ).Ok 1 :=
  ⟨by simp, (Layer.ok_iff _ _).mpr ⟨_, rfl, by simp, by simp⟩⟩

/-- The two layers and the rest pose agree, so the sum is not zero and the sign of a layer is irrelevant. -/
example : alignedSum [(1, f4 0 0 0 1), (3, f4 0 0 0 (-1))] = f4 0 0 0 4 ∧
    alignedSum [(1, f4 0 0 0 1), (3, f4 0 0 0 1)] = f4 0 0 0 4 ∧ dot4 (alignedSum [(1, f4 0 0 0 1)]) (f4 0 0 0 1) ≠ 0 := by
  refine ⟨?_, ?_, ?_⟩
  · unfold alignedSum; apply ext4 <;> norm_num [List.foldl, addAligned, dot4]
  · unfold alignedSum; apply ext4 <;> norm_num [List.foldl, addAligned, dot4]
  · norm_num [alignedSum, List.foldl, addAligned, dot4]

/-- An additive layer that rotates by half a turn about x, moves and doubles the scale, with weight one half:
the scale factor is 3/2. -/
def poseA : SoaTransform ℝ :=
  ⟨⟨splat 1, splat 2, splat 3⟩, ⟨splat 1, splat 0, splat 0, splat 0⟩, ⟨splat 2, splat 2, splat 2⟩⟩

example : ∃ s', run { jobX with additiveLayers := [⟨.ok [poseA], 1 / 2, []⟩, ⟨.ok [poseA], -(1 / 2), []⟩] }
    ⟨some ctxX, some (.ok [poseX 9, poseX 9])⟩ = .ok s' := by
  obtain ⟨s', h⟩ := jobX_runs
  refine ⟨s', ?_⟩
  refine (C34_subtract_undoes_add jobX ⟨.ok [poseA], 1 / 2, []⟩ [poseX 0] ctxX _ rfl
    ((Layer.ok_iff _ _).mpr ⟨_, rfl, by simp, by simp⟩) ?_ ?_ s').mpr h
  · intro i hi l
    have : i = 0 := by simpa using hi
    subst this
    simp [poseOf, poseA, SoaQuat.lane, splat, Quaternion.normSq_def']
  · intro i hi l w hw
    have : i = 0 := by simpa using hi
    subst this
    subst hw
    norm_num [poseOf, poseA, laneWeight, splat]

/-- Output longer than the skeleton and no layer: the run panics. -/
example : run (⟨some [poseX 0], 1 / 2, [], []⟩ : Job ℝ) ⟨some ctxX, some (.ok [poseX 9, poseX 9])⟩ = .panic :=
  C35_longer_output_panics _ [poseX 0] _ _ (by simp) (by simp) rfl (by simp) (by simp) (by simp)

/-- The unreadable second layer is reported when the output holds the first one. -/
example : ∃ c' out', run (⟨some [poseX 0], 1 / 2, [⟨.ok [poseX 2], 1, []⟩, ⟨.error .lockPoison, 1, []⟩], []⟩ : Job ℝ)
      ⟨some ctxX, some (.ok [poseX 9])⟩ = .err .lockPoison ⟨some c', some (.ok out')⟩ ∧ out' ≠ [poseX 9] := by
  obtain ⟨-, c', out', h1, h2⟩ := C36_output_changed (⟨some [poseX 0], 1 / 2, [⟨.ok [poseX 2], 1, []⟩, ⟨.error .lockPoison, 1, []⟩], []⟩ : Job ℝ)
    [poseX 0] ctxX [poseX 9] ⟨.ok [poseX 2], 1, []⟩ ⟨.error .lockPoison, 1, []⟩ [] .lockPoison rfl (by simp) (by simp) rfl
    ((Layer.ok_iff _ _).mpr ⟨_, rfl, by simp, by simp⟩) (by simp) rfl rfl
  refine ⟨c', out', h1, ?_⟩
  rintro rfl
  obtain ⟨ts, t, h3, h4, h5⟩ := h2 0 (by simp)
  cases h3
  simp only [List.getElem?_cons_zero, Option.some.injEq] at h4 h5
  subst h4
  have := congrFun (congrArg (fun p => p.translation.x) h5) 0
  norm_num [poseX, blend1, SoaVec3.mulNum, splat] at this

/-- Other contexts and outputs give the same. -/
example : ∃ s₁ s₂, run jobX ⟨some ctxX, some (.ok [poseX 9, poseX 9])⟩ = .ok s₁ ∧
    run jobX ⟨some ⟨0, 0, 0, [zero4, zero4]⟩, some (.ok [poseX 1])⟩ = .ok s₂ := by
  obtain ⟨s₁, h₁⟩ := jobX_runs
  have hv := run_ok_validate _ _ _ h₁
  rw [validate_iff] at hv
  obtain ⟨rest, _, _, k1, -, -, k4, -, k6, k7⟩ := hv
  cases k1
  obtain ⟨c', out', h, -⟩ := C35_valid_runs_partial jobX [poseX 0] ⟨0, 0, 0, [zero4, zero4]⟩ [poseX 1]
    ((validate_iff _ _).mpr ⟨_, _, _, rfl, rfl, rfl, k4, by simp, k6, k7⟩) rfl (.inr rfl)
  exact ⟨_, _, h₁, h⟩

end Ozz.Props
