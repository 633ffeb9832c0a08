import Verif.Spec.Additive
import Verif.Proofs.BlendingExact

/-! Additive layers in exact arithmetic, and in any arithmetic relative to the job without them. -/

namespace Ozz.Blending

theorem positiveW_lane (q : SoaQuat ℝ) (l : Fin 4) : q.positiveW.lane l = shortWay (q.lane l) := by
  unfold SoaQuat.positiveW
  rw [xorNum_lane]
  unfold shortWay
  have : sign4 q.w l = decide (q.lane l 3 < 0) := rfl
  rw [this]
  simp only [decide_eq_true_eq]

theorem interpQuat_lane (q : SoaQuat ℝ) (w : F4 ℝ) (l : Fin 4) :
    (interpQuat q w).lane l = identityQ + w l • (shortWay (q.lane l) - identityQ) := by
  rw [← positiveW_lane]
  unfold interpQuat identityQ
  apply ext4
  · change q.positiveW.lane l 0 * w l = 0 + w l * (q.positiveW.lane l 0 - 0); ring
  · change q.positiveW.lane l 1 * w l = 0 + w l * (q.positiveW.lane l 1 - 0); ring
  · change q.positiveW.lane l 2 * w l = 0 + w l * (q.positiveW.lane l 2 - 0); ring
  · change (q.positiveW.lane l 3 - 1) * w l + 1 = 1 + w l * (q.positiveW.lane l 3 - 1); ring

theorem sub_lane (v u : SoaVec3 ℝ) (l : Fin 4) : (v.sub u).lane l = v.lane l - u.lane l := by
  apply ext4 <;> simp [SoaVec3.sub, SoaVec3.lane]

theorem blendAdd_lane (t : SoaTransform ℝ) (w : F4 ℝ) (o : SoaTransform ℝ) (l : Fin 4) :
    lanePose (blendAdd t w (one4 - w) o) l =
      ⟨(lanePose o l).translation + w l • t.translation.lane l, (lanePose o l).rotation * partly (w l) (t.rotation.lane l),
        fun c => (lanePose o l).scale c * (1 + w l * (t.scale.lane l c - 1))⟩ := by
  apply LanePose.ext
  · change (o.translation.add (t.translation.mulNum w)).lane l = _
    rw [add_lane, mulNum_lane]; rfl
  · change toQuat ((o.rotation.mul (interpQuat t.rotation w).normalize).lane l) = _
    rw [toQuat_soa_mul, normalize_lane, interpQuat_lane]; rfl
  · apply ext4
    · change o.scale.x l * (1 - w l + t.scale.x l * w l) = o.scale.x l * (1 + w l * (t.scale.x l - 1)); ring
    · change o.scale.y l * (1 - w l + t.scale.y l * w l) = o.scale.y l * (1 + w l * (t.scale.y l - 1)); ring
    · change o.scale.z l * (1 - w l + t.scale.z l * w l) = o.scale.z l * (1 + w l * (t.scale.z l - 1)); ring
    · change (0:ℝ) = 0 * _; ring

theorem blendSub_lane (t : SoaTransform ℝ) (w : F4 ℝ) (o : SoaTransform ℝ) (l : Fin 4) :
    lanePose (blendSub t w (one4 - w) o) l =
      ⟨(lanePose o l).translation - w l • t.translation.lane l, (lanePose o l).rotation * star (partly (w l) (t.rotation.lane l)),
        fun c => (lanePose o l).scale c / (1 + w l * (t.scale.lane l c - 1))⟩ := by
  apply LanePose.ext
  · change (o.translation.sub (t.translation.mulNum w)).lane l = _
    rw [sub_lane, mulNum_lane]; rfl
  · change toQuat ((o.rotation.mul (interpQuat t.rotation w).normalize.conjugate).lane l) = _
    rw [toQuat_soa_mul, toQuat_soa_conjugate, normalize_lane, interpQuat_lane]; rfl
  · apply ext4
    · change o.scale.x l * (1 / (t.scale.x l * w l + (1 - w l))) = o.scale.x l / (1 + w l * (t.scale.x l - 1))
      rw [mul_one_div]; congr 1; ring
    · change o.scale.y l * (1 / (t.scale.y l * w l + (1 - w l))) = o.scale.y l / (1 + w l * (t.scale.y l - 1))
      rw [mul_one_div]; congr 1; ring
    · change o.scale.z l * (1 / (t.scale.z l * w l + (1 - w l))) = o.scale.z l / (1 + w l * (t.scale.z l - 1))
      rw [mul_one_div]; congr 1; ring
    · change (0:ℝ) = 0 / _; rw [zero_div]

theorem partly_zero (q : F4 ℝ) : partly 0 q = 1 := by
  unfold partly
  rw [zero_smul, add_zero]
  have n : norm2 identityQ = 1 := by simp [norm2, identityQ]
  unfold unitOf
  rw [n, Real.sqrt_one, inv_one, one_smul]
  rfl

/-- The case of a weight that is not positive. -/
theorem addOne_sub {i : Nat} {l : Fin 4} {p : LanePose} {y : Layer ℝ} (h : addWeight y i l ≤ 0) :
    addOne i l p y = ⟨p.translation - (-addWeight y i l) • (poseOf y i).translation.lane l,
      p.rotation * star (partly (-addWeight y i l) ((poseOf y i).rotation.lane l)),
      fun c => p.scale c / (1 + (-addWeight y i l) * ((poseOf y i).scale.lane l c - 1))⟩ := by
  unfold addOne
  rcases h.eq_or_lt with h | h
  · simp only [h, le_refl, if_true, neg_zero, zero_smul, sub_zero, add_zero, zero_mul, mul_one, div_one, partly_zero, star_one]
  · simp only [if_neg (not_le.mpr h)]

theorem addOne_add {i : Nat} {l : Fin 4} {p : LanePose} {y : Layer ℝ} (h : 0 ≤ addWeight y i l) :
    addOne i l p y = ⟨p.translation + addWeight y i l • (poseOf y i).translation.lane l,
      p.rotation * partly (addWeight y i l) ((poseOf y i).rotation.lane l),
      fun c => p.scale c * (1 + addWeight y i l * ((poseOf y i).scale.lane l c - 1))⟩ := by
  unfold addOne
  simp only [if_pos h]

/-- Part of the weight a joint gets. -/
theorem addFactor (y : Layer ℝ) (i : Nat) (l : Fin 4) : ∃ f, 0 ≤ f ∧ addWeight y i l = y.weight * f ∧
    ∀ x : ℝ, (if y.isPartial then splat x * max4 (y.jointWeights[i]?.getD zero4) zero4 else splat x : F4 ℝ) l = x * f := by
  unfold addWeight
  cases hj : y.jointWeights with
  | nil => exact ⟨1, zero_le_one, rfl, fun x => by simp [Layer.isPartial, hj, splat]⟩
  | cons a as =>
    have hp : y.isPartial = true := by simp [Layer.isPartial, hj]
    cases hi : (a :: as)[i]? with
    | none => exact ⟨0, le_rfl, by simp, fun x => by simp [hp, splat, max4, zero4]⟩
    | some w => exact ⟨max 0 (w l), le_max_left _ _, by simp, fun x => by simp [hp, splat, max4, zero4, max_comm]⟩

theorem addOne_weightless {i : Nat} {l : Fin 4} {p : LanePose} {y : Layer ℝ} (h : y.weight = 0) : addOne i l p y = p := by
  obtain ⟨f, -, e, -⟩ := addFactor y i l
  have h0 : addWeight y i l = 0 := by rw [e, h, zero_mul]
  rw [addOne_add h0.ge, h0]
  simp only [zero_smul, add_zero, zero_mul, mul_one, partly_zero]

/-- What an additive layer does to a joint. -/
theorem additiveStep_lane (i : Nat) (l : Fin 4) (o : SoaTransform ℝ) (y : Layer ℝ) :
    lanePose (additiveStep i o y) l = addOne i l (lanePose o l) y := by
  obtain ⟨f, hf, e, hw⟩ := addFactor y i l
  unfold additiveStep
  simp only [poseAt_eq, real_lt, real_zero, decide_eq_true_eq]
  by_cases h1 : 0 < y.weight
  · rw [if_pos h1, blendAdd_lane, addOne_add (by rw [e]; positivity), hw, e]
  · rw [if_neg h1]
    by_cases h2 : y.weight < 0
    · have hle : addWeight y i l ≤ 0 := by rw [e]; exact mul_nonpos_of_nonpos_of_nonneg h2.le hf
      rw [if_pos h2, blendSub_lane, addOne_sub hle, hw, e, neg_mul]
    · rw [if_neg h2, addOne_weightless (le_antisymm (not_lt.mp h1) (not_lt.mp h2))]

theorem additiveFold_lane (i : Nat) (l : Fin 4) (ys : List (Layer ℝ)) (o : SoaTransform ℝ) :
    lanePose (ys.foldl (additiveStep i) o) l = ys.foldl (addOne i l) (lanePose o l) := by
  induction ys generalizing o with
  | nil => rfl
  | cons y ys ih => rw [List.foldl_cons, List.foldl_cons, ih, additiveStep_lane]

section

variable {α : Type} [Add α] [Sub α] [Mul α] [Div α] [Neg α] [NumOps α]

/-- The job without additive layers runs too, and the additive layers are applied to what it gives. -/
theorem run_additive {j : Job α} {rest : List (SoaTransform α)} {c : Context α} {out : List (SoaTransform α)} {s' : State α}
    (hs : j.skeleton = some rest) (hrun : run j ⟨some c, some (.ok out)⟩ = .ok s') :
    ∃ c₀ base c' out', run { j with additiveLayers := [] } ⟨some c, some (.ok out)⟩ = .ok ⟨some c₀, some (.ok base)⟩ ∧
      s' = ⟨some c', some (.ok out')⟩ ∧
      ∀ i < rest.length, ∃ b, base[i]? = some b ∧ out'[i]? = some (j.additiveLayers.foldl (additiveStep i) b) := by
  have hv := run_ok_validate _ _ _ hrun
  obtain ⟨rest', c', out', h1, h2, h3, h4, h5, h6, h7⟩ := (validate_iff _ _).mp hv
  rw [hs] at h1; cases h1; cases h2; cases h3
  have hv0 : validate { j with additiveLayers := [] } ⟨some c, some (.ok out)⟩ = true :=
    (validate_iff _ _).mpr ⟨rest, c, out, hs, rfl, rfl, h4, h5, h6, by simp⟩
  by_cases hc : numActive j.layers ≠ 0 ∨ out.length = rest.length ∨
      NumOps.lt NumOps.zero (j.threshold - sumWeights j.layers NumOps.zero) = false
  · obtain ⟨c', out', k1, k2, k3, k4⟩ := run_ok j rest c out hv hs hc
    obtain ⟨c₀, base, b1, b2, b3, b4⟩ := run_ok { j with additiveLayers := [] } rest c out hv0 hs hc
    rw [k1] at hrun
    cases hrun
    refine ⟨c₀, base, c', out', b1, rfl, fun i hi => ?_⟩
    obtain ⟨a, ha⟩ := resetContext_get rest.length c i hi
    have hr : rest[i]? = some rest[i] := List.getElem?_eq_getElem hi
    have ho : out[i]? = some (out[i]'(by omega)) := List.getElem?_eq_getElem (by omega)
    exact ⟨_, b3 i a _ _ hr ha ho, k3 i a _ _ hr ha ho⟩
  · exfalso
    push Not at hc
    obtain ⟨h8, h9, h10⟩ := hc
    exact absurd hrun (by rw [run_panic j rest c out hs h4 h5 h6 h8 h9 (by simpa using h10)]; simp)

end

end Ozz.Blending
