import Verif.Proofs.FloatBlend
import Verif.Props.Blending

/-!
Property theorems about blending in single precision: C81. The rotations C33 speaks about never cancel out, which is
also shown here.
-/

namespace Ozz.Props

open Ozz Blending Ieee Spec F32

/-! ### C81 -/

private theorem threshold_pos {j : Job F32} {s s' : State F32} (hrun : run j s = .ok s') (hthr : Finite32 j.threshold.bits) :
    0 < val j.threshold := by
  have hv := run_ok_validate _ _ _ hrun
  obtain ⟨rest', c', out', h1, h2, h3, h4, -⟩ := (validate_iff _ _).mp hv
  have h5 := (lt_val32 zero_finite hthr).mp h4
  rwa [valZero] at h5

/-- C81: blending floats gives translations and scales within `13 (n + 1) / 2^24` of the weighted averages of the real
numbers they stand for, relative to the largest coordinate; `n` is the number of layers, up to 2^16. -/
theorem C81_average (j : Job F32) (rest : List (SoaTransform F32)) (c : Context F32) (out : List (SoaTransform F32))
    (s' : State F32) (hs : j.skeleton = some rest) (hadd : j.additiveLayers = []) (hn : j.layers.length ≤ 2 ^ 16)
    (hthr : Finite32 j.threshold.bits) (hrun : run j ⟨some c, some (.ok out)⟩ = .ok s') :
    ∃ c' out', s' = ⟨some c', some (.ok out')⟩ ∧ ∀ i r, rest[i]? = some r → ∃ o, out'[i]? = some o ∧
      ∀ l s B, Sizes (max (val j.threshold) (totalWeight (j.layers.map valLayer) i l)) s B →
        (∀ y ∈ j.layers, Layer32Ok y i l s B) → Pose32Ok r l s B →
        NearAverage l s B j.layers.length
          (average (contributions (val j.threshold) (j.layers.map valLayer) (valTransform r) i l fun t => t.translation.lane l))
          (average (contributions (val j.threshold) (j.layers.map valLayer) (valTransform r) i l fun t => t.scale.lane l)) o := by
  have hpos := threshold_pos hrun hthr
  obtain ⟨c', out', rfl, -, h5, -⟩ := blended hs hrun
  refine ⟨c', out', rfl, fun i r hr => ?_⟩
  obtain ⟨old, ho⟩ := h5 i r hr
  refine ⟨_, ho, fun l s B hz hok hrest => ?_⟩
  simp only [jointRun, hadd, List.foldl_nil]
  exact joint_average hn hz (by rw [totalWeight_val]) hthr hpos hok hrest old

/-- C81: the rotation of every joint is finite, has a squared norm within 2^-19 of one, and is near the unit quaternion along
a sum of the rotations in which every sign is the right one wherever the dot product is larger than its rounding error.
That sum is never short, so the quotient in the bound is at most `25 (n + 1) √(2 (n + 1)) / 2^24`. -/
theorem C81_rotation (j : Job F32) (rest : List (SoaTransform F32)) (c : Context F32) (out : List (SoaTransform F32))
    (s' : State F32) (hs : j.skeleton = some rest) (hadd : j.additiveLayers = []) (hn : j.layers.length < 512)
    (hthr : Finite32 j.threshold.bits) (hrun : run j ⟨some c, some (.ok out)⟩ = .ok s') :
    ∃ c' out', s' = ⟨some c', some (.ok out')⟩ ∧ ∀ i r, rest[i]? = some r → ∃ o, out'[i]? = some o ∧
      ∀ l s B M, M = max (val j.threshold) (totalWeight (j.layers.map valLayer) i l) → Sizes M s B →
        1 / 2 ^ 40 ≤ M → M ≤ 2 ^ 40 →
        (∀ y ∈ j.layers, Layer32Ok y i l s B) → Pose32Ok r l s B →
        ∃ R, AlignedUpTo (12 * (j.layers.length + 1) * M / 2 ^ 24) 0
            (contributions (val j.threshold) (j.layers.map valLayer) (valTransform r) i l fun t => t.rotation.lane l) R ∧
          M ^ 2 ≤ 2 * (j.layers.length + 1) * norm2 R ∧
          NearUnit l (25 * (j.layers.length + 1) * M / 2 ^ 24 / √(norm2 R) + 1 / 2 ^ 20) R o := by
  have hpos := threshold_pos hrun hthr
  obtain ⟨c', out', rfl, -, h5, -⟩ := blended hs hrun
  refine ⟨c', out', rfl, fun i r hr => ?_⟩
  obtain ⟨old, ho⟩ := h5 i r hr
  refine ⟨_, ho, fun l s B M hM hz hM0 hM1 hok hrest => ?_⟩
  simp only [jointRun, hadd, List.foldl_nil]
  exact joint_rotation hn hz (by rw [hM, totalWeight_val]) hM0 hM1 hthr hpos hok hrest old

/-- C81: where no rotation is nearly orthogonal to the sum before it, there is only one such sum, the exact one (up to the
sign of all of it, which is the same rotation). -/
theorem C81_clear_signs (δ : ℝ) (hδ : 0 ≤ δ) (cs : List (ℝ × F4 ℝ)) (hc : ClearSigns δ 0 cs) (R : F4 ℝ)
    (h : AlignedUpTo δ 0 cs R) : R = alignedSum cs ∨ R = -alignedSum cs :=
  clear_signs h (.inl rfl) hδ hc

/-! ### C33 -/

theorem aligned_exact (cs : List (ℝ × F4 ℝ)) (acc : F4 ℝ) : AlignedUpTo 0 acc cs (cs.foldl addAligned acc) := by
  induction cs generalizing acc with
  | nil => exact .nil _
  | cons c cs ih =>
    obtain ⟨w, q⟩ := c
    rw [List.foldl_cons]
    by_cases h : dot4 acc q < 0
    · refine .turn h.le ?_
      have : addAligned acc (w, q) = acc - w • q := by
        unfold addAligned
        rw [if_pos h, smul_neg, sub_eq_add_neg]
      rw [← this]; exact ih _
    · refine .keep (by linarith [not_lt.mp h]) ?_
      have : addAligned acc (w, q) = acc + w • q := by
        unfold addAligned
        rw [if_neg h]
      rw [← this]; exact ih _

/-- C33: the aligned sum of unit rotations is at least as long as the longest of its terms. -/
theorem C33_long (cs : List (ℝ × F4 ℝ)) (hw : ∀ c ∈ cs, 0 ≤ c.1) (c : ℝ × F4 ℝ) (hc : c ∈ cs) :
    c.1 ^ 2 * norm2 c.2 ≤ norm2 (alignedSum cs) := by
  have h := aligned_norm (aligned_exact cs 0) hw
  have z : norm2 (0 : F4 ℝ) = 0 := by simp [norm2]
  rw [z, mul_zero, zero_mul, sub_zero, zero_add] at h
  refine le_trans ?_ h
  exact List.single_le_sum (fun x hx => by
    obtain ⟨y, -, rfl⟩ := List.mem_map.mp hx
    exact mul_nonneg (sq_nonneg _) (norm2_nonneg _)) _ (List.mem_map.mpr ⟨c, hc, rfl⟩)

/-- C33: without additive layers, if the rotations used are not zero, the rotation of every joint is unit. -/
theorem C33_always_unit (j : Job ℝ) (rest : List (SoaTransform ℝ)) (c : Context ℝ) (out : List (SoaTransform ℝ))
    (s' : State ℝ) (hs : j.skeleton = some rest) (hadd : j.additiveLayers = [])
    (hrun : run j ⟨some c, some (.ok out)⟩ = .ok s') :
    ∃ c' out', s' = ⟨some c', some (.ok out')⟩ ∧ ∀ i r, rest[i]? = some r → ∃ o, out'[i]? = some o ∧ ∀ l,
      norm2 (r.rotation.lane l) ≠ 0 → (∀ y ∈ j.layers, 0 < y.weight → norm2 ((poseOf y i).rotation.lane l) ≠ 0) →
        Quaternion.normSq (toQuat (o.rotation.lane l)) = 1 := by
  have hv := run_ok_validate _ _ _ hrun
  obtain ⟨rest', c', out', h1, h2, h3, h4, -⟩ := (validate_iff _ _).mp hv
  have hthr : 0 < j.threshold := by simpa using h4
  obtain ⟨c', out', e, h5⟩ := C33_unit j rest c out s' hs hadd hrun
  refine ⟨c', out', e, fun i r hr => ?_⟩
  obtain ⟨o, ho, h6⟩ := h5 i r hr
  refine ⟨o, ho, fun l hq hys => (h6 l).2 ?_⟩
  have hw : ∀ c ∈ contributions j.threshold j.layers r i l (fun t => t.rotation.lane l), 0 ≤ c.1 := by
    intro c hc
    unfold contributions at hc
    rw [List.mem_append] at hc
    rcases hc with hc | hc
    · obtain ⟨y, -, rfl⟩ := List.mem_map.mp hc
      exact laneWeight_nonneg _ _ _
    · rw [List.mem_singleton.mp hc]; exact le_max_left _ _
  have htot := C31_total j.threshold j.layers r i l (fun t => t.rotation.lane l)
  -- some contribution has a weight
  obtain ⟨d, hd, hd0⟩ : ∃ d ∈ contributions j.threshold j.layers r i l (fun t => t.rotation.lane l), d.1 ≠ 0 := by
    by_contra hcon
    push Not at hcon
    have : ((contributions j.threshold j.layers r i l fun t => t.rotation.lane l).map fun c => c.1).sum = 0 := by
      apply List.sum_eq_zero
      intro x hx
      obtain ⟨y, hy, rfl⟩ := List.mem_map.mp hx
      exact hcon y hy
    rw [this] at htot
    have := le_max_left j.threshold (totalWeight j.layers i l)
    linarith
  have hne : norm2 d.2 ≠ 0 := by
    unfold contributions at hd
    rw [List.mem_append] at hd
    rcases hd with hd | hd
    · obtain ⟨y, hy, rfl⟩ := List.mem_map.mp hd
      refine hys y hy ?_
      by_contra hc
      apply hd0
      simp only [laneWeight]
      rw [if_pos (not_lt.mp hc)]
    · rw [List.mem_singleton.mp hd]; exact hq
  have hlong := C33_long _ hw d hd
  intro h0
  rw [h0] at hlong
  have z : norm2 (0 : F4 ℝ) = 0 := by simp [norm2]
  rw [z] at hlong
  have h7 : 0 < d.1 ^ 2 * norm2 d.2 := by
    have := norm2_nonneg d.2
    have : 0 < norm2 d.2 := lt_of_le_of_ne this (Ne.symm hne)
    positivity
  linarith

/-! ### Examples -/

private def e0 : F32 := ⟨0x00000000#32⟩
private def e1 : F32 := ⟨0x3f800000#32⟩
private def em : F32 := ⟨0xbf800000#32⟩
private def e3 : F32 := ⟨0x40400000#32⟩
private def e4 : F32 := ⟨0x40800000#32⟩
/-- The default threshold, 0.1. -/
private def et : F32 := ⟨0x3dcccccd#32⟩

private theorem ve0 : val e0 = 0 := by
  have : value32 0x00000000#32 = 0 := by decide +kernel
  simp only [val, e0, real, this]; norm_num
private theorem ve1 : val e1 = 1 := by
  have : value32 0x3f800000#32 = 1 := by decide +kernel
  simp only [val, e1, real, this]; norm_num
private theorem vem : val em = -1 := by
  have : value32 0xbf800000#32 = -1 := by decide +kernel
  simp only [val, em, real, this]; norm_num
private theorem ve3 : val e3 = 3 := by
  have : value32 0x40400000#32 = 3 := by decide +kernel
  simp only [val, e3, real, this]; norm_num
private theorem ve4 : val e4 = 4 := by
  have : value32 0x40800000#32 = 4 := by decide +kernel
  simp only [val, e4, real, this]; norm_num
private theorem vet : val et = 13421773 / 134217728 := by
  have : value32 0x3dcccccd#32 = 13421773 / 134217728 := by decide +kernel
  simp only [val, et, real, this]; norm_num

/-- A pose moved by `x`, with the rotation `(0, 0, 0, w)`. -/
private def pose32 (x w : F32) : SoaTransform F32 :=
  ⟨⟨splat x, splat e0, splat e0⟩, ⟨splat e0, splat e0, splat e0, splat w⟩, ⟨splat e1, splat e1, splat e1⟩⟩

/-- One part of the first pose, three parts of the second, whose rotation has the other sign. -/
private def blend32 : Job F32 :=
  { skeleton := some [pose32 e0 e1]
    threshold := et
    layers := [⟨.ok [pose32 e0 e1], e1, []⟩, ⟨.ok [pose32 e4 em], e3, []⟩]
    additiveLayers := [] }

private theorem pose32_ok (x w : F32) (hx : Finite32 x.bits) (hw : Finite32 w.bits) (hx4 : |val x| ≤ 4) (hw1 : val w ^ 2 = 1) (l : Fin 4) :
    Pose32Ok (pose32 x w) l 1 4 := by
  have f0 : Finite32 e0.bits := by decide +kernel
  have f1 : Finite32 e1.bits := by decide +kernel
  refine ⟨fun c => ?_, fun c => ?_, fun c => ?_, fun c => ?_, ?_, fun c => ?_⟩
  · fin_cases c
    · exact hx
    · exact f0
    · exact f0
    · exact zero_finite
  · fin_cases c
    · exact f0
    · exact f0
    · exact f0
    · exact hw
  · fin_cases c
    · exact f1
    · exact f1
    · exact f1
    · exact zero_finite
  · fin_cases c
    · exact hx4
    · change |val e0| ≤ 4; rw [ve0]; norm_num
    · change |val e0| ≤ 4; rw [ve0]; norm_num
    · change |val F32.zero| ≤ 4; rw [valZero]; norm_num
  · have : norm2 ((valTransform (pose32 x w)).rotation.lane l) = val e0 ^ 2 + val e0 ^ 2 + val e0 ^ 2 + val w ^ 2 := rfl
    rw [this, ve0, hw1]; norm_num
  · fin_cases c
    · change |val e1| ≤ 1; rw [ve1]; norm_num
    · change |val e1| ≤ 1; rw [ve1]; norm_num
    · change |val e1| ≤ 1; rw [ve1]; norm_num
    · change |val F32.zero| ≤ 1; rw [valZero]; norm_num

private theorem poses32_ok (l : Fin 4) : Pose32Ok (pose32 e0 e1) l 1 4 ∧ Pose32Ok (pose32 e4 em) l 1 4 :=
  ⟨pose32_ok _ _ (by decide +kernel) (by decide +kernel) (by rw [ve0]; norm_num) (by rw [ve1]; norm_num) l,
   pose32_ok _ _ (by decide +kernel) (by decide +kernel) (by rw [ve4]; norm_num) (by rw [vem]; norm_num) l⟩

private theorem layers32_ok (l : Fin 4) : ∀ y ∈ blend32.layers, Layer32Ok y 0 l 1 4 := by
  intro y hy
  obtain ⟨p1, p2⟩ := poses32_ok l
  simp only [blend32, List.mem_cons, List.not_mem_nil, or_false] at hy
  rcases hy with rfl | rfl
  · exact ⟨by decide +kernel, fun w hw => by simp at hw, fun _ => ⟨_, _, rfl, rfl, p1⟩⟩
  · exact ⟨by decide +kernel, fun w hw => by simp at hw, fun _ => ⟨_, _, rfl, rfl, p2⟩⟩

private theorem weights32 (l : Fin 4) : laneWeight (valLayer ⟨.ok [pose32 e0 e1], e1, []⟩) 0 l = 1 ∧
    laneWeight (valLayer ⟨.ok [pose32 e4 em], e3, []⟩) 0 l = 3 := by
  simp only [laneWeight, valLayer, ve1, ve3, List.map_nil]
  norm_num

private theorem contributions32 (l : Fin 4) (f : SoaTransform ℝ → F4 ℝ) :
    contributions (val blend32.threshold) (blend32.layers.map valLayer) (valTransform (pose32 e0 e1)) 0 l f =
      [(1, f (valTransform (pose32 e0 e1))), (3, f (valTransform (pose32 e4 em))), (0, f (valTransform (pose32 e0 e1)))] := by
  obtain ⟨w1, w2⟩ := weights32 l
  have ht : val blend32.threshold = 13421773 / 134217728 := vet
  rw [ht]
  simp only [contributions, totalWeight, blend32, List.map_cons, List.map_nil, w1, w2, List.sum_cons, List.sum_nil]
  norm_num
  exact ⟨rfl, rfl⟩

private theorem total32 (l : Fin 4) : max (val blend32.threshold) (totalWeight (blend32.layers.map valLayer) 0 l) = 4 := by
  obtain ⟨w1, w2⟩ := weights32 l
  have ht : val blend32.threshold = 13421773 / 134217728 := vet
  rw [ht]
  simp only [totalWeight, blend32, List.map_cons, List.map_nil, w1, w2, List.sum_cons, List.sum_nil]
  norm_num

private theorem runs32 : ∃ c' out', run blend32 ⟨some ⟨0, 0, e0, []⟩, some (.ok [pose32 e0 e1])⟩ = .ok ⟨some c', some (.ok out')⟩ := by
  obtain ⟨c', out', h, -⟩ := C35_valid_runs_partial blend32 [pose32 e0 e1] ⟨0, 0, e0, []⟩ [pose32 e0 e1] (by decide +kernel) rfl (.inr rfl)
  exact ⟨c', out', h⟩

/-- The hypotheses of `C81_average`: 0 and 4 with weights 1 and 3 blend to 3. -/
example : ∃ c' out' o, run blend32 ⟨some ⟨0, 0, e0, []⟩, some (.ok [pose32 e0 e1])⟩ = .ok ⟨some c', some (.ok out')⟩ ∧
    out'[0]? = some o ∧ |val (o.translation.lane 2 0) - 3| ≤ 1 / 2 ^ 16 := by
  obtain ⟨c', out', hrun⟩ := runs32
  obtain ⟨c'', out'', h1, h2⟩ := C81_average blend32 _ _ _ _ rfl rfl (by decide) (by decide +kernel) hrun
  simp only [State.mk.injEq, Option.some.injEq, Except.ok.injEq] at h1
  obtain ⟨rfl, rfl⟩ := h1
  obtain ⟨o, h3, h4⟩ := h2 0 _ rfl
  have h5 := (h4 2 1 4 (by rw [total32]; constructor <;> norm_num) (layers32_ok 2) (poses32_ok 2).1).translation 0
  refine ⟨_, _, o, hrun, h3, ?_⟩
  rw [contributions32] at h5
  have h6 : average [((1:ℝ), (valTransform (pose32 e0 e1)).translation.lane 2), (3, (valTransform (pose32 e4 em)).translation.lane 2),
      (0, (valTransform (pose32 e0 e1)).translation.lane 2)] 0 = 3 := by
    have a1 : (valTransform (pose32 e0 e1)).translation.lane 2 0 = val e0 := rfl
    have a2 : (valTransform (pose32 e4 em)).translation.lane 2 0 = val e4 := rfl
    simp only [average, List.map_cons, List.map_nil, List.sum_cons, List.sum_nil, Pi.smul_apply, Pi.add_apply, smul_eq_mul, a1, a2, ve0, ve4]
    norm_num
  rw [h6] at h5
  refine h5.trans ?_
  have h7 : blend32.layers.length = 2 := rfl
  rw [h7]
  norm_num

private theorem sum32 (l : Fin 4) : alignedSum [((1:ℝ), (valTransform (pose32 e0 e1)).rotation.lane l),
      (3, (valTransform (pose32 e4 em)).rotation.lane l), (0, (valTransform (pose32 e0 e1)).rotation.lane l)] = f4 0 0 0 4 ∧
    ClearSigns (144 / 2 ^ 24) 0 [((1:ℝ), (valTransform (pose32 e0 e1)).rotation.lane l),
      (3, (valTransform (pose32 e4 em)).rotation.lane l), (0, (valTransform (pose32 e0 e1)).rotation.lane l)] := by
  have a1 : (valTransform (pose32 e0 e1)).rotation.lane l = f4 0 0 0 1 := by
    have : (valTransform (pose32 e0 e1)).rotation.lane l = f4 (val e0) (val e0) (val e0) (val e1) := rfl
    rw [this, ve0, ve1]
  have a2 : (valTransform (pose32 e4 em)).rotation.lane l = f4 0 0 0 (-1) := by
    have : (valTransform (pose32 e4 em)).rotation.lane l = f4 (val e0) (val e0) (val e0) (val em) := rfl
    rw [this, ve0, vem]
  have s1 : addAligned 0 ((1:ℝ), f4 0 0 0 1) = f4 0 0 0 1 := by rw [addAligned_zero, one_smul]
  have s2 : addAligned (f4 0 0 0 1) ((3:ℝ), f4 0 0 0 (-1)) = f4 0 0 0 4 := by
    apply ext4 <;> norm_num [addAligned, dot4]
  rw [a1, a2]
  refine ⟨?_, .inr (.inl rfl), ?_, .inl rfl, trivial⟩
  · simp only [alignedSum, List.foldl, s1, s2, addAligned_weightless]
  · rw [s1]
    right; right
    norm_num [dot4]

/-- The hypotheses of `C81_rotation` and `C81_clear_signs`: both rotations are the identity, and so is the result. -/
example : ∃ c' out' o, run blend32 ⟨some ⟨0, 0, e0, []⟩, some (.ok [pose32 e0 e1])⟩ = .ok ⟨some c', some (.ok out')⟩ ∧
    out'[0]? = some o ∧ (|val (o.rotation.lane 2 3) - 1| ≤ 1 / 2 ^ 16 ∨ |val (o.rotation.lane 2 3) + 1| ≤ 1 / 2 ^ 16) := by
  obtain ⟨c', out', hrun⟩ := runs32
  obtain ⟨c'', out'', h1, h2⟩ := C81_rotation blend32 _ _ _ _ rfl rfl (by decide) (by decide +kernel) hrun
  simp only [State.mk.injEq, Option.some.injEq, Except.ok.injEq] at h1
  obtain ⟨rfl, rfl⟩ := h1
  obtain ⟨o, h3, h4⟩ := h2 0 _ rfl
  obtain ⟨R, r1, -, r2⟩ := h4 2 1 4 4 (total32 2).symm (by constructor <;> norm_num) (by norm_num) (by norm_num) (layers32_ok 2) (poses32_ok 2).1
  refine ⟨_, _, o, hrun, h3, ?_⟩
  have h7 : blend32.layers.length = 2 := rfl
  have hd : (12 * ((blend32.layers.length : ℝ) + 1) * 4 / 2 ^ 24) = 144 / 2 ^ 24 := by rw [h7]; norm_num
  have h8 := r2.near 3
  rw [contributions32, hd] at r1
  obtain ⟨s1, s2⟩ := sum32 2
  have h9 := C81_clear_signs _ (by norm_num) _ s2 R r1
  have u : unitOf (f4 0 0 0 4) 3 = 1 := by
    have : norm2 (f4 0 0 0 4) = 4 ^ 2 := by norm_num [norm2]
    simp only [unitOf, this, Pi.smul_apply, smul_eq_mul]
    rw [Real.sqrt_sq (by norm_num)]; norm_num
  rw [s1] at h9
  have n1 : norm2 (f4 0 0 0 4) = 4 ^ 2 := by norm_num [norm2]
  have n2 : norm2 (-f4 0 0 0 4) = 4 ^ 2 := by norm_num [norm2]
  rw [h7] at h8
  rcases h9 with rfl | rfl
  · left
    rw [u, n1, Real.sqrt_sq (by norm_num)] at h8
    refine h8.trans (by norm_num)
  · right
    rw [unitOf_neg, Pi.neg_apply, u, n2, Real.sqrt_sq (by norm_num), sub_neg_eq_add] at h8
    refine h8.trans (by norm_num)

/-- The hypotheses of `C33_long`: opposite rotations do not cancel out. -/
example : 1 ≤ norm2 (alignedSum [(1, f4 0 0 0 1), (1, f4 0 0 0 (-1))]) := by
  have h := C33_long [(1, f4 0 0 0 1), (1, f4 0 0 0 (-1))] (by simp) (1, f4 0 0 0 1) (by simp)
  refine le_trans ?_ h
  norm_num [norm2]

end Ozz.Props
