import Verif.Spec.FloatTrackLerp
import Verif.Proofs.FloatTrackSample
import Verif.Proofs.FloatGlam

/-! Sampling vector and quaternion tracks in single precision. -/

namespace Ozz.TrackSampling

open Ieee Spec F32 Sampling Triggering

section
variable {V : Type} {t : Track F32 V} {x : F32}

theorem ratios_lt (h : Ratios32Ok t) {i j : Nat} {a b : F32} (hij : i < j) (hi : t.ratios[i]? = some a) (hj : t.ratios[j]? = some b) :
    val a < val b := by
  obtain ⟨hi', rfl⟩ := List.getElem?_eq_some_iff.1 hi
  obtain ⟨hj', rfl⟩ := List.getElem?_eq_some_iff.1 hj
  exact List.pairwise_iff_getElem.1 h.increasing i j hi' hj' hij

theorem ratio_unit (h : Ratios32Ok t) {i : Nat} {a : F32} (hi : t.ratios[i]? = some a) : Unit01 a :=
  h.unit _ (List.mem_of_getElem? hi)

theorem step_eq (h : Ratios32Ok t) {i : Nat} (hi : i < t.keyCount) : ∃ b, t.step i = .ok b ∧ (IsStep t i ↔ b = true) := by
  have := h.stepsLen
  have hg : t.steps[i / 8]? = some (t.steps[i / 8]'(by omega)) := List.getElem?_eq_getElem (by omega)
  refine ⟨_, by simp only [Track.step, getIdx_some' hg, bind, Except.bind, pure, Except.pure]; rfl, ?_⟩
  unfold IsStep
  rw [hg]
  constructor
  · rintro ⟨b, hb, hb'⟩
    injection hb with hb; subst hb
    rw [Nat.testBit] at hb'
    simp at hb'
    simpa using hb'
  · intro hb
    refine ⟨_, rfl, ?_⟩
    rw [Nat.testBit]
    simp
    simpa using hb

/-- What a run gives, whatever the values are. -/
theorem run_cases (ops : ValueOps F32 V) (h : Ratios32Ok t) (hx : Finite32 x.bits) :
    (t.keyCount = 0 ∧ run ops (some t) x = .ok ops.default) ∨
    (0 < t.keyCount ∧ val x < 0 ∧ ∃ v, t.values[0]? = some v ∧ run ops (some t) x = .ok v) ∨
    (0 < t.keyCount ∧ (∃ r, t.ratios[t.keyCount - 1]? = some r ∧ val r ≤ val x) ∧
      ∃ v, t.values[t.keyCount - 1]? = some v ∧ run ops (some t) x = .ok v) ∨
    ∃ i r0 r1 v0 v1, i + 1 < t.keyCount ∧ t.ratios[i]? = some r0 ∧ t.ratios[i + 1]? = some r1 ∧ t.values[i]? = some v0 ∧
      t.values[i + 1]? = some v1 ∧ val r0 ≤ val x ∧ val x < val r1 ∧
      (IsStep t i ∧ run ops (some t) x = .ok v0 ∨
       ¬ IsStep t i ∧ run ops (some t) x = .ok (ops.lerp v0 v1 ((x - r0) / (r1 - r0)))) := by
  have hl := h.ratiosLen
  have hvl := h.valuesLen
  by_cases h0 : t.keyCount = 0
  · left
    refine ⟨h0, ?_⟩
    unfold run
    simp only
    rw [if_pos (by omega)]
  right
  have hk : 0 < t.keyCount := by omega
  have lx : (x < (0 : F32)) ↔ val x < 0 := by
    rw [lt32_val (y := (0 : F32)) hx zero_finite, val_zero32]
  have gx : ((1 : F32) < x) ↔ 1 < val x := by
    rw [lt32_val (x := (1 : F32)) one_finite hx, val_one32]
  have rget : ∀ i, (hi : i < t.keyCount) → t.ratios[i]? = some (t.ratios[i]'(by omega)) := fun i hi => List.getElem?_eq_getElem (by omega)
  have vget : ∀ i, (hi : i < t.keyCount) → t.values[i]? = some (t.values[i]'(by omega)) := fun i hi => List.getElem?_eq_getElem (by omega)
  have r0 : val (t.ratios[0]'(by omega)) = 0 := h.first _ (by rw [List.head?_eq_getElem?, rget 0 hk])
  have last : t.values.getLast? = some (t.values[t.keyCount - 1]'(by omega)) := by
    rw [List.getLast?_eq_getElem?, ← vget _ (by omega)]
    exact congrArg (fun n => t.values[n - 1]?) hvl
  unfold run
  simp only [if_neg (show ¬ t.ratios.length = 0 by omega), lx, gx]
  by_cases hn : val x < 0
  · left
    refine ⟨hk, hn, _, vget 0 hk, ?_⟩
    rw [if_pos (.inr hn), getIdx_some' (vget 0 hk)]
  right
  by_cases h1 : t.ratios.length = 1
  · left
    have hk1 : t.keyCount - 1 = 0 := by omega
    rw [if_pos (.inl h1), getIdx_some' (vget 0 hk)]
    simp only [hk1]
    exact ⟨hk, ⟨_, rget 0 hk, by rw [r0]; exact not_lt.1 hn⟩, _, vget 0 hk, rfl⟩
  rw [if_neg (by tauto)]
  by_cases hg : 1 < val x
  · left
    refine ⟨hk, ⟨_, rget _ (by omega), ((ratio_unit h (rget _ (by omega))).le_one).trans hg.le⟩, _, vget _ (by omega), ?_⟩
    rw [if_pos hg, last]
  rw [if_neg hg]
  cases hf : t.ratios.findIdx? (fun y => decide (x < y)) with
  | none =>
    left
    simp only
    rw [List.findIdx?_eq_none_iff] at hf
    refine ⟨hk, ⟨_, rget _ (by omega), ?_⟩, _, vget _ (by omega), ?_⟩
    · have := hf _ (List.mem_of_getElem? (rget (t.keyCount - 1) (by omega)))
      rw [decide_eq_false_iff_not, lt32_val hx (ratio_unit h (rget _ (by omega))).finite] at this
      exact not_lt.1 this
    · obtain ⟨b, hb, -⟩ := step_eq h (show t.keyCount - 1 < t.keyCount by omega)
      simp only [interpolate, hb, bind, Except.bind, beq_self_eq_true, Bool.or_true, if_true]
      exact getIdx_some' (vget _ (by omega))
  | some i =>
    right
    simp only
    rw [List.findIdx?_eq_some_iff_getElem] at hf
    obtain ⟨hi, hlt, hbefore⟩ := hf
    simp only [decide_eq_true_eq] at hlt hbefore
    have hik : i < t.keyCount := by omega
    rw [lt32_val hx (ratio_unit h (rget _ hik)).finite] at hlt
    have hi0 : i ≠ 0 := by
      rintro rfl
      rw [r0] at hlt; exact hn hlt
    have hb := hbefore (i - 1) (by omega)
    rw [lt32_val hx (ratio_unit h (rget _ (show i - 1 < t.keyCount by omega))).finite] at hb
    obtain ⟨j, rfl⟩ : ∃ j, i = j + 1 := ⟨i - 1, by omega⟩
    simp only [Nat.add_sub_cancel] at hb
    have hne : (j + 1 == t.keyCount) = false := by rw [beq_eq_false_iff_ne]; omega
    obtain ⟨b, hs, hsb⟩ := step_eq h (show j < t.keyCount by omega)
    refine ⟨j, _, _, _, _, hik, rget _ (by omega), rget _ hik, vget _ (by omega), vget _ hik, not_lt.1 hb, hlt, ?_⟩
    simp only [interpolate, Nat.add_sub_cancel, hs, bind, Except.bind, pure, Except.pure, hne, Bool.or_false,
      getIdx_some' (rget _ hik), getIdx_some' (rget j (by omega)), getIdx_some' (vget _ hik), getIdx_some' (vget j (by omega))]
    cases b with
    | true => left; exact ⟨hsb.2 rfl, by simp⟩
    | false => right; exact ⟨fun hc => by simpa using hsb.1 hc, by simp⟩

/-- The fraction of the way between two ratios. -/
theorem between32 (h : Ratios32Ok t) (hx : Finite32 x.bits) {i : Nat} {r0 r1 : F32} (h0 : t.ratios[i]? = some r0)
    (h1 : t.ratios[i + 1]? = some r1) (l0 : val r0 ≤ val x) (l1 : val x < val r1) :
    Unit01 ((x - r0) / (r1 - r0)) ∧ |val ((x - r0) / (r1 - r0)) - (val x - val r0) / (val r1 - val r0)| ≤ 1 / 2 ^ 22 ∧
    0 ≤ (val x - val r0) / (val r1 - val r0) ∧ (val x - val r0) / (val r1 - val r0) ≤ 1 ∧
    (val x = val r0 → val ((x - r0) / (r1 - r0)) = 0) := by
  have u0 := ratio_unit h h0
  have u1 := ratio_unit h h1
  have lt := ratios_lt h (Nat.lt_succ_self i) h0 h1
  obtain ⟨-, -, fF, -, -, -, -, f0, f1, -⟩ := fraction_steps u0.finite u1.finite hx u0.nonneg u1.le_one lt l0 l1.le
  have d : 0 < val r1 - val r0 := by linarith
  exact ⟨⟨fF, f0, f1⟩, fraction_error u0.finite u1.finite hx u0.nonneg u1.le_one lt l0 l1.le, div_nonneg (by linarith) d.le,
    (div_le_one d).mpr (by linarith), (fraction_ends u0.finite u1.finite hx u0.nonneg u1.le_one lt).1⟩

end

/-! ## Mixing -/

theorem mixDiff_accurate : AccurateMix mixDiff where
  near a b t M ha hb ht hA hB hM := by
    have st := lerp_steps ⟨ha, hA.trans hM⟩ ⟨hb, hB.trans hM⟩ ht.finite ht.nonneg ht.le_one
    have e : mixDiff a b t = (b - a) * t + a := add_comm32 ha st.pF
    rw [e]
    refine ⟨st.lF, ?_⟩
    have := lerp_error st ht.nonneg ht.le_one hA hB
    change |val ((b - a) * t + a) - ((val b - val a) * val t + val a)| ≤ _ at this
    rw [add_comm (val a)]
    refine this.trans ?_
    have : (1:ℝ) / 2 ^ 150 ≤ 1 / 2 ^ 148 := by norm_num
    linarith
  start a b t ha hb hA hB ht h0 := by
    have st := lerp_steps ⟨ha, hA⟩ ⟨hb, hB⟩ ht (by change 0 ≤ val t; rw [h0]) (by change val t ≤ 1; rw [h0]; norm_num)
    have e : mixDiff a b t = (b - a) * t + a := add_comm32 ha st.pF
    rw [e]
    exact (lerp_ends st).1 h0

theorem mixSum_accurate : AccurateMix mixSum where
  near a b t M ha hb ht hA hB hM := by
    have M0 : 0 ≤ M := (abs_nonneg _).trans hA
    have t0 : 0 ≤ val t := ht.nonneg
    have t1 : val t ≤ 1 := ht.le_one
    obtain ⟨f1, e1⟩ := sub_ok (x := (1 : F32)) one_finite ht.finite (by
      rw [val_one32, abs_of_nonneg (by linarith)]; exact (by linarith : 1 - val t ≤ 1).trans (by norm_num))
    rw [val_one32, abs_of_nonneg (a := 1 - val t) (by linarith)] at e1
    have e1' := abs_le.mp e1
    have b1 : |val a * val (1 - t)| ≤ 1.001 * M := by
      rw [abs_mul]
      have : |val (1 - t)| ≤ 1.001 := by rw [abs_le]; constructor <;> linarith
      have := mul_le_mul hA this (abs_nonneg _) M0
      linarith
    have big : (1.001:ℝ) * 2 ^ 126 ≤ 2 ^ 127 := by norm_num
    have b2 : |val b * val t| ≤ M := by
      rw [abs_mul, abs_of_nonneg t0]
      have := mul_le_mul hB t1 t0 M0
      linarith
    obtain ⟨f2, e2⟩ := mul_ok ha f1 (b1.trans (by linarith))
    obtain ⟨f3, e3⟩ := mul_ok hb ht.finite (b2.trans (hM.trans (by norm_num)))
    have d1 : |val a * val (1 - t) - val a * (1 - val t)| ≤ M / 2 ^ 24 := by
      rw [← mul_sub, abs_mul]
      have := mul_le_mul hA (e1.trans (show (1 - val t) / 2 ^ 24 ≤ 1 / 2 ^ 24 by linarith)) (abs_nonneg _) M0
      linarith
    have ex : |val a * (1 - val t) + val b * val t| ≤ M := by
      have h1 := abs_add_le (val a * (1 - val t)) (val b * val t)
      rw [abs_mul, abs_mul, abs_of_nonneg t0, abs_of_nonneg (by linarith : 0 ≤ 1 - val t)] at h1
      have h2 := mul_le_mul_of_nonneg_right hA (by linarith : 0 ≤ 1 - val t)
      have h3 := mul_le_mul_of_nonneg_right hB t0
      linarith
    have d1' := abs_le.mp d1
    have e2' := abs_le.mp (e2.trans (show |val a * val (1 - t)| / 2 ^ 24 + 1 / 2 ^ 150 ≤ 1.001 * M / 2 ^ 24 + 1 / 2 ^ 150 by
      have := div_le_div_of_nonneg_right b1 (show (0:ℝ) ≤ 2 ^ 24 by positivity)
      linarith))
    have e3' := abs_le.mp (e3.trans (show |val b * val t| / 2 ^ 24 + 1 / 2 ^ 150 ≤ M / 2 ^ 24 + 1 / 2 ^ 150 by
      have := div_le_div_of_nonneg_right b2 (show (0:ℝ) ≤ 2 ^ 24 by positivity)
      linarith))
    have ex' := abs_le.mp ex
    have s1 : |val (a * (1 - t)) + val (b * t)| ≤ 1.001 * M + 1 / 2 ^ 149 := by
      have : (1:ℝ) / 2 ^ 149 = 2 * (1 / 2 ^ 150) := by norm_num
      rw [abs_le]; constructor <;> linarith
    obtain ⟨f4, e4⟩ := add_ok f2 f3 (s1.trans (by
      have : (1.001:ℝ) * 2 ^ 126 + 1 / 2 ^ 149 ≤ 2 ^ 127 := by norm_num
      linarith))
    refine ⟨f4, ?_⟩
    have e4' := abs_le.mp (e4.trans (div_le_div_of_nonneg_right s1 (show (0:ℝ) ≤ 2 ^ 24 by positivity)))
    have h149 : (1:ℝ) / 2 ^ 149 = 2 * (1 / 2 ^ 150) := by norm_num
    have h148 : (1:ℝ) / 2 ^ 148 = 4 * (1 / 2 ^ 150) := by norm_num
    have h21 : M / 2 ^ 21 = 8 * (M / 2 ^ 24) := by ring
    change |val (a * (1 - t) + b * t) - _| ≤ _
    rw [show val a + (val b - val a) * val t = val a * (1 - val t) + val b * val t by ring, h148, h21]
    have t150 : (0:ℝ) < 1 / 2 ^ 150 := by positivity
    rw [h149] at e4'
    rw [abs_le]; constructor <;> linarith
  start a b t ha hb hA hB ht h0 := by
    have one := sub_roundsTo (x := (1 : F32)) one_finite ht
    obtain ⟨f1, -⟩ := sub_ok (x := (1 : F32)) one_finite ht (by rw [val_one32, h0]; norm_num)
    have v1 : val (1 - t) = 1 := by
      have := rounds_exact one f1 one_finite (by
        change val (1 : F32) - val t = val (1 : F32)
        rw [h0, sub_zero])
      change val (1 - t) = val (1 : F32) at this
      rw [this, val_one32]
    have p : |val a * val (1 - t)| ≤ 2 ^ 126 := by rw [v1, mul_one]; exact hA
    obtain ⟨f2, -⟩ := mul_ok ha f1 (p.trans (by norm_num))
    have v2 : val (a * (1 - t)) = val a := rounds_exact (mul_roundsTo ha f1) f2 ha (by change val a * val (1 - t) = val a; rw [v1, mul_one])
    obtain ⟨f3, v3⟩ := MotionBlending.mul_still hb ht (.inr h0)
    obtain ⟨f4, -⟩ := add_ok f2 f3 (by rw [v2, v3, add_zero]; exact hA.trans (by norm_num))
    exact rounds_exact (add_roundsTo f2 f3) f4 ha (by change val (a * (1 - t)) + val (b * t) = val a; rw [v2, v3, add_zero])

/-! ## Samples of the track of real vectors -/

section
variable {d : Nat} {t : Track F32 (Fin d → F32)} {x : F32} {dflt : Fin d → ℝ} {lerp : (Fin d → ℝ) → (Fin d → ℝ) → ℝ → Fin d → ℝ}

theorem realVecs_ratio {i : Nat} {r : F32} (h : t.ratios[i]? = some r) : (realVecs t).ratios[i]? = some (val r) := by
  simp only [realVecs, List.getElem?_map, h, Option.map_some]

theorem realVecs_value {i : Nat} {v : Fin d → F32} (h : t.values[i]? = some v) :
    (realVecs t).values[i]? = some fun c => val (v c) := by
  simp only [realVecs, List.getElem?_map, h, Option.map_some]

theorem sample_first (h : Ratios32Ok t) (hx : val x < 0) {v : Fin d → F32} (hv : t.values[0]? = some v) :
    IsSample dflt lerp (realVecs t) (val x) fun c => val (v c) := by
  refine .first ?_ ?_
  · intro r hr
    obtain ⟨r', hr', rfl⟩ := List.mem_map.1 hr
    exact lt_of_lt_of_le hx (h.unit r' hr').nonneg
  · rw [List.head?_eq_getElem?]; exact realVecs_value hv

theorem sample_last (h : Ratios32Ok t) (hk : 0 < t.keyCount) {r : F32} (hr : t.ratios[t.keyCount - 1]? = some r) (hx : val r ≤ val x)
    {v : Fin d → F32} (hv : t.values[t.keyCount - 1]? = some v) : IsSample dflt lerp (realVecs t) (val x) fun c => val (v c) := by
  have hl := h.ratiosLen
  refine .last ?_ ?_
  · intro r' hr'
    obtain ⟨r'', hr'', rfl⟩ := List.mem_map.1 hr'
    obtain ⟨j, hj⟩ := List.mem_iff_getElem?.1 hr''
    have hj' := (List.getElem?_eq_some_iff.1 hj).1
    by_cases e : j = t.keyCount - 1
    · rw [e, hr] at hj
      injection hj with hj
      rw [← hj]; exact hx
    · exact (ratios_lt h (show j < t.keyCount - 1 by omega) hj hr).le.trans hx
  · rw [List.getLast?_eq_getElem?]
    have : (realVecs t).values.length = t.keyCount := by simp only [realVecs, List.length_map, h.valuesLen]
    rw [this]; exact realVecs_value hv

theorem sample_step {i : Nat} {r0 r1 : F32} {v0 : Fin d → F32} (h0 : t.ratios[i]? = some r0) (h1 : t.ratios[i + 1]? = some r1)
    (l0 : val r0 ≤ val x) (l1 : val x < val r1) (hs : IsStep t i) (hv : t.values[i]? = some v0) :
    IsSample dflt lerp (realVecs t) (val x) fun c => val (v0 c) :=
  .step (realVecs_ratio h0) (realVecs_ratio h1) l0 l1 hs (realVecs_value hv)

theorem sample_linear {i : Nat} {r0 r1 : F32} {v0 v1 : Fin d → F32} (h0 : t.ratios[i]? = some r0) (h1 : t.ratios[i + 1]? = some r1)
    (l0 : val r0 ≤ val x) (l1 : val x < val r1) (hs : ¬ IsStep t i) (hv : t.values[i]? = some v0) (hv1 : t.values[i + 1]? = some v1) :
    IsSample dflt lerp (realVecs t) (val x)
      (lerp (fun c => val (v0 c)) (fun c => val (v1 c)) ((val x - val r0) / (val r1 - val r0))) :=
  .linear (realVecs_ratio h0) (realVecs_ratio h1) l0 l1 hs (realVecs_value hv) (realVecs_value hv1)
    (by have : val r1 - val r0 ≠ 0 := by linarith
        field_simp; ring) rfl

end

/-! ## Vectors -/

section
variable {d : Nat} {t : Track F32 (Fin d → F32)} {x : F32} {mix : F32 → F32 → F32 → F32}

/-- The mixture at a fraction that is nearly `s`. -/
theorem mix_near (hm : AccurateMix mix) {a b f : F32} {M s : ℝ} (ha : Finite32 a.bits) (hb : Finite32 b.bits) (hf : Unit01 f)
    (hA : |val a| ≤ M) (hB : |val b| ≤ M) (hM : M ≤ 2 ^ 126) (hs : |val f - s| ≤ 1 / 2 ^ 22) :
    Finite32 (mix a b f).bits ∧ |val (mix a b f) - (val a + (val b - val a) * s)| ≤ M / 2 ^ 20 + 1 / 2 ^ 148 := by
  obtain ⟨F, e⟩ := hm.near a b f M ha hb hf hA hB hM
  refine ⟨F, ?_⟩
  have A := abs_le.mp hA
  have B := abs_le.mp hB
  have d : |val b - val a| ≤ 2 * M := by rw [abs_le]; constructor <;> linarith
  have k : |(val b - val a) * (val f - s)| ≤ 2 * M * (1 / 2 ^ 22) := by
    rw [abs_mul]
    exact mul_le_mul d hs (abs_nonneg _) ((abs_nonneg _).trans d)
  have : val (mix a b f) - (val a + (val b - val a) * s) =
      (val (mix a b f) - (val a + (val b - val a) * val f)) + (val b - val a) * (val f - s) := by ring
  rw [this]
  refine (abs_add_le _ _).trans ((add_le_add e k).trans (le_of_eq ?_))
  ring

theorem vectors_near (hm : AccurateMix mix) (h : Ratios32Ok t) (hx : Finite32 x.bits) {M : ℝ} (hM0 : 0 ≤ M) (hM : M ≤ 2 ^ 126)
    (hv : ∀ v ∈ t.values, ∀ c, Finite32 (v c).bits ∧ |val (v c)| ≤ M) :
    ∃ (v : Fin d → F32) (w : Fin d → ℝ), run (vecOps mix d) (some t) x = .ok v ∧
      IsSample 0 (fun a b s => a + s • (b - a)) (realVecs t) (val x) w ∧
      ∀ c, Finite32 (v c).bits ∧ |val (v c) - w c| ≤ M / 2 ^ 20 + 1 / 2 ^ 148 := by
  have B0 : 0 ≤ M / 2 ^ 20 + 1 / 2 ^ 148 := by positivity
  have same : ∀ {i : Nat} {v : Fin d → F32}, t.values[i]? = some v → ∀ c, Finite32 (v c).bits ∧ |val (v c) - val (v c)| ≤ M / 2 ^ 20 + 1 / 2 ^ 148 :=
    fun hi c => ⟨(hv _ (List.mem_of_getElem? hi) c).1, by rw [sub_self, abs_zero]; exact B0⟩
  rcases run_cases (vecOps mix d) h hx with ⟨h0, e⟩ | ⟨hk, hn, v, h0, e⟩ | ⟨hk, ⟨r, hr, hl⟩, v, h0, e⟩ |
    ⟨i, r0, r1, v0, v1, hi, h0, h1, g0, g1, l0, l1, ⟨hs, e⟩ | ⟨hs, e⟩⟩
  · refine ⟨_, 0, e, .empty h0 rfl, fun c => ⟨zero_finite, ?_⟩⟩
    change |val (0 : F32) - 0| ≤ _
    rw [val_zero32, sub_zero, abs_zero]; exact B0
  · exact ⟨v, _, e, sample_first h hn h0, same h0⟩
  · exact ⟨v, _, e, sample_last h hk hr hl h0, same h0⟩
  · exact ⟨v0, _, e, sample_step h0 h1 l0 l1 hs g0, same g0⟩
  · refine ⟨_, _, e, sample_linear h0 h1 l0 l1 hs g0 g1, fun c => ?_⟩
    obtain ⟨U, er, -, -, -⟩ := between32 h hx h0 h1 l0 l1
    have a := hv _ (List.mem_of_getElem? g0) c
    have b := hv _ (List.mem_of_getElem? g1) c
    have := mix_near hm a.1 b.1 U a.2 b.2 hM er
    simp only [Pi.add_apply, Pi.smul_apply, Pi.sub_apply, smul_eq_mul]
    rw [mul_comm _ (val (v1 c) - val (v0 c))]
    exact this

theorem vectors_at_key (hm : AccurateMix mix) (h : Ratios32Ok t) (hx : Finite32 x.bits)
    (hv : ∀ v ∈ t.values, ∀ c, Finite32 (v c).bits ∧ |val (v c)| ≤ 2 ^ 126) {i : Nat} {r : F32} {v : Fin d → F32}
    (hr : t.ratios[i]? = some r) (hvi : t.values[i]? = some v) (e : val x = val r) :
    ∃ v', run (vecOps mix d) (some t) x = .ok v' ∧ ∀ c, val (v' c) = val (v c) := by
  have il := (List.getElem?_eq_some_iff.1 hr).1
  rw [h.ratiosLen] at il
  have ru := ratio_unit h hr
  rcases run_cases (vecOps mix d) h hx with ⟨h0, -⟩ | ⟨hk, hn, -⟩ | ⟨hk, ⟨r', hr', hl⟩, v', h0, e'⟩ |
    ⟨j, r0, r1, v0, v1, hj, h0, h1, g0, g1, l0, l1, hc⟩
  · omega
  · have := ru.nonneg
    change 0 ≤ val r at this
    linarith
  · have : i = t.keyCount - 1 := by
      by_contra hne
      have := ratios_lt h (show i < t.keyCount - 1 by omega) hr hr'
      linarith
    subst this
    rw [hvi] at h0
    injection h0 with h0
    exact ⟨v', e', fun c => by rw [h0]⟩
  · have : i = j := by
      rcases lt_trichotomy i j with hlt | heq | hgt
      · have := ratios_lt h hlt hr h0
        linarith
      · exact heq
      · rcases Nat.lt_or_ge (j + 1) i with h2 | h2
        · have := ratios_lt h h2 h1 hr
          linarith
        · have : j + 1 = i := by omega
          subst this
          rw [hr] at h1
          injection h1 with h1
          rw [h1] at e
          linarith
    subst this
    rw [hvi] at g0
    injection g0 with g0
    subst g0
    rw [hr] at h0
    injection h0 with h0
    subst h0
    rcases hc with ⟨-, e'⟩ | ⟨-, e'⟩
    · exact ⟨_, e', fun c => rfl⟩
    · refine ⟨_, e', fun c => ?_⟩
      obtain ⟨U, -, -, -, z⟩ := between32 h hx hr h1 l0 l1
      have a := hv _ (List.mem_of_getElem? hvi) c
      have b := hv _ (List.mem_of_getElem? g1) c
      exact hm.start _ _ _ a.1 b.1 a.2 b.2 U.finite (z e)

end

/-! ## Rotations -/

section
open MotionBlending Blending

variable {t : Track F32 (F4 F32)} {x : F32} {mix : F32 → F32 → F32 → F32} {g : Glam F32} {flip : F32 → Bool}

theorem unitOf_norm2 {q : F4 ℝ} (h : 0 < norm2 q) : norm2 (unitOf q) = 1 := by
  have s : √(norm2 q) ^ 2 = norm2 q := Real.sq_sqrt h.le
  have p : 0 < √(norm2 q) := Real.sqrt_pos.mpr h
  have e : norm2 (unitOf q) = (√(norm2 q) ^ 2)⁻¹ * norm2 q := by
    simp only [unitOf, norm2, Pi.smul_apply, smul_eq_mul]; ring
  rw [e, s, inv_mul_cancel₀ h.ne']

/-- Near a unit quaternion the squared norm is nearly one. -/
theorem near_unit_norm2 {a u : F4 ℝ} (hu : norm2 u = 1) (h : ∀ c, |a c - u c| ≤ 7 / 2 ^ 24) : |norm2 a - 1| ≤ 1 / 2 ^ 19 := by
  have l := (coords_of_unit (q := u) (by rw [hu]; norm_num)).2
  have k : ∀ c, |a c ^ 2 - u c ^ 2| ≤ 7 / 2 ^ 24 * (2 * |u c| + 7 / 2 ^ 24) := by
    intro c
    rw [show a c ^ 2 - u c ^ 2 = (a c - u c) * (2 * u c + (a c - u c)) by ring, abs_mul]
    refine mul_le_mul (h c) ((abs_add_le _ _).trans (add_le_add ?_ (h c))) (abs_nonneg _) (by norm_num)
    rw [abs_mul, abs_two]
  have k0 := abs_le.mp (k 0)
  have k1 := abs_le.mp (k 1)
  have k2 := abs_le.mp (k 2)
  have k3 := abs_le.mp (k 3)
  have : |norm2 a - norm2 u| ≤ 1 / 2 ^ 19 := by
    unfold norm2
    rw [abs_le]
    constructor <;> linarith
  rwa [hu] at this

/-- The mixture is not short if the ends do not point away from each other. -/
theorem mix_long {a b : F4 ℝ} {s δ : ℝ} (ha : |norm2 a - 1| ≤ 1 / 2 ^ 10) (hb : |norm2 b - 1| ≤ 1 / 2 ^ 10) (s0 : 0 ≤ s) (s1 : s ≤ 1)
    (hδ : δ ≤ 1 / 2 ^ 21) (hd : -δ ≤ dot4 a b) : 0.49 ≤ norm2 (a + s • (b - a)) := by
  have e : norm2 (a + s • (b - a)) = (1 - s) ^ 2 * norm2 a + s ^ 2 * norm2 b + 2 * (s * (1 - s)) * dot4 a b := by
    simp only [norm2, dot4, Pi.add_apply, Pi.smul_apply, Pi.sub_apply, smul_eq_mul]; ring
  have A := abs_le.mp ha
  have B := abs_le.mp hb
  have p : 0 ≤ s * (1 - s) := mul_nonneg s0 (by linarith)
  have q : s * (1 - s) ≤ 1 / 4 := by nlinarith [sq_nonneg (s - 1 / 2)]
  have h1 := mul_le_mul_of_nonneg_left (show 0.999 ≤ norm2 a by linarith) (sq_nonneg (1 - s))
  have h2 := mul_le_mul_of_nonneg_left (show 0.999 ≤ norm2 b by linarith) (sq_nonneg s)
  have h3 := mul_le_mul_of_nonneg_left (show -(1 / 2 ^ 21) ≤ dot4 a b by linarith) (show 0 ≤ 2 * (s * (1 - s)) by linarith)
  rw [e]
  nlinarith

theorem quat_mix (hm : AccurateMix mix) (hg : Accurate g) (hf : TellsSign flip) {a b : F4 F32} {f : F32} {s : ℝ}
    (ha : ∀ c, Finite32 (a c).bits) (hb : ∀ c, Finite32 (b c).bits) (na : |norm2 (fun c => val (a c)) - 1| ≤ 1 / 2 ^ 10)
    (nb : |norm2 (fun c => val (b c)) - 1| ≤ 1 / 2 ^ 10) (hU : Unit01 f) (s0 : 0 ≤ s) (s1 : s ≤ 1) (hs : |val f - s| ≤ 1 / 2 ^ 22) :
    ∃ σ : ℝ, (σ = 1 ∨ σ = -1) ∧ -(1 / 2 ^ 21) ≤ σ * dot4 (fun c => val (a c)) (fun c => val (b c)) ∧
      (∀ c, Finite32 ((quatOps g flip mix).lerp a b f c).bits) ∧
      |norm2 (fun c => val ((quatOps g flip mix).lerp a b f c)) - 1| ≤ 1 / 2 ^ 19 ∧
      ∀ c, |val ((quatOps g flip mix).lerp a b f c) -
        unitOf ((fun c => val (a c)) + s • (σ • (fun c => val (b c)) - fun c => val (a c))) c| ≤ 1 / 2 ^ 17 := by
  set A : F4 ℝ := fun c => val (a c) with hA
  set B : F4 ℝ := fun c => val (b c) with hB
  have an := abs_le.mp na
  have bn := abs_le.mp nb
  have sm : |val (a 0) * val (b 0)| + |val (a 1) * val (b 1)| + |val (a 2) * val (b 2)| + |val (a 3) * val (b 3)| ≤ 1.001 := by
    have k : ∀ c, |val (a c) * val (b c)| ≤ (A c ^ 2 + B c ^ 2) / 2 := by
      intro c
      change |A c * B c| ≤ _
      rw [abs_le]; constructor <;> nlinarith [sq_nonneg (A c + B c), sq_nonneg (A c - B c)]
    have h0 := k 0
    have h1 := k 1
    have h2 := k 2
    have h3 := k 3
    unfold norm2 at an bn
    linarith
  obtain ⟨df, de⟩ := hg.dot a b 1.001 ha hb sm (by norm_num)
  change |val (g.dot a b) - dot4 A B| ≤ _ at de
  have de' := abs_le.mp (de.trans (show (5 * 1.001 / 2 ^ 24 + 1 / 2 ^ 147 : ℝ) ≤ 1 / 2 ^ 21 by norm_num))
  -- the end that is used
  obtain ⟨σ, b', hσ, hd, hb', fb, eb⟩ : ∃ (σ : ℝ) (b' : F4 F32), (σ = 1 ∨ σ = -1) ∧ -(1 / 2 ^ 21) ≤ σ * dot4 A B ∧
      (fun c => if flip (g.dot a b) then -(b c) else b c) = b' ∧ (∀ c, Finite32 (b' c).bits) ∧ ∀ c, val (b' c) = σ * B c := by
    have sg := hf _ df
    cases hfl : flip (g.dot a b) with
    | true =>
      have : val (g.dot a b) ≤ 0 := by
        by_contra hc
        rw [sg.1 (not_le.1 hc)] at hfl
        exact Bool.noConfusion hfl
      refine ⟨-1, fun c => -(b c), .inr rfl, by linarith, rfl, fun c => neg_finite.mpr (hb c), fun c => ?_⟩
      rw [neg_one_mul]; exact neg_real (b c)
    | false =>
      have : 0 ≤ val (g.dot a b) := by
        by_contra hc
        rw [sg.2 (not_le.1 hc)] at hfl
        exact Bool.noConfusion hfl
      exact ⟨1, b, .inl rfl, by linarith, rfl, hb, fun c => (one_mul _).symm⟩
  have nσ : norm2 (σ • B) = norm2 B := by
    rcases hσ with rfl | rfl <;> simp only [norm2, Pi.smul_apply, smul_eq_mul] <;> ring
  have dσ : dot4 A (σ • B) = σ * dot4 A B := by simp only [dot4, Pi.smul_apply, smul_eq_mul]; ring
  have ca := (coords_of_unit na).1
  have cb := (coords_of_unit (q := σ • B) (by rw [nσ]; exact nb)).1
  have long := mix_long (s := s) na (by rw [nσ]; exact nb) s0 s1 le_rfl (by rw [dσ]; exact hd)
  set R : F4 ℝ := A + s • (σ • B - A) with hR
  set m : F4 F32 := fun c => mix (a c) (b' c) f with hmdef
  have mn : ∀ c, Finite32 (m c).bits ∧ |val (m c) - R c| ≤ 1.01 / 2 ^ 20 := by
    intro c
    have vb : |val (b' c)| ≤ 1001 / 1000 := by rw [eb]; exact cb c
    obtain ⟨F, e⟩ := mix_near hm (ha c) (fb c) hU (ca c) vb (by norm_num) hs
    refine ⟨F, ?_⟩
    have : R c = val (a c) + (val (b' c) - val (a c)) * s := by
      rw [eb, hR]
      simp only [Pi.add_apply, Pi.smul_apply, Pi.sub_apply, smul_eq_mul, hA]; ring
    rw [this]
    exact e.trans (by norm_num)
  set m' : F4 ℝ := fun c => val (m c) with hm'
  have sr : |√(norm2 m') - √(norm2 R)| ≤ 3 / 2 ^ 20 := by
    refine (sqrt_norm2_sub m' R).trans (Real.sqrt_le_iff.mpr ⟨by norm_num, ?_⟩)
    have hc : ∀ c, (m' c - R c) ^ 2 ≤ (1.01 / 2 ^ 20) ^ 2 := fun c => by
      rw [← sq_abs]; exact pow_le_pow_left₀ (abs_nonneg _) (mn c).2 2
    have h0 := hc 0
    have h1 := hc 1
    have h2 := hc 2
    have h3 := hc 3
    simp only [norm2, Pi.sub_apply]
    norm_num at h0 h1 h2 h3 ⊢
    linarith
  have r7 : 0.7 ≤ √(norm2 R) := Real.le_sqrt_of_sq_le (by norm_num at long ⊢; linarith)
  have rle : norm2 R ≤ 100 := by
    have hc : ∀ c, R c ^ 2 ≤ 25 := fun c => by
      have x1 := abs_le.mp (ca c)
      have x2 := abs_le.mp (cb c)
      simp only [Pi.smul_apply, smul_eq_mul] at x2
      have : R c = A c * (1 - s) + σ * B c * s := by
        rw [hR]; simp only [Pi.add_apply, Pi.smul_apply, Pi.sub_apply, smul_eq_mul]; ring
      rw [← sq_abs]
      have : |R c| ≤ 5 := by
        rw [this, abs_le]
        constructor <;> nlinarith
      nlinarith [abs_nonneg (R c)]
    have h0 := hc 0
    have h1 := hc 1
    have h2 := hc 2
    have h3 := hc 3
    unfold norm2; linarith
  have r10 : √(norm2 R) ≤ 10 := Real.sqrt_le_iff.mpr ⟨by norm_num, by norm_num; linarith⟩
  have sr' := abs_le.mp sr
  have m6 : 0.6 ≤ √(norm2 m') := by linarith
  have m11 : √(norm2 m') ≤ 11 := by linarith
  have n0 : 0 ≤ norm2 m' := by unfold norm2; positivity
  have nsq : √(norm2 m') ^ 2 = norm2 m' := Real.sq_sqrt n0
  have nlow : 0.36 ≤ norm2 m' := by rw [← nsq]; nlinarith
  have nhigh : norm2 m' ≤ 121 := by rw [← nsq]; nlinarith [Real.sqrt_nonneg (norm2 m')]
  have lerpEq : (quatOps g flip mix).lerp a b f = g.normalize m := by
    change g.normalize (fun c => mix (a c) (if flip (g.dot a b) then -(b c) else b c) f) = _
    congr 1
    funext c
    exact congrArg (fun z => mix (a c) z f) (congrFun hb' c)
  have nz := hg.normalize m (fun c => (mn c).1) (le_trans (by norm_num) nlow) (nhigh.trans (by norm_num))
  rw [lerpEq]
  refine ⟨σ, hσ, hd, fun c => (nz c).1, near_unit_norm2 (unitOf_norm2 (q := m') (by linarith)) fun c => (nz c).2, fun c => ?_⟩
  have un := unit_near (a := m') (b := R) (D := 1.01 / 2 ^ 20) (by linarith) (by linarith) (fun c => (mn c).2) c
  have ue : m' c / √(norm2 m') = unitOf m' c := by
    simp only [unitOf, Pi.smul_apply, smul_eq_mul]; rw [div_eq_inv_mul]
  rw [ue] at un
  have ub : 3 * (1.01 / 2 ^ 20) / √(norm2 R) ≤ (4.4 / 2 ^ 20 : ℝ) := by
    rw [div_le_iff₀ (by linarith)]
    nlinarith
  have := (nz c).2
  have := abs_sub_le (val (g.normalize m c)) (unitOf m' c) (unitOf R c)
  refine this.trans ((add_le_add (nz c).2 (un.trans ub)).trans (by norm_num))

theorem nlerpShort_is (δ : ℝ) (hδ : 0 ≤ δ) : ShortWay δ nlerpShort := by
  intro a b s
  unfold nlerpShort
  by_cases h : dot4 a b < 0
  · exact ⟨-1, .inr rfl, by linarith, by rw [if_pos h, neg_one_smul]⟩
  · exact ⟨1, .inl rfl, by linarith, by rw [if_neg h, one_smul]⟩

theorem rotations_near (hm : AccurateMix mix) (hg : Accurate g) (hf : TellsSign flip) (h : Ratios32Ok t) (hx : Finite32 x.bits) {κ : ℝ}
    (hκ : κ ≤ 1 / 2 ^ 10) (hv : ∀ q ∈ t.values, (∀ c, Finite32 (q c).bits) ∧ |norm2 (fun c => val (q c)) - 1| ≤ κ) :
    ∃ (q : F4 F32) (w : F4 ℝ) (L : F4 ℝ → F4 ℝ → ℝ → F4 ℝ), run (quatOps g flip mix) (some t) x = .ok q ∧ ShortWay (1 / 2 ^ 21) L ∧
      IsSample (f4 0 0 0 1) L (realVecs t) (val x) w ∧ |norm2 (fun c => val (q c)) - 1| ≤ max κ (1 / 2 ^ 19) ∧
      ∀ c, Finite32 (q c).bits ∧ |val (q c) - w c| ≤ 1 / 2 ^ 17 := by
  have same : ∀ {i : Nat} {q : F4 F32}, t.values[i]? = some q → |norm2 (fun c => val (q c)) - 1| ≤ max κ (1 / 2 ^ 19) ∧
      ∀ c, Finite32 (q c).bits ∧ |val (q c) - val (q c)| ≤ 1 / 2 ^ 17 := fun hi =>
    ⟨(hv _ (List.mem_of_getElem? hi)).2.trans (le_max_left _ _), fun c => ⟨(hv _ (List.mem_of_getElem? hi)).1 c, by
      rw [sub_self, abs_zero]; norm_num⟩⟩
  have sw := nlerpShort_is (1 / 2 ^ 21) (by norm_num)
  rcases run_cases (quatOps g flip mix) h hx with ⟨h0, e⟩ | ⟨hk, hn, v, h0, e⟩ | ⟨hk, ⟨r, hr, hl⟩, v, h0, e⟩ |
    ⟨i, r0, r1, v0, v1, hi, h0, h1, g0, g1, l0, l1, ⟨hs, e⟩ | ⟨hs, e⟩⟩
  · refine ⟨_, _, _, e, sw, .empty h0 rfl, ?_, fun c => ?_⟩
    · have : (fun c => val ((quatOps g flip mix).default c)) = (f4 0 0 0 1 : F4 ℝ) := by
        funext c
        fin_cases c
        · exact val_zero32
        · exact val_zero32
        · exact val_zero32
        · exact val_one32
      rw [this]
      refine le_trans ?_ (le_max_right _ _)
      norm_num [norm2, f4]
    · fin_cases c
      · exact ⟨zero_finite, by change |val (0 : F32) - 0| ≤ _; rw [val_zero32]; norm_num⟩
      · exact ⟨zero_finite, by change |val (0 : F32) - 0| ≤ _; rw [val_zero32]; norm_num⟩
      · exact ⟨zero_finite, by change |val (0 : F32) - 0| ≤ _; rw [val_zero32]; norm_num⟩
      · exact ⟨one_finite, by change |val (1 : F32) - 1| ≤ _; rw [val_one32]; norm_num⟩
  · exact ⟨v, _, _, e, sw, sample_first h hn h0, same h0⟩
  · exact ⟨v, _, _, e, sw, sample_last h hk hr hl h0, same h0⟩
  · exact ⟨v0, _, _, e, sw, sample_step h0 h1 l0 l1 hs g0, same g0⟩
  · obtain ⟨U, er, s0, s1, -⟩ := between32 h hx h0 h1 l0 l1
    have a := hv _ (List.mem_of_getElem? g0)
    have b := hv _ (List.mem_of_getElem? g1)
    obtain ⟨σ, hσ, hd, fin, nn, near⟩ := quat_mix hm hg hf a.1 b.1 (a.2.trans hκ) (b.2.trans hκ) U s0 s1 er
    classical
    let L : F4 ℝ → F4 ℝ → ℝ → F4 ℝ := fun p q s =>
      if p = (fun c => val (v0 c)) ∧ q = (fun c => val (v1 c)) then unitOf (p + s • (σ • q - p)) else nlerpShort p q s
    have hL : ShortWay (1 / 2 ^ 21) L := by
      intro p q s
      by_cases hpq : p = (fun c => val (v0 c)) ∧ q = (fun c => val (v1 c))
      · refine ⟨σ, hσ, ?_, if_pos hpq⟩
        rw [hpq.1, hpq.2]; exact hd
      · obtain ⟨σ', h1, h2, h3⟩ := sw p q s
        exact ⟨σ', h1, h2, (if_neg hpq).trans h3⟩
    refine ⟨_, _, L, e, hL, sample_linear h0 h1 l0 l1 hs g0 g1, nn.trans (le_max_right _ _), fun c => ⟨fin c, ?_⟩⟩
    have := near c
    have e : L (fun c => val (v0 c)) (fun c => val (v1 c)) ((val x - val r0) / (val r1 - val r0)) = _ := if_pos ⟨rfl, rfl⟩
    rw [e]
    exact this

/-- Dot products that are clearly not zero leave no choice. -/
theorem sample_clear {T : Track ℝ (F4 ℝ)} {X δ : ℝ} {L : F4 ℝ → F4 ℝ → ℝ → F4 ℝ} {dflt w : F4 ℝ} (hL : ShortWay δ L) (hδ : 0 ≤ δ)
    (hc : ∀ i a b, T.values[i]? = some a → T.values[i + 1]? = some b → δ < |dot4 a b|) (h : IsSample dflt L T X w) :
    IsSample dflt nlerpShort T X w := by
  cases h with
  | empty a b => exact .empty a b
  | first a b => exact .first a b
  | last a b => exact .last a b
  | step a b c d e f => exact .step a b c d e f
  | linear a b c d e f k l m =>
    refine .linear a b c d e f k l (m.trans ?_)
    have cl := hc _ _ _ f k
    obtain ⟨σ, hσ, hd, hl⟩ := hL _ _ _
    rw [hl, nlerpShort]
    rcases hσ with rfl | rfl
    · rw [if_neg (fun hn => by rw [abs_of_neg hn] at cl; linarith), one_smul]
    · rw [if_pos (by
        by_contra hn
        rw [abs_of_nonneg (not_lt.1 hn)] at cl
        linarith), neg_one_smul]

end

end Ozz.TrackSampling
