import Verif.Spec.TrackSampling
import Verif.Proofs.TrackSampling
import Verif.Proofs.FloatTrigger

/-! Sampling scalar tracks in single precision. -/

namespace Ozz.TrackSampling

open Ieee Spec F32 Sampling Triggering

variable {t : Track F32 F32} {x : F32}

/-- The value between key `i` and the next, as computed. -/
def mid (t : Track F32 F32) (x : F32) (i : Nat) : F32 :=
  gv t i + (gv t (i + 1) - gv t i) * ((x - gr t i) / (gr t (i + 1) - gr t i))

theorem run32 (h : Track32Ok t) (hfirst : ∀ r, t.ratios.head? = some r → val r = 0) (hx : Finite32 x.bits) :
    (t.keyCount = 0 ∧ run scalarOps (some t) x = .ok 0) ∨
    (0 < t.keyCount ∧ val x < 0 ∧ run scalarOps (some t) x = .ok (gv t 0)) ∨
    (0 < t.keyCount ∧ val (gr t (t.keyCount - 1)) ≤ val x ∧ run scalarOps (some t) x = .ok (gv t (t.keyCount - 1))) ∨
    ∃ i, i + 1 < t.keyCount ∧ val (gr t i) ≤ val x ∧ val x < val (gr t (i + 1)) ∧
      (gs t i = true ∧ run scalarOps (some t) x = .ok (gv t i) ∨
       gs t i = false ∧ run scalarOps (some t) x = .ok (mid t x i)) := by
  have hl := h.ratiosLen
  have hvl := h.valuesLen
  have sh := shape32 h
  by_cases h0 : t.keyCount = 0
  · left
    refine ⟨h0, ?_⟩
    unfold run
    simp only
    rw [if_pos (by omega)]
    rfl
  right
  have hk : 0 < t.keyCount := by omega
  have r0 : val (gr t 0) = 0 := by
    refine hfirst _ ?_
    unfold gr
    rw [List.head?_eq_getElem?, List.getElem?_eq_getElem (show 0 < t.ratios.length by omega), List.getD_eq_getElem?_getD,
      List.getElem?_eq_getElem (show 0 < t.ratios.length by omega)]
    rfl
  have lx : (x < (0 : F32)) ↔ val x < 0 := by
    rw [lt32_val (y := (0 : F32)) hx zero_finite, val_zero32]
  have gx : ((1 : F32) < x) ↔ 1 < val x := by
    rw [lt32_val (x := (1 : F32)) one_finite hx, val_one32]
  have get : ∀ i, (hi : i < t.ratios.length) → t.ratios[i] = gr t i := by
    intro i hi
    unfold gr
    rw [List.getD_eq_getElem?_getD, List.getElem?_eq_getElem hi, Option.getD_some]
  have last : t.values.getLast? = some (gv t (t.keyCount - 1)) := by
    unfold gv
    rw [List.getLast?_eq_getElem?, hvl, List.getElem?_eq_getElem (show t.keyCount - 1 < t.values.length by omega),
      List.getD_eq_getElem?_getD, List.getElem?_eq_getElem (show t.keyCount - 1 < t.values.length by omega)]
    rfl
  unfold run
  simp only [if_neg (show ¬ t.ratios.length = 0 by omega), lx, gx]
  by_cases hn : val x < 0
  · left
    refine ⟨hk, hn, ?_⟩
    rw [if_pos (.inr hn), gvalues_get sh hk]
  right
  by_cases h1 : t.ratios.length = 1
  · left
    have hk1 : t.keyCount - 1 = 0 := by omega
    rw [hk1, r0, if_pos (.inl h1), gvalues_get sh hk]
    exact ⟨hk, not_lt.1 hn, rfl⟩
  rw [if_neg (by tauto)]
  by_cases hg : 1 < val x
  · left
    refine ⟨hk, ((gr_unit h (by omega)).le_one).trans hg.le, ?_⟩
    rw [if_pos hg, last]
  rw [if_neg hg]
  cases hf : t.ratios.findIdx? (fun y => decide (x < y)) with
  | none =>
    left
    simp only
    rw [List.findIdx?_eq_none_iff] at hf
    refine ⟨hk, ?_, ?_⟩
    · have := hf _ (gr_mem h (show t.keyCount - 1 < t.keyCount by omega))
      rw [decide_eq_false_iff_not, lt32_val hx (gr_unit h (by omega)).finite] at this
      exact not_lt.1 this
    · simp only [interpolate, gstep_eq sh (show t.keyCount - 1 < t.keyCount by omega), bind, Except.bind, beq_self_eq_true,
        Bool.or_true, if_true]
      exact gvalues_get sh (by omega)
  | some i =>
    right
    simp only
    rw [List.findIdx?_eq_some_iff_getElem] at hf
    obtain ⟨hi, hlt, hbefore⟩ := hf
    simp only [decide_eq_true_eq] at hlt hbefore
    have hik : i < t.keyCount := by omega
    rw [get i hi, lt32_val hx (gr_unit h hik).finite] at hlt
    have hi0 : i ≠ 0 := by
      rintro rfl
      rw [r0] at hlt; exact hn hlt
    have hb := hbefore (i - 1) (by omega)
    rw [get (i - 1) (by omega), lt32_val hx (gr_unit h (by omega)).finite] at hb
    have hi1 : i - 1 + 1 = i := by omega
    have hne : (i == t.keyCount) = false := by rw [beq_eq_false_iff_ne]; omega
    refine ⟨i - 1, by omega, not_lt.1 hb, by rw [hi1]; exact hlt, ?_⟩
    simp only [interpolate, gstep_eq sh (show i - 1 < t.keyCount by omega), bind, Except.bind, pure, Except.pure, hne,
      Bool.or_false, gratios_get sh hik, gratios_get sh (show i - 1 < t.keyCount by omega), gvalues_get sh hik,
      gvalues_get sh (show i - 1 < t.keyCount by omega), mid, hi1, scalarOps]
    cases gs t (i - 1) with
    | true => simp only [if_true]; simp
    | false => simp only [Bool.false_eq_true, if_false]; simp

theorem mid_facts (h : Track32Ok t) (hx : Finite32 x.bits) {i : Nat} (hi : i + 1 < t.keyCount) (h0 : val (gr t i) ≤ val x)
    (h1 : val x ≤ val (gr t (i + 1))) :
    Unit01 ((x - gr t i) / (gr t (i + 1) - gr t i)) ∧
    LerpSteps (gv t i) (gv t (i + 1)) ((x - gr t i) / (gr t (i + 1) - gr t i)) ∧
    mid t x i = (gv t (i + 1) - gv t i) * ((x - gr t i) / (gr t (i + 1) - gr t i)) + gv t i := by
  have u0 := gr_unit h (show i < t.keyCount by omega)
  have u1 := gr_unit h hi
  have v0 := gv_small h (show i < t.keyCount by omega)
  have v1 := gv_small h hi
  obtain ⟨-, -, fF, -, -, -, -, f0, f1, -⟩ := fraction_steps u0.finite u1.finite hx u0.nonneg u1.le_one
    (gr_lt h (Nat.lt_succ_self i) hi) h0 h1
  have st := lerp_steps ⟨v0.finite, v0.small⟩ ⟨v1.finite, v1.small⟩ fF f0 f1
  exact ⟨⟨fF, f0, f1⟩, st, add_comm32 v0.finite st.pF⟩

theorem mid_close (h : Track32Ok t) (hx : Finite32 x.bits) {i : Nat} (hi : i + 1 < t.keyCount) (h0 : val (gr t i) ≤ val x)
    (h1 : val x ≤ val (gr t (i + 1))) {M : ℝ} (hM : ∀ v ∈ t.values, |val v| ≤ M) :
    Finite32 (mid t x i).bits ∧ |val (mid t x i) - (val (gv t i) + (val (gv t (i + 1)) - val (gv t i)) *
      ((val x - val (gr t i)) / (val (gr t (i + 1)) - val (gr t i))))| ≤ M / 2 ^ 20 + 1 / 2 ^ 150 := by
  have u0 := gr_unit h (show i < t.keyCount by omega)
  have u1 := gr_unit h hi
  obtain ⟨fu, st, e⟩ := mid_facts h hx hi h0 h1
  have fE := fraction_error u0.finite u1.finite hx u0.nonneg u1.le_one (gr_lt h (Nat.lt_succ_self i) hi) h0 h1
  have m0 := hM _ (gv_mem h (show i < t.keyCount by omega))
  have m1 := hM _ (gv_mem h hi)
  have lE := lerp_error st fu.nonneg fu.le_one m0 m1
  rw [e]
  refine ⟨st.lF, ?_⟩
  change |val ((x - gr t i) / (gr t (i + 1) - gr t i)) - (val x - val (gr t i)) / (val (gr t (i + 1)) - val (gr t i))| ≤ _ at fE
  change |val ((gv t (i + 1) - gv t i) * ((x - gr t i) / (gr t (i + 1) - gr t i)) + gv t i) -
    ((val (gv t (i + 1)) - val (gv t i)) * val ((x - gr t i) / (gr t (i + 1) - gr t i)) + val (gv t i))| ≤ _ at lE
  generalize val ((gv t (i + 1) - gv t i) * ((x - gr t i) / (gr t (i + 1) - gr t i)) + gv t i) = L at *
  generalize val ((x - gr t i) / (gr t (i + 1) - gr t i)) = s at *
  generalize (val x - val (gr t i)) / (val (gr t (i + 1)) - val (gr t i)) = S at *
  have e1 : L - (val (gv t i) + (val (gv t (i + 1)) - val (gv t i)) * S) =
      (L - ((val (gv t (i + 1)) - val (gv t i)) * s + val (gv t i))) + (val (gv t (i + 1)) - val (gv t i)) * (s - S) := by ring
  rw [e1]
  refine (abs_add_le _ _).trans ?_
  rw [abs_mul]
  have d : |val (gv t (i + 1)) - val (gv t i)| ≤ 2 * M := by
    have := abs_sub (val (gv t (i + 1))) (val (gv t i)); linarith
  have hM0 : 0 ≤ M := (abs_nonneg _).trans m0
  have : |val (gv t (i + 1)) - val (gv t i)| * |s - S| ≤ 2 * M * (1 / 2 ^ 22) :=
    mul_le_mul d fE (abs_nonneg _) (by positivity)
  have e2 : M / 2 ^ 21 + 1 / 2 ^ 150 + 2 * M * (1 / 2 ^ 22) = M / 2 ^ 20 + 1 / 2 ^ 150 := by ring
  linarith

theorem isStep_gs (h : Track32Ok t) {i : Nat} (hi : i < t.keyCount) : IsStep (realTrack t) i ↔ gs t i = true :=
  isStep_iff (realOk h) hi

theorem real_ratio (h : Track32Ok t) {i : Nat} (hi : i < t.keyCount) : (realTrack t).ratios[i]? = some (val (gr t i)) := by
  rw [← tr_real]; exact ratios_get (realOk h) hi

theorem real_value (h : Track32Ok t) {i : Nat} (hi : i < t.keyCount) : (realTrack t).values[i]? = some (val (gv t i)) := by
  rw [← tv_real]; exact values_get (realOk h) hi

theorem run32_close (h : Track32Ok t) (hfirst : ∀ r, t.ratios.head? = some r → val r = 0) (hx : Finite32 x.bits) {M : ℝ}
    (hM0 : 0 ≤ M) (hM : ∀ v ∈ t.values, |val v| ≤ M) :
    ∃ v w, run scalarOps (some t) x = .ok v ∧ Finite32 v.bits ∧
      IsSample (0 : ℝ) (fun a b s => a + (b - a) * s) (realTrack t) (val x) w ∧ |val v - w| ≤ M / 2 ^ 20 + 1 / 2 ^ 150 := by
  have hl := (realOk h).ratiosLen
  have hvl := (realOk h).valuesLen
  have hz : (0 : ℝ) ≤ M / 2 ^ 20 + 1 / 2 ^ 150 := by positivity
  have self : ∀ a : ℝ, |a - a| ≤ M / 2 ^ 20 + 1 / 2 ^ 150 := fun a => by rw [sub_self, abs_zero]; exact hz
  rcases run32 h hfirst hx with ⟨hk, hr⟩ | ⟨hk, hn, hr⟩ | ⟨hk, hg, hr⟩ | ⟨i, hi, h0, h1, ⟨hs, hr⟩ | ⟨hs, hr⟩⟩
  · exact ⟨0, 0, hr, zero_finite, .empty hk rfl, by rw [val_zero32]; exact self 0⟩
  · refine ⟨_, _, hr, (gv_small h hk).finite, .first (fun r hr' => hn.trans_le ((realOk h).nonneg r hr')) ?_, self _⟩
    rw [List.head?_eq_getElem?, real_value h hk]
  · refine ⟨_, _, hr, (gv_small h (by omega)).finite, .last (fun r hr' => ?_) ?_, self _⟩
    · obtain ⟨n, hn, rfl⟩ := List.getElem_of_mem hr'
      have hnk : n < t.keyCount := by have : (realTrack t).keyCount = t.keyCount := rfl; omega
      have := real_ratio h hnk
      rw [List.getElem?_eq_getElem hn] at this
      injection this with this
      rw [this]
      refine le_trans ?_ hg
      rcases (show n ≤ t.keyCount - 1 by omega).lt_or_eq with h2 | h2
      · exact (gr_lt h h2 (by omega)).le
      · rw [h2]
    · have : (realTrack t).keyCount = t.keyCount := rfl
      rw [List.getLast?_eq_getElem?, hvl, this, real_value h (show t.keyCount - 1 < t.keyCount by omega)]
  · have hi' : i < t.keyCount := by omega
    exact ⟨_, _, hr, (gv_small h hi').finite, .step (real_ratio h hi') (real_ratio h hi) h0 h1
      ((isStep_gs h hi').2 hs) (real_value h hi'), self _⟩
  · have hi' : i < t.keyCount := by omega
    obtain ⟨mf, mE⟩ := mid_close h hx hi h0 h1.le hM
    have hlt := gr_lt h (Nat.lt_succ_self i) hi
    have hd : val (gr t (i + 1)) - val (gr t i) ≠ 0 := by intro hz; linarith
    refine ⟨_, _, hr, mf, .linear (s := (val x - val (gr t i)) / (val (gr t (i + 1)) - val (gr t i)))
      (real_ratio h hi') (real_ratio h hi) h0 h1 (by rw [isStep_gs h hi', hs]; simp)
      (real_value h hi') (real_value h hi) (by field_simp; ring) rfl, mE⟩

/-- Which key a ratio belongs to. -/
theorem key_of (h : Track32Ok t) {i k : Nat} {y : ℝ} (hi : i + 1 < t.keyCount) (hk : k < t.keyCount) (h0 : val (gr t i) ≤ y)
    (h1 : y < val (gr t (i + 1))) (k0 : val (gr t k) ≤ y) (k1 : k + 1 < t.keyCount → y < val (gr t (k + 1))) : i = k := by
  rcases lt_trichotomy i k with hc | hc | hc
  · exfalso
    rcases (show i + 1 ≤ k by omega).lt_or_eq with h2 | h2
    · have := gr_lt h h2 hk; linarith
    · rw [h2] at h1; linarith
  · exact hc
  · exfalso
    have h2 := k1 (by omega)
    rcases (show k + 1 ≤ i by omega).lt_or_eq with h3 | h3
    · have := gr_lt h h3 (by omega); linarith
    · rw [h3] at h2; linarith

/-- From key `i` up to the next: the key's value if it is a step, otherwise `mid`. -/
theorem run32_segment (h : Track32Ok t) (hfirst : ∀ r, t.ratios.head? = some r → val r = 0) (hx : Finite32 x.bits)
    {i : Nat} (hi : i + 1 < t.keyCount) (h0 : val (gr t i) ≤ val x) (h1 : val x < val (gr t (i + 1))) :
    run scalarOps (some t) x = .ok (if gs t i then gv t i else mid t x i) := by
  rcases run32 h hfirst hx with ⟨hk, -⟩ | ⟨hk, hn, -⟩ | ⟨hk, hg, -⟩ | ⟨k, hk, k0, k1, hr⟩
  · omega
  · have := (gr_unit h (show i < t.keyCount by omega)).nonneg; linarith
  · exfalso
    rcases (show i + 1 ≤ t.keyCount - 1 by omega).lt_or_eq with h2 | h2
    · have := gr_lt h h2 (by omega); linarith
    · rw [h2] at h1; linarith
  · have := key_of h hi (show k < t.keyCount by omega) h0 h1 k0 fun _ => k1
    subst this
    rcases hr with ⟨hs, hr⟩ | ⟨hs, hr⟩
    · rw [hr, hs, if_pos rfl]
    · rw [hr, hs, if_neg Bool.false_ne_true]

theorem run32_at_key (h : Track32Ok t) (hfirst : ∀ r, t.ratios.head? = some r → val r = 0) (hx : Finite32 x.bits)
    {i : Nat} (hi : i < t.keyCount) (he : val x = val (gr t i)) :
    ∃ v, run scalarOps (some t) x = .ok v ∧ Finite32 v.bits ∧ val v = val (gv t i) := by
  have hv := (gv_small h hi).finite
  rcases Nat.lt_or_ge (i + 1) t.keyCount with hl | hl
  · have hlt := gr_lt h (Nat.lt_succ_self i) hl
    have hr := run32_segment h hfirst hx hl he.ge (by rw [he]; exact hlt)
    refine ⟨_, hr, ?_⟩
    split
    · exact ⟨hv, rfl⟩
    · obtain ⟨fu, st, e⟩ := mid_facts h hx hl he.ge (by rw [he]; exact hlt.le)
      have u0 := gr_unit h hi
      have u1 := gr_unit h hl
      have f0 := (fraction_ends u0.finite u1.finite hx u0.nonneg u1.le_one hlt).1 he
      rw [e]
      exact ⟨st.lF, (lerp_ends st).1 f0⟩
  · have hik : i = t.keyCount - 1 := by omega
    rcases run32 h hfirst hx with ⟨hk, -⟩ | ⟨hk, hn, -⟩ | ⟨hk, hg, hr⟩ | ⟨k, hk, k0, k1, -⟩
    · omega
    · have := (gr_unit h hi).nonneg; linarith
    · rw [← hik] at hr
      exact ⟨_, hr, hv, rfl⟩
    · exfalso
      have : val (gr t (k + 1)) ≤ val (gr t i) := by
        rcases (show k + 1 ≤ i by omega).lt_or_eq with h2 | h2
        · exact (gr_lt h h2 hi).le
        · rw [h2]
      linarith

end Ozz.TrackSampling
