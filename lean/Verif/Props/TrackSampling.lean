import Verif.Proofs.TrackSampling
import Verif.Props.Triggering

/-! Properties of track sampling: C39 and C40. -/

set_option linter.unusedSectionVars false

namespace Ozz.Props
open Ozz.Spec Ozz.TrackSampling

section
variable {α V : Type} [Field α] [LinearOrder α] [IsStrictOrderedRing α]

/-- C39. For every track whose first key lies at ratio 0, and every ratio, the job succeeds and its
result is the value of the track at that ratio. -/
theorem C39_sampling_spec {t : Track α V} {ops : ValueOps α V} (h : TrackOk t)
    (hfirst : ∀ r, t.ratios.head? = some r → r = 0) (x : α) :
    ∃ v, run ops (some t) x = .ok v ∧ IsSample ops.default ops.lerp t x v :=
  run_isSample h hfirst

/-- C39, the specification determines the value. -/
theorem C39_sample_unique {t : Track α V} (h : TrackOk t) {d : V} {lerp : V → V → α → V} {x : α}
    {v v' : V} (h1 : IsSample d lerp t x v) (h2 : IsSample d lerp t x v') : v = v' :=
  isSample_unique h h1 h2

end

section
variable {α V : Type} [Sub α] [Div α] [LT α] [DecidableLT α] [Zero α] [One α]

/-- C39, no track. -/
theorem C39_no_track_rejected (ops : ValueOps α V) (x : α) :
    run ops none x = .error (.err .invalidJob) := rfl

/-- C39, outside [0, 1], in any arithmetic: a ratio below 0 gives the first value and one above 1
(and not below 0) the last. -/
theorem C39_outside_first_last {t : Track α V} {ops : ValueOps α V} {x : α} (hr : 1 < t.ratios.length)
    (hv : t.values ≠ []) :
    (x < 0 → run ops (some t) x = .ok (t.values.head hv)) ∧
    (¬ x < 0 → 1 < x → run ops (some t) x = .ok (t.values.getLast hv)) := by
  constructor
  · intro hx
    unfold run
    simp only
    rw [if_neg (by omega), if_pos (.inr hx)]
    simp [getIdx, ← List.head?_eq_getElem?, List.head?_eq_some_head hv]
  · intro hx hx1
    unfold run
    simp only
    rw [if_neg (by omega), if_neg (by rintro (h | h) <;> [omega; exact hx h]), if_pos hx1,
      List.getLast?_eq_some_getLast hv]

/-- C39, in any arithmetic: a ratio that compares with nothing (NaN) gives the last key's value. -/
theorem C39_nan_gives_last {t : Track α V} {ops : ValueOps α V} {x : α} (hr : 1 < t.ratios.length)
    (hk : t.keyCount = t.values.length) (hst : (t.keyCount + 7) / 8 ≤ t.steps.length)
    (hv : t.values ≠ []) (h0 : ¬ x < 0) (h1 : ¬ 1 < x) (hn : ∀ r ∈ t.ratios, ¬ x < r) :
    run ops (some t) x = .ok (t.values.getLast hv) := by
  unfold run
  simp only
  rw [if_neg (by omega), if_neg (by rintro (h | h) <;> [omega; exact h0 h]), if_neg h1]
  have : t.ratios.findIdx? (fun y => decide (x < y)) = none := by
    rw [List.findIdx?_eq_none_iff]; intro r hr; simpa using hn r hr
  rw [this]
  have hpos : 0 < t.values.length := List.length_pos_iff.2 hv
  have hg : t.steps[(t.keyCount - 1) / 8]? = some (t.steps[(t.keyCount - 1) / 8]'(by omega)) :=
    List.getElem?_eq_getElem (by omega)
  simp only [interpolate, Track.step, getIdx, hg, bind, Except.bind, pure, Except.pure,
    beq_self_eq_true, Bool.or_true, if_true]
  rw [hk, ← List.getLast?_eq_getElem?, List.getLast?_eq_some_getLast hv]

/-- C39, why the first key has to lie at ratio 0, in any arithmetic: below the first key of a linear
track the code interpolates the first key with itself by a quotient with denominator `r0 - r0`
(NaN or infinite in `f32`), instead of returning the first value. -/
theorem C39_late_first_key_divides_by_zero {t : Track α V} {ops : ValueOps α V} {x r0 : α} {v0 : V}
    (hr : 1 < t.ratios.length) (hk : t.keyCount ≠ 0) (h0 : ¬ x < 0) (h1 : ¬ 1 < x)
    (hr0 : t.ratios[0]? = some r0) (hx : x < r0) (hv0 : t.values[0]? = some v0)
    (hst : t.step 0 = .ok false) :
    run ops (some t) x = .ok (ops.lerp v0 v0 ((x - r0) / (r0 - r0))) := by
  unfold run
  simp only
  rw [if_neg (by omega), if_neg (by rintro (h | h) <;> [omega; exact h0 h]), if_neg h1]
  have : t.ratios.findIdx? (fun y => decide (x < y)) = some 0 := by
    cases h : t.ratios with
    | nil => rw [h] at hr0; cases hr0
    | cons a l =>
      rw [h] at hr0
      simp only [List.getElem?_cons_zero, Option.some.injEq] at hr0
      subst hr0
      simp [List.findIdx?_cons, hx]
  rw [this]
  have hk' : (0 == t.keyCount) = false := by rw [beq_eq_false_iff_ne]; exact Ne.symm hk
  simp only [interpolate, hst, getIdx, hr0, hv0, bind, Except.bind, pure, Except.pure, hk', Bool.or_false,
    Bool.false_eq_true, if_false]

end

section
variable {α V : Type} [Field α] [LinearOrder α] [IsStrictOrderedRing α]

/-- C40. At the ratio of a key the sampled value is that key's value, for every value type whose
interpolation starts at its first argument. -/
theorem C40_hits_keys {t : Track α V} {ops : ValueOps α V} (h : TrackOk t)
    (hfirst : ∀ r, t.ratios.head? = some r → r = 0) (h0 : ∀ a b, ops.lerp a b 0 = a)
    {i : Nat} {r : α} {v : V} (hr : t.ratios[i]? = some r) (hv : t.values[i]? = some v) :
    run ops (some t) r = .ok v := by
  obtain ⟨v', h1, h2⟩ := C39_sampling_spec (ops := ops) h hfirst r
  rw [h1, isSample_unique h h2 (isSample_at_key h h0 hr hv)]

/-- C40. A step key holds its value up to the next key. -/
theorem C40_step_holds {t : Track α V} {ops : ValueOps α V} (h : TrackOk t)
    (hfirst : ∀ r, t.ratios.head? = some r → r = 0) {i : Nat} {r0 r1 x : α} {v : V}
    (hr0 : t.ratios[i]? = some r0) (hr1 : t.ratios[i + 1]? = some r1) (hv : t.values[i]? = some v)
    (hs : IsStep t i) (hx0 : r0 ≤ x) (hx1 : x < r1) : run ops (some t) x = .ok v := by
  obtain ⟨v', h1, h2⟩ := C39_sampling_spec (ops := ops) h hfirst x
  rw [h1, isSample_unique h h2 (.step hr0 hr1 hx0 hx1 hs hv)]

/-- C40, scalar tracks. From a linear key to the next key, both ends included, the sampled value runs
along the straight line between the two key values. -/
theorem C40_linear_segment {t : Track α α} (h : TrackOk t)
    (hfirst : ∀ r, t.ratios.head? = some r → r = 0) {i : Nat} {r0 r1 v0 v1 x : α}
    (hr0 : t.ratios[i]? = some r0) (hr1 : t.ratios[i + 1]? = some r1) (hv0 : t.values[i]? = some v0)
    (hv1 : t.values[i + 1]? = some v1) (hs : ¬ IsStep t i) (hx0 : r0 ≤ x) (hx1 : x ≤ r1) :
    ∃ v, run scalarOps (some t) x = .ok v ∧ (v - v0) * (r1 - r0) = (v1 - v0) * (x - r0) ∧
      min v0 v1 ≤ v ∧ v ≤ max v0 v1 := by
  obtain ⟨v', h1, h2⟩ := C39_sampling_spec (ops := scalarOps) h hfirst x
  have e := isSample_unique h h2 (isSample_segment h hr0 hr1 hv0 hv1 hs hx0 hx1)
  have hlt := rat_lt h (Nat.lt_succ_self _) hr0 hr1
  have hd : r1 - r0 ≠ 0 := by intro hz; linarith
  refine ⟨v', h1, ?_, ?_⟩
  · rw [e]; field_simp; ring
  · have hs0 : 0 ≤ (x - r0) / (r1 - r0) := div_nonneg (by linarith) (by linarith)
    have hs1 : (x - r0) / (r1 - r0) ≤ 1 := (div_le_one (by linarith)).2 (by linarith)
    rw [e]
    generalize (x - r0) / (r1 - r0) = s at hs0 hs1
    rcases le_total v0 v1 with hv | hv
    · rw [min_eq_left hv, max_eq_right hv]
      constructor
      · nlinarith [mul_nonneg (sub_nonneg.2 hv) hs0]
      · nlinarith [mul_le_mul_of_nonneg_left hs1 (sub_nonneg.2 hv)]
    · rw [min_eq_right hv, max_eq_left hv]
      constructor
      · nlinarith [mul_le_mul_of_nonneg_left hs1 (sub_nonneg.2 hv)]
      · nlinarith [mul_nonneg (sub_nonneg.2 hv) hs0]

/-- C40, scalar tracks without steps: the sampled value is a Lipschitz (hence continuous) function of
the ratio on the whole line, with the steepest slope as constant. -/
theorem C40_continuous_without_steps {t : Track α α} (h : TrackOk t)
    (hfirst : ∀ r, t.ratios.head? = some r → r = 0) (hs : ∀ i, ¬ IsStep t i) {L : α} (hL0 : 0 ≤ L)
    (hL : ∀ i r0 r1 v0 v1, t.ratios[i]? = some r0 → t.ratios[i + 1]? = some r1 →
      t.values[i]? = some v0 → t.values[i + 1]? = some v1 → |v1 - v0| ≤ L * (r1 - r0))
    {x y a b : α} (hx : run scalarOps (some t) x = .ok a) (hy : run scalarOps (some t) y = .ok b) :
    |b - a| ≤ L * |y - x| := by
  by_cases hk : t.keyCount = 0
  · have hl := h.ratiosLen
    have e : ∀ z, run scalarOps (some t) z = .ok 0 := by
      intro z; unfold run; simp only; rw [if_pos (by omega)]; rfl
    rw [e] at hx hy
    injection hx with hx; injection hy with hy
    subst hx; subst hy
    simpa using mul_nonneg hL0 (abs_nonneg _)
  have hk : 0 < t.keyCount := by omega
  -- the sampled function
  have hf : ∀ z, ∃ v, run scalarOps (some t) z = .ok v ∧
      IsSample (0 : α) (fun a b s => a + (b - a) * s) t z v := fun z =>
    C39_sampling_spec (ops := scalarOps) h hfirst z
  choose f hf1 hf2 using hf
  have hxa : a = f x := by have := hf1 x; rw [hx] at this; injection this
  have hyb : b = f y := by have := hf1 y; rw [hy] at this; injection this
  -- the mirrored track, to bound the descent
  let t' : Track α α := { t with values := t.values.map (- ·) }
  have h' : TrackOk t' := ⟨h.ratiosLen, by simpa [t'] using h.valuesLen, h.stepsLen, h.increasing, h.nonneg, h.leOne⟩
  have hf' : ∀ z, IsSample (0 : α) (fun a b s => a + (b - a) * s) t' z (- f z) := by
    intro z
    cases hf2 z with
    | empty e1 e2 => exact .empty e1 (by rw [e2]; simp)
    | first e1 e2 => exact .first e1 (by simp [t', e2])
    | last e1 e2 => exact .last e1 (by simp [t', e2])
    | step e1 e2 e3 e4 e5 e6 => exact .step e1 e2 e3 e4 e5 (by simp [t', e6])
    | linear e1 e2 e3 e4 e5 e6 e7 e8 e9 =>
      exact .linear e1 e2 e3 e4 e5 (by simp [t', e6]; rfl) (by simp [t', e7]; rfl) e8 (by rw [e9]; ring)
  have main : ∀ x y, x ≤ y → |f y - f x| ≤ L * (y - x) := by
    intro x y hxy
    have u1 := lipschitz_aux h hk hs hfirst hf2 hL0
      (fun i r0 r1 v0 v1 a b c d => le_trans (le_abs_self _) (hL i r0 r1 v0 v1 a b c d)) x y hxy
    have u2 := lipschitz_aux (f := fun z => - f z) h' hk hs hfirst hf' hL0 (by
      intro i r0 r1 v0 v1 a b c d
      simp only [t', List.getElem?_map, Option.map_eq_some_iff] at c d
      obtain ⟨w0, c, rfl⟩ := c
      obtain ⟨w1, d, rfl⟩ := d
      have := hL i r0 r1 w0 w1 a b c d
      have := neg_abs_le (w1 - w0)
      linarith) x y hxy
    rw [abs_le]
    constructor <;> linarith
  rw [hxa, hyb]
  rcases le_total x y with hxy | hxy
  · rw [abs_of_nonneg (sub_nonneg.2 hxy)]; exact main x y hxy
  · rw [abs_sub_comm, abs_sub_comm y x, abs_of_nonneg (sub_nonneg.2 hxy)]; exact main y x hxy

end

/-! ### Examples -/

namespace TrackSamplingExample

/-- A step-free track; its slopes are at most 8. -/
def track : Track ℚ ℚ where
  keyCount := 4
  ratios := [0, 1/4, 1/2, 1]
  values := [0, 2, 0, 2]
  steps := [0]
  name := []

theorem trackOk : TrackOk track := ⟨rfl, rfl, by decide, by decide +kernel, by decide +kernel, by decide +kernel⟩

example : ∀ r, track.ratios.head? = some r → r = 0 := by intro r h; cases h; rfl
example : run scalarOps (some track) (3/8) = .ok 1 := by decide +kernel
example : run scalarOps (some track) (3/4) = .ok 1 := by decide +kernel
example : run scalarOps (some TriggeringExample.track) (3/8) = .ok 2 := by decide +kernel
example : run scalarOps (some track) (-1) = .ok 0 ∧ run scalarOps (some track) 2 = .ok 2 := by decide +kernel
example : ∀ i, ¬ IsStep track i := by
  rintro i ⟨b, hb, hb'⟩
  have : b = 0 := List.mem_singleton.1 (List.mem_of_getElem? hb)
  subst this
  simp at hb'
example : ∀ i r0 r1 v0 v1, track.ratios[i]? = some r0 → track.ratios[i + 1]? = some r1 →
    track.values[i]? = some v0 → track.values[i + 1]? = some v1 → |v1 - v0| ≤ 8 * (r1 - r0) := by
  intro i r0 r1 v0 v1 a b c d
  have hi : i + 1 < 4 := (List.getElem?_eq_some_iff.1 b).1
  match i, hi with
  | 0, _ => cases a; cases b; cases c; cases d; decide +kernel
  | 1, _ => cases a; cases b; cases c; cases d; decide +kernel
  | 2, _ => cases a; cases b; cases c; cases d; decide +kernel

end TrackSamplingExample

end Ozz.Props
