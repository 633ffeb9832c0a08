import Verif.Spec.TrackSampling
import Verif.Proofs.Triggering

/-! Helper lemmas for track sampling. -/

set_option linter.unusedSectionVars false
set_option linter.unusedVariables false

namespace Ozz.TrackSampling
open Ozz.Spec Ozz.Triggering

variable {α V : Type} [Field α] [LinearOrder α] {t : Track α V} {ops : ValueOps α V}

theorem val_get (h : TrackOk t) {i : Nat} (hi : i < t.keyCount) : ∃ v, t.values[i]? = some v := by
  have := h.valuesLen
  exact ⟨_, List.getElem?_eq_getElem (show i < t.values.length by omega)⟩

theorem rat_get (h : TrackOk t) {i : Nat} (hi : i < t.keyCount) : ∃ v, t.ratios[i]? = some v := by
  have := h.ratiosLen
  exact ⟨_, List.getElem?_eq_getElem (show i < t.ratios.length by omega)⟩

theorem rat_lt (h : TrackOk t) {i j : Nat} {a b : α} (hij : i < j) (hi : t.ratios[i]? = some a)
    (hj : t.ratios[j]? = some b) : a < b := by
  obtain ⟨hi', rfl⟩ := List.getElem?_eq_some_iff.1 hi
  obtain ⟨hj', rfl⟩ := List.getElem?_eq_some_iff.1 hj
  exact List.pairwise_iff_getElem.1 h.increasing i j hi' hj' hij

theorem rat_le (h : TrackOk t) {i j : Nat} {a b : α} (hij : i ≤ j) (hi : t.ratios[i]? = some a)
    (hj : t.ratios[j]? = some b) : a ≤ b := by
  rcases hij.lt_or_eq with hlt | rfl
  · exact (rat_lt h hlt hi hj).le
  · rw [hi] at hj; injection hj with hj; exact hj.le

theorem step_get (h : TrackOk t) {i : Nat} (hi : i < t.keyCount) :
    ∃ b, t.step i = .ok b ∧ (IsStep t i ↔ b = true) := by
  have := h.stepsLen
  have hg : t.steps[i / 8]? = some (t.steps[i / 8]'(by omega)) := List.getElem?_eq_getElem (by omega)
  refine ⟨_, by simp only [Track.step, getIdx_some' hg, bind, Except.bind, pure, Except.pure]; rfl, ?_⟩
  unfold IsStep
  rw [hg]
  constructor
  · rintro ⟨b, hb, hb'⟩
    injection hb with hb; subst hb
    rw [Nat.testBit] at hb'
    simp at hb'
    simpa using hb'
  · intro hb
    refine ⟨_, rfl, ?_⟩
    rw [Nat.testBit]
    simp
    simpa using hb

section
variable [IsStrictOrderedRing α]

theorem isSample_unique (h : TrackOk t) {d : V} {lerp : V → V → α → V} {x : α} {v v' : V}
    (h1 : IsSample d lerp t x v) (h2 : IsSample d lerp t x v') : v = v' := by
  have hl := h.ratiosLen
  have hvl := h.valuesLen
  -- the key of a bracketing pair is determined by the ratio
  have idx : ∀ {i i' : Nat} {a b a' b' : α}, t.ratios[i]? = some a → t.ratios[i + 1]? = some b →
      a ≤ x → x < b → t.ratios[i']? = some a' → t.ratios[i' + 1]? = some b' → a' ≤ x → x < b' → i = i' := by
    intro i i' a b a' b' e1 e2 h1 h2 e3 e4 h3 h4
    by_contra hne
    rcases Nat.lt_or_gt_of_ne hne with hh | hh
    · have := rat_le h (show i + 1 ≤ i' by omega) e2 e3
      linarith
    · have := rat_le h (show i' + 1 ≤ i by omega) e4 e1
      linarith
  have mem : ∀ {i : Nat} {a : α}, t.ratios[i]? = some a → a ∈ t.ratios := fun e => List.mem_of_getElem? e
  have ne0 : ∀ {i : Nat} {a : α}, t.ratios[i]? = some a → 0 < t.keyCount := by
    intro i a e
    have := (List.getElem?_eq_some_iff.1 e).1; omega
  have hd0 : ∀ {v : V}, t.values.head? = some v → 0 < t.keyCount := by
    intro v e; cases hv : t.values with
    | nil => rw [hv] at e; cases e
    | cons a l => rw [hv] at hvl; simp at hvl; omega
  have hl0 : ∀ {v : V}, t.values.getLast? = some v → 0 < t.keyCount := by
    intro v e; cases hv : t.values with
    | nil => rw [hv] at e; cases e
    | cons a l => rw [hv] at hvl; simp at hvl; omega
  have r0 : 0 < t.keyCount → ∃ a, t.ratios[0]? = some a := fun hh => rat_get h hh
  cases h1 with
  | empty e1 e2 =>
    cases h2 with
    | empty f1 f2 => rw [e2, f2]
    | first f1 f2 => have := hd0 f2; omega
    | last f1 f2 => have := hl0 f2; omega
    | step g1 => have := ne0 g1; omega
    | linear g1 => have := ne0 g1; omega
  | first e1 e2 =>
    obtain ⟨a, ha⟩ := r0 (hd0 e2)
    cases h2 with
    | empty f1 f2 => have := hd0 e2; omega
    | first f1 f2 => rw [e2] at f2; injection f2
    | last f1 f2 => have := e1 _ (mem ha); have := f1 _ (mem ha); linarith
    | step g1 g2 g3 => have := e1 _ (mem g1); linarith
    | linear g1 g2 g3 => have := e1 _ (mem g1); linarith
  | last e1 e2 =>
    obtain ⟨a, ha⟩ := r0 (hl0 e2)
    cases h2 with
    | empty f1 f2 => have := hl0 e2; omega
    | first f1 f2 => have := e1 _ (mem ha); have := f1 _ (mem ha); linarith
    | last f1 f2 => rw [e2] at f2; injection f2
    | step g1 g2 g3 g4 => have := e1 _ (mem g2); linarith
    | linear g1 g2 g3 g4 => have := e1 _ (mem g2); linarith
  | step e1 e2 e3 e4 e5 e6 =>
    cases h2 with
    | empty f1 f2 => have := ne0 e1; omega
    | first f1 f2 => have := f1 _ (mem e1); linarith
    | last f1 f2 => have := f1 _ (mem e2); linarith
    | step g1 g2 g3 g4 g5 g6 =>
      have := idx e1 e2 e3 e4 g1 g2 g3 g4; subst this
      rw [e6] at g6; injection g6
    | linear g1 g2 g3 g4 g5 =>
      have := idx e1 e2 e3 e4 g1 g2 g3 g4; subst this
      exact absurd e5 g5
  | linear e1 e2 e3 e4 e5 e6 e7 e8 e9 =>
    cases h2 with
    | empty f1 f2 => have := ne0 e1; omega
    | first f1 f2 => have := f1 _ (mem e1); linarith
    | last f1 f2 => have := f1 _ (mem e2); linarith
    | step g1 g2 g3 g4 g5 g6 =>
      have := idx e1 e2 e3 e4 g1 g2 g3 g4; subst this
      exact absurd g5 e5
    | linear g1 g2 g3 g4 g5 g6 g7 g8 g9 =>
      have := idx e1 e2 e3 e4 g1 g2 g3 g4; subst this
      rw [e1] at g1; rw [e2] at g2; rw [e6] at g6; rw [e7] at g7
      injection g1 with g1; injection g2 with g2; injection g6 with g6; injection g7 with g7
      subst g1; subst g2; subst g6; subst g7
      rw [e9, g9]
      congr 1
      have hd := rat_lt h (Nat.lt_succ_self _) e1 e2
      exact mul_right_cancel₀ (by intro hz; linarith) (add_left_cancel (e8.symm.trans g8))

theorem run_isSample (h : TrackOk t) {x : α} (hfirst : ∀ r, t.ratios.head? = some r → r = 0)
    : ∃ v, run ops (some t) x = .ok v ∧ IsSample ops.default ops.lerp t x v := by
  have hl := h.ratiosLen
  have hvl := h.valuesLen
  unfold run
  simp only
  by_cases h0 : t.keyCount = 0
  · rw [if_pos (by omega)]
    exact ⟨_, rfl, .empty h0 rfl⟩
  rw [if_neg (by omega)]
  obtain ⟨v0, hv0⟩ := val_get h (show 0 < t.keyCount by omega)
  obtain ⟨r0, hr0⟩ := rat_get h (show 0 < t.keyCount by omega)
  have hr0z : r0 = 0 := hfirst _ (by rw [List.head?_eq_getElem?]; exact hr0)
  subst hr0z
  obtain ⟨vl, hvL⟩ := val_get h (show t.keyCount - 1 < t.keyCount by omega)
  have hlast : t.values.getLast? = some vl := by rw [List.getLast?_eq_getElem?, hvl]; exact hvL
  have hhead : t.values.head? = some v0 := by rw [List.head?_eq_getElem?]; exact hv0
  split
  · rename_i hc
    refine ⟨v0, getIdx_some' hv0, ?_⟩
    by_cases hx : x < 0
    · exact .first (fun r hr => lt_of_lt_of_le hx (h.nonneg r hr)) hhead
    · have h1 : t.ratios.length = 1 := by tauto
      refine .last ?_ ?_
      · intro r hr
        obtain ⟨n, hn, rfl⟩ := List.getElem_of_mem hr
        have : n = 0 := by omega
        subst this
        rw [List.getElem?_eq_getElem hn] at hr0; injection hr0 with hr0
        rw [hr0]; exact not_lt.1 hx
      · rw [List.getLast?_eq_getElem?, hvl, ← hl, h1]; exact hv0
  · rename_i hc
    have hc1 : ¬ t.ratios.length = 1 := by tauto
    have hx0 : 0 ≤ x := not_lt.1 (by tauto)
    split
    · rename_i hx1
      rw [hlast]
      exact ⟨vl, rfl, .last (fun r hr => le_trans (h.leOne r hr) hx1.le) hlast⟩
    · cases hf : t.ratios.findIdx? (fun y => decide (x < y)) with
      | none =>
        simp only
        rw [List.findIdx?_eq_none_iff] at hf
        obtain ⟨b, hb, _⟩ := step_get h (show t.keyCount - 1 < t.keyCount by omega)
        simp only [interpolate, hb, bind, Except.bind, beq_self_eq_true, Bool.or_true, if_true]
        exact ⟨vl, getIdx_some' hvL, .last (fun r hr => by have := hf r hr; simpa using this) hlast⟩
      | some i =>
        simp only
        rw [List.findIdx?_eq_some_iff_getElem] at hf
        obtain ⟨hi, hlt, hbefore⟩ := hf
        simp only [decide_eq_true_eq] at hlt hbefore
        have hi0 : i ≠ 0 := by
          rintro rfl
          rw [List.getElem?_eq_getElem hi] at hr0; injection hr0 with hr0
          rw [hr0] at hlt; linarith
        obtain ⟨ra, hra⟩ := rat_get h (show i - 1 < t.keyCount by omega)
        obtain ⟨rb, hrb⟩ := rat_get h (show i < t.keyCount by omega)
        obtain ⟨va, hva⟩ := val_get h (show i - 1 < t.keyCount by omega)
        obtain ⟨vb, hvb⟩ := val_get h (show i < t.keyCount by omega)
        obtain ⟨b, hb, hst⟩ := step_get h (show i - 1 < t.keyCount by omega)
        have hax : ra ≤ x := by
          have := hbefore (i - 1) (by omega)
          rw [List.getElem?_eq_getElem (show i - 1 < t.ratios.length by omega)] at hra
          injection hra with hra; rw [hra] at this; exact not_lt.1 this
        have hxb : x < rb := by
          rw [List.getElem?_eq_getElem hi] at hrb; injection hrb with hrb; rw [← hrb]; exact hlt
        have hi1 : i = i - 1 + 1 := by omega
        have hne : (i == t.keyCount) = false := by
          rw [beq_eq_false_iff_ne]; omega
        simp only [interpolate, hb, bind, Except.bind, pure, Except.pure, hne, Bool.or_false,
          getIdx_some' hra, getIdx_some' hrb, getIdx_some' hva, getIdx_some' hvb]
        rw [hi1] at hrb hvb
        cases hbv : b with
        | true => exact ⟨va, rfl, .step hra hrb hax hxb (hst.2 hbv) hva⟩
        | false =>
          refine ⟨_, rfl, .linear hra hrb hax hxb (by rw [hst, hbv]; simp) hva hvb ?_ rfl⟩
          have := rat_lt h (Nat.lt_succ_self _) hra hrb
          have hd : rb - ra ≠ 0 := by intro hz; linarith
          field_simp
          ring

/-- `IsSample` at the ratio of a key, and up to the next key of a linear key. -/
theorem isSample_at_key (h : TrackOk t) {d : V} {lerp : V → V → α → V} (h0 : ∀ a b, lerp a b 0 = a)
    {i : Nat} {r : α} {v : V} (hr : t.ratios[i]? = some r) (hv : t.values[i]? = some v) :
    IsSample d lerp t r v := by
  have hl := h.ratiosLen
  have hvl := h.valuesLen
  have hi : i < t.keyCount := by have := (List.getElem?_eq_some_iff.1 hr).1; omega
  by_cases hlast : i + 1 = t.keyCount
  · refine .last ?_ ?_
    · intro r' hr'
      obtain ⟨n, hn, rfl⟩ := List.getElem_of_mem hr'
      exact rat_le h (show n ≤ i by omega) (List.getElem?_eq_getElem hn) hr
    · rw [List.getLast?_eq_getElem?, hvl, ← hlast]; simpa using hv
  · obtain ⟨rb, hrb⟩ := rat_get h (show i + 1 < t.keyCount by omega)
    obtain ⟨vb, hvb⟩ := val_get h (show i + 1 < t.keyCount by omega)
    have hlt := rat_lt h (Nat.lt_succ_self _) hr hrb
    by_cases hs : IsStep t i
    · exact .step hr hrb (le_refl _) hlt hs hv
    · exact .linear (s := 0) hr hrb (le_refl _) hlt hs hv hvb (by ring) (h0 _ _).symm

end

/-! ### Scalar tracks -/

section Scalar
variable [IsStrictOrderedRing α] {t : Track α α}

/-- Value on the closed segment after a linear key. -/
theorem isSample_segment (h : TrackOk t) {i : Nat} {r0 r1 v0 v1 x : α}
    (hr0 : t.ratios[i]? = some r0) (hr1 : t.ratios[i + 1]? = some r1) (hv0 : t.values[i]? = some v0)
    (hv1 : t.values[i + 1]? = some v1) (hs : ¬ IsStep t i) (hx0 : r0 ≤ x) (hx1 : x ≤ r1) :
    IsSample (0 : α) (fun a b s => a + (b - a) * s) t x (v0 + (v1 - v0) * ((x - r0) / (r1 - r0))) := by
  have hlt := rat_lt h (Nat.lt_succ_self _) hr0 hr1
  have hd : r1 - r0 ≠ 0 := by intro hz; linarith
  rcases hx1.lt_or_eq with hx | rfl
  · exact .linear hr0 hr1 hx0 hx hs hv0 hv1 (by field_simp; ring) rfl
  · have : v0 + (v1 - v0) * ((x - r0) / (x - r0)) = v1 := by rw [div_self hd]; ring
    rw [this]
    exact isSample_at_key h (by intro a b; ring) hr1 hv1

/-- A slope bound of a step-free track bounds the change of the sampled value. -/
theorem lipschitz_aux (h : TrackOk t) (hk : 0 < t.keyCount) (hs : ∀ i, ¬ IsStep t i)
    (hfirst : ∀ r, t.ratios.head? = some r → r = 0)
    {f : α → α} (hf : ∀ x, IsSample (0 : α) (fun a b s => a + (b - a) * s) t x (f x)) {L : α} (hL0 : 0 ≤ L)
    (hL : ∀ i r0 r1 v0 v1, t.ratios[i]? = some r0 → t.ratios[i + 1]? = some r1 →
      t.values[i]? = some v0 → t.values[i + 1]? = some v1 → v1 - v0 ≤ L * (r1 - r0)) :
    ∀ x y, x ≤ y → f y - f x ≤ L * (y - x) := by
  have hl := h.ratiosLen
  have hvl := h.valuesLen
  have fval : ∀ {x v}, IsSample (0 : α) (fun a b s => a + (b - a) * s) t x v → f x = v :=
    fun hh => isSample_unique h (hf _) hh
  have fkey : ∀ {i r v}, t.ratios[i]? = some r → t.values[i]? = some v → f r = v :=
    fun e1 e2 => fval (isSample_at_key h (by intro a b; ring) e1 e2)
  have fseg : ∀ {i r0 r1 x y}, t.ratios[i]? = some r0 → t.ratios[i + 1]? = some r1 →
      r0 ≤ x → x ≤ y → y ≤ r1 → f y - f x ≤ L * (y - x) := by
    intro i r0 r1 x y e0 e1 hx hxy hy
    have hi : i + 1 < t.keyCount := by have := (List.getElem?_eq_some_iff.1 e1).1; omega
    obtain ⟨v0, hv0⟩ := val_get h (show i < t.keyCount by omega)
    obtain ⟨v1, hv1⟩ := val_get h hi
    rw [fval (isSample_segment h e0 e1 hv0 hv1 (hs i) hx (hxy.trans hy)),
      fval (isSample_segment h e0 e1 hv0 hv1 (hs i) (hx.trans hxy) hy)]
    have hlt := rat_lt h (Nat.lt_succ_self _) e0 e1
    have hd : 0 < r1 - r0 := by linarith
    have := hL i r0 r1 v0 v1 e0 e1 hv0 hv1
    have e : v0 + (v1 - v0) * ((y - r0) / (r1 - r0)) - (v0 + (v1 - v0) * ((x - r0) / (r1 - r0)))
        = (v1 - v0) / (r1 - r0) * (y - x) := by field_simp; ring
    rw [e]
    exact mul_le_mul_of_nonneg_right ((div_le_iff₀ hd).2 this) (by linarith)
  -- from a key to any later point
  have kchain : ∀ (m i : Nat) (r0 : α), t.ratios[i]? = some r0 → ∀ r1, t.ratios[i + m]? = some r1 →
      f r1 - f r0 ≤ L * (r1 - r0) := by
    intro m
    induction m with
    | zero => intro i r0 e0 r1 e1; rw [Nat.add_zero, e0] at e1; injection e1 with e1; subst e1; linarith [mul_nonneg hL0 (le_refl (0:α))]
    | succ m ih =>
      intro i r0 e0 r1 e1
      have hi : i + (m + 1) < t.keyCount := by have := (List.getElem?_eq_some_iff.1 e1).1; omega
      obtain ⟨rm, hrm⟩ := rat_get h (show i + m < t.keyCount by omega)
      have h1 := ih i r0 e0 rm hrm
      have hlt := rat_lt h (show i + m < i + (m + 1) by omega) hrm e1
      have h2 := fseg hrm e1 (le_refl _) hlt.le (le_refl _)
      nlinarith
  -- location of a point
  have loc : ∀ x, (x < 0 ∧ f x = f 0) ∨
      (∃ i r0 r1, t.ratios[i]? = some r0 ∧ t.ratios[i + 1]? = some r1 ∧ r0 ≤ x ∧ x < r1) ∨
      (∃ r, t.ratios[t.keyCount - 1]? = some r ∧ r ≤ x ∧ f x = f r) := by
    intro x
    obtain ⟨r0, hr0⟩ := rat_get h hk
    obtain ⟨v0, hv0⟩ := val_get h hk
    have hr0z : r0 = 0 := hfirst _ (by rw [List.head?_eq_getElem?]; exact hr0)
    subst hr0z
    have hfx := hf x
    cases hfx with
    | empty e1 => omega
    | first e1 e2 =>
      left
      refine ⟨e1 _ (List.mem_of_getElem? hr0), ?_⟩
      rw [List.head?_eq_getElem?] at e2
      rw [fkey hr0 e2]
    | last e1 e2 =>
      right; right
      obtain ⟨r, hr⟩ := rat_get h (show t.keyCount - 1 < t.keyCount by omega)
      refine ⟨r, hr, e1 _ (List.mem_of_getElem? hr), ?_⟩
      rw [List.getLast?_eq_getElem?, hvl] at e2
      rw [fkey hr e2]
    | step g1 g2 g3 g4 g5 => exact absurd g5 (hs _)
    | linear g1 g2 g3 g4 => right; left; exact ⟨_, _, _, g1, g2, g3, g4⟩
  -- from key `i` at or before `y` up to `y`
  have up : ∀ (i : Nat) (r0 y : α), t.ratios[i]? = some r0 → r0 ≤ y → f y - f r0 ≤ L * (y - r0) := by
    intro i r0 y e0 hy
    have hi : i < t.keyCount := by have := (List.getElem?_eq_some_iff.1 e0).1; omega
    have hp := h.nonneg _ (List.mem_of_getElem? e0)
    rcases loc y with ⟨h1, h2⟩ | ⟨k, a, b, ha, hb, h1, h2⟩ | ⟨r, hr, h1, h2⟩
    · linarith
    · have hik : i ≤ k := by
        by_contra hlt
        have := rat_le h (show k + 1 ≤ i by omega) hb e0
        linarith
      have c1 := kchain (k - i) i r0 e0 a (by rw [show i + (k - i) = k by omega]; exact ha)
      have c2 := fseg ha hb (le_refl _) h1 h2.le
      nlinarith
    · have c1 := kchain (t.keyCount - 1 - i) i r0 e0 r (by rw [show i + (t.keyCount - 1 - i) = t.keyCount - 1 by omega]; exact hr)
      rw [h2]
      have : 0 ≤ L * (y - r) := mul_nonneg hL0 (by linarith)
      nlinarith
  intro x y hxy
  rcases loc x with ⟨h1, h2⟩ | ⟨k, a, b, ha, hb, h1, h2⟩ | ⟨r, hr, h1, h2⟩
  · obtain ⟨r0, hr0⟩ := rat_get h hk
    have hr0z : r0 = 0 := hfirst _ (by rw [List.head?_eq_getElem?]; exact hr0)
    subst hr0z
    rw [h2]
    rcases lt_or_ge y 0 with hy | hy
    · rcases loc y with ⟨_, g2⟩ | ⟨k, a, b, ha, hb, g1, g2⟩ | ⟨r, hr, g1, g2⟩
      · rw [g2]; have := mul_nonneg hL0 (show 0 ≤ y - x by linarith); linarith
      · have := h.nonneg _ (List.mem_of_getElem? ha); linarith
      · have := h.nonneg _ (List.mem_of_getElem? hr); linarith
    · have := up 0 0 y hr0 hy
      have := mul_nonneg hL0 (show 0 ≤ -x by linarith)
      nlinarith
  · rcases le_total y b with hy | hy
    · exact fseg ha hb h1 hxy hy
    · have c1 := fseg ha hb h1 h2.le (le_refl _)
      have c2 := up _ b y hb hy
      nlinarith
  · rw [h2]
    have c1 := up _ r y hr (h1.trans hxy)
    rcases loc y with ⟨g1, _⟩ | ⟨k, a, b, ha, hb, g1, g2⟩ | ⟨r', hr', g1, g2⟩
    · have := h.nonneg _ (List.mem_of_getElem? hr); linarith
    · have hk1 : k + 1 < t.keyCount := by have := (List.getElem?_eq_some_iff.1 hb).1; omega
      have := rat_le h (show k + 1 ≤ t.keyCount - 1 by omega) hb hr
      linarith
    · rw [hr] at hr'; injection hr' with hr'; subst hr'
      rw [g2]
      have := mul_nonneg hL0 (show 0 ≤ y - x by linarith); linarith

end Scalar

end Ozz.TrackSampling
