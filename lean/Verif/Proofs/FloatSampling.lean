import Verif.Proofs.FloatLerp
import Verif.Proofs.Interpolate
import Verif.Proofs.Keys
import Verif.Model.SamplingCode
import Verif.Spec.FloatSampling

/-! Helper lemmas for sampling in single precision. -/

namespace Ozz.Sampling

open Spec Ieee F32

theorem le32_iff {x y : F32} : x ≤ y ↔ ¬ NaN32 x.bits ∧ ¬ NaN32 y.bits ∧ x.rank ≤ y.rank := by
  change F32.le x y = true ↔ _
  rw [← nan32_false, ← nan32_false]
  unfold F32.le
  cases x.isNaN <;> cases y.isNaN <;> simp

theorem lt32_iff {x y : F32} : x < y ↔ ¬ NaN32 x.bits ∧ ¬ NaN32 y.bits ∧ x.rank < y.rank := by
  change F32.lt x y = true ↔ _
  rw [← nan32_false, ← nan32_false]
  unfold F32.lt
  cases x.isNaN <;> cases y.isNaN <;> simp

theorem f32Order : RatioOrder F32 where
  trans := fun a b c h h' => by rw [le32_iff] at *; exact ⟨h.1, h'.2.1, h.2.2.trans h'.2.2⟩
  total := fun a b h h' => by
    rw [le32_iff] at *
    rcases le_total a.rank b.rank with h3 | h3
    · exact .inl ⟨h.1, h'.1, h3⟩
    · exact .inr (le32_iff.mpr ⟨h'.1, h.1, h3⟩)
  lt_iff := fun a b => by
    simp only [le32_iff, lt32_iff]
    constructor
    · rintro ⟨h1, h2, h3⟩
      exact ⟨⟨h1, h1, le_refl _⟩, ⟨h2, h2, le_refl _⟩, fun h => by omega⟩
    · rintro ⟨h1, h2, h3⟩
      refine ⟨h1.1, h2.1, ?_⟩
      by_contra h
      exact h3 ⟨h2.1, h1.1, by omega⟩
  left := fun a b h => by rw [le32_iff] at *; exact ⟨h.1, h.1, le_refl _⟩
  right := fun a b h => by rw [le32_iff] at *; exact ⟨h.2.1, h.2.1, le_refl _⟩

theorem le32_val {x y : F32} (hx : Finite32 x.bits) (hy : Finite32 y.bits) : x ≤ y ↔ val x ≤ val y := by
  have nx := not_nan_of_finite hx
  have ny := not_nan_of_finite hy
  rw [le32_iff, ← ext_le_iff nx ny, ext_finite hx, ext_finite hy, EReal.coe_le_coe_iff]
  simp [nx, ny]

theorem lt32_val {x y : F32} (hx : Finite32 x.bits) (hy : Finite32 y.bits) : x < y ↔ val x < val y := by
  have nx := not_nan_of_finite hx
  have ny := not_nan_of_finite hy
  rw [lt32_iff, ← ext_lt_iff nx ny, ext_finite hx, ext_finite hy, EReal.coe_lt_coe_iff]
  simp [nx, ny]

/-- The range of ratios. -/
theorem unit01_iff (r : F32) : (F32.zero ≤ r ∧ r ≤ F32.one) ↔ Unit01 r := by
  constructor
  · rintro ⟨h1, h2⟩
    have hf : Finite32 r.bits := by
      rw [le32_iff] at h1 h2
      have hn := h1.2.1
      refine finite_of_not hn fun hi => ?_
      rw [← ext_le_iff (not_nan_of_finite zero_finite) hn, ext_finite zero_finite] at h1
      rw [← ext_le_iff hn (not_nan_of_finite one_finite), ext_finite one_finite] at h2
      have h3 := h1.2.2
      have h4 := h2.2.2
      unfold ext at h3 h4
      rw [if_pos hi] at h3 h4
      by_cases hm : Minus r.bits
      · rw [if_pos hm] at h3; simp at h3
      · rw [if_neg hm] at h4; simp at h4
    refine ⟨hf, ?_, ?_⟩
    · have := (le32_val zero_finite hf).mp h1
      simpa only [val, zero_real] using this
    · have := (le32_val hf one_finite).mp h2
      simpa only [val, one_real] using this
  · intro h
    refine ⟨(le32_val zero_finite h.finite).mpr ?_, (le32_val h.finite one_finite).mpr ?_⟩
    · rw [val, zero_real]; exact h.nonneg
    · rw [val, val, one_real]; exact h.le_one

section
variable {real' T N : Nat} {time : Nat → F32} {pred track : Nat → Nat}

/-- Key order in single precision is key order of the real numbers. -/
theorem keyOrder_real (h : KeyOrder F32.zero F32.one real' T N time pred track) (ht : ∀ k, k < N → Unit01 (time k)) :
    KeyOrder (0 : ℝ) 1 real' T N (fun k => val (time k)) pred track where
  realLe := h.realLe
  two := h.two
  first := h.first
  second := h.second
  later := h.later
  predLt := h.predLt
  predTrack := h.predTrack
  predLast := h.predLast
  start := fun i hi => by
    have := (le32_val (ht i (by have := h.two; omega)).finite zero_finite).mp (h.start i hi)
    rwa [val, val, zero_real] at this
  increasing := fun k h1 h2 => (lt32_val (ht _ ((h.predLt k h1 h2).trans h2)).finite (ht k h2).finite).mp (h.increasing k h1 h2)
  sorted := fun k k' h1 h2 h3 =>
    (le32_val (ht _ ((h.predLt k h1 (by omega)).trans (by omega))).finite (ht _ ((h.predLt k' (by omega) h3).trans h3)).finite).mp
      (h.sorted k k' h1 h2 h3)
  finish := fun k h1 h2 h3 => by
    have := (le32_val one_finite (ht k h2).finite).mp (h.finish k h1 h2 h3)
    rwa [val, val, one_real] at this

theorem bracket_val {t l k : Nat} {r : F32} (hr : Unit01 r) (ht : ∀ k, k < N → Unit01 (time k)) (b : Bracket T N time track t r l k) :
    Bracket T N (fun k => val (time k)) track t (val r) l k where
  leftTrack := b.leftTrack
  rightTrack := b.rightTrack
  lt := b.lt
  rightLt := b.rightLt
  consecutive := b.consecutive
  leftLe := (le32_val (ht l (b.lt.trans b.rightLt)).finite hr.finite).mp b.leftLe
  rightGt := b.rightGt.imp (fun h => (lt32_val hr.finite (ht k b.rightLt).finite).mp h) id

end

/-- The keys between which the code interpolates. -/
theorem bracket_between {real' T N : Nat} {time : Nat → ℝ} {pred track : Nat → Nat} {lo hi : ℝ}
    (h : KeyOrder lo hi real' T N time pred track) {t l k l' k' : Nat} {r : ℝ} (b : Bracket T N time track t r l k)
    (c : Consecutive N track t l' k') (h1 : time l' ≤ r) (h2 : r < time k' ∨ ∀ m, k' < m → m < N → track m ≠ t) :
    l = l' ∧ k = k' := by
  have c0 := bracket_consecutive b
  have hl : l = l' := by
    rcases Nat.lt_trichotomy l l' with h3 | h3 | h3
    · exfalso
      -- then `k ≤ l'`
      have hk : k ≤ l' := by
        by_contra hk
        exact c0.none l' h3 (by omega) c.left
      rcases b.rightGt with h4 | h4
      · have : time k ≤ time l' := by
          rcases Nat.lt_or_eq_of_le hk with h5 | h5
          · exact (track_mono h k l' h5 (by have := c.lt; have := c.rightLt; omega) c0.right c.left).le
          · rw [h5]
        linarith
      · exact h4 k' (by have := c.lt; omega) c.rightLt c.right
    · exact h3
    · exfalso
      have hk : k' ≤ l := by
        by_contra hk
        exact c.none l h3 (by omega) c0.left
      rcases h2 with h4 | h4
      · have : time k' ≤ time l := by
          rcases Nat.lt_or_eq_of_le hk with h5 | h5
          · exact (track_mono h k' l h5 (by have := c0.lt; have := c0.rightLt; omega) c.right c0.left).le
          · rw [h5]
        have := b.leftLe
        linarith
      · exact h4 k (by have := c0.lt; omega) c0.rightLt c0.right
  refine ⟨hl, ?_⟩
  subst hl
  rcases Nat.lt_trichotomy k k' with h3 | h3 | h3
  · exact absurd c0.right (c.none k c0.lt h3)
  · exact h3
  · exact absurd c.right (c0.none k' c.lt h3)

/-- The code's line in single precision. -/
theorem line32_steps {t0 t1 a b r : F32} (h0 : Unit01 t0) (h1 : Unit01 t1) (hr : Unit01 r) (hlt : val t0 < val t1)
    (hr0 : val t0 ≤ val r) (hr1 : val r ≤ val t1) (ha : Moderate a) (hb : Moderate b) :
    LerpSteps a b ((r - t0) / (t1 - t0)) ∧ 0 ≤ val ((r - t0) / (t1 - t0)) ∧ val ((r - t0) / (t1 - t0)) ≤ 1 := by
  obtain ⟨-, -, fF, -, -, -, -, f0, f1, -, -⟩ := fraction_steps h0.finite h1.finite hr.finite h0.nonneg h1.le_one hlt hr0 hr1
  exact ⟨lerp_steps ha hb fF f0 f1, f0, f1⟩

theorem line32_error {t0 t1 a b r : F32} (h0 : Unit01 t0) (h1 : Unit01 t1) (hr : Unit01 r) (hlt : val t0 < val t1)
    (hr0 : val t0 ≤ val r) (hr1 : val r ≤ val t1) (ha : Moderate a) (hb : Moderate b) {M : ℝ} (hA : |val a| ≤ M)
    (hB : |val b| ≤ M) :
    |val (line t0 t1 a b r) - line (val t0) (val t1) (val a) (val b) (val r)| ≤ M / 2 ^ 20 + 1 / 2 ^ 150 := by
  obtain ⟨hs, f0, f1⟩ := line32_steps h0 h1 hr hlt hr0 hr1 ha hb
  have e1 := lerp_error hs f0 f1 hA hB
  have e2 := fraction_error h0.finite h1.finite hr.finite h0.nonneg h1.le_one hlt hr0 hr1
  change |val (line t0 t1 a b r) - _| ≤ _ at e1
  unfold line
  change |val (line t0 t1 a b r) - _| ≤ _
  generalize val (line t0 t1 a b r) = L at *
  have hD : |val b - val a| ≤ 2 * M := by
    have := abs_sub (val b) (val a); linarith
  have hM : 0 ≤ M := (abs_nonneg _).trans hA
  unfold val at *
  generalize real ((r - t0) / (t1 - t0)).bits = f at *
  generalize (real r.bits - real t0.bits) / (real t1.bits - real t0.bits) = g at *
  have e3 : |(real b.bits - real a.bits) * (f - g)| ≤ 2 * M * (1 / 2 ^ 22) := by
    rw [abs_mul]
    exact mul_le_mul hD e2 (abs_nonneg _) (by linarith)
  have e4 := abs_add_le (L - ((real b.bits - real a.bits) * f + real a.bits)) ((real b.bits - real a.bits) * (f - g))
  rw [show L - ((real b.bits - real a.bits) * f + real a.bits) + (real b.bits - real a.bits) * (f - g) =
    L - ((real b.bits - real a.bits) * g + real a.bits) by ring] at e4
  have e5 : M / 2 ^ 20 = M / 2 ^ 21 + 2 * M * (1 / 2 ^ 22) := by ring
  rw [e5]
  linarith

/-- A function that is, at every ratio, the code's line through bracketing keys follows the keys. -/
theorem follows_of_brackets {real' T N : Nat} {time : Nat → F32} {pred track : Nat → Nat}
    (h : KeyOrder F32.zero F32.one real' T N time pred track) (ht : ∀ k, k < N → Unit01 (time k)) {t : Nat} (v : Nat → F32)
    (hv : ∀ k, k < N → track k = t → Moderate (v k)) (f : F32 → F32)
    (hf : ∀ r, Unit01 r → ∃ l k, Bracket T N time track t r l k ∧ f r = line (time l) (time k) (v l) (v k) r) :
    FollowsKeys N time track t (fun k => val (v k)) f := by
  have hR := keyOrder_real h ht
  have hsteps : ∀ l k, Consecutive N track t l k → ∀ r, Unit01 r → val (time l) ≤ val r → val r ≤ val (time k) →
      LerpSteps (v l) (v k) ((r - time l) / (time k - time l)) ∧ 0 ≤ val ((r - time l) / (time k - time l)) ∧
        val ((r - time l) / (time k - time l)) ≤ 1 := fun l k c r hr h1 h2 =>
    line32_steps (ht l (c.lt.trans c.rightLt)) (ht k c.rightLt) hr (consecutive_lt hR c) h1 h2 (hv l (c.lt.trans c.rightLt) c.left)
      (hv k c.rightLt c.right)
  have hb : ∀ r, Unit01 r → ∃ l k, Bracket T N (fun k => val (time k)) track t (val r) l k ∧ Consecutive N track t l k ∧
      val (time l) ≤ val r ∧ val r ≤ val (time k) ∧ f r = line (time l) (time k) (v l) (v k) r := by
    intro r hr
    obtain ⟨l, k, b, e⟩ := hf r hr
    have b' := bracket_val hr ht b
    exact ⟨l, k, b', bracket_consecutive b', b'.leftLe, bracket_right hR b' hr.le_one, e⟩
  have hat : ∀ l k, Consecutive N track t l k → ∀ r, Unit01 r → Between N time track t l k r →
      val (time l) ≤ val r ∧ val r ≤ val (time k) ∧ f r = line (time l) (time k) (v l) (v k) r := by
    intro l k c r hr hbt
    obtain ⟨l', k', b, -, h1, h2, e⟩ := hb r hr
    obtain ⟨rfl, rfl⟩ := bracket_between hR b c hbt.1 (hbt.2.imp id And.right)
    exact ⟨h1, h2, e⟩
  have hlt : ∀ l k, Consecutive N track t l k → val (time l) < val (time k) := fun l k c => consecutive_lt hR c
  refine ⟨?_, ?_, ?_, ?_, ?_, ?_⟩
  · intro r hr
    obtain ⟨l, k, -, c, h1, h2, e⟩ := hb r hr
    rw [e]
    exact (hsteps l k c r hr h1 h2).1.lF
  · intro l k c r hr he
    obtain ⟨h1, h2, e⟩ := hat l k c r hr ⟨he.ge, .inl (by rw [he]; exact hlt l k c)⟩
    rw [e]
    refine (lerp_ends (hsteps l k c r hr h1 h2).1).1 ?_
    exact (fraction_ends (ht l (c.lt.trans c.rightLt)).finite (ht k c.rightLt).finite hr.finite
      (ht l (c.lt.trans c.rightLt)).nonneg (ht k c.rightLt).le_one (hlt l k c)).1 he
  · intro l k c hl r hr he
    obtain ⟨h1, h2, e⟩ := hat l k c r hr ⟨by rw [he]; exact (hlt l k c).le, .inr ⟨he.le, hl⟩⟩
    rw [e]
    refine (lerp_ends (hsteps l k c r hr h1 h2).1).2.1 ?_
    exact (fraction_ends (ht l (c.lt.trans c.rightLt)).finite (ht k c.rightLt).finite hr.finite
      (ht l (c.lt.trans c.rightLt)).nonneg (ht k c.rightLt).le_one (hlt l k c)).2 he
  · intro l k c hle r r' hr hr' hb1 hb2 hrr
    obtain ⟨h1, h2, e⟩ := hat l k c r hr hb1
    obtain ⟨h1', h2', e'⟩ := hat l k c r' hr' hb2
    obtain ⟨s, p, -⟩ := hsteps l k c r hr h1 h2
    obtain ⟨s', p', -⟩ := hsteps l k c r' hr' h1' h2'
    have hm := fraction_mono (ht l (c.lt.trans c.rightLt)).finite (ht k c.rightLt).finite hr.finite hr'.finite
      (ht l (c.lt.trans c.rightLt)).nonneg (ht k c.rightLt).le_one (hlt l k c) h1 hrr h2'
    obtain ⟨u1, u2, -⟩ := lerp_up s s' p hm hle
    obtain ⟨-, -, u3⟩ := lerp_up s' s' p' le_rfl hle
    rw [e, e']
    exact ⟨u1, u2, u3⟩
  · intro l k c hle r r' hr hr' hb1 hb2 hrr
    obtain ⟨h1, h2, e⟩ := hat l k c r hr hb1
    obtain ⟨h1', h2', e'⟩ := hat l k c r' hr' hb2
    obtain ⟨s, p, -⟩ := hsteps l k c r hr h1 h2
    obtain ⟨s', p', -⟩ := hsteps l k c r' hr' h1' h2'
    have hm := fraction_mono (ht l (c.lt.trans c.rightLt)).finite (ht k c.rightLt).finite hr.finite hr'.finite
      (ht l (c.lt.trans c.rightLt)).nonneg (ht k c.rightLt).le_one (hlt l k c) h1 hrr h2'
    obtain ⟨u1, u2, -⟩ := lerp_down s s' p hm hle
    obtain ⟨-, -, u3⟩ := lerp_down s' s' p' le_rfl hle
    rw [e, e']
    exact ⟨u1, u2, u3⟩
  · intro l k c r hr h1 h2 M hM
    obtain ⟨l', k', b, c', h1', h2', e⟩ := hb r hr
    have hl := bracket_line hR (fun k => val (v k)) b c h1 h2
    have := line32_error (ht l' (c'.lt.trans c'.rightLt)) (ht k' c'.rightLt) hr (hlt l' k' c') h1' h2'
      (hv l' (c'.lt.trans c'.rightLt) c'.left) (hv k' c'.rightLt c'.right) (hM l' (c'.lt.trans c'.rightLt) c'.left)
      (hM k' c'.rightLt c'.right)
    rw [e, show val (v l) + (val (v k) - val (v l)) * ((val r - val (time l)) / (val (time k) - val (time l))) =
      line (val (time l)) (val (time k)) (val (v l)) (val (v k)) (val r) from by unfold line; ring, ← hl]
    exact this

end Ozz.Sampling
