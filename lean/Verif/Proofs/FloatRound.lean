import Verif.Proofs.FloatValue
import Verif.Proofs.KeysValue
import Verif.Spec.Rounding
import Mathlib.Analysis.SpecialFunctions.Pow.NNReal
import Mathlib.Tactic.Linarith
import Mathlib.Tactic.Positivity

/-! Rounding of the `f32` model against the standard's definition. -/

namespace Ozz.F32

open Ozz

/-- Position of a rounded magnitude relative to the midpoints around it, before the overflow check. -/
theorem round_mid_raw (n d : Nat) (hd : 0 < d) : ∃ c, roundMag n d = min c (255 * 2 ^ 23) ∧
    (2 * n ≤ d * (magOf c + magOf (c + 1)) ∧ (2 * n = d * (magOf c + magOf (c + 1)) → c % 2 = 0)) ∧
    (0 < c → d * (magOf (c - 1) + magOf c) ≤ 2 * n ∧ (2 * n = d * (magOf (c - 1) + magOf c) → c % 2 = 0)) := by
  obtain ⟨e, t, he, ht, hr, t1, t2, t3, t4⟩ := roundMag_parts n d hd
  have hde : 0 < d * 2 ^ e := Nat.mul_pos hd (Nat.two_pow_pos e)
  obtain ⟨s1, s2, s3⟩ := roundDiv_spec n _ hde
  rw [← ht] at s1 s2 s3
  have hm := magOf_mk t1 t2
  refine ⟨e * 2 ^ 23 + t, hr, ?_, ?_⟩
  · rw [hm]
    rcases Nat.lt_or_ge t (2 ^ 24) with h | h
    · have h1 : magOf (e * 2 ^ 23 + t + 1) = (t + 1) * 2 ^ e := by
        rw [Nat.add_assoc]; exact magOf_mk (by omega) (by omega)
      rw [h1]
      have : d * (t * 2 ^ e + (t + 1) * 2 ^ e) = 2 * (t * (d * 2 ^ e)) + d * 2 ^ e := by ring
      rw [this]
      refine ⟨s2, fun h => ?_⟩
      have := s3 (Or.inr h)
      omega
    · have h' : t = 2 ^ 24 := by omega
      have h1 : magOf (e * 2 ^ 23 + t) < magOf (e * 2 ^ 23 + t + 1) := magOf_succ_lt _
      rw [hm] at h1
      have h2 : 2 * n < d * (t * 2 ^ e + magOf (e * 2 ^ 23 + t + 1)) := by
        calc 2 * n < 2 * (2 ^ 24 * (d * 2 ^ e)) := by omega
          _ = d * (t * 2 ^ e + t * 2 ^ e) := by rw [h']; ring
          _ ≤ _ := Nat.mul_le_mul_left _ (by omega)
      exact ⟨h2.le, fun h => absurd h h2.ne⟩
  · intro hc
    rw [hm]
    by_cases hb : e = 0 ∨ 2 ^ 23 < t
    · have ht0 : 0 < t := by rcases hb with rfl | hb <;> omega
      have h1 : magOf (e * 2 ^ 23 + t - 1) = (t - 1) * 2 ^ e := by
        rw [show e * 2 ^ 23 + t - 1 = e * 2 ^ 23 + (t - 1) from by omega]; exact magOf_mk (by omega) (by omega)
      rw [h1]
      obtain ⟨k, rfl⟩ : ∃ k, t = k + 1 := ⟨t - 1, by omega⟩
      have : d * ((k + 1 - 1) * 2 ^ e + (k + 1) * 2 ^ e) + d * 2 ^ e = 2 * ((k + 1) * (d * 2 ^ e)) := by
        rw [Nat.add_sub_cancel]; ring
      refine ⟨by omega, fun h => ?_⟩
      have := s3 (Or.inl (by omega))
      omega
    · push Not at hb
      obtain ⟨he0, hb2⟩ := hb
      have h' : t = 2 ^ 23 := by rcases t2 with h | h <;> omega
      obtain ⟨k, rfl⟩ : ∃ k, e = k + 1 := ⟨e - 1, by omega⟩
      have h1 : magOf ((k + 1) * 2 ^ 23 + t - 1) = (2 ^ 24 - 1) * 2 ^ k := by
        rw [show (k + 1) * 2 ^ 23 + t - 1 = k * 2 ^ 23 + (2 ^ 24 - 1) from by omega]
        exact magOf_mk (by omega) (by omega)
      have h3 := t3.resolve_left he0
      have h2 : d * (magOf ((k + 1) * 2 ^ 23 + t - 1) + t * 2 ^ (k + 1)) < 2 * n := by
        rw [h1, h']
        have hp : 0 < d * 2 ^ k := Nat.mul_pos hd (Nat.two_pow_pos k)
        calc d * ((2 ^ 24 - 1) * 2 ^ k + 2 ^ 23 * 2 ^ (k + 1)) = (2 ^ 25 - 1) * (d * 2 ^ k) := by
              rw [pow_succ]; ring_nf
          _ < 2 ^ 25 * (d * 2 ^ k) := by omega
          _ = 2 * (2 ^ 23 * (d * 2 ^ (k + 1))) := by rw [pow_succ 2 k]; ring
          _ ≤ 2 * n := Nat.mul_le_mul_left _ h3
      exact ⟨h2.le, fun h => absurd h h2.ne'⟩

/-- A number `q` (in units of 2^-149) lies between the midpoints around `c`, on a midpoint only if `c`
is even. -/
structure Mid (q : ℝ) (c : Nat) : Prop where
  le : c ≤ 255 * 2 ^ 23
  above : c < 255 * 2 ^ 23 → 2 * q ≤ magOf c + magOf (c + 1)
  above_even : c < 255 * 2 ^ 23 → 2 * q = magOf c + magOf (c + 1) → c % 2 = 0
  below : 0 < c → (magOf (c - 1) + magOf c : ℝ) ≤ 2 * q
  below_even : 0 < c → (magOf (c - 1) + magOf c : ℝ) = 2 * q → c % 2 = 0

theorem mid_of_nat {n d c : Nat} (hd : 0 < d) (hle : c ≤ 255 * 2 ^ 23)
    (h1 : c < 255 * 2 ^ 23 → 2 * n ≤ d * (magOf c + magOf (c + 1)) ∧
      (2 * n = d * (magOf c + magOf (c + 1)) → c % 2 = 0))
    (h2 : 0 < c → d * (magOf (c - 1) + magOf c) ≤ 2 * n ∧ (2 * n = d * (magOf (c - 1) + magOf c) → c % 2 = 0)) :
    Mid ((n : ℝ) / d) c := by
  have hd' : (0 : ℝ) < d := by exact_mod_cast hd
  have e : 2 * ((n : ℝ) / d) = (2 * n : ℝ) / d := by ring
  refine ⟨hle, fun h => ?_, fun h he => ?_, fun h => ?_, fun h he => ?_⟩
  · rw [e, div_le_iff₀ hd']
    have := (h1 h).1
    have : ((2 * n : ℕ) : ℝ) ≤ (d * (magOf c + magOf (c + 1)) : ℕ) := by exact_mod_cast this
    push_cast at this; linarith
  · apply (h1 h).2
    rw [e, div_eq_iff hd'.ne'] at he
    have : ((2 * n : ℕ) : ℝ) = (d * (magOf c + magOf (c + 1)) : ℕ) := by push_cast; linarith
    exact_mod_cast this
  · rw [e, le_div_iff₀ hd']
    have := (h2 h).1
    have : ((d * (magOf (c - 1) + magOf c) : ℕ) : ℝ) ≤ (2 * n : ℕ) := by exact_mod_cast this
    push_cast at this; linarith
  · apply (h2 h).2
    rw [e, eq_div_iff hd'.ne'] at he
    have : ((2 * n : ℕ) : ℝ) = (d * (magOf (c - 1) + magOf c) : ℕ) := by push_cast; linarith
    exact_mod_cast this

/-- `roundMag` rounds to nearest, ties to even, overflowing to the pattern of infinity. -/
theorem roundMag_mid (n d : Nat) (hd : 0 < d) : Mid ((n : ℝ) / d) (roundMag n d) := by
  obtain ⟨c, hc, h1, h2⟩ := round_mid_raw n d hd
  rcases Nat.lt_or_ge c (255 * 2 ^ 23) with h | h
  · rw [hc, min_eq_left h.le]
    exact mid_of_nat hd h.le (fun _ => h1) h2
  · rw [hc, min_eq_right h]
    refine mid_of_nat hd (le_refl _) (fun h => absurd h (lt_irrefl _)) (fun _ => ⟨?_, fun _ => by norm_num⟩)
    refine le_trans (Nat.mul_le_mul_left _ (Nat.add_le_add ?_ ?_)) (h2 (by omega)).1
    · exact magOf_strictMono.monotone (by omega)
    · exact magOf_strictMono.monotone h

/-- The midpoints decide: two numbers that compare alike with every half unit round alike. -/
theorem mid_congr {q q' : ℝ} {c : Nat} (h1 : ∀ k : ℕ, 2 * q ≤ k ↔ 2 * q' ≤ k) (h2 : ∀ k : ℕ, (k : ℝ) ≤ 2 * q ↔ (k : ℝ) ≤ 2 * q')
    (h : Mid q c) : Mid q' c := by
  have e1 : ∀ k : ℕ, 2 * q = k ↔ 2 * q' = k := fun k => by
    rw [le_antisymm_iff, h1, h2, ← le_antisymm_iff]
  obtain ⟨a1, a2, a3, a4, a5⟩ := h
  refine ⟨a1, fun h => ?_, fun h he => a3 h ?_, fun h => ?_, fun h he => a5 h ?_⟩
  · have := a2 h; rw [← Nat.cast_add] at this ⊢; exact (h1 _).mp this
  · rw [← Nat.cast_add] at he ⊢; exact (e1 _).mpr he
  · have := a4 h; rw [← Nat.cast_add] at this ⊢; exact (h2 _).mp this
  · rw [← Nat.cast_add] at he ⊢; exact ((e1 _).mpr he.symm).symm

/-- Rounded within the midpoints, it is the nearest magnitude. -/
theorem Mid.nearest {q : ℝ} {c : Nat} (h : Mid q c) (hc : c < 255 * 2 ^ 23) (b : Nat) :
    |(magOf c : ℝ) - q| ≤ |(magOf b : ℝ) - q| ∧
    (b ≠ c → |(magOf b : ℝ) - q| = |(magOf c : ℝ) - q| → c % 2 = 0) := by
  obtain ⟨-, a2, a3, a4, a5⟩ := h
  rcases Nat.lt_trichotomy b c with hb | rfl | hb
  · have hpos : 0 < c := by omega
    have h1 := a4 hpos
    have hm : (magOf b : ℝ) ≤ magOf (c - 1) := by exact_mod_cast magOf_strictMono.monotone (show b ≤ c - 1 by omega)
    have hm2 : (magOf b : ℝ) < magOf c := by exact_mod_cast magOf_strictMono hb
    have hq : (magOf b : ℝ) < q := by linarith
    rw [abs_of_neg (show (magOf b : ℝ) - q < 0 by linarith)]
    refine ⟨abs_le.mpr ⟨by linarith, by linarith⟩, fun _ he => a5 hpos ?_⟩
    rcases abs_choice ((magOf c : ℝ) - q) with h | h
    · rw [h] at he; linarith
    · rw [h] at he; linarith
  · exact ⟨le_refl _, fun h => absurd rfl h⟩
  · have h1 := a2 hc
    have hm : (magOf (c + 1) : ℝ) ≤ magOf b := by exact_mod_cast magOf_strictMono.monotone (show c + 1 ≤ b by omega)
    have hm2 : (magOf c : ℝ) < magOf b := by exact_mod_cast magOf_strictMono hb
    have hq : q < (magOf b : ℝ) := by linarith
    rw [abs_of_pos (show 0 < (magOf b : ℝ) - q by linarith)]
    refine ⟨abs_le.mpr ⟨by linarith, by linarith⟩, fun _ he => a3 hc ?_⟩
    rcases abs_choice ((magOf c : ℝ) - q) with h | h
    · rw [h] at he; linarith
    · rw [h] at he; linarith

theorem magOf_max : magOf (255 * 2 ^ 23 - 1) = (2 ^ 24 - 1) * 2 ^ 253 := by
  have := magOf_mk (e := 253) (t := 2 ^ 24 - 1) (by norm_num) (Or.inr (by norm_num))
  rw [show 253 * 2 ^ 23 + (2 ^ 24 - 1) = 255 * 2 ^ 23 - 1 from by norm_num] at this
  exact this

/-- It overflows exactly from the midpoint above the greatest finite magnitude on. -/
theorem Mid.overflow {q : ℝ} {c : Nat} (h : Mid q c) :
    c = 255 * 2 ^ 23 ↔ Ieee.overflowAt * 2 ^ 149 ≤ q := by
  have e : 2 * (Ieee.overflowAt * 2 ^ 149) = (magOf (255 * 2 ^ 23 - 1) : ℝ) + magOf (255 * 2 ^ 23) := by
    rw [magOf_max, magOf_inf]; unfold Ieee.overflowAt; norm_num
  obtain ⟨a1, a2, a3, a4, a5⟩ := h
  constructor
  · rintro rfl
    have := a4 (by norm_num)
    linarith
  · intro hq
    by_contra hne
    have hlt : c < 255 * 2 ^ 23 := by omega
    have h1 := a2 hlt
    rcases Nat.lt_or_ge (c + 1) (255 * 2 ^ 23) with h | h
    · have m1 : (magOf c : ℝ) < magOf (255 * 2 ^ 23 - 1) := by
        exact_mod_cast magOf_strictMono (show c < 255 * 2 ^ 23 - 1 by omega)
      have m2 : (magOf (c + 1) : ℝ) < magOf (255 * 2 ^ 23) := by exact_mod_cast magOf_strictMono h
      linarith
    · have hc : c = 255 * 2 ^ 23 - 1 := by omega
      have := a3 hlt
      have h2 : (magOf c : ℝ) + magOf (c + 1) = 2 * (Ieee.overflowAt * 2 ^ 149) := by
        rw [e, hc]; norm_num
      have := this (by linarith)
      omega

theorem real_eq_signed (x : F32) :
    Ieee.real x.bits = (if x.negative then (-1 : ℝ) else 1) * (x.mag : ℝ) / 2 ^ 149 := by
  unfold Ieee.real
  rw [value_eq]
  push_cast
  unfold signedMag
  cases x.negative <;> simp

theorem finite32_iff (x : F32) : Ieee.Finite32 x.bits ↔ x.low < 255 * 2 ^ 23 := by
  have := isFinite_iff x
  unfold isFinite at this
  rw [decide_eq_true_iff] at this
  exact this.symm

theorem inf32_iff (x : F32) : Ieee.Inf32 x.bits ↔ x.low = 255 * 2 ^ 23 := by
  have := isInf_iff x
  unfold isInf at this
  rw [decide_eq_true_iff] at this
  exact this.symm

theorem nan32_iff (x : F32) : Ieee.NaN32 x.bits ↔ 255 * 2 ^ 23 < x.low := by
  have := isNaN_iff x
  unfold isNaN at this
  rw [decide_eq_true_iff] at this
  exact this.symm

theorem minus_iff (x : F32) : Ieee.Minus x.bits ↔ x.negative = true := (negative_iff x).symm

theorem F32_of_bits (w : BitVec 32) : (⟨w⟩ : F32).bits = w := rfl

/-- A magnitude between the midpoints, packed with a sign, is the signed number rounded. -/
theorem Mid.roundsTo {q : ℝ} {c : Nat} (h : Mid q c) (hq : 0 ≤ q) (s : Bool) (neg : Prop) (hs : q = 0 → (s = true ↔ neg)) :
    Ieee.RoundsTo ((if s then -1 else 1) * q / 2 ^ 149) neg (pack s c).bits := by
  have hc31 : c < 2 ^ 31 := by have := h.le; omega
  have hlow := pack_low s hc31
  have hneg := pack_negative s hc31
  have hfin : ∀ {x : F32}, Ieee.Finite32 x.bits ↔ x.low < 255 * 2 ^ 23 := fun {x} => finite32_iff x
  have hp : (0 : ℝ) < 2 ^ 149 := by positivity
  set σ : ℝ := if s then -1 else 1 with hσ
  have hσ1 : |σ| = 1 := by rw [hσ]; cases s <;> simp
  have hz : Ieee.real (pack s c).bits = σ * (magOf c : ℝ) / 2 ^ 149 := by
    rw [real_eq_signed, hneg, mag, hlow]
  have hdz : |Ieee.real (pack s c).bits - σ * q / 2 ^ 149| = |(magOf c : ℝ) - q| / 2 ^ 149 := by
    rw [hz, ← sub_div, ← mul_sub, abs_div, abs_mul, hσ1, one_mul, abs_of_pos hp]
  -- distance of any other float
  have hdw : ∀ w : F32, ∃ τ : ℝ, (τ = 1 ∨ τ = -1) ∧ Ieee.real w.bits = σ * (τ * (w.mag : ℝ)) / 2 ^ 149 ∧
      |Ieee.real w.bits - σ * q / 2 ^ 149| = |τ * (w.mag : ℝ) - q| / 2 ^ 149 := by
    intro w
    obtain ⟨τ, hτ, hw⟩ : ∃ τ : ℝ, (τ = 1 ∨ τ = -1) ∧ Ieee.real w.bits = σ * (τ * (w.mag : ℝ)) / 2 ^ 149 := by
      rw [real_eq_signed, hσ]
      cases s <;> cases w.negative
      · exact ⟨1, Or.inl rfl, by simp⟩
      · exact ⟨-1, Or.inr rfl, by simp⟩
      · exact ⟨-1, Or.inr rfl, by simp⟩
      · exact ⟨1, Or.inl rfl, by simp⟩
    refine ⟨τ, hτ, hw, ?_⟩
    rw [hw, ← sub_div, ← mul_sub, abs_div, abs_mul, hσ1, one_mul, abs_of_pos hp]
  have hflip : ∀ (τ : ℝ) (m : ℝ), (τ = 1 ∨ τ = -1) → 0 ≤ m → |m - q| ≤ |τ * m - q| := by
    rintro τ m (rfl | rfl) hm
    · rw [one_mul]
    · rw [show (-1 : ℝ) * m - q = -(m + q) from by ring, abs_neg, abs_of_nonneg (add_nonneg hm hq)]
      exact abs_le.mpr ⟨by linarith, by linarith⟩
  refine ⟨?_, ?_, ?_, ?_, ?_⟩
  · rw [minus_iff, hneg]
    rcases hq.eq_or_lt with h0 | h0
    · rw [hs h0.symm, ← h0]; simp
    · have hq' : 0 < q / 2 ^ 149 := div_pos h0 hp
      rw [mul_div_assoc, hσ]
      cases s
      · simp [hq'.le, hq'.ne']
      · simp [hq']
  · rw [nan32_iff, hlow]; have := h.le; omega
  · rw [inf32_iff, hlow, h.overflow, abs_div, abs_mul, hσ1, one_mul, abs_of_pos hp, abs_of_nonneg hq, le_div_iff₀ hp]
  · intro hf w hw
    rw [hfin, hlow] at hf
    obtain ⟨τ, hτ, -, hd⟩ := hdw ⟨w⟩
    rw [F32_of_bits] at hd
    rw [hdz, hd]
    refine div_le_div_of_nonneg_right ?_ hp.le
    exact le_trans (h.nearest hf _).1 (hflip τ _ hτ (Nat.cast_nonneg _))
  · intro hf w hw hne he
    rw [hfin, hlow] at hf
    obtain ⟨τ, hτ, hv, hd⟩ := hdw ⟨w⟩
    rw [F32_of_bits] at hd hv
    rw [hdz, hd, div_left_inj' hp.ne'] at he
    have hpar : (pack s c).bits.toNat % 2 = c % 2 := by
      have : (pack s c).bits.toNat % 2 = (pack s c).low % 2 := by unfold low; omega
      rw [this, hlow]
    rw [hpar]
    set b := (⟨w⟩ : F32).low with hb
    have hmag : (⟨w⟩ : F32).mag = magOf b := rfl
    rw [hmag] at he hv
    have h1 := h.nearest hf b
    have h2 := hflip τ (magOf b) hτ (Nat.cast_nonneg _)
    rcases hτ with rfl | rfl
    · rw [one_mul] at he hv
      refine h1.2 ?_ he
      rintro rfl
      exact hne (by rw [hv, hz])
    · have hbn : (0 : ℝ) ≤ magOf b := Nat.cast_nonneg _
      have he' : |(magOf b : ℝ) - q| = (magOf b : ℝ) + q := by
        have e1 : |(-1 : ℝ) * magOf b - q| = (magOf b : ℝ) + q := by
          rw [show (-1 : ℝ) * magOf b - q = -(magOf b + q) from by ring, abs_neg, abs_of_nonneg (add_nonneg hbn hq)]
        rw [e1] at h2 he
        exact le_antisymm h2 (he ▸ h1.1)
      rcases abs_choice ((magOf b : ℝ) - q) with h3 | h3
      · -- q = 0
        have hq0 : q = 0 := by rw [h3] at he'; linarith
        by_contra hodd
        have hc0 : 0 < c := by omega
        have := h.below hc0
        have hm : 0 < magOf c := by
          have := magOf_strictMono hc0; rw [magOf_zero] at this; exact this
        have hm' : (0 : ℝ) < magOf c := by exact_mod_cast hm
        have hm2 : (0 : ℝ) ≤ magOf (c - 1) := Nat.cast_nonneg _
        rw [hq0] at this
        linarith
      · have hb0 : (magOf b : ℝ) = 0 := by rw [h3] at he'; linarith
        have hb1 : magOf b = 0 := by exact_mod_cast hb0
        refine h1.2 ?_ (by rw [he', ← he, hb0]; simp [abs_of_nonneg hq])
        rintro hbc
        apply hne
        rw [hv, hz, ← hbc, hb0]; simp

/-! ### Integer square root -/

theorem isqrt_spec (n : Nat) : ∀ (b acc : Nat), acc * acc ≤ n → n < (acc + 2 ^ b) * (acc + 2 ^ b) →
    isqrt n b acc * isqrt n b acc ≤ n ∧ n < (isqrt n b acc + 1) * (isqrt n b acc + 1) := by
  intro b
  induction b with
  | zero => intro acc h1 h2; exact ⟨h1, by simpa [isqrt] using h2⟩
  | succ b ih =>
    intro acc h1 h2
    simp only [isqrt]
    split
    · next h =>
      refine ih _ h ?_
      rwa [show acc + 2 ^ b + 2 ^ b = acc + 2 ^ (b + 1) from by rw [pow_succ]; ring]
    · next h => exact ih _ h1 (by omega)

/-- Root with a sticky bit: rounds like the exact root. -/
theorem sqrt_mid (m : Nat) (hm : m < 2 ^ 277) :
    Mid (√((m : ℝ) * 2 ^ 149)) (roundMag (2 * isqrt (m * 2 ^ 149 * 4) 216 0 +
      if isqrt (m * 2 ^ 149 * 4) 216 0 * isqrt (m * 2 ^ 149 * 4) 216 0 = m * 2 ^ 149 * 4 then 0 else 1) 4) := by
  obtain ⟨n, hn⟩ : ∃ n, n = m * 2 ^ 149 * 4 := ⟨_, rfl⟩
  rw [← hn]
  have hnb : n < (0 + 2 ^ 216) * (0 + 2 ^ 216) := by
    calc n = m * 2 ^ 149 * 4 := hn
      _ < 2 ^ 277 * 2 ^ 149 * 4 := by omega
      _ = 2 ^ (277 + 149 + 2) := by rw [pow_add, pow_add]; norm_num
      _ ≤ 2 ^ (216 + 216) := Nat.pow_le_pow_right (by norm_num) (by norm_num)
      _ = _ := by rw [zero_add, ← pow_add]
  obtain ⟨h1, h2⟩ := isqrt_spec n 216 0 (Nat.zero_le _) hnb
  generalize isqrt n 216 0 = r at *
  have hs : 2 * √((m : ℝ) * 2 ^ 149) = √(n : ℝ) := by
    have : (n : ℝ) = 2 ^ 2 * ((m : ℝ) * 2 ^ 149) := by rw [hn]; push_cast; ring
    rw [this, Real.sqrt_mul (by norm_num) ((m : ℝ) * 2 ^ 149), Real.sqrt_sq (by norm_num)]
  refine mid_congr ?_ ?_ (roundMag_mid _ 4 (by norm_num))
  · intro k
    rw [hs, Real.sqrt_le_left (Nat.cast_nonneg k)]
    have : (2 * (((2 * r + if r * r = n then 0 else 1 : ℕ) : ℝ) / (4 : ℕ)) ≤ k) ↔
        (2 * r + if r * r = n then 0 else 1) ≤ 2 * k := by
      rw [← Nat.cast_le (α := ℝ)]; push_cast; constructor <;> intro h <;> linarith
    rw [this, ← Nat.cast_pow, Nat.cast_le]
    rw [pow_two]
    rcases Nat.lt_or_ge k r with hk | hk
    · have : k * k < r * r := Nat.mul_self_lt_mul_self hk
      split <;> constructor <;> intro h <;> omega
    · rcases Nat.eq_or_lt_of_le hk with rfl | hk'
      · split <;> constructor <;> intro h <;> omega
      · have : (r + 1) * (r + 1) ≤ k * k := Nat.mul_self_le_mul_self hk'
        split <;> constructor <;> intro h <;> omega
  · intro k
    rw [hs, Real.le_sqrt (Nat.cast_nonneg k) (Nat.cast_nonneg n)]
    have : ((k : ℝ) ≤ 2 * (((2 * r + if r * r = n then 0 else 1 : ℕ) : ℝ) / (4 : ℕ))) ↔
        2 * k ≤ (2 * r + if r * r = n then 0 else 1) := by
      rw [← Nat.cast_le (α := ℝ)]; push_cast; constructor <;> intro h <;> linarith
    rw [this, ← Nat.cast_pow, Nat.cast_le]
    rw [pow_two]
    rcases Nat.lt_or_ge r k with hk | hk
    · have : (r + 1) * (r + 1) ≤ k * k := Nat.mul_self_le_mul_self hk
      split <;> constructor <;> intro h <;> omega
    · have : k * k ≤ r * r := Nat.mul_self_le_mul_self hk
      split <;> constructor <;> intro h <;> omega

/-! ### Operations -/

theorem natAbs_roundsTo (m : ℤ) (h0 : m ≠ 0) (s : Bool) (neg : Prop) (hs : (m : ℝ) = (if s then -1 else 1) * (m.natAbs : ℝ)) :
    Ieee.RoundsTo ((m : ℝ) / 2 ^ 149) neg (pack s (roundMag m.natAbs 1)).bits := by
  have h := (roundMag_mid m.natAbs 1 (by norm_num)).roundsTo (by positivity) s neg
    (fun h => by simp at h; exact absurd h h0)
  rw [hs]
  simpa using h

theorem real_signedMag (x : F32) : Ieee.real x.bits = (x.signedMag : ℝ) / 2 ^ 149 := by
  unfold Ieee.real; rw [value_eq]; push_cast; rfl

theorem finite_cases {x : F32} (h : Ieee.Finite32 x.bits) : x.isNaN = false ∧ x.isInf = false := by
  rw [finite32_iff] at h
  unfold isNaN isInf
  simp only [decide_eq_false_iff_not]
  omega

theorem natAbs_cast (m : ℤ) : (m : ℝ) = (if decide (m < 0) = true then -1 else 1) * (m.natAbs : ℝ) := by
  rcases lt_or_ge m 0 with h | h
  · have : (m.natAbs : ℤ) = -m := by omega
    have : (m.natAbs : ℝ) = -(m : ℝ) := by
      rw [← Int.cast_natCast (R := ℝ), this]; push_cast; rfl
    rw [this]; simp [h]
  · have : (m.natAbs : ℤ) = m := by omega
    have : (m.natAbs : ℝ) = (m : ℝ) := by rw [← Int.cast_natCast (R := ℝ), this]
    rw [this]; simp [not_lt.mpr h]

theorem zero_mid : Mid 0 0 := by
  refine ⟨by norm_num, fun _ => ?_, fun _ _ => rfl, fun h => absurd h (lt_irrefl _), fun h => absurd h (lt_irrefl _)⟩
  have : (0 : ℝ) ≤ (magOf 0 : ℝ) + (magOf (0 + 1) : ℝ) := by positivity
  linarith

theorem add_roundsTo {x y : F32} (hx : Ieee.Finite32 x.bits) (hy : Ieee.Finite32 y.bits) :
    Ieee.RoundsTo (Ieee.real x.bits + Ieee.real y.bits) (Ieee.Minus x.bits ∧ Ieee.Minus y.bits) (x + y).bits := by
  obtain ⟨x1, x2⟩ := finite_cases hx
  obtain ⟨y1, y2⟩ := finite_cases hy
  have hsum : Ieee.real x.bits + Ieee.real y.bits = ((x.signedMag + y.signedMag : ℤ) : ℝ) / 2 ^ 149 := by
    rw [real_signedMag, real_signedMag]; push_cast; ring
  change Ieee.RoundsTo _ _ (add x y).bits
  unfold add
  rw [x1, x2, y1, y2, hsum]
  simp only [Bool.or_self, Bool.false_eq_true, if_false]
  generalize x.signedMag + y.signedMag = m
  by_cases h0 : m = 0
  · rw [if_pos h0, h0, minus_iff, minus_iff, ← Bool.and_eq_true]
    have := zero_mid.roundsTo (le_refl _) (x.negative && y.negative) _ (fun _ => Iff.rfl)
    rw [mul_zero, zero_div] at this
    simpa using this
  · rw [if_neg h0]
    exact natAbs_roundsTo _ h0 _ _ (natAbs_cast m)

theorem neg_low (x : F32) : (neg x).low = x.low := pack_low _ (low_lt x)
theorem neg_negative (x : F32) : (neg x).negative = !x.negative := pack_negative _ (low_lt x)

theorem neg_real (x : F32) : Ieee.real (neg x).bits = -Ieee.real x.bits := by
  rw [real_eq_signed, real_eq_signed, neg_negative, mag, neg_low, mag]
  cases x.negative <;> simp [neg_div]

theorem neg_finite {x : F32} : Ieee.Finite32 (neg x).bits ↔ Ieee.Finite32 x.bits := by
  rw [finite32_iff, finite32_iff, neg_low]

theorem neg_minus {x : F32} : Ieee.Minus (neg x).bits ↔ ¬ Ieee.Minus x.bits := by
  rw [minus_iff, minus_iff, neg_negative]; simp

theorem sub_roundsTo {x y : F32} (hx : Ieee.Finite32 x.bits) (hy : Ieee.Finite32 y.bits) :
    Ieee.RoundsTo (Ieee.real x.bits - Ieee.real y.bits) (Ieee.Minus x.bits ∧ ¬ Ieee.Minus y.bits) (x - y).bits := by
  have h := add_roundsTo hx (neg_finite.mpr hy)
  rw [neg_real, neg_minus, ← sub_eq_add_neg] at h
  change Ieee.RoundsTo _ _ (sub x y).bits
  unfold sub
  rw [(finite_cases hx).1, (finite_cases hy).1, Bool.or_self, if_neg Bool.false_ne_true]
  exact h

theorem mul_roundsTo {x y : F32} (hx : Ieee.Finite32 x.bits) (hy : Ieee.Finite32 y.bits) :
    Ieee.RoundsTo (Ieee.real x.bits * Ieee.real y.bits) (¬ (Ieee.Minus x.bits ↔ Ieee.Minus y.bits)) (x * y).bits := by
  obtain ⟨x1, x2⟩ := finite_cases hx
  obtain ⟨y1, y2⟩ := finite_cases hy
  change Ieee.RoundsTo _ _ (mul x y).bits
  unfold mul
  rw [x1, x2, y1, y2]
  simp only [Bool.or_self, Bool.false_eq_true, if_false]
  have h := (roundMag_mid (x.mag * y.mag) (2 ^ 149) (by positivity)).roundsTo (by positivity) (x.negative != y.negative) (¬ (x.negative = true ↔ y.negative = true))
    (fun _ => by cases x.negative <;> cases y.negative <;> simp)
  rw [minus_iff, minus_iff, real_eq_signed, real_eq_signed]
  convert h using 1
  push_cast
  cases x.negative <;> cases y.negative <;> simp <;> ring

theorem low_zero_iff (x : F32) : x.low = 0 ↔ Ieee.real x.bits = 0 := by
  rw [real_eq_signed]
  have hz : magOf x.low = 0 ↔ x.low = 0 := by
    constructor
    · intro h
      by_contra h0
      have := magOf_strictMono (Nat.pos_of_ne_zero h0)
      rw [magOf_zero] at this; omega
    · intro h; rw [h, magOf_zero]
  rw [← hz]
  have hm : (x.mag : ℝ) = 0 ↔ magOf x.low = 0 := by unfold mag; exact_mod_cast Iff.rfl
  rw [← hm]
  cases x.negative <;> simp

theorem div_roundsTo {x y : F32} (hx : Ieee.Finite32 x.bits) (hy : Ieee.Finite32 y.bits) (h0 : Ieee.real y.bits ≠ 0) :
    Ieee.RoundsTo (Ieee.real x.bits / Ieee.real y.bits) (¬ (Ieee.Minus x.bits ↔ Ieee.Minus y.bits)) (x / y).bits := by
  obtain ⟨x1, x2⟩ := finite_cases hx
  obtain ⟨y1, y2⟩ := finite_cases hy
  have hl : ¬ y.low = 0 := fun h => h0 ((low_zero_iff y).mp h)
  have hmp : 0 < y.mag := by
    have := magOf_strictMono (Nat.pos_of_ne_zero hl); rwa [magOf_zero] at this
  change Ieee.RoundsTo _ _ (div x y).bits
  unfold div
  rw [x1, x2, y1, y2]
  simp only [Bool.or_self, Bool.false_eq_true, if_false, if_neg hl]
  have h := (roundMag_mid (x.mag * 2 ^ 149) y.mag hmp).roundsTo (by positivity) (x.negative != y.negative) (¬ (x.negative = true ↔ y.negative = true))
    (fun _ => by cases x.negative <;> cases y.negative <;> simp)
  rw [minus_iff, minus_iff, real_eq_signed, real_eq_signed]
  convert h using 1
  have hmp' : (y.mag : ℝ) ≠ 0 := by exact_mod_cast hmp.ne'
  have hu : (2 : ℝ) ^ 149 ≠ 0 := by positivity
  rw [Nat.cast_mul, Nat.cast_pow, Nat.cast_ofNat]
  generalize (2 : ℝ) ^ 149 = u at hu ⊢
  cases x.negative <;> cases y.negative <;> simp <;> field_simp

theorem sqrt_roundsTo {x : F32} (hx : Ieee.Finite32 x.bits) (h0 : 0 ≤ Ieee.real x.bits) :
    Ieee.RoundsTo (√(Ieee.real x.bits)) (Ieee.Minus x.bits) (sqrt x).bits := by
  obtain ⟨x1, x2⟩ := finite_cases hx
  unfold sqrt
  rw [x1, x2]
  simp only [Bool.false_eq_true, if_false]
  split
  · next hl =>
    have hr := (low_zero_iff x).mp hl
    rw [hr, Real.sqrt_zero]
    have h := zero_mid.roundsTo (le_refl _) x.negative _ (fun _ => Iff.rfl)
    rw [mul_zero, zero_div, ← hl, pack_self, ← minus_iff] at h
    exact h
  · next hl =>
    have hr : ¬ Ieee.real x.bits = 0 := fun h => hl ((low_zero_iff x).mpr h)
    have hn : x.negative = false := by
      by_contra hc
      rw [Bool.not_eq_false] at hc
      have : Ieee.real x.bits ≤ 0 := by
        rw [real_eq_signed, hc]
        have : (0 : ℝ) ≤ (x.mag : ℝ) / 2 ^ 149 := by positivity
        simp only [if_true, neg_mul, one_mul, neg_div]; linarith
      exact hr (le_antisymm this h0)
    rw [hn]
    simp only [Bool.false_eq_true, if_false]
    have hm : x.mag < 2 ^ 277 := by
      rw [finite32_iff] at hx
      have := magOf_strictMono hx
      rw [magOf_inf, ← pow_add] at this
      exact this
    have h := (sqrt_mid x.mag hm).roundsTo (Real.sqrt_nonneg _) false (Ieee.Minus x.bits)
      (fun _ => by rw [minus_iff, hn])
    have e : √(Ieee.real x.bits) = √((x.mag : ℝ) * 2 ^ 149) / 2 ^ 149 := by
      rw [real_eq_signed, hn]
      simp only [Bool.false_eq_true, if_false, one_mul]
      rw [show (x.mag : ℝ) / 2 ^ 149 = (x.mag : ℝ) * 2 ^ 149 / (2 ^ 149) ^ 2 from by field_simp,
        Real.sqrt_div (by positivity), Real.sqrt_sq (by positivity)]
    rw [e]
    simpa using h

theorem lit_roundsTo (n d : Nat) (hd : 0 < d) :
    Ieee.RoundsTo ((n : ℝ) / d) False (pack false (roundMag (n * 2 ^ 149) d)).bits := by
  have h := (roundMag_mid (n * 2 ^ 149) d hd).roundsTo (by positivity) false False (fun _ => by simp)
  convert h using 1
  have hu : (2 : ℝ) ^ 149 ≠ 0 := by positivity
  have hd' : (d : ℝ) ≠ 0 := by exact_mod_cast hd.ne'
  rw [Nat.cast_mul, Nat.cast_pow, Nat.cast_ofNat]
  generalize (2 : ℝ) ^ 149 = u at hu ⊢
  simp only [Bool.false_eq_true, if_false, one_mul]
  field_simp

theorem ofNat_roundsTo (n : Nat) : Ieee.RoundsTo (n : ℝ) False (ofNat n).bits := by
  have h := lit_roundsTo n 1 (by norm_num)
  rw [Nat.cast_one, div_one] at h
  exact h

/-! ### Order -/

theorem ext_le_iff {x y : F32} (hx : ¬ Ieee.NaN32 x.bits) (hy : ¬ Ieee.NaN32 y.bits) :
    Ieee.ext x.bits ≤ Ieee.ext y.bits ↔ x.rank ≤ y.rank := by
  have hfin : ∀ a b : F32, ((Ieee.real a.bits : ℝ) : EReal) ≤ Ieee.real b.bits ↔ a.rank ≤ b.rank := by
    intro a b
    rw [EReal.coe_le_coe_iff, ← value_le_iff]
    unfold Ieee.real
    exact_mod_cast Iff.rfl
  rw [nan32_iff, not_lt] at hx hy
  unfold Ieee.ext
  simp only [inf32_iff, minus_iff]
  by_cases h1 : x.low = 255 * 2 ^ 23 <;> by_cases h2 : y.low = 255 * 2 ^ 23
  · simp only [h1, h2, if_true]
    unfold rank
    cases x.negative <;> cases y.negative <;> simp [h1, h2]
  · simp only [h1, h2, if_true, if_false]
    unfold rank
    have : y.low < 255 * 2 ^ 23 := by omega
    cases x.negative <;> cases y.negative <;> simp [h1] <;> omega
  · simp only [h1, h2, if_true, if_false]
    unfold rank
    have : x.low < 255 * 2 ^ 23 := by omega
    cases x.negative <;> cases y.negative <;> simp [h2] <;> omega
  · simp only [h1, h2, if_false]
    exact hfin x y

theorem ext_lt_iff {x y : F32} (hx : ¬ Ieee.NaN32 x.bits) (hy : ¬ Ieee.NaN32 y.bits) :
    Ieee.ext x.bits < Ieee.ext y.bits ↔ x.rank < y.rank := by
  rw [← not_le, ext_le_iff hy hx, not_le]

theorem ext_eq_iff {x y : F32} (hx : ¬ Ieee.NaN32 x.bits) (hy : ¬ Ieee.NaN32 y.bits) :
    Ieee.ext x.bits = Ieee.ext y.bits ↔ x.rank = y.rank := by
  rw [le_antisymm_iff, ext_le_iff hx hy, ext_le_iff hy hx, ← le_antisymm_iff]

theorem nan32_false {x : F32} : x.isNaN = false ↔ ¬ Ieee.NaN32 x.bits := by
  rw [nan32_iff]; simp [isNaN]

/-- Rounding to nearest, ties to even, is monotone. -/
theorem rounds_mono {r r' : ℝ} {s s' : Prop} {z w : BitVec 32} (hz : Ieee.RoundsTo r s z) (hw : Ieee.RoundsTo r' s' w)
    (h : r ≤ r') : Ieee.ext z ≤ Ieee.ext w := by
  have hov : (0 : ℝ) < Ieee.overflowAt := by unfold Ieee.overflowAt; norm_num
  obtain ⟨zs, zn, zo, zr, ze⟩ := hz
  obtain ⟨ws, wn, wo, wr, we⟩ := hw
  by_cases hzi : Ieee.Inf32 z
  · have h1 := zo.mp hzi
    by_cases hzm : Ieee.Minus z
    · unfold Ieee.ext; rw [if_pos hzi, if_pos hzm]; exact bot_le
    · have hr0 : 0 ≤ r := by
        by_contra hc; exact hzm (zs.mpr (Or.inl (not_le.mp hc)))
      rw [abs_of_nonneg hr0] at h1
      have hwi : Ieee.Inf32 w := wo.mpr (by rw [abs_of_nonneg (hr0.trans h)]; linarith)
      have hwm : ¬ Ieee.Minus w := by
        rw [ws]; push Not; exact ⟨hr0.trans h, fun e => absurd e (by linarith)⟩
      unfold Ieee.ext; rw [if_pos hwi, if_neg hwm]; exact le_top
  · by_cases hwi : Ieee.Inf32 w
    · have h1 := wo.mp hwi
      by_cases hwm : Ieee.Minus w
      · exfalso
        have hr0 : r' ≤ 0 := by rcases ws.mp hwm with h | ⟨h, -⟩ <;> linarith
        rw [abs_of_nonpos hr0] at h1
        exact hzi (zo.mpr (by rw [abs_of_nonpos (h.trans hr0)]; linarith))
      · unfold Ieee.ext; rw [if_pos hwi, if_neg hwm]; exact le_top
    · have hzf : Ieee.Finite32 z := by
        have a := zn; have b := hzi
        rw [← F32_of_bits z, nan32_iff] at a; rw [← F32_of_bits z, inf32_iff] at b
        rw [← F32_of_bits z, finite32_iff]; omega
      have hwf : Ieee.Finite32 w := by
        have a := wn; have b := hwi
        rw [← F32_of_bits w, nan32_iff] at a; rw [← F32_of_bits w, inf32_iff] at b
        rw [← F32_of_bits w, finite32_iff]; omega
      unfold Ieee.ext
      rw [if_neg hzi, if_neg hwi, EReal.coe_le_coe_iff]
      by_contra hlt
      rw [not_le] at hlt
      have z1 := zr hzf w hwf
      have w1 := wr hwf z hzf
      -- both numbers are the midpoint
      have hmid : r = (Ieee.real z + Ieee.real w) / 2 ∧ r' = (Ieee.real z + Ieee.real w) / 2 := by
        rcases abs_cases (Ieee.real z - r) with ⟨e1, c1⟩ | ⟨e1, c1⟩ <;>
        rcases abs_cases (Ieee.real w - r) with ⟨e2, c2⟩ | ⟨e2, c2⟩ <;>
        rcases abs_cases (Ieee.real z - r') with ⟨e3, c3⟩ | ⟨e3, c3⟩ <;>
        rcases abs_cases (Ieee.real w - r') with ⟨e4, c4⟩ | ⟨e4, c4⟩ <;>
        rw [e1, e2] at z1 <;> rw [e3, e4] at w1 <;> constructor <;> linarith
      obtain ⟨rfl, rfl⟩ := hmid
      have d1 : |Ieee.real z - (Ieee.real z + Ieee.real w) / 2| = (Ieee.real z - Ieee.real w) / 2 := by
        rw [abs_of_pos (by linarith)]; ring
      have d2 : |Ieee.real w - (Ieee.real z + Ieee.real w) / 2| = (Ieee.real z - Ieee.real w) / 2 := by
        rw [abs_of_neg (by linarith)]; ring
      have pz := ze hzf w hwf hlt.ne (by rw [d1, d2])
      have pw := we hwf z hzf hlt.ne' (by rw [d1, d2])
      -- no float is strictly between them
      have hbet : ∀ v, Ieee.Finite32 v → Ieee.real w < Ieee.real v → Ieee.real v < Ieee.real z → False := by
        intro v hv h1 h2
        have := zr hzf v hv
        rw [d1] at this
        have : |Ieee.real v - (Ieee.real z + Ieee.real w) / 2| < (Ieee.real z - Ieee.real w) / 2 :=
          abs_lt.mpr ⟨by linarith, by linarith⟩
        linarith
      have hlt' : ∀ a b : F32, Ieee.real a.bits < Ieee.real b.bits ↔ a.rank < b.rank := by
        intro a b
        rw [← not_le, ← not_le, ← value_le_iff]
        unfold Ieee.real
        exact not_congr (by exact_mod_cast Iff.rfl)
      have hr := (hlt' ⟨w⟩ ⟨z⟩).mp hlt
      rw [← F32_of_bits z, finite32_iff] at hzf
      rw [← F32_of_bits w, finite32_iff] at hwf
      have par : ∀ v : BitVec 32, v.toNat % 2 = (⟨v⟩ : F32).low % 2 := fun v => by unfold low; dsimp only; omega
      rw [par] at pz pw
      -- ranks of the same parity leave room for one between
      have hroom : ∃ v : F32, (⟨w⟩ : F32).rank < v.rank ∧ v.rank < (⟨z⟩ : F32).rank ∧ v.low < 255 * 2 ^ 23 := by
        set k := (⟨w⟩ : F32).rank + 1 with hk
        have hkz : k < (⟨z⟩ : F32).rank := by
          have : k ≠ (⟨z⟩ : F32).rank := by
            intro he
            rw [hk] at he
            unfold rank at he
            cases h1 : (⟨w⟩ : F32).negative <;> cases h2 : (⟨z⟩ : F32).negative <;>
              simp only [h1, h2, if_true, if_false, Bool.false_eq_true] at he <;> omega
          omega
        have hb : k.natAbs < 255 * 2 ^ 23 := by
          have h1 : -((⟨w⟩ : F32).low : ℤ) ≤ (⟨w⟩ : F32).rank := by unfold rank; split <;> omega
          have h2 : (⟨z⟩ : F32).rank ≤ ((⟨z⟩ : F32).low : ℤ) := by unfold rank; split <;> omega
          omega
        refine ⟨pack (decide (k < 0)) k.natAbs, ?_, ?_, ?_⟩
        · unfold rank
          rw [pack_negative _ (by omega), pack_low _ (by omega)]
          change (⟨w⟩ : F32).rank < _
          simp only [decide_eq_true_eq]
          split <;> omega
        · unfold rank
          rw [pack_negative _ (by omega), pack_low _ (by omega)]
          change _ < (⟨z⟩ : F32).rank
          simp only [decide_eq_true_eq]
          split <;> omega
        · rw [pack_low _ (by omega)]; exact hb
      obtain ⟨v, v1, v2, v3⟩ := hroom
      exact hbet v.bits ((finite32_iff v).mpr v3) ((hlt' ⟨w⟩ v).mpr v1) ((hlt' v ⟨z⟩).mpr v2)

theorem nan32_true {x : F32} : x.isNaN = true ↔ Ieee.NaN32 x.bits := isNaN_iff x
theorem inf32_true {x : F32} : x.isInf = true ↔ Ieee.Inf32 x.bits := isInf_iff x


theorem nan_bits : Ieee.NaN32 nan.bits := by decide +kernel

theorem inf_cases {x : F32} (h : Ieee.Inf32 x.bits) : x.isNaN = false ∧ x.isInf = true ∧ x.low ≠ 0 := by
  rw [inf32_iff] at h
  unfold isNaN isInf
  rw [h]
  simp

theorem inf_inf (s : Bool) : Ieee.Inf32 (inf s).bits ∧ (Ieee.Minus (inf s).bits ↔ s = true) := by
  rw [inf32_iff, minus_iff]
  unfold inf
  rw [pack_low _ (by norm_num), pack_negative _ (by norm_num)]
  exact ⟨rfl, Iff.rfl⟩

theorem signs_iff (x y : F32) : (x.negative != y.negative) = true ↔ ¬ (Ieee.Minus x.bits ↔ Ieee.Minus y.bits) := by
  rw [minus_iff, minus_iff]; cases x.negative <;> cases y.negative <;> simp

end Ozz.F32
