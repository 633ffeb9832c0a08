import Verif.Proofs.FloatRound
import Verif.Model.Math
import Mathlib.Algebra.Order.Floor.Semifield

/-!
C61: the arithmetic used by every theorem about `F32` is that of IEEE-754 single precision: each operation
returns the exact result rounded to nearest, ties to even; NaNs, infinities, zeros and comparisons are as
the standard says.
-/

namespace Ozz.Props

open Ozz F32 Ieee

/-- C61, finite operands: `+ - * /` and `sqrt` round the exact result correctly, signs of zeros included. -/
theorem C61_arithmetic (x y : F32) (hx : Finite32 x.bits) (hy : Finite32 y.bits) :
    RoundsTo (real x.bits + real y.bits) (Minus x.bits ∧ Minus y.bits) (x + y).bits ∧
    RoundsTo (real x.bits - real y.bits) (Minus x.bits ∧ ¬ Minus y.bits) (x - y).bits ∧
    RoundsTo (real x.bits * real y.bits) (¬ (Minus x.bits ↔ Minus y.bits)) (x * y).bits ∧
    (real y.bits ≠ 0 → RoundsTo (real x.bits / real y.bits) (¬ (Minus x.bits ↔ Minus y.bits)) (x / y).bits) ∧
    (0 ≤ real x.bits → RoundsTo √(real x.bits) (Minus x.bits) (F32.sqrt x).bits) :=
  ⟨add_roundsTo hx hy, sub_roundsTo hx hy, mul_roundsTo hx hy, div_roundsTo hx hy, sqrt_roundsTo hx⟩

example : (⟨0x3f800000⟩ : F32) / ⟨0x40400000⟩ = ⟨0x3eaaaaab⟩ ∧ Finite32 0x3f800000 ∧ Finite32 0x40400000 ∧
    F32.sqrt ⟨0x40000000⟩ = ⟨0x3fb504f3⟩ := by decide +kernel

/-- C61, integers and literals: converted by rounding; the constants of the code that are exact are exact. -/
theorem C61_literals (n d : Nat) (hd : 0 < d) :
    RoundsTo (n : ℝ) False (F32.ofNat n).bits ∧
    RoundsTo ((n : ℝ) / d) False (NumOps.lit n d : F32).bits ∧
    real (NumOps.zero : F32).bits = 0 ∧ real (NumOps.one : F32).bits = 1 ∧
    real (NumOps.two : F32).bits = 2 ∧ real (NumOps.half : F32).bits = 1 / 2 := by
  refine ⟨ofNat_roundsTo n, lit_roundsTo n d hd, ?_, ?_, ?_, ?_⟩
  · have : value32 (NumOps.zero : F32).bits = 0 := by decide +kernel
    unfold real; rw [this]; norm_num
  · have : value32 (NumOps.one : F32).bits = 1 := by decide +kernel
    unfold real; rw [this]; norm_num
  · have : value32 (NumOps.two : F32).bits = 2 := by decide +kernel
    unfold real; rw [this]; norm_num
  · have : value32 (NumOps.half : F32).bits = 1 / 2 := by decide +kernel
    unfold real; rw [this]; norm_num

/-- C61: correct rounding leaves no choice: two results for the same number and sign are the same bits. -/
theorem C61_unique {r : ℝ} {s : Prop} {z w : BitVec 32} (hz : RoundsTo r s z) (hw : RoundsTo r s w) : z = w := by
  have key := rounds_mono hz hw (le_refl r)
  have key' := rounds_mono hw hz (le_refl r)
  have h1 := (ext_le_iff (x := ⟨z⟩) (y := ⟨w⟩) hz.number hw.number).mp key
  have h2 := (ext_le_iff (x := ⟨w⟩) (y := ⟨z⟩) hw.number hz.number).mp key'
  have hn : (⟨z⟩ : F32).negative = (⟨w⟩ : F32).negative := by
    rw [Bool.eq_iff_iff, ← minus_iff, ← minus_iff]; exact hz.sign.trans hw.sign.symm
  have : (⟨z⟩ : F32) = ⟨w⟩ := by
    refine ext_low hn ?_
    unfold rank at h1 h2
    rw [hn] at h1 h2
    split at h1 <;> simp_all <;> omega
  exact congrArg F32.bits this

/-- C61: rounding is monotone, infinities included. -/
theorem C61_monotone {r r' : ℝ} {s s' : Prop} {z w : BitVec 32} (hz : RoundsTo r s z) (hw : RoundsTo r' s' w)
    (h : r ≤ r') : ext z ≤ ext w := rounds_mono hz hw h

example : RoundsTo (1 : ℝ) False (F32.ofNat 1).bits ∧ RoundsTo (16777217 : ℝ) False (F32.ofNat 16777217).bits ∧
    F32.ofNat 16777217 = ⟨0x4b800000⟩ := by
  refine ⟨by simpa using ofNat_roundsTo 1, by simpa using ofNat_roundsTo 16777217, by decide +kernel⟩

/-- C61, special operands of `+ - * /`: NaNs spread; infinities and zeros give what the standard says. -/
theorem C61_special (x y : F32) :
    (NaN32 x.bits ∨ NaN32 y.bits → NaN32 (x + y).bits ∧ NaN32 (x - y).bits ∧ NaN32 (x * y).bits ∧ NaN32 (x / y).bits) ∧
    -- infinity and a number, two infinities
    (Inf32 x.bits → Finite32 y.bits → x + y = x ∧ y + x = x ∧ x - y = x ∧ y - x = -x) ∧
    (Inf32 x.bits → Inf32 y.bits → (Minus x.bits ↔ Minus y.bits) → x + y = x ∧ NaN32 (x - y).bits) ∧
    (Inf32 x.bits → Inf32 y.bits → ¬ (Minus x.bits ↔ Minus y.bits) → NaN32 (x + y).bits ∧ x - y = x) ∧
    -- products
    (Inf32 x.bits → ¬ NaN32 y.bits → (Inf32 y.bits ∨ real y.bits ≠ 0) →
      Inf32 (x * y).bits ∧ Inf32 (y * x).bits ∧ (Minus (x * y).bits ↔ ¬ (Minus x.bits ↔ Minus y.bits)) ∧
      (Minus (y * x).bits ↔ ¬ (Minus x.bits ↔ Minus y.bits))) ∧
    (Inf32 x.bits → Finite32 y.bits → real y.bits = 0 → NaN32 (x * y).bits ∧ NaN32 (y * x).bits) ∧
    -- quotients
    (Inf32 x.bits → Inf32 y.bits → NaN32 (x / y).bits) ∧
    (Inf32 x.bits → Finite32 y.bits → Inf32 (x / y).bits ∧ (Minus (x / y).bits ↔ ¬ (Minus x.bits ↔ Minus y.bits))) ∧
    (Finite32 x.bits → Inf32 y.bits → Finite32 (x / y).bits ∧ real (x / y).bits = 0 ∧
      (Minus (x / y).bits ↔ ¬ (Minus x.bits ↔ Minus y.bits))) ∧
    (Finite32 x.bits → Finite32 y.bits → real y.bits = 0 →
      (real x.bits = 0 → NaN32 (x / y).bits) ∧
      (real x.bits ≠ 0 → Inf32 (x / y).bits ∧ (Minus (x / y).bits ↔ ¬ (Minus x.bits ↔ Minus y.bits)))) := by
  have hadd : ∀ a b : F32, a + b = add a b := fun _ _ => rfl
  have hsub : ∀ a b : F32, a - b = sub a b := fun _ _ => rfl
  have hmul : ∀ a b : F32, a * b = mul a b := fun _ _ => rfl
  have hdiv : ∀ a b : F32, a / b = div a b := fun _ _ => rfl
  have hneg : ∀ a : F32, -a = neg a := fun _ => rfl
  have ninf : ∀ {a : F32}, Inf32 (neg a).bits ↔ Inf32 a.bits := fun {a} => by
    rw [inf32_iff, inf32_iff, neg_low]
  rw [hadd, hadd, hsub, hsub, hmul, hmul, hdiv, hneg]
  refine ⟨?_, ?_, ?_, ?_, ?_, ?_, ?_, ?_, ?_, ?_⟩
  · intro h
    have : (x.isNaN || y.isNaN) = true := by
      rw [Bool.or_eq_true, nan32_true, nan32_true]; exact h
    unfold add sub mul div
    simp only [this, if_true]
    exact ⟨nan_bits, nan_bits, nan_bits, nan_bits⟩
  · intro hx hy
    obtain ⟨x1, x2, -⟩ := inf_cases hx
    obtain ⟨y1, y2⟩ := finite_cases hy
    obtain ⟨ny1, ny2⟩ := finite_cases (neg_finite.mpr hy)
    obtain ⟨nx1, nx2, -⟩ := inf_cases (ninf.mpr hx)
    refine ⟨?_, ?_, ?_, ?_⟩ <;> simp [add, sub, x1, x2, y1, y2, ny1, ny2, nx1, nx2]
  · intro hx hy hs
    obtain ⟨x1, x2, -⟩ := inf_cases hx
    obtain ⟨y1, y2, -⟩ := inf_cases hy
    obtain ⟨ny1, ny2, -⟩ := inf_cases (ninf.mpr hy)
    have hs' : x.negative = y.negative := by
      rw [minus_iff, minus_iff] at hs; exact Bool.eq_iff_iff.mpr hs
    refine ⟨?_, ?_⟩
    · simp [add, x1, x2, y1, y2, hs']
    · have : sub x y = nan := by simp [add, sub, x1, x2, y1, ny1, ny2, hs', neg_negative]
      rw [this]; exact nan_bits
  · intro hx hy hs
    obtain ⟨x1, x2, -⟩ := inf_cases hx
    obtain ⟨y1, y2, -⟩ := inf_cases hy
    obtain ⟨ny1, ny2, -⟩ := inf_cases (ninf.mpr hy)
    rw [← signs_iff] at hs
    refine ⟨?_, ?_⟩
    · have : add x y = nan := by simp only [add, x1, x2, y1, y2, hs]; rfl
      rw [this]; exact nan_bits
    · have : x.negative = (neg y).negative := by
        rw [neg_negative]; revert hs; cases x.negative <;> cases y.negative <;> simp
      simp [add, sub, x1, x2, y1, ny1, this]
  · intro hx hy hz
    obtain ⟨x1, x2, x3⟩ := inf_cases hx
    have y1 := nan32_false.mpr hy
    have y3 : y.low ≠ 0 := by
      rcases hz with h | h
      · exact (inf_cases h).2.2
      · exact fun h' => h ((low_zero_iff y).mp h')
    have e1 : mul x y = inf (x.negative != y.negative) := by simp [mul, x1, x2, y1, y3]
    have e2 : mul y x = inf (x.negative != y.negative) := by
      rw [show (x.negative != y.negative) = (y.negative != x.negative) from by
        cases x.negative <;> cases y.negative <;> rfl]
      cases h : y.isInf <;> simp [mul, x1, x2, x3, y1, y3, h]
    rw [e1, e2, ← signs_iff]
    exact ⟨(inf_inf _).1, (inf_inf _).1, (inf_inf _).2, (inf_inf _).2⟩
  · intro hx hy hz
    obtain ⟨x1, x2, -⟩ := inf_cases hx
    obtain ⟨y1, y2⟩ := finite_cases hy
    have y3 := (low_zero_iff y).mpr hz
    have e1 : mul x y = nan := by simp [mul, x1, x2, y1, y3]
    have e2 : mul y x = nan := by simp [mul, x1, x2, y1, y2, y3]
    rw [e1, e2]
    exact ⟨nan_bits, nan_bits⟩
  · intro hx hy
    obtain ⟨x1, x2, -⟩ := inf_cases hx
    obtain ⟨y1, y2, -⟩ := inf_cases hy
    have e1 : div x y = nan := by simp [div, x1, x2, y1, y2]
    rw [e1]; exact nan_bits
  · intro hx hy
    obtain ⟨x1, x2, -⟩ := inf_cases hx
    obtain ⟨y1, y2⟩ := finite_cases hy
    have e1 : div x y = inf (x.negative != y.negative) := by simp [div, x1, x2, y1, y2]
    rw [e1, ← signs_iff]; exact inf_inf _
  · intro hx hy
    obtain ⟨x1, x2⟩ := finite_cases hx
    obtain ⟨y1, y2, -⟩ := inf_cases hy
    have e1 : div x y = pack (x.negative != y.negative) 0 := by simp [div, x1, x2, y1, y2]
    rw [e1, ← signs_iff, finite32_iff, ← low_zero_iff, minus_iff, pack_low _ (by norm_num), pack_negative _ (by norm_num)]
    exact ⟨by norm_num, rfl, Iff.rfl⟩
  · intro hx hy hz
    obtain ⟨x1, x2⟩ := finite_cases hx
    obtain ⟨y1, y2⟩ := finite_cases hy
    have y3 := (low_zero_iff y).mpr hz
    refine ⟨fun h => ?_, fun h => ?_⟩
    · have x3 := (low_zero_iff x).mpr h
      have e1 : div x y = nan := by simp [div, x1, x2, y1, y2, x3, y3]
      rw [e1]; exact nan_bits
    · have x3 : ¬ x.low = 0 := fun h' => h ((low_zero_iff x).mp h')
      have e1 : div x y = inf (x.negative != y.negative) := by simp [div, x1, x2, y1, y2, x3, y3]
      rw [e1, ← signs_iff]; exact inf_inf _

/-- C61, special operands of the functions of one argument. -/
theorem C61_special_unary (x : F32) :
    (NaN32 x.bits → NaN32 (F32.sqrt x).bits) ∧
    (Inf32 x.bits → ¬ Minus x.bits → F32.sqrt x = x) ∧
    (¬ NaN32 x.bits → Minus x.bits → (Inf32 x.bits ∨ real x.bits ≠ 0) → NaN32 (F32.sqrt x).bits) ∧
    ((-x).bits.toNat = (x.bits.toNat + 2 ^ 31) % 2 ^ 32) ∧
    ((NumOps.abs x : F32).bits.toNat = x.bits.toNat % 2 ^ 31) := by
  refine ⟨fun h => ?_, fun h hs => ?_, fun hn hs hz => ?_, ?_, ?_⟩
  · have := nan32_true.mpr h
    unfold F32.sqrt; rw [this]; exact nan_bits
  · obtain ⟨x1, x2, x3⟩ := inf_cases h
    have : x.negative = false := by rw [minus_iff, Bool.not_eq_true] at hs; exact hs
    simp [F32.sqrt, x1, x2, x3, this]
  · have x1 := nan32_false.mpr hn
    have x3 : x.low ≠ 0 := by
      rcases hz with h | h
      · exact (inf_cases h).2.2
      · exact fun h' => h ((low_zero_iff x).mp h')
    have : x.negative = true := (minus_iff x).mp hs
    have e : F32.sqrt x = nan := by simp [F32.sqrt, x1, x3, this]
    rw [e]; exact nan_bits
  · have hb := x.bits.isLt
    change (neg x).bits.toNat = _
    simp only [neg, pack, negative, low, BitVec.toNat_ofNat]
    by_cases h : 2 ^ 31 ≤ x.bits.toNat
    · simp only [h, decide_true, Bool.not_true, Bool.false_eq_true, if_false]; omega
    · simp only [h, decide_false, Bool.not_false, if_true]; omega
  · have hb := x.bits.isLt
    change (pack false x.low).bits.toNat = _
    simp only [pack, low, BitVec.toNat_ofNat]
    simp only [Bool.false_eq_true, if_false]
    omega

example : NaN32 (F32.sqrt ⟨0xbf800000⟩).bits ∧ F32.sqrt ⟨0x7f800000⟩ = ⟨0x7f800000⟩ ∧
    (⟨0x3f800000⟩ : F32) / ⟨0x80000000⟩ = ⟨0xff800000⟩ := by decide +kernel

/-- C61, comparisons: those of the extended real numbers, false on NaNs; `min` and `max` skip NaNs and
otherwise return the smaller and the greater argument. -/
theorem C61_order (x y : F32) :
    (NaN32 x.bits ∨ NaN32 y.bits → F32.lt x y = false ∧ F32.le x y = false ∧ F32.eq x y = false) ∧
    (¬ NaN32 x.bits → ¬ NaN32 y.bits →
      (F32.lt x y = true ↔ ext x.bits < ext y.bits) ∧ (F32.le x y = true ↔ ext x.bits ≤ ext y.bits) ∧
      (F32.eq x y = true ↔ ext x.bits = ext y.bits) ∧
      (F32.fmax x y = x ∨ F32.fmax x y = y) ∧ ext (F32.fmax x y).bits = max (ext x.bits) (ext y.bits) ∧
      (F32.fmin x y = x ∨ F32.fmin x y = y) ∧ ext (F32.fmin x y).bits = min (ext x.bits) (ext y.bits)) ∧
    (NaN32 x.bits → F32.fmax x y = y ∧ F32.fmin x y = y) ∧
    (¬ NaN32 x.bits → NaN32 y.bits → F32.fmax x y = x ∧ F32.fmin x y = x) := by
  refine ⟨fun h => ?_, fun hx hy => ?_, fun h => ?_, fun hx hy => ?_⟩
  · rw [← nan32_true, ← nan32_true] at h
    unfold F32.lt F32.le F32.eq
    rcases h with h | h <;> simp [h]
  · have x1 := nan32_false.mpr hx
    have y1 := nan32_false.mpr hy
    have hlt : ∀ a b : F32, ¬ NaN32 a.bits → ¬ NaN32 b.bits → (F32.lt a b = true ↔ ext a.bits < ext b.bits) := by
      intro a b ha hb
      rw [ext_lt_iff ha hb, lt_iff_rank (nan32_false.mpr ha) (nan32_false.mpr hb)]
    have hxy := hlt x y hx hy
    have hyx := hlt y x hy hx
    refine ⟨hxy, ?_, ?_, ?_, ?_, ?_, ?_⟩
    · rw [ext_le_iff hx hy, le_iff_rank x1 y1]
    · rw [ext_eq_iff hx hy]; unfold F32.eq; simp [x1, y1]
    · unfold F32.fmax; rw [x1, y1]; simp only [Bool.false_eq_true, if_false]; split <;> simp
    · unfold F32.fmax; rw [x1, y1]; simp only [Bool.false_eq_true, if_false]
      split
      · next h => rw [max_eq_right (hxy.mp h).le]
      · next h => rw [max_eq_left]; exact not_lt.mp fun h' => h (hxy.mpr h')
    · unfold F32.fmin; rw [x1, y1]; simp only [Bool.false_eq_true, if_false]; split <;> simp
    · unfold F32.fmin; rw [x1, y1]; simp only [Bool.false_eq_true, if_false]
      split
      · next h => rw [min_eq_right (hyx.mp h).le]
      · next h => rw [min_eq_left]; exact not_lt.mp fun h' => h (hyx.mpr h')
  · have := nan32_true.mpr h
    unfold F32.fmax F32.fmin; simp [this]
  · have x1 := nan32_false.mpr hx
    have y1 := nan32_true.mpr hy
    unfold F32.fmax F32.fmin; simp [x1, y1]

/-- C61, `as i32`: the number without its fraction, saturating; 0 for a NaN. -/
theorem C61_to_i32 (x : F32) :
    (NaN32 x.bits → F32.toI32 x = 0) ∧
    (Inf32 x.bits → F32.toI32 x = if Minus x.bits then -2 ^ 31 else 2 ^ 31 - 1) ∧
    (Finite32 x.bits → F32.toI32 x =
      max (-2 ^ 31) (min (if 0 ≤ real x.bits then ⌊real x.bits⌋ else ⌈real x.bits⌉) (2 ^ 31 - 1))) := by
  refine ⟨fun h => ?_, fun h => ?_, fun h => ?_⟩
  · unfold F32.toI32; rw [nan32_true.mpr h]; rfl
  · have hl := (inf32_iff x).mp h
    have hn := (inf_cases h).1
    simp only [minus_iff]
    unfold F32.toI32 F32.mag
    rw [hn, hl]
    cases x.negative <;> decide +kernel
  · have hn := (finite_cases h).1
    unfold F32.toI32
    rw [hn, real_eq_signed]
    simp only [Bool.false_eq_true, if_false]
    have hfl : ⌊(x.mag : ℝ) / 2 ^ 149⌋ = ((x.mag / 2 ^ 149 : ℕ) : ℤ) := by
      have := Nat.floor_div_eq_div (K := ℝ) x.mag (2 ^ 149)
      rw [← this, ← Int.natCast_floor_eq_floor (by positivity), Nat.cast_pow, Nat.cast_ofNat]
    have hnn : (0 : ℝ) ≤ (x.mag : ℝ) / 2 ^ 149 := by positivity
    cases hneg : x.negative
    · simp only [Bool.false_eq_true, if_false, one_mul]
      rw [if_pos hnn, hfl]
    · simp only [if_true, neg_mul, one_mul, neg_div]
      have hc : ⌈-((x.mag : ℝ) / 2 ^ 149)⌉ = -((x.mag / 2 ^ 149 : ℕ) : ℤ) := by rw [Int.ceil_neg, hfl]
      split
      · next h0 =>
        have : (x.mag : ℝ) / 2 ^ 149 = 0 := by linarith
        rw [this] at hfl ⊢
        simp only [Int.floor_zero] at hfl
        rw [← hfl]
        simp
      · rw [hc]

example : F32.toI32 ⟨0xc0333333⟩ = -2 ∧ F32.toI32 ⟨0x4f800000⟩ = 2 ^ 31 - 1 := by decide +kernel

end Ozz.Props
