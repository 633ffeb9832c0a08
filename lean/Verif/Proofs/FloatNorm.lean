import Verif.Proofs.FloatLerp
import Verif.Spec.FloatSampling

/-! Helper lemmas: error of single operations, and of normalising a quaternion in single precision. -/

namespace Ozz.F32

open Ieee Spec

theorem small_finite {r : ℝ} (h : |r| ≤ 2 ^ 127) : |r| < overflowAt :=
  lt_of_le_of_lt h (by unfold overflowAt; norm_num)

theorem add_ok {x y : F32} (hx : Finite32 x.bits) (hy : Finite32 y.bits) (hB : |val x + val y| ≤ 2 ^ 127) :
    Finite32 (x + y).bits ∧ |val (x + y) - (val x + val y)| ≤ |val x + val y| / 2 ^ 24 := by
  have h := add_roundsTo hx hy
  have hf := finite_of_rounds h (small_finite hB)
  exact ⟨hf, rounds_error_units h hf (add_units _ _)⟩

theorem sub_ok {x y : F32} (hx : Finite32 x.bits) (hy : Finite32 y.bits) (hB : |val x - val y| ≤ 2 ^ 127) :
    Finite32 (x - y).bits ∧ |val (x - y) - (val x - val y)| ≤ |val x - val y| / 2 ^ 24 := by
  have h := sub_roundsTo hx hy
  have hf := finite_of_rounds h (small_finite hB)
  exact ⟨hf, rounds_error_units h hf (sub_units _ _)⟩

theorem mul_ok {x y : F32} (hx : Finite32 x.bits) (hy : Finite32 y.bits) (hB : |val x * val y| ≤ 2 ^ 127) :
    Finite32 (x * y).bits ∧ |val (x * y) - val x * val y| ≤ |val x * val y| / 2 ^ 24 + 1 / 2 ^ 150 := by
  have h := mul_roundsTo hx hy
  have hf := finite_of_rounds h (small_finite hB)
  exact ⟨hf, rounds_error h hf⟩

theorem div_ok {x y : F32} (hx : Finite32 x.bits) (hy : Finite32 y.bits) (h0 : val y ≠ 0) (hB : |val x / val y| ≤ 2 ^ 127) :
    Finite32 (x / y).bits ∧ |val (x / y) - val x / val y| ≤ |val x / val y| / 2 ^ 24 + 1 / 2 ^ 150 := by
  have h := div_roundsTo hx hy h0
  have hf := finite_of_rounds h (small_finite hB)
  exact ⟨hf, rounds_error h hf⟩

theorem sqrt_ok {x : F32} (hx : Finite32 x.bits) (h0 : 0 ≤ val x) (hB : √(val x) ≤ 2 ^ 127) :
    Finite32 (sqrt x).bits ∧ |val (sqrt x) - √(val x)| ≤ √(val x) / 2 ^ 24 + 1 / 2 ^ 150 ∧ 0 ≤ val (sqrt x) := by
  have h := sqrt_roundsTo hx h0
  have hs : 0 ≤ √(val x) := Real.sqrt_nonneg _
  have hf := finite_of_rounds h (small_finite (by rw [abs_of_nonneg hs]; exact hB))
  have e := rounds_error h hf
  rw [abs_of_nonneg hs] at e
  refine ⟨hf, e, ?_⟩
  have := rounds_ge h hf zero_finite (by rw [zero_real]; exact hs)
  rwa [zero_real] at this

theorem add_nonneg32 {x y : F32} (hx : Finite32 x.bits) (hy : Finite32 y.bits) (hf : Finite32 (x + y).bits)
    (h : 0 ≤ val x + val y) : 0 ≤ val (x + y) := by
  have := rounds_ge (add_roundsTo hx hy) hf zero_finite (by rw [zero_real]; exact h)
  rwa [zero_real] at this

theorem mul_nonneg32 {x y : F32} (hx : Finite32 x.bits) (hy : Finite32 y.bits) (hf : Finite32 (x * y).bits)
    (h : 0 ≤ val x * val y) : 0 ≤ val (x * y) := by
  have := rounds_ge (mul_roundsTo hx hy) hf zero_finite (by rw [zero_real]; exact h)
  rwa [zero_real] at this

/-- A square. -/
theorem square_ok {x : F32} (hx : Finite32 x.bits) {B : ℝ} (hB : val x ^ 2 ≤ B) (hB' : B ≤ 2 ^ 127) :
    Finite32 (x * x).bits ∧ |val (x * x) - val x ^ 2| ≤ val x ^ 2 / 2 ^ 24 + 1 / 2 ^ 150 ∧ 0 ≤ val (x * x) := by
  have h0 : 0 ≤ val x * val x := mul_self_nonneg _
  have e : val x * val x = val x ^ 2 := by ring
  obtain ⟨h1, h2⟩ := mul_ok hx hx (by rw [abs_of_nonneg h0, e]; exact hB.trans hB')
  rw [abs_of_nonneg h0, e] at h2
  exact ⟨h1, h2, mul_nonneg32 hx hx h1 h0⟩

/-- Sum of two numbers that are not negative. -/
theorem sum_ok {x y : F32} (hx : Finite32 x.bits) (hy : Finite32 y.bits) (x0 : 0 ≤ val x) (y0 : 0 ≤ val y)
    (hB : val x + val y ≤ 2 ^ 127) :
    Finite32 (x + y).bits ∧ |val (x + y) - (val x + val y)| ≤ (val x + val y) / 2 ^ 24 ∧ 0 ≤ val (x + y) := by
  have h0 : 0 ≤ val x + val y := by linarith
  obtain ⟨h1, h2⟩ := add_ok hx hy (by rw [abs_of_nonneg h0]; exact hB)
  rw [abs_of_nonneg h0] at h2
  exact ⟨h1, h2, add_nonneg32 hx hy h1 h0⟩

/-- Sum of four squares, added from the left. -/
theorem norm2_ok {a b c d : F32} (ha : Finite32 a.bits) (hb : Finite32 b.bits) (hc : Finite32 c.bits) (hd : Finite32 d.bits)
    (hB : val a ^ 2 + val b ^ 2 + val c ^ 2 + val d ^ 2 ≤ 2 ^ 100) :
    Finite32 (a * a + b * b + c * c + d * d).bits ∧ 0 ≤ val (a * a + b * b + c * c + d * d) ∧
    |val (a * a + b * b + c * c + d * d) - (val a ^ 2 + val b ^ 2 + val c ^ 2 + val d ^ 2)| ≤
      (val a ^ 2 + val b ^ 2 + val c ^ 2 + val d ^ 2) * (41 / 10 / 2 ^ 24) + 5 / 2 ^ 150 := by
  have a0 := sq_nonneg (val a)
  have b0 := sq_nonneg (val b)
  have c0 := sq_nonneg (val c)
  have d0 := sq_nonneg (val d)
  obtain ⟨aF, aE, aP⟩ := square_ok ha (B := 2 ^ 100) (by linarith) (by norm_num)
  obtain ⟨bF, bE, bP⟩ := square_ok hb (B := 2 ^ 100) (by linarith) (by norm_num)
  obtain ⟨cF, cE, cP⟩ := square_ok hc (B := 2 ^ 100) (by linarith) (by norm_num)
  obtain ⟨dF, dE, dP⟩ := square_ok hd (B := 2 ^ 100) (by linarith) (by norm_num)
  have e100 : (2 : ℝ) ^ 127 = 2 ^ 100 * 2 ^ 27 := by norm_num
  have hbig : (1 : ℝ) ≤ 2 ^ 100 := by norm_num
  have heta : (1 : ℝ) / 2 ^ 150 ≤ 1 := by norm_num
  have heta0 : (0 : ℝ) < 1 / 2 ^ 150 := by norm_num
  have h5 : (5 : ℝ) / 2 ^ 150 = 5 * (1 / 2 ^ 150) := by ring
  rw [abs_le] at aE bE cE dE
  obtain ⟨sF, sE, sP⟩ := sum_ok aF bF aP bP (by rw [e100]; linarith)
  rw [abs_le] at sE
  obtain ⟨tF, tE, tP⟩ := sum_ok sF cF sP cP (by rw [e100]; linarith)
  rw [abs_le] at tE
  obtain ⟨uF, uE, uP⟩ := sum_ok tF dF tP dP (by rw [e100]; linarith)
  refine ⟨uF, uP, ?_⟩
  rw [abs_le] at uE ⊢
  rw [h5]
  generalize val (a * a + b * b + c * c + d * d) = U at *
  generalize val (a * a + b * b + c * c) = T at *
  generalize val (a * a + b * b) = S at *
  generalize val (a * a) = A at *
  generalize val (b * b) = B at *
  generalize val (c * c) = C at *
  generalize val (d * d) = D at *
  generalize (1 : ℝ) / 2 ^ 150 = η at *
  constructor <;> linarith

/-- The reciprocal of the root of a number known to 4.2 parts in 2^24. -/
theorem recip_sqrt_ok {L : F32} {S : ℝ} (hL : Finite32 L.bits) (hS0 : 1 / 2 ^ 100 ≤ S) (hS1 : S ≤ 2 ^ 100)
    (hE : |val L - S| ≤ S * (42 / 10 / 2 ^ 24)) :
    Finite32 (F32.one / sqrt L).bits ∧ |val (F32.one / sqrt L) - 1 / √S| ≤ 1 / √S * (65 / 10 / 2 ^ 24) := by
  have hSp : 0 < S := lt_of_lt_of_le (by positivity) hS0
  have hq : 0 < √S := Real.sqrt_pos.mpr hSp
  have hqS : √S * √S = S := Real.mul_self_sqrt hSp.le
  have q0 : 1 / 2 ^ 50 ≤ √S := by
    apply Real.le_sqrt_of_sq_le
    rw [show ((1 : ℝ) / 2 ^ 50) ^ 2 = 1 / 2 ^ 100 by norm_num]; exact hS0
  have q1 : √S ≤ 2 ^ 50 := by
    rw [Real.sqrt_le_left (by positivity), show ((2 : ℝ) ^ 50) ^ 2 = 2 ^ 100 by norm_num]; exact hS1
  rw [abs_le] at hE
  have hL0 : 0 ≤ val L := by linarith
  set R := √(val L) with hR
  have hR0 : 0 ≤ R := Real.sqrt_nonneg _
  have hRL : R * R = val L := Real.mul_self_sqrt hL0
  -- |R - √S| ≤ 4.2 u √S
  have hRS : |R - √S| ≤ √S * (42 / 10 / 2 ^ 24) := by
    have h1 : (R - √S) * (R + √S) = val L - S := by linear_combination hRL - hqS
    have h2 : |R - √S| * √S ≤ √S * (42 / 10 / 2 ^ 24) * √S := by
      calc |R - √S| * √S ≤ |R - √S| * (R + √S) := mul_le_mul_of_nonneg_left (by linarith) (abs_nonneg _)
        _ = |val L - S| := by rw [← h1, abs_mul, abs_of_nonneg (show 0 ≤ R + √S by linarith)]
        _ ≤ S * (42 / 10 / 2 ^ 24) := abs_le.mpr hE
        _ = √S * (42 / 10 / 2 ^ 24) * √S := by linear_combination (-(42 / 10 / 2 ^ 24)) * hqS
    exact le_of_mul_le_mul_right h2 hq
  rw [abs_le] at hRS
  obtain ⟨sF, sE, sP⟩ := sqrt_ok hL hL0 (show R ≤ 2 ^ 127 by
    have : (2 : ℝ) ^ 127 = 2 ^ 50 * 2 ^ 77 := by norm_num
    rw [this]; linarith)
  change |val (sqrt L) - R| ≤ _ at sE
  rw [abs_le] at sE
  have heta : (1 : ℝ) / 2 ^ 150 ≤ √S / 2 ^ 100 := by
    rw [show (1 : ℝ) / 2 ^ 150 = 1 / 2 ^ 50 / 2 ^ 100 by norm_num]; gcongr
  have hsS : |val (sqrt L) - √S| ≤ √S * (53 / 10 / 2 ^ 24) := by
    rw [abs_le]
    generalize (1 : ℝ) / 2 ^ 150 = η at *
    constructor <;> linarith
  rw [abs_le] at hsS
  have hs : 0 < val (sqrt L) := by linarith
  have hs1 : √S * (1 - 53 / 10 / 2 ^ 24) ≤ val (sqrt L) := by linarith
  have hinv : 1 / val (sqrt L) ≤ 1 / √S * (1 + 54 / 10 / 2 ^ 24) := by
    rw [div_le_iff₀ hs]
    have h1 : 1 / √S * (1 + 54 / 10 / 2 ^ 24) * (√S * (1 - 53 / 10 / 2 ^ 24)) ≤
        1 / √S * (1 + 54 / 10 / 2 ^ 24) * val (sqrt L) := mul_le_mul_of_nonneg_left hs1 (by positivity)
    have h2 : 1 / √S * (1 + 54 / 10 / 2 ^ 24) * (√S * (1 - 53 / 10 / 2 ^ 24)) =
        (1 + 54 / 10 / 2 ^ 24) * (1 - 53 / 10 / 2 ^ 24) := by field_simp
    have h3 : (1 : ℝ) ≤ (1 + 54 / 10 / 2 ^ 24) * (1 - 53 / 10 / 2 ^ 24) := by norm_num
    linarith
  have hinv' : 1 / √S * (1 - 53 / 10 / 2 ^ 24) ≤ 1 / val (sqrt L) := by
    rw [le_div_iff₀ hs]
    have h1 : 1 / √S * (1 - 53 / 10 / 2 ^ 24) * val (sqrt L) ≤
        1 / √S * (1 - 53 / 10 / 2 ^ 24) * (√S * (1 + 53 / 10 / 2 ^ 24)) :=
      mul_le_mul_of_nonneg_left (by linarith) (mul_nonneg (by positivity) (by norm_num))
    have h2 : 1 / √S * (1 - 53 / 10 / 2 ^ 24) * (√S * (1 + 53 / 10 / 2 ^ 24)) =
        (1 - 53 / 10 / 2 ^ 24) * (1 + 53 / 10 / 2 ^ 24) := by field_simp
    have h3 : (1 - 53 / 10 / 2 ^ 24) * (1 + 53 / 10 / 2 ^ 24) ≤ (1 : ℝ) := by norm_num
    linarith
  have hi0 : 1 / 2 ^ 50 ≤ 1 / √S := one_div_le_one_div_of_le hq q1
  have hi1 : 1 / √S ≤ 2 ^ 50 := by
    rw [div_le_iff₀ hq]
    have : (2 : ℝ) ^ 50 * (1 / 2 ^ 50) ≤ 2 ^ 50 * √S := mul_le_mul_of_nonneg_left q0 (by positivity)
    have e : (2 : ℝ) ^ 50 * (1 / 2 ^ 50) = 1 := by norm_num
    linarith
  have hp : 0 ≤ 1 / val (sqrt L) := by positivity
  have e127 : (2 : ℝ) ^ 127 = 2 ^ 50 * 2 ^ 77 := by norm_num
  have hone : val F32.one = 1 := one_real
  obtain ⟨iF, iE⟩ := div_ok one_finite sF hs.ne' (by
    change |val F32.one / val (sqrt L)| ≤ _
    rw [hone, abs_of_nonneg hp, e127]; linarith)
  refine ⟨iF, ?_⟩
  rw [hone, abs_of_nonneg hp, abs_le] at iE
  have heta2 : (1 : ℝ) / 2 ^ 150 ≤ 1 / √S / 2 ^ 100 := by
    rw [show (1 : ℝ) / 2 ^ 150 = 1 / 2 ^ 50 / 2 ^ 100 by norm_num]; gcongr
  rw [abs_le]
  generalize (1 : ℝ) / 2 ^ 150 = η at *
  generalize 1 / √S = I at *
  generalize 1 / val (sqrt L) = J at *
  constructor <;> linarith

/-- Normalising in single precision. -/
theorem normalize_ok {a b c d g : F32} (ha : Finite32 a.bits) (hb : Finite32 b.bits) (hc : Finite32 c.bits) (hd : Finite32 d.bits)
    (hg : Finite32 g.bits) {S : ℝ} (hS : S = val a ^ 2 + val b ^ 2 + val c ^ 2 + val d ^ 2) (hS0 : 1 / 2 ^ 100 ≤ S) (hS1 : S ≤ 2 ^ 100)
    (hgS : val g ^ 2 ≤ S) :
    Finite32 (g * (F32.one / sqrt (a * a + b * b + c * c + d * d))).bits ∧
    |val (g * (F32.one / sqrt (a * a + b * b + c * c + d * d))) - val g / √S| ≤ |val g / √S| / 2 ^ 21 + 1 / 2 ^ 150 := by
  have hSp : 0 < S := lt_of_lt_of_le (by positivity) hS0
  have hq : 0 < √S := Real.sqrt_pos.mpr hSp
  obtain ⟨nF, -, nE⟩ := norm2_ok ha hb hc hd (by rw [← hS]; exact hS1)
  rw [← hS] at nE
  have heta : (5 : ℝ) / 2 ^ 150 ≤ S * (1 / 10 / 2 ^ 24) := by
    have h1 : (1 : ℝ) / 2 ^ 100 * (1 / 10 / 2 ^ 24) ≤ S * (1 / 10 / 2 ^ 24) := mul_le_mul_of_nonneg_right hS0 (by positivity)
    have h2 : (5 : ℝ) / 2 ^ 150 ≤ 1 / 2 ^ 100 * (1 / 10 / 2 ^ 24) := by norm_num
    linarith
  obtain ⟨iF, iE⟩ := recip_sqrt_ok nF hS0 hS1 (nE.trans (by linarith))
  generalize F32.one / sqrt (a * a + b * b + c * c + d * d) = i at *
  have hgq : |val g| ≤ √S := Real.abs_le_sqrt hgS
  have hgq' : |val g| * (1 / √S) ≤ 1 := by
    rw [mul_one_div, div_le_one hq]; exact hgq
  have hI : 0 < 1 / √S := by positivity
  have hiv : |val i| ≤ 1 / √S * (1 + 65 / 10 / 2 ^ 24) := by
    have := abs_add_le (val i - 1 / √S) (1 / √S)
    rw [sub_add_cancel, abs_of_pos hI] at this
    linarith
  have hgi : |val g * val i| ≤ |val g| * (1 / √S) * (1 + 65 / 10 / 2 ^ 24) := by
    rw [abs_mul, mul_assoc]
    exact mul_le_mul_of_nonneg_left hiv (abs_nonneg _)
  obtain ⟨oF, oE⟩ := mul_ok hg iF (by
    have : (2 : ℝ) ≤ 2 ^ 127 := by norm_num
    have h2 : |val g| * (1 / √S) * (1 + 65 / 10 / 2 ^ 24) ≤ 1 * (1 + 65 / 10 / 2 ^ 24) :=
      mul_le_mul_of_nonneg_right hgq' (by norm_num)
    have h3 : (1 : ℝ) * (1 + 65 / 10 / 2 ^ 24) ≤ 2 := by norm_num
    linarith)
  refine ⟨oF, ?_⟩
  have h1 : |val g * val i - val g / √S| ≤ |val g| * (1 / √S) * (65 / 10 / 2 ^ 24) := by
    rw [show val g * val i - val g / √S = val g * (val i - 1 / √S) by ring, abs_mul, mul_assoc]
    exact mul_le_mul_of_nonneg_left iE (abs_nonneg _)
  have h2 := abs_add_le (val (g * i) - val g * val i) (val g * val i - val g / √S)
  rw [sub_add_sub_cancel] at h2
  have h3 : |val g / √S| = |val g| * (1 / √S) := by rw [abs_div, abs_of_pos hq, mul_one_div]
  rw [h3]
  have h0 : 0 ≤ |val g| * (1 / √S) := by positivity
  generalize |val g| * (1 / √S) = X at *
  generalize (1 : ℝ) / 2 ^ 150 = η at *
  linarith

/-- Four numbers close to a unit vector. -/
theorem unit_of_close {o g : Fin 4 → ℝ} (hg : g 0 ^ 2 + g 1 ^ 2 + g 2 ^ 2 + g 3 ^ 2 = 1)
    (h : ∀ x, |o x - g x| ≤ |g x| / 2 ^ 21 + 1 / 2 ^ 150) : |o 0 ^ 2 + o 1 ^ 2 + o 2 ^ 2 + o 3 ^ 2 - 1| ≤ 1 / 2 ^ 19 := by
  have hx : ∀ x, g x ^ 2 ≤ 1 := by
    intro x
    have s := fun x => sq_nonneg (g x)
    fin_cases x <;> simp only [Fin.zero_eta, Fin.mk_one, Fin.reduceFinMk] <;> linarith [s 0, s 1, s 2, s 3]
  have hx' : ∀ x, |g x| ≤ 1 := fun x => by
    rw [← sq_le_one_iff_abs_le_one]; exact hx x
  have he : ∀ x, |o x ^ 2 - g x ^ 2| ≤ g x ^ 2 * (3 / 2 ^ 21) + 4 / 2 ^ 150 := by
    intro x
    have h1 := h x
    have h2 := hx' x
    rw [show o x ^ 2 - g x ^ 2 = (o x - g x) * (o x - g x) + 2 * ((o x - g x) * g x) by ring]
    refine (abs_add_le _ _).trans ?_
    rw [abs_mul, abs_mul, abs_mul, abs_of_pos (show (0 : ℝ) < 2 by norm_num)]
    have a0 := abs_nonneg (o x - g x)
    have b0 := abs_nonneg (g x)
    rw [← sq_abs (g x)]
    have heta : (1 : ℝ) / 2 ^ 150 ≤ 1 / 2 ^ 100 := by norm_num
    have heta0 : (0 : ℝ) ≤ 1 / 2 ^ 150 := by norm_num
    have e4 : (4 : ℝ) / 2 ^ 150 = 4 * (1 / 2 ^ 150) := by ring
    rw [e4]
    generalize |o x - g x| = E at *
    generalize |g x| = G at *
    generalize (1 : ℝ) / 2 ^ 150 = η at *
    have k1 : E * E ≤ (G / 2 ^ 21 + η) * (G / 2 ^ 21 + η) := mul_le_mul h1 h1 a0 (a0.trans h1)
    have k2 : E * G ≤ (G / 2 ^ 21 + η) * G := mul_le_mul_of_nonneg_right h1 b0
    have k3 : η * G ≤ η := mul_le_of_le_one_right heta0 h2
    have k4 : η * η ≤ η * (1 / 2 ^ 100) := mul_le_mul_of_nonneg_left heta heta0
    have k5 : 0 ≤ G * G := mul_self_nonneg G
    nlinarith
  have s := fun x => abs_le.mp (he x)
  have e : (1 : ℝ) / 2 ^ 19 = 4 / 2 ^ 21 := by norm_num
  have e2 : (16 : ℝ) / 2 ^ 150 ≤ 1 / 2 ^ 21 := by norm_num
  rw [abs_le]
  have s0 := s 0; have s1 := s 1; have s2 := s 2; have s3 := s 3
  have e16 : (16 : ℝ) / 2 ^ 150 = 4 * (4 / 2 ^ 150) := by ring
  rw [e16] at e2
  generalize (4 : ℝ) / 2 ^ 150 = η at *
  rw [e]
  constructor <;> linarith

end Ozz.F32
