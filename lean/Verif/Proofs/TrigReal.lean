import Mathlib.Analysis.Complex.Exponential
import Mathlib.Analysis.SpecialFunctions.Trigonometric.Bounds
import Mathlib.Analysis.Real.Pi.Bounds

/-! Sine and cosine between polynomials. -/

namespace Ozz.Trig

/-- The Taylor polynomials of degree 10 and 11. -/
noncomputable def cosT (x : ℝ) : ℝ := 1 - x ^ 2 / 2 + x ^ 4 / 24 - x ^ 6 / 720 + x ^ 8 / 40320 - x ^ 10 / 3628800
noncomputable def sinT (x : ℝ) : ℝ := x - x ^ 3 / 6 + x ^ 5 / 120 - x ^ 7 / 5040 + x ^ 9 / 362880 - x ^ 11 / 39916800

theorem taylor_bound {x : ℝ} (hx : |x| ≤ 1) :
    |Real.cos x - cosT x| ≤ |x| ^ 12 / 440000000 ∧ |Real.sin x - sinT x| ≤ |x| ^ 12 / 440000000 := by
  have hn : ‖(x : ℂ) * Complex.I‖ = |x| := by simp
  have h := Complex.exp_bound (x := (x : ℂ) * Complex.I) (by rw [hn]; exact hx) (n := 12) (by norm_num)
  rw [hn] at h
  have hs : ∑ m ∈ Finset.range 12, ((x : ℂ) * Complex.I) ^ m / (m.factorial : ℂ)
      = ((cosT x : ℝ) : ℂ) + ((sinT x : ℝ) : ℂ) * Complex.I := by
    have i2 : Complex.I ^ 2 = -1 := Complex.I_sq
    have i3 : Complex.I ^ 3 = -Complex.I := by rw [pow_succ, i2]; ring
    have i4 : Complex.I ^ 4 = 1 := Complex.I_pow_four
    have i5 : Complex.I ^ 5 = Complex.I := by rw [pow_succ, i4]; ring
    have i6 : Complex.I ^ 6 = -1 := by rw [pow_succ, i5, ← sq, i2]
    have i7 : Complex.I ^ 7 = -Complex.I := by rw [pow_succ, i6]; ring
    have i8 : Complex.I ^ 8 = 1 := by rw [show 8 = 4 * 2 from rfl, pow_mul, i4, one_pow]
    have i9 : Complex.I ^ 9 = Complex.I := by rw [pow_succ, i8]; ring
    have i10 : Complex.I ^ 10 = -1 := by rw [pow_succ, i9, ← sq, i2]
    have i11 : Complex.I ^ 11 = -Complex.I := by rw [pow_succ, i10]; ring
    simp only [Finset.sum_range_succ, Finset.sum_range_zero, mul_pow, i2, i3, i4, i5, i6, i7, i8, i9, i10, i11, Nat.factorial,
      cosT, sinT]
    push_cast
    ring
  have hval : |x| ^ 12 * (((12 : ℕ).succ : ℝ) * (((12 : ℕ).factorial : ℝ) * ((12 : ℕ) : ℝ))⁻¹) ≤ |x| ^ 12 / 440000000 := by
    rw [div_eq_mul_inv]
    apply mul_le_mul_of_nonneg_left _ (by positivity)
    norm_num [Nat.factorial]
  have h := h.trans hval
  rw [hs, Complex.exp_mul_I, ← Complex.ofReal_cos, ← Complex.ofReal_sin] at h
  have hd : ((Real.cos x : ℝ) : ℂ) + ((Real.sin x : ℝ) : ℂ) * Complex.I - (((cosT x : ℝ) : ℂ) + ((sinT x : ℝ) : ℂ) * Complex.I)
      = ((Real.cos x - cosT x : ℝ) : ℂ) + ((Real.sin x - sinT x : ℝ) : ℂ) * Complex.I := by push_cast; ring
  rw [hd] at h
  constructor
  · have := Complex.abs_re_le_norm (((Real.cos x - cosT x : ℝ) : ℂ) + ((Real.sin x - sinT x : ℝ) : ℂ) * Complex.I)
    simp only [Complex.add_re, Complex.ofReal_re, Complex.mul_re, Complex.I_re, mul_zero, Complex.ofReal_im, Complex.I_im,
      mul_one, sub_self, add_zero] at this
    exact this.trans h
  · have := Complex.abs_im_le_norm (((Real.cos x - cosT x : ℝ) : ℂ) + ((Real.sin x - sinT x : ℝ) : ℂ) * Complex.I)
    simp only [Complex.add_im, Complex.ofReal_re, Complex.mul_im, Complex.I_re, mul_zero, Complex.ofReal_im, Complex.I_im,
      mul_one, add_zero, zero_add] at this
    exact this.trans h

theorem cos_poly {t : ℝ} (h0 : 0 ≤ t) (h1 : t ≤ 309 / 500) :
    |(-6295103519 / 300000000000000000) * t ^ 2 + (283074111223 / 1800000000000000000) * t ^ 3 + (-580277538993319 / 1575000000000000000000) * t ^ 4 + 1 / 3628800 * t ^ 5| ≤ 1 / 1000000000 := by
  have hu : 0 ≤ 309 / 500 - t := by linarith
  generalize hu' : (309 / 500 - t : ℝ) = u at hu
  have p1 : 0 ≤ 15625000 / 870464124169641 * (t ^ 0 * u ^ 6) + 31250000 / 290154708056547 * (t ^ 1 * u ^ 5) + 191784753233071 / 464247532890475200000 * (t ^ 2 * u ^ 4) + 373448865793726637 / 1392742598671425600000000 * (t ^ 3 * u ^ 3) + 19943646262573748379617 / 203108295639582900000000000000 * (t ^ 4 * u ^ 2) + 2432746060255631647981 / 14507735402827350000000000000 * (t ^ 5 * u ^ 1) + 8698285909365000263851 / 609324886918748700000000000000 * (t ^ 6 * u ^ 0) := by positivity
  have p2 : 0 ≤ 15625000 / 870464124169641 * (t ^ 0 * u ^ 6) + 31250000 / 290154708056547 * (t ^ 1 * u ^ 5) + 718706750209 / 5731451023339200000 * (t ^ 2 * u ^ 4) + 626551134206273363 / 1392742598671425600000000 * (t ^ 3 * u ^ 3) + 89431353737426251620383 / 203108295639582900000000000000 * (t ^ 4 * u ^ 2) + 692253939744368352019 / 14507735402827350000000000000 * (t ^ 5 * u ^ 1) + 13176714090634999736149 / 609324886918748700000000000000 * (t ^ 6 * u ^ 0) := by positivity
  subst hu'
  rw [abs_le]
  constructor
  · linear_combination p2
  · linear_combination p1

theorem sin_poly {t : ℝ} (h0 : 0 ≤ t) (h1 : t ≤ 309 / 500) :
    |(36167 / 300000000000) * t ^ 1 + (-1099181 / 937500000000) * t ^ 2 + (20536358867 / 6300000000000000) * t ^ 3 + (-1 / 362880) * t ^ 4 + (1 / 39916800) * t ^ 5| ≤ 1 / 100000000 := by
  have hu : 0 ≤ 309 / 500 - t := by linarith
  generalize hu' : (309 / 500 - t : ℝ) = u at hu
  have p1 : 0 ≤ 19531250000000000 / 25681850577311021127189 * (t ^ 0 * u ^ 9) + 30265585937500000 / 25681850577311021127189 * (t ^ 1 * u ^ 8) + 413590529675000000 / 25681850577311021127189 * (t ^ 2 * u ^ 7) + 61196836036936920625 / 719091816164708591561292 * (t ^ 3 * u ^ 6) + 8894469104859573125 / 51363701154622042254378 * (t ^ 4 * u ^ 5) + 1313853367425459090625 / 7910009977811794507174212 * (t ^ 5 * u ^ 4) + 144859348174429071875 / 1977502494452948626793553 * (t ^ 6 * u ^ 3) + 9539120193605003125 / 878889997534643834130468 * (t ^ 7 * u ^ 2) + 185429037148643125 / 188333570900280821599386 * (t ^ 8 * u ^ 1) + 8182716503273314375 / 7910009977811794507174212 * (t ^ 9 * u ^ 0) := by positivity
  have p2 : 0 ≤ 19531250000000000 / 25681850577311021127189 * (t ^ 0 * u ^ 9) + 321296914062500000 / 25681850577311021127189 * (t ^ 1 * u ^ 8) + 992659470325000000 / 25681850577311021127189 * (t ^ 2 * u ^ 7) + 30678163963063079375 / 719091816164708591561292 * (t ^ 3 * u ^ 6) + 949280895140426875 / 51363701154622042254378 * (t ^ 4 * u ^ 5) + 202084132574540909375 / 7910009977811794507174212 * (t ^ 5 * u ^ 4) + 107796901825570928125 / 1977502494452948626793553 * (t ^ 6 * u ^ 3) + 38585879806394996875 / 878889997534643834130468 * (t ^ 7 * u ^ 2) + 2392695962851356875 / 188333570900280821599386 * (t ^ 8 * u ^ 1) + 3848533496726685625 / 7910009977811794507174212 * (t ^ 9 * u ^ 0) := by positivity
  subst hu'
  rw [abs_le]
  constructor
  · linear_combination p2
  · linear_combination p1

/-- The polynomials of the code. -/
noncomputable def cosP (x : ℝ) : ℝ :=
  ((2443315711809948 / 10 ^ 20 * x ^ 2 - 1388731625493765 / 10 ^ 18) * x ^ 2 + 4166664568298827 / 10 ^ 17) * x ^ 2 * x ^ 2 -
    1 / 2 * x ^ 2 + 1
noncomputable def sinP (x : ℝ) : ℝ :=
  ((-(19515295891 / 10 ^ 14) * x ^ 2 + 83321608736 / 10 ^ 13) * x ^ 2 - 16666654611 / 10 ^ 11) * x ^ 2 * x + x

theorem poly_bound {x : ℝ} (hx : |x| ≤ 0.786) :
    |Real.cos x - cosP x| ≤ 12 / 10 ^ 10 ∧ |Real.sin x - sinP x| ≤ 82 / 10 ^ 10 := by
  have h1 : |x| ≤ 1 := hx.trans (by norm_num)
  obtain ⟨hc, hs⟩ := taylor_bound h1
  have h12 : |x| ^ 12 / 440000000 ≤ 2 / 10 ^ 10 := by
    have : |x| ^ 12 ≤ 0.786 ^ 12 := pow_le_pow_left₀ (abs_nonneg x) hx 12
    have h : (0.786 : ℝ) ^ 12 / 440000000 ≤ 2 / 10 ^ 10 := by norm_num
    linarith
  have ht0 : 0 ≤ x ^ 2 := sq_nonneg x
  have ht1 : x ^ 2 ≤ 309 / 500 := by
    rw [← sq_abs]
    have : |x| ^ 2 ≤ 0.786 ^ 2 := pow_le_pow_left₀ (abs_nonneg x) hx 2
    exact this.trans (by norm_num)
  have pc := cos_poly ht0 ht1
  have ps := sin_poly ht0 ht1
  have ec : cosP x - cosT x = -6295103519 / 300000000000000000 * (x ^ 2) ^ 2 +
      283074111223 / 1800000000000000000 * (x ^ 2) ^ 3 + -580277538993319 / 1575000000000000000000 * (x ^ 2) ^ 4 +
      1 / 3628800 * (x ^ 2) ^ 5 := by unfold cosP cosT; ring
  have es : sinP x - sinT x = x * (36167 / 300000000000 * (x ^ 2) ^ 1 + -1099181 / 937500000000 * (x ^ 2) ^ 2 +
      20536358867 / 6300000000000000 * (x ^ 2) ^ 3 + -1 / 362880 * (x ^ 2) ^ 4 + 1 / 39916800 * (x ^ 2) ^ 5) := by
    unfold sinP sinT; ring
  rw [← ec] at pc
  have ps' : |sinP x - sinT x| ≤ 0.786 * (1 / 100000000) := by
    rw [es, abs_mul]
    exact mul_le_mul hx ps (abs_nonneg _) (by norm_num)
  have hc := hc.trans h12
  have hs := hs.trans h12
  rw [abs_le] at hc hs pc ps'
  rw [abs_le, abs_le]
  refine ⟨⟨?_, ?_⟩, ?_, ?_⟩ <;> norm_num at * <;> linarith

end Ozz.Trig
