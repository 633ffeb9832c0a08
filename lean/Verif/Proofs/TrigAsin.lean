import Verif.Proofs.TrigReal
import Mathlib.Analysis.SpecialFunctions.Trigonometric.InverseDeriv
import Mathlib.Analysis.Calculus.MeanValue

/-! The arc sine and the polynomial used for it. -/

namespace Ozz.Trig

theorem asin_poly {t : ℝ} (h0 : 0 ≤ t) (h1 : t ≤ 1 / 4) :
    |(128633 / 150000000000) * t ^ 1 + (-23498657 / 500000000000) * t ^ 2 + (2895090993 / 3500000000000) * t ^ 3 + (-55805700559 / 9000000000000) * t ^ 4 + (27212679941 / 1375000000000) * t ^ 5 + (-231 / 13312) * t ^ 6 + (-143 / 10240) * t ^ 7 + (-6435 / 557056) * t ^ 8 + (-12155 / 1245184) * t ^ 9 + (-46189 / 5505024) * t ^ 10 + (-88179 / 12058624) * t ^ 11| ≤ 1 / 50000000 := by
  have hu : 0 ≤ 1 / 4 - t := by linarith
  generalize hu' : (1 / 4 - t : ℝ) = u at hu
  have p1 : 0 ≤ 8388608 / 390625 * (t ^ 0 * u ^ 15) + 13465550848 / 146484375 * (t ^ 1 * u ^ 14) + 1601093337088 / 732421875 * (t ^ 2 * u ^ 13) + 16351535276032 / 1025390625 * (t ^ 3 * u ^ 12) + 784492612953088 / 15380859375 * (t ^ 4 * u ^ 11) + 14464714129533952 / 169189453125 * (t ^ 5 * u ^ 10) + 33453346857773824 / 439892578125 * (t ^ 6 * u ^ 9) + 26264521653183776 / 733154296875 * (t ^ 7 * u ^ 8) + 32565649214483977 / 997089843750 * (t ^ 8 * u ^ 7) + 38942006316602927959 / 541277343750000 * (t ^ 9 * u ^ 6) + 5220893435742679875097 / 60623062500000000 * (t ^ 10 * u ^ 5) + 23851412777560615243331 / 446185740000000000 * (t ^ 11 * u ^ 4) + 46668891465852611885599 / 2788660875000000000 * (t ^ 12 * u ^ 3) + 6681302115903403790647 / 3346393050000000000 * (t ^ 13 * u ^ 2) + 26853018112675658747 / 8365982625000000000 * (t ^ 14 * u ^ 1) + 883109903940027768577 / 33463930500000000000 * (t ^ 15 * u ^ 0) := by positivity
  have p2 : 0 ≤ 8388608 / 390625 * (t ^ 0 * u ^ 15) + 80906289152 / 146484375 * (t ^ 1 * u ^ 14) + 1701921062912 / 732421875 * (t ^ 2 * u ^ 13) + 3686752083968 / 1025390625 * (t ^ 3 * u ^ 12) + 117230318246912 / 15380859375 * (t ^ 4 * u ^ 11) + 7356980805506048 / 169189453125 * (t ^ 5 * u ^ 10) + 61107331194066176 / 439892578125 * (t ^ 6 * u ^ 9) + 176365502743616224 / 733154296875 * (t ^ 7 * u ^ 8) + 243011183965164023 / 997089843750 * (t ^ 8 * u ^ 7) + 77412656581470672041 / 541277343750000 * (t ^ 9 * u ^ 6) + 2598139911007866044903 / 60623062500000000 * (t ^ 10 * u ^ 5) + 2306807873386665652669 / 446185740000000000 * (t ^ 11 * u ^ 4) + 7827401556954223314401 / 2788660875000000000 * (t ^ 12 * u ^ 3) + 8409979028873873649353 / 3346393050000000000 * (t ^ 13 * u ^ 2) + 5362890247879209141253 / 8365982625000000000 * (t ^ 14 * u ^ 1) + 554154966991141511423 / 33463930500000000000 * (t ^ 15 * u ^ 0) := by positivity
  subst hu'
  rw [abs_le]
  constructor
  · linear_combination p2
  · linear_combination p1

/-- The power series of the arc sine up to degree 23, and that of its derivative. -/
noncomputable def asinT (x : ℝ) : ℝ := (1 / 1) * x ^ 1 + (1 / 6) * x ^ 3 + (3 / 40) * x ^ 5 + (5 / 112) * x ^ 7 + (35 / 1152) * x ^ 9 + (63 / 2816) * x ^ 11 + (231 / 13312) * x ^ 13 + (143 / 10240) * x ^ 15 + (6435 / 557056) * x ^ 17 + (12155 / 1245184) * x ^ 19 + (46189 / 5505024) * x ^ 21 + (88179 / 12058624) * x ^ 23
noncomputable def asinS (t : ℝ) : ℝ := (1 / 1) * t ^ 0 + (1 / 2) * t ^ 1 + (3 / 8) * t ^ 2 + (5 / 16) * t ^ 3 + (35 / 128) * t ^ 4 + (63 / 256) * t ^ 5 + (231 / 1024) * t ^ 6 + (429 / 2048) * t ^ 7 + (6435 / 32768) * t ^ 8 + (12155 / 65536) * t ^ 9 + (46189 / 262144) * t ^ 10 + (88179 / 524288) * t ^ 11

theorem asinS_sq (t : ℝ) : asinS t ^ 2 * (1 - t) = 1 - t ^ 12 * ((676039 / 2097152) * t ^ 0 + (156009 / 1048576) * t ^ 1 + (869193 / 8388608) * t ^ 2 + (676039 / 8388608) * t ^ 3 + (70984095 / 1073741824) * t ^ 4 + (7515963 / 134217728) * t ^ 5 + (52055003 / 1073741824) * t ^ 6 + (45792747 / 1073741824) * t ^ 7 + (2610186579 / 68719476736) * t ^ 8 + (1173893435 / 34359738368) * t ^ 9 + (8516063283 / 274877906944) * t ^ 10 + (7775536041 / 274877906944) * t ^ 11) := by
  unfold asinS; ring

theorem asinT_deriv (x : ℝ) : HasDerivAt asinT (asinS (x ^ 2)) x := by
  have h : HasDerivAt (fun x : ℝ => (1 / 1) * x ^ 1 + (1 / 6) * x ^ 3 + (3 / 40) * x ^ 5 + (5 / 112) * x ^ 7 + (35 / 1152) * x ^ 9 + (63 / 2816) * x ^ 11 + (231 / 13312) * x ^ 13 + (143 / 10240) * x ^ 15 + (6435 / 557056) * x ^ 17 + (12155 / 1245184) * x ^ 19 + (46189 / 5505024) * x ^ 21 + (88179 / 12058624) * x ^ 23) ((1 / 1) * ((1 : ℕ) * x ^ (1 - 1)) + (1 / 6) * ((3 : ℕ) * x ^ (3 - 1)) + (3 / 40) * ((5 : ℕ) * x ^ (5 - 1)) + (5 / 112) * ((7 : ℕ) * x ^ (7 - 1)) + (35 / 1152) * ((9 : ℕ) * x ^ (9 - 1)) + (63 / 2816) * ((11 : ℕ) * x ^ (11 - 1)) + (231 / 13312) * ((13 : ℕ) * x ^ (13 - 1)) + (143 / 10240) * ((15 : ℕ) * x ^ (15 - 1)) + (6435 / 557056) * ((17 : ℕ) * x ^ (17 - 1)) + (12155 / 1245184) * ((19 : ℕ) * x ^ (19 - 1)) + (46189 / 5505024) * ((21 : ℕ) * x ^ (21 - 1)) + (88179 / 12058624) * ((23 : ℕ) * x ^ (23 - 1))) x :=
    (((((((((((((hasDerivAt_pow 1 x).const_mul (1 / 1)).add ((hasDerivAt_pow 3 x).const_mul (1 / 6))).add ((hasDerivAt_pow 5 x).const_mul (3 / 40))).add ((hasDerivAt_pow 7 x).const_mul (5 / 112))).add ((hasDerivAt_pow 9 x).const_mul (35 / 1152))).add ((hasDerivAt_pow 11 x).const_mul (63 / 2816))).add ((hasDerivAt_pow 13 x).const_mul (231 / 13312))).add ((hasDerivAt_pow 15 x).const_mul (143 / 10240))).add ((hasDerivAt_pow 17 x).const_mul (6435 / 557056))).add ((hasDerivAt_pow 19 x).const_mul (12155 / 1245184))).add ((hasDerivAt_pow 21 x).const_mul (46189 / 5505024))).add ((hasDerivAt_pow 23 x).const_mul (88179 / 12058624)))
  have e : asinS (x ^ 2) = (1 / 1) * ((1 : ℕ) * x ^ (1 - 1)) + (1 / 6) * ((3 : ℕ) * x ^ (3 - 1)) + (3 / 40) * ((5 : ℕ) * x ^ (5 - 1)) + (5 / 112) * ((7 : ℕ) * x ^ (7 - 1)) + (35 / 1152) * ((9 : ℕ) * x ^ (9 - 1)) + (63 / 2816) * ((11 : ℕ) * x ^ (11 - 1)) + (231 / 13312) * ((13 : ℕ) * x ^ (13 - 1)) + (143 / 10240) * ((15 : ℕ) * x ^ (15 - 1)) + (6435 / 557056) * ((17 : ℕ) * x ^ (17 - 1)) + (12155 / 1245184) * ((19 : ℕ) * x ^ (19 - 1)) + (46189 / 5505024) * ((21 : ℕ) * x ^ (21 - 1)) + (88179 / 12058624) * ((23 : ℕ) * x ^ (23 - 1)) := by
    unfold asinS; push_cast; ring
  rw [e]; exact h

noncomputable def asinP (x : ℝ) : ℝ :=
  ((((42163199048 / 10 ^ 12 * x ^ 2 + 24181311049 / 10 ^ 12) * x ^ 2 + 45470025998 / 10 ^ 12) * x ^ 2 + 74953002686 / 10 ^ 12) *
    x ^ 2 + 16666752422 / 10 ^ 11) * x ^ 2 * x + x

theorem asinP_sub (x : ℝ) : asinP x - asinT x = x * ((128633 / 150000000000) * (x ^ 2) ^ 1 + (-23498657 / 500000000000) * (x ^ 2) ^ 2 + (2895090993 / 3500000000000) * (x ^ 2) ^ 3 + (-55805700559 / 9000000000000) * (x ^ 2) ^ 4 + (27212679941 / 1375000000000) * (x ^ 2) ^ 5 + (-231 / 13312) * (x ^ 2) ^ 6 + (-143 / 10240) * (x ^ 2) ^ 7 + (-6435 / 557056) * (x ^ 2) ^ 8 + (-12155 / 1245184) * (x ^ 2) ^ 9 + (-46189 / 5505024) * (x ^ 2) ^ 10 + (-88179 / 12058624) * (x ^ 2) ^ 11) := by
  unfold asinP asinT; ring

theorem asinS_pos {t : ℝ} (h0 : 0 ≤ t) : 1 ≤ asinS t := by
  have h : asinS t = 1 + ((1 / 2) * t ^ 1 + (3 / 8) * t ^ 2 + (5 / 16) * t ^ 3 + (35 / 128) * t ^ 4 + (63 / 256) * t ^ 5 + (231 / 1024) * t ^ 6 + (429 / 2048) * t ^ 7 + (6435 / 32768) * t ^ 8 + (12155 / 65536) * t ^ 9 + (46189 / 262144) * t ^ 10 + (88179 / 524288) * t ^ 11) := by unfold asinS; ring
  rw [h]
  have : 0 ≤ (1 / 2) * t ^ 1 + (3 / 8) * t ^ 2 + (5 / 16) * t ^ 3 + (35 / 128) * t ^ 4 + (63 / 256) * t ^ 5 + (231 / 1024) * t ^ 6 + (429 / 2048) * t ^ 7 + (6435 / 32768) * t ^ 8 + (12155 / 65536) * t ^ 9 + (46189 / 262144) * t ^ 10 + (88179 / 524288) * t ^ 11 := by positivity
  linarith

theorem asinS_bound {t : ℝ} (h0 : 0 ≤ t) (h1 : t ≤ 1 / 4) : |1 / √(1 - t) - asinS t| ≤ 3 / 10 ^ 8 := by
  have hs : 0 < √(1 - t) := Real.sqrt_pos.mpr (by linarith)
  have hq : √(1 - t) ^ 2 = 1 - t := Real.sq_sqrt (by linarith)
  have e := asinS_sq t
  have p := asinS_pos h0
  have hr0 : 0 ≤ t ^ 12 * ((676039 / 2097152) * t ^ 0 + (156009 / 1048576) * t ^ 1 + (869193 / 8388608) * t ^ 2 + (676039 / 8388608) * t ^ 3 + (70984095 / 1073741824) * t ^ 4 + (7515963 / 134217728) * t ^ 5 + (52055003 / 1073741824) * t ^ 6 + (45792747 / 1073741824) * t ^ 7 + (2610186579 / 68719476736) * t ^ 8 + (1173893435 / 34359738368) * t ^ 9 + (8516063283 / 274877906944) * t ^ 10 + (7775536041 / 274877906944) * t ^ 11) := by positivity
  have hr1 : t ^ 12 * ((676039 / 2097152) * t ^ 0 + (156009 / 1048576) * t ^ 1 + (869193 / 8388608) * t ^ 2 + (676039 / 8388608) * t ^ 3 + (70984095 / 1073741824) * t ^ 4 + (7515963 / 134217728) * t ^ 5 + (52055003 / 1073741824) * t ^ 6 + (45792747 / 1073741824) * t ^ 7 + (2610186579 / 68719476736) * t ^ 8 + (1173893435 / 34359738368) * t ^ 9 + (8516063283 / 274877906944) * t ^ 10 + (7775536041 / 274877906944) * t ^ 11) ≤ 22 / 10 ^ 9 := by
    calc _ ≤ (1 / 4 : ℝ) ^ 12 * ((676039 / 2097152) * (1 / 4) ^ 0 + (156009 / 1048576) * (1 / 4) ^ 1 + (869193 / 8388608) * (1 / 4) ^ 2 + (676039 / 8388608) * (1 / 4) ^ 3 + (70984095 / 1073741824) * (1 / 4) ^ 4 + (7515963 / 134217728) * (1 / 4) ^ 5 + (52055003 / 1073741824) * (1 / 4) ^ 6 + (45792747 / 1073741824) * (1 / 4) ^ 7 + (2610186579 / 68719476736) * (1 / 4) ^ 8 + (1173893435 / 34359738368) * (1 / 4) ^ 9 + (8516063283 / 274877906944) * (1 / 4) ^ 10 + (7775536041 / 274877906944) * (1 / 4) ^ 11) := by gcongr
      _ ≤ 22 / 10 ^ 9 := by norm_num
  generalize t ^ 12 * ((676039 / 2097152) * t ^ 0 + (156009 / 1048576) * t ^ 1 + (869193 / 8388608) * t ^ 2 + (676039 / 8388608) * t ^ 3 + (70984095 / 1073741824) * t ^ 4 + (7515963 / 134217728) * t ^ 5 + (52055003 / 1073741824) * t ^ 6 + (45792747 / 1073741824) * t ^ 7 + (2610186579 / 68719476736) * t ^ 8 + (1173893435 / 34359738368) * t ^ 9 + (8516063283 / 274877906944) * t ^ 10 + (7775536041 / 274877906944) * t ^ 11) = r at *
  rw [← hq] at e
  have hsq : (asinS t * √(1 - t)) ^ 2 = 1 - r := by rw [mul_pow]; exact e
  have hpos : 0 ≤ asinS t * √(1 - t) := by positivity
  have up : asinS t * √(1 - t) ≤ 1 := by nlinarith
  have lo : 1 - r ≤ asinS t * √(1 - t) := by nlinarith
  have hs3 : (0.86 : ℝ) ≤ √(1 - t) := Real.le_sqrt_of_sq_le (by norm_num; linarith)
  have : 1 / √(1 - t) - asinS t = (1 - asinS t * √(1 - t)) / √(1 - t) := by field_simp
  rw [this, abs_of_nonneg (div_nonneg (by linarith) hs.le), div_le_iff₀ hs]
  norm_num at *
  linarith

theorem asinT_bound {x : ℝ} (hx : |x| ≤ 1 / 2) : |Real.arcsin x - asinT x| ≤ 1.5 / 10 ^ 8 := by
  have hd : ∀ y ∈ Set.Icc (-(1 / 2) : ℝ) (1 / 2), HasDerivWithinAt (fun x => Real.arcsin x - asinT x)
      (1 / √(1 - y ^ 2) - asinS (y ^ 2)) (Set.Icc (-(1 / 2)) (1 / 2)) y := by
    intro y hy
    exact ((Real.hasDerivAt_arcsin (by linarith [hy.1]) (by linarith [hy.2])).sub (asinT_deriv y)).hasDerivWithinAt
  have hb : ∀ y ∈ Set.Icc (-(1 / 2) : ℝ) (1 / 2), ‖1 / √(1 - y ^ 2) - asinS (y ^ 2)‖ ≤ 3 / 10 ^ 8 := by
    intro y hy
    rw [Real.norm_eq_abs]
    refine asinS_bound (sq_nonneg y) ?_
    nlinarith [hy.1, hy.2]
  have h := Convex.norm_image_sub_le_of_norm_hasDerivWithin_le (f := fun x => Real.arcsin x - asinT x) hd hb
    (convex_Icc _ _) (show (0 : ℝ) ∈ Set.Icc (-(1 / 2) : ℝ) (1 / 2) by constructor <;> norm_num)
    (show x ∈ Set.Icc (-(1 / 2) : ℝ) (1 / 2) by rw [abs_le] at hx; exact hx)
  have z : asinT 0 = 0 := by unfold asinT; norm_num
  simp only [Real.arcsin_zero, z, sub_zero, Real.norm_eq_abs] at h
  refine h.trans ?_
  calc 3 / 10 ^ 8 * |x| ≤ 3 / 10 ^ 8 * (1 / 2) := by gcongr
    _ = 1.5 / 10 ^ 8 := by norm_num

theorem asinP_bound {x : ℝ} (hx : |x| ≤ 1 / 2) : |Real.arcsin x - asinP x| ≤ 2.5 / 10 ^ 8 := by
  have h1 := asinT_bound hx
  have h2 : |asinP x - asinT x| ≤ 1 / 10 ^ 8 := by
    rw [asinP_sub, abs_mul]
    have hp := asin_poly (t := x ^ 2) (sq_nonneg x) (by rw [← sq_abs]; nlinarith [abs_nonneg x])
    calc _ ≤ (1 / 2 : ℝ) * (1 / 50000000) := mul_le_mul hx hp (abs_nonneg _) (by norm_num)
      _ = 1 / 10 ^ 8 := by norm_num
  rw [abs_le] at *
  constructor <;> norm_num at * <;> linarith

/-- The identity used for larger arguments. -/
theorem arcsin_half {a : ℝ} (h0 : 0 ≤ a) (h1 : a ≤ 1) : Real.arcsin a = Real.pi / 2 - 2 * Real.arcsin √((1 - a) / 2) := by
  set y := √((1 - a) / 2) with hy
  have hy0 : 0 ≤ y := Real.sqrt_nonneg _
  have hy2 : y ^ 2 = (1 - a) / 2 := Real.sq_sqrt (by linarith)
  have hy1 : y ≤ 1 := by nlinarith
  have hb0 : 0 ≤ Real.arcsin y := Real.arcsin_nonneg.mpr hy0
  have hb1 := Real.arcsin_le_pi_div_two y
  have hs : Real.sin (Real.pi / 2 - 2 * Real.arcsin y) = a := by
    rw [Real.sin_pi_div_two_sub, Real.cos_two_mul, Real.cos_arcsin, Real.sq_sqrt (by nlinarith), hy2]
    ring
  rw [← hs]
  refine (Real.arcsin_sin ?_ ?_).trans ?_
  · linarith [Real.pi_pos]
  · linarith
  · rfl

end Ozz.Trig
