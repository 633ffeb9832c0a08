import Verif.Spec.FloatTrack
import Verif.Proofs.FloatSampling
import Verif.Proofs.FloatNear
import Verif.Proofs.TriggeringScan

/-! Single-precision facts for tracks: whole numbers, `floor`, positions of edges, their times. -/

namespace Ozz.F32

open Ieee Spec Sampling

theorem zero_eq32 : (0 : F32) = F32.zero := rfl
theorem one_eq32 : (1 : F32) = F32.one := rfl

/-- Whole numbers up to 2^24 are floats. -/
theorem exists_int32 {n : ℤ} (hn : |n| ≤ 2 ^ 24) : ∃ x : F32, Finite32 x.bits ∧ val x = n := by
  have key : ∀ m : ℕ, m ≤ 2 ^ 24 → ∃ x : F32, Finite32 x.bits ∧ val x = m := by
    intro m hm
    rcases Nat.lt_or_ge m (2 ^ 24) with h | h
    · exact exists_nat32 h
    · refine ⟨⟨0x4b800000⟩, by decide +kernel, ?_⟩
      have : m = 2 ^ 24 := by omega
      subst this
      have : value32 (⟨0x4b800000⟩ : F32).bits = 16777216 := by decide +kernel
      unfold val real
      rw [this]; norm_num
  rcases le_total 0 n with h0 | h0
  · obtain ⟨x, hx, hv⟩ := key n.toNat (by rw [abs_of_nonneg h0] at hn; omega)
    refine ⟨x, hx, ?_⟩
    rw [hv]
    exact_mod_cast Int.toNat_of_nonneg h0
  · obtain ⟨x, hx, hv⟩ := key (-n).toNat (by rw [abs_of_nonpos h0] at hn; omega)
    refine ⟨neg x, neg_finite.mpr hx, ?_⟩
    rw [val, neg_real]
    show - val x = _
    rw [hv]
    have : ((-n).toNat : ℤ) = -n := Int.toNat_of_nonneg (by omega)
    have : (((-n).toNat : ℤ) : ℝ) = -(n : ℝ) := by rw [this]; push_cast; ring
    rw [← Int.cast_natCast, this]; ring

/-- Adding whole numbers is exact up to 2^24. -/
theorem add_int {x y : F32} {m n : ℤ} (hx : Finite32 x.bits) (hy : Finite32 y.bits) (vx : val x = m) (vy : val y = n)
    (h : |m + n| ≤ 2 ^ 24) : Finite32 (x + y).bits ∧ val (x + y) = ((m + n : ℤ) : ℝ) := by
  obtain ⟨w, hw, vw⟩ := exists_int32 h
  have hB : |val x + val y| ≤ 2 ^ 127 := by
    rw [vx, vy, ← Int.cast_add, ← Int.cast_abs]
    have : ((|m + n| : ℤ) : ℝ) ≤ ((2 ^ 24 : ℤ) : ℝ) := by exact_mod_cast h
    refine this.trans ?_
    norm_num
  have hf := (add_ok hx hy hB).1
  refine ⟨hf, ?_⟩
  rw [← vw]
  exact rounds_exact (add_roundsTo hx hy) hf hw (by
    have : real w.bits = ((m + n : ℤ) : ℝ) := vw
    rw [this]; push_cast
    have e1 : real x.bits = m := vx
    have e2 : real y.bits = n := vy
    rw [e1, e2])

theorem sub_int {x y : F32} {m n : ℤ} (hx : Finite32 x.bits) (hy : Finite32 y.bits) (vx : val x = m) (vy : val y = n)
    (h : |m - n| ≤ 2 ^ 24) : Finite32 (x - y).bits ∧ val (x - y) = ((m - n : ℤ) : ℝ) := by
  obtain ⟨w, hw, vw⟩ := exists_int32 h
  have hB : |val x - val y| ≤ 2 ^ 127 := by
    rw [vx, vy, ← Int.cast_sub, ← Int.cast_abs]
    have : ((|m - n| : ℤ) : ℝ) ≤ ((2 ^ 24 : ℤ) : ℝ) := by exact_mod_cast h
    refine this.trans ?_
    norm_num
  have hf := (sub_ok hx hy hB).1
  refine ⟨hf, ?_⟩
  rw [← vw]
  exact rounds_exact (sub_roundsTo hx hy) hf hw (by
    have : real w.bits = ((m - n : ℤ) : ℝ) := vw
    rw [this]; push_cast
    have e1 : real x.bits = m := vx
    have e2 : real y.bits = n := vy
    rw [e1, e2])

/-- Large magnitudes are whole. -/
theorem mag_whole {x : F32} (h : 2 ^ 23 ≤ x.mag / 2 ^ 149) : x.mag % 2 ^ 149 = 0 := by
  have hm : 2 ^ 172 ≤ x.mag := by
    have := Nat.mul_le_of_le_div _ _ _ h
    calc 2 ^ 172 = 2 ^ 23 * 2 ^ 149 := by norm_num
      _ ≤ x.mag := this
  refine Nat.mod_eq_zero_of_dvd ?_
  have hn : ¬ x.low < 2 ^ 23 := by
    intro h'
    unfold mag magOf at hm
    rw [if_pos h'] at hm
    have : (2 : Nat) ^ 23 < 2 ^ 172 := by norm_num
    omega
  unfold mag magOf at hm ⊢
  rw [if_neg hn] at hm ⊢
  refine Dvd.dvd.mul_left (Nat.pow_dvd_pow 2 ?_) _
  by_contra h'
  have h1 : 2 ^ (x.low / 2 ^ 23 - 1) ≤ 2 ^ 148 := Nat.pow_le_pow_right (by norm_num) (by omega)
  have h2 : 2 ^ 23 + x.low % 2 ^ 23 < 2 ^ 24 := by omega
  have h3 : (2 ^ 23 + x.low % 2 ^ 23) * 2 ^ (x.low / 2 ^ 23 - 1) < 2 ^ 24 * 2 ^ 148 :=
    Nat.mul_lt_mul_of_lt_of_le h2 h1 (by positivity)
  have h4 : (2 : Nat) ^ 24 * 2 ^ 148 = 2 ^ 172 := by norm_num
  exact absurd (hm.trans_lt h3) (by rw [h4]; exact lt_irrefl _)

theorem val_signed (x : F32) : val x = if x.negative then -((x.mag : ℝ) / 2 ^ 149) else (x.mag : ℝ) / 2 ^ 149 := by
  rw [val, real_signedMag]
  unfold signedMag
  split
  · push_cast; ring
  · push_cast; ring

/-- `floor` rounds down. -/
theorem floor_ok {x : F32} (hx : Finite32 x.bits) : Finite32 (floor x).bits ∧ val (floor x) = (⌊val x⌋ : ℝ) := by
  obtain ⟨h1, h2⟩ := finite_cases hx
  have hp : (0 : ℝ) < 2 ^ 149 := by positivity
  unfold floor
  by_cases h0 : x.mag % 2 ^ 149 = 0
  · simp only [h1, h2, h0, Bool.or_self, decide_true, Bool.or_true, if_true]
    refine ⟨hx, ?_⟩
    obtain ⟨q, hq⟩ := Nat.dvd_of_mod_eq_zero h0
    have hqr : (x.mag : ℝ) / 2 ^ 149 = q := by
      rw [hq, div_eq_iff hp.ne']; push_cast; ring
    rw [val_signed, hqr]
    split
    · have : (-(q : ℝ)) = ((-(q : ℤ) : ℤ) : ℝ) := by push_cast; ring
      rw [this, Int.floor_intCast]
    · have : (q : ℝ) = ((q : ℤ) : ℝ) := by push_cast; ring
      rw [this, Int.floor_intCast]
  · have hq : x.mag / 2 ^ 149 < 2 ^ 23 := by
      by_contra h
      exact h0 (mag_whole (not_lt.1 h))
    simp only [h1, h2, h0, Bool.or_self, decide_false, Bool.false_eq_true, if_false]
    set q := x.mag / 2 ^ 149 with hqd
    have hmod := Nat.div_add_mod x.mag (2 ^ 149)
    have hlt := Nat.mod_lt x.mag (show 0 < 2 ^ 149 by positivity)
    have lo : (q : ℝ) < (x.mag : ℝ) / 2 ^ 149 := by
      rw [lt_div_iff₀ hp]
      have : q * 2 ^ 149 < x.mag := by rw [Nat.mul_comm]; omega
      exact_mod_cast this
    have hi : (x.mag : ℝ) / 2 ^ 149 < q + 1 := by
      rw [div_lt_iff₀ hp]
      have : x.mag < (q + 1) * 2 ^ 149 := by rw [Nat.add_mul, Nat.mul_comm]; omega
      exact_mod_cast this
    by_cases hn : x.negative = true
    · rw [if_pos hn]
      obtain ⟨f, v⟩ := ofNat_ok (show q + 1 < 2 ^ 24 by omega)
      refine ⟨neg_finite.mpr f, ?_⟩
      rw [val, neg_real]
      show - val (ofNat (q + 1)) = _
      rw [v, val_signed, if_pos hn]
      have : ⌊-((x.mag : ℝ) / 2 ^ 149)⌋ = -((q : ℤ) + 1) := by
        rw [Int.floor_eq_iff]; push_cast; constructor <;> linarith
      rw [this]; push_cast; ring
    · rw [if_neg hn]
      obtain ⟨f, v⟩ := ofNat_ok (show q < 2 ^ 24 by omega)
      refine ⟨f, ?_⟩
      rw [v, val_signed, if_neg hn]
      have : ⌊(x.mag : ℝ) / 2 ^ 149⌋ = (q : ℤ) := by
        rw [Int.floor_eq_iff]; push_cast; constructor <;> linarith
      rw [this]; push_cast; ring

/-- Sums of the same numbers are the same number. -/
theorem add_mono32 {x y x' y' : F32} (hx : Finite32 x.bits) (hy : Finite32 y.bits) (hx' : Finite32 x'.bits)
    (hy' : Finite32 y'.bits) (hf : Finite32 (x + y).bits) (hf' : Finite32 (x' + y').bits)
    (h : val x + val y ≤ val x' + val y') : val (x + y) ≤ val (x' + y') :=
  rounds_mono_real (add_roundsTo hx hy) (add_roundsTo hx' hy') hf hf' h

/-- Numbers next to each other are at least a part in 2^24 apart. -/
theorem spacing {x y : F32} (h0 : 0 ≤ val y) (h : val y < val x) : val y + val y / 2 ^ 24 ≤ val x := by
  have hp : (0 : ℝ) < 2 ^ 149 := by positivity
  have ax := val_mag' x
  have ay := val_mag' y
  rw [abs_of_nonneg h0] at ay
  rw [abs_of_pos (h0.trans_lt h)] at ax
  rw [ax, ay] at h
  rw [ax, ay]
  have hm : y.mag < x.mag := by
    rw [div_lt_div_iff_of_pos_right hp] at h
    exact_mod_cast h
  have hl : y.low < x.low := by
    by_contra hc
    exact absurd hm (not_lt.2 (magOf_strictMono.monotone (not_lt.1 hc)))
  have hs : magOf (y.low + 1) ≤ x.mag := magOf_strictMono.monotone hl
  obtain ⟨e, t, hc, ht, hn, hmag⟩ := magOf_split y.low
  have hsucc := magOf_mk (e := e) (t := t + 1) (by omega) (by omega)
  rw [show e * 2 ^ 23 + (t + 1) = y.low + 1 by omega] at hsucc
  rw [hsucc] at hs
  have hy : y.mag = t * 2 ^ e := hmag
  have hgap : (y.mag : ℝ) + y.mag / 2 ^ 24 ≤ x.mag := by
    have h1 : ((t + 1) * 2 ^ e : ℝ) ≤ x.mag := by exact_mod_cast hs
    have h2 : (y.mag : ℝ) = t * 2 ^ e := by exact_mod_cast hy
    have h3 : (t : ℝ) * 2 ^ e / 2 ^ 24 ≤ 2 ^ e := by
      rw [div_le_iff₀ (by positivity)]
      have : (t : ℝ) ≤ 2 ^ 24 := by exact_mod_cast ht.le
      nlinarith [show (0 : ℝ) < 2 ^ e by positivity]
    rw [h2]; linarith
  have : (y.mag : ℝ) / 2 ^ 149 + y.mag / 2 ^ 149 / 2 ^ 24 = ((y.mag : ℝ) + y.mag / 2 ^ 24) / 2 ^ 149 := by ring
  rw [this]
  exact div_le_div_of_nonneg_right hgap hp.le
where val_mag' (x : F32) : |val x| = (x.mag : ℝ) / 2 ^ 149 := by
        rw [val_signed]
        have : (0 : ℝ) ≤ (x.mag : ℝ) / 2 ^ 149 := by positivity
        split
        · rw [abs_neg, abs_of_nonneg this]
        · rw [abs_of_nonneg this]

/-- Quotients of nearby numbers. -/
theorem quot_error {n d N D : ℝ} (hN : 0 ≤ N) (hD : 0 < D) (hND : N ≤ D) (nE : |n - N| ≤ N / 2 ^ 24)
    (dE : |d - D| ≤ D / 2 ^ 24) (dpos : 0 < d) : |n / d - N / D| ≤ 3 / 2 ^ 24 - 2 / 2 ^ 48 := by
  have e : n / d - N / D = ((n - N) * D - N * (d - D)) / (d * D) := by field_simp; ring
  rw [e, abs_div, abs_of_pos (mul_pos dpos hD), div_le_iff₀ (mul_pos dpos hD)]
  have a1 : |(n - N) * D| ≤ D / 2 ^ 24 * D := by
    rw [abs_mul, abs_of_pos hD]
    exact mul_le_mul_of_nonneg_right (nE.trans (by gcongr)) hD.le
  have a2 : |N * (d - D)| ≤ D * (D / 2 ^ 24) := by
    rw [abs_mul, abs_of_nonneg hN]
    exact mul_le_mul hND dE (abs_nonneg _) hD.le
  have a3 := abs_sub ((n - N) * D) (N * (d - D))
  have a4 : D - D / 2 ^ 24 ≤ d := by have := (abs_le.mp dE).1; linarith
  have a5 : (D - D / 2 ^ 24) * D ≤ d * D := mul_le_mul_of_nonneg_right a4 hD.le
  have a6 : (3 / 2 ^ 24 - 2 / 2 ^ 48) * ((D - D / 2 ^ 24) * D) ≤ (3 / 2 ^ 24 - 2 / 2 ^ 48) * (d * D) :=
    mul_le_mul_of_nonneg_left a5 (by norm_num)
  have a7 : D / 2 ^ 24 * D + D * (D / 2 ^ 24) ≤ (3 / 2 ^ 24 - 2 / 2 ^ 48) * ((D - D / 2 ^ 24) * D) := by
    have hDD : 0 ≤ D * D := by positivity
    have : (3 / 2 ^ 24 - 2 / 2 ^ 48) * ((D - D / 2 ^ 24) * D) - (D / 2 ^ 24 * D + D * (D / 2 ^ 24)) =
      D * D * (1 / 2 ^ 24 - 5 / 2 ^ 48 + 2 / 2 ^ 72) := by ring
    have h3 : 0 ≤ D * D * (1 / 2 ^ 24 - 5 / 2 ^ 48 + 2 / 2 ^ 72) := mul_nonneg hDD (by norm_num)
    linarith
  linarith

/-- The fraction of the way from `v0` to `v1` at which `x` lies, whichever is greater. -/
theorem fraction32 {v0 v1 x : F32} (h0 : Small v0) (h1 : Small v1) (hx : Small x)
    (h : val v0 ≤ val x ∧ val x ≤ val v1 ∧ val v0 < val v1 ∨ val v1 ≤ val x ∧ val x ≤ val v0 ∧ val v1 < val v0) :
    Finite32 ((x - v0) / (v1 - v0)).bits ∧ 0 ≤ val ((x - v0) / (v1 - v0)) ∧ val ((x - v0) / (v1 - v0)) ≤ 1 ∧
    |val ((x - v0) / (v1 - v0)) - (val x - val v0) / (val v1 - val v0)| ≤ 1 / 2 ^ 22 := by
  have big : ∀ {a b : F32}, Small a → Small b → |val a - val b| ≤ 2 ^ 127 := by
    intro a b ha hb
    have := abs_sub (val a) (val b)
    have h1 := ha.small
    have h2 := hb.small
    have e : (2 : ℝ) ^ 127 = 2 ^ 126 + 2 ^ 126 := by norm_num
    rw [e]; linarith
  obtain ⟨nF, nE⟩ := sub_ok hx.finite h0.finite (big hx h0)
  obtain ⟨dF, dE⟩ := sub_ok h1.finite h0.finite (big h1 h0)
  have nR := sub_roundsTo hx.finite h0.finite
  have dR := sub_roundsTo h1.finite h0.finite
  -- the computed quotient before its rounding
  have key : val (v1 - v0) ≠ 0 ∧ 0 ≤ val (x - v0) / val (v1 - v0) ∧ val (x - v0) / val (v1 - v0) ≤ 1 ∧
      |val (x - v0) / val (v1 - v0) - (val x - val v0) / (val v1 - val v0)| ≤ 3 / 2 ^ 24 - 2 / 2 ^ 48 := by
    rcases h with ⟨h1', h2', h3'⟩ | ⟨h1', h2', h3'⟩
    · rw [abs_of_nonneg (show 0 ≤ val x - val v0 by linarith)] at nE
      rw [abs_of_nonneg (show 0 ≤ val v1 - val v0 by linarith)] at dE
      have dpos : 0 < val (v1 - v0) := by
        have := (abs_le.mp dE).1
        have h2 : (val v1 - val v0) / 2 ^ 24 < val v1 - val v0 := div_lt_self (by linarith) (by norm_num)
        linarith
      have n0 : 0 ≤ val (x - v0) := by
        have := rounds_ge nR nF zero_finite (by rw [zero_real]; exact sub_nonneg.2 h1')
        rwa [zero_real] at this
      have nd : val (x - v0) ≤ val (v1 - v0) := rounds_mono_real nR dR nF dF (by
        have : val x - val v0 ≤ val v1 - val v0 := by linarith
        exact this)
      exact ⟨dpos.ne', div_nonneg n0 dpos.le, (div_le_one dpos).mpr nd,
        quot_error (by linarith) (by linarith) (by linarith) nE dE dpos⟩
    · rw [abs_of_nonpos (show val x - val v0 ≤ 0 by linarith)] at nE
      rw [abs_of_nonpos (show val v1 - val v0 ≤ 0 by linarith)] at dE
      have dneg : val (v1 - v0) < 0 := by
        have := (abs_le.mp dE).2
        have h2 : -(val v1 - val v0) / 2 ^ 24 < -(val v1 - val v0) := div_lt_self (by linarith) (by norm_num)
        linarith
      have n0 : val (x - v0) ≤ 0 := by
        have := rounds_le nR nF zero_finite (by rw [zero_real]; exact sub_nonpos.2 h2')
        rwa [zero_real] at this
      have nd : val (v1 - v0) ≤ val (x - v0) := rounds_mono_real dR nR dF nF (by
        have : val v1 - val v0 ≤ val x - val v0 := by linarith
        exact this)
      refine ⟨dneg.ne, div_nonneg_of_nonpos n0 dneg.le, (div_le_one_of_neg dneg).mpr nd, ?_⟩
      have := quot_error (n := -val (x - v0)) (d := -val (v1 - v0)) (N := -(val x - val v0)) (D := -(val v1 - val v0))
        (by linarith) (by linarith) (by linarith)
        (by rw [← abs_neg]; refine le_trans (le_of_eq ?_) nE; congr 1; ring)
        (by rw [← abs_neg]; refine le_trans (le_of_eq ?_) dE; congr 1; ring) (by linarith)
      rwa [neg_div_neg_eq, neg_div_neg_eq] at this
  obtain ⟨d0, q0, q1, qE⟩ := key
  have fR := div_roundsTo nF dF d0
  obtain ⟨fF, fE⟩ := div_ok nF dF d0 (by rw [abs_of_nonneg q0]; exact q1.trans (by norm_num))
  have f0 := rounds_ge fR fF zero_finite (by rw [zero_real]; exact q0)
  have f1 := rounds_le fR fF one_finite (by rw [one_real]; exact q1)
  rw [zero_real] at f0
  rw [one_real] at f1
  refine ⟨fF, f0, f1, ?_⟩
  rw [abs_of_nonneg q0] at fE
  have hf : |val ((x - v0) / (v1 - v0)) - val (x - v0) / val (v1 - v0)| ≤ 1 / 2 ^ 24 + 1 / 2 ^ 150 :=
    fE.trans (by gcongr)
  have := abs_add_le (val ((x - v0) / (v1 - v0)) - val (x - v0) / val (v1 - v0))
    (val (x - v0) / val (v1 - v0) - (val x - val v0) / (val v1 - val v0))
  rw [sub_add_sub_cancel] at this
  have e2 : (1 : ℝ) / 2 ^ 24 + 1 / 2 ^ 150 + (3 / 2 ^ 24 - 2 / 2 ^ 48) ≤ 1 / 2 ^ 22 := by norm_num
  linarith

theorem add_comm32 {x y : F32} (hx : Finite32 x.bits) (hy : Finite32 y.bits) : x + y = y + x := by
  obtain ⟨h1, h2⟩ := finite_cases hx
  obtain ⟨h3, h4⟩ := finite_cases hy
  show F32.add x y = F32.add y x
  unfold F32.add
  simp only [h1, h2, h3, h4, Bool.or_self, Bool.false_eq_true, if_false]
  rw [Int.add_comm, Bool.and_comm]

/-- The computed position of an edge between two keys. -/
theorem edge32 {r0 r1 a : F32} (h0 : Unit01 r0) (h1 : Unit01 r1) (hlt : val r0 < val r1) (ha : Unit01 a) :
    Finite32 (r0 + (r1 - r0) * a).bits ∧ val r0 ≤ val (r0 + (r1 - r0) * a) ∧
    (∀ x : F32, Finite32 x.bits → val r1 < val x → val (r0 + (r1 - r0) * a) ≤ val x) ∧
    |val (r0 + (r1 - r0) * a) - ((val r1 - val r0) * val a + val r0)| ≤ 1 / 2 ^ 21 + 1 / 2 ^ 150 := by
  have mod : ∀ {r : F32}, Unit01 r → Moderate r := fun {r} h =>
    ⟨h.finite, by
      have : |val r| ≤ 1 := by rw [abs_of_nonneg h.nonneg]; exact h.le_one
      exact this.trans (by norm_num)⟩
  have st := lerp_steps (mod h0) (mod h1) ha.finite ha.nonneg ha.le_one
  have e : r0 + (r1 - r0) * a = (r1 - r0) * a + r0 := add_comm32 h0.finite st.pF
  rw [e]
  have up := lerp_up st st ha.nonneg le_rfl hlt.le
  refine ⟨st.lF, up.1, fun x hx hxr => ?_, ?_⟩
  · refine rounds_le st.lR st.lF hx ?_
    have hd := (lerp_sign st).1 hlt.le
    have hp := (abs_le.mp st.pB).2
    rw [abs_of_nonneg hd] at hp
    have hE := (abs_le.mp st.dE).2
    rw [abs_of_nonneg (show 0 ≤ real r1.bits - real r0.bits from sub_nonneg.2 hlt.le)] at hE
    have sp := spacing h1.nonneg hxr
    have n0 := h0.nonneg
    have : (real r1.bits - real r0.bits) / 2 ^ 24 ≤ val r1 / 2 ^ 24 := by
      refine div_le_div_of_nonneg_right ?_ (by positivity)
      have : real r1.bits - real r0.bits = val r1 - val r0 := rfl
      rw [this]; linarith
    have e1 : real r1.bits = val r1 := rfl
    have e0 : real r0.bits = val r0 := rfl
    have ex : real x.bits = val x := rfl
    rw [ex, e0]
    rw [e0, e1] at hE this
    linarith
  · have := lerp_error st ha.nonneg ha.le_one (M := 1) (by
      show |val r0| ≤ 1; rw [abs_of_nonneg h0.nonneg]; exact h0.le_one) (by
      show |val r1| ≤ 1; rw [abs_of_nonneg h1.nonneg]; exact h1.le_one)
    exact this

/-- An edge is not after the end of the loop. -/
theorem edge32_le_one {r0 r1 a : F32} (h0 : Unit01 r0) (h1 : Unit01 r1) (hlt : val r0 < val r1) (ha : Unit01 a) :
    val (r0 + (r1 - r0) * a) ≤ 1 := by
  rcases h1.le_one.lt_or_eq with h | h
  · have := (edge32 h0 h1 hlt ha).2.2.1 F32.one one_finite (by rw [show val F32.one = 1 from one_real]; exact h)
    rwa [show val F32.one = 1 from one_real] at this
  have mod : ∀ {r : F32}, Unit01 r → Moderate r := fun {r} h =>
    ⟨h.finite, by
      have : |val r| ≤ 1 := by rw [abs_of_nonneg h.nonneg]; exact h.le_one
      exact this.trans (by norm_num)⟩
  have st := lerp_steps (mod h0) (mod h1) ha.finite ha.nonneg ha.le_one
  rw [add_comm32 h0.finite st.pF]
  have hd := (lerp_sign st).1 hlt.le
  have hp := (abs_le.mp st.pB).2
  rw [abs_of_nonneg hd] at hp
  by_contra hc
  rw [not_le] at hc
  -- the next float after 1
  have sp : 1 + 1 / 2 ^ 23 ≤ val ((r1 - r0) * a + r0) := by
    have hn : val (⟨0x3f800001⟩ : F32) = 1 + 1 / 2 ^ 23 := by
      have : value32 (⟨0x3f800001⟩ : F32).bits = 1 + 1 / 2 ^ 23 := by decide +kernel
      unfold val real
      rw [this]; norm_num
    by_contra hs
    rw [not_le] at hs
    have hp149 : (0 : ℝ) < 2 ^ 149 := by positivity
    have m1 := spacing.val_mag' ((r1 - r0) * a + r0)
    rw [abs_of_pos (by linarith)] at m1
    have m2 := spacing.val_mag' (⟨0x3f800001⟩ : F32)
    rw [hn, abs_of_pos (by norm_num)] at m2
    have m3 := spacing.val_mag' F32.one
    rw [show val F32.one = 1 from one_real, abs_one] at m3
    rw [m1, m2, div_lt_div_iff_of_pos_right hp149] at hs
    rw [m1, m3, div_lt_div_iff_of_pos_right hp149] at hc
    have c1 : F32.one.mag < ((r1 - r0) * a + r0).mag := by exact_mod_cast hc
    have c2 : ((r1 - r0) * a + r0).mag < (⟨0x3f800001⟩ : F32).mag := by exact_mod_cast hs
    have d1 : F32.one.low < ((r1 - r0) * a + r0).low := by
      by_contra hx; exact absurd c1 (not_lt.2 (magOf_strictMono.monotone (not_lt.1 hx)))
    have d2 : ((r1 - r0) * a + r0).low < (⟨0x3f800001⟩ : F32).low := by
      by_contra hx; exact absurd c2 (not_lt.2 (magOf_strictMono.monotone (not_lt.1 hx)))
    have e1 : F32.one.low = 0x3f800000 := by decide +kernel
    have e2 : (⟨0x3f800001⟩ : F32).low = 0x3f800001 := by decide +kernel
    omega
  have hn := st.lR.nearest st.lF _ one_finite
  rw [one_real] at hn
  have n0 := h0.nonneg
  have hE := (abs_le.mp st.dE).2
  rw [abs_of_nonneg (show 0 ≤ real r1.bits - real r0.bits from sub_nonneg.2 hlt.le)] at hE
  have e1 : real r1.bits = 1 := h
  have e0 : real r0.bits = val r0 := rfl
  have el : real ((r1 - r0) * a + r0).bits = val ((r1 - r0) * a + r0) := rfl
  rw [el, e0] at hn
  rw [e0, e1] at hE
  set S := real ((r1 - r0) * a).bits + val r0 with hS
  have hS1 : S ≤ 1 + (1 - val r0) / 2 ^ 24 := by rw [hS]; linarith
  have hSb : S ≤ 1 + 1 / 2 ^ 24 := hS1.trans (by
    have : (1 - val r0) / 2 ^ 24 ≤ 1 / 2 ^ 24 := by
      refine div_le_div_of_nonneg_right (by linarith) (by positivity)
    linarith)
  rw [abs_of_nonneg (show 0 ≤ val ((r1 - r0) * a + r0) - S by
    have : (1 : ℝ) / 2 ^ 24 ≤ 1 / 2 ^ 23 := by norm_num
    linarith)] at hn
  have hS2 : 1 + 1 / 2 ^ 24 ≤ S := by
    rcases le_total S 1 with hS1 | hS1
    · rw [abs_of_nonneg (by linarith)] at hn
      have : (0 : ℝ) < 1 / 2 ^ 23 := by norm_num
      linarith
    · rw [abs_of_nonpos (by linarith)] at hn
      have : (1 : ℝ) / 2 ^ 23 = 1 / 2 ^ 24 + 1 / 2 ^ 24 := by norm_num
      linarith
  have hr0 : val r0 = 0 := by
    have : (1 - val r0) / 2 ^ 24 = 1 / 2 ^ 24 - val r0 / 2 ^ 24 := by ring
    have h2 : val r0 / 2 ^ 24 ≤ 0 := by linarith
    have h3 : 0 ≤ val r0 / 2 ^ 24 := by positivity
    have h4 : val r0 / 2 ^ 24 = 0 := le_antisymm h2 h3
    rcases div_eq_zero_iff.mp h4 with h5 | h5
    · exact h5
    · norm_num at h5
  have hdx : real (r1 - r0).bits = 1 := by
    have := rounds_exact st.dR st.dF one_finite (by rw [one_real, e1, e0, hr0]; ring)
    rwa [one_real] at this
  rw [hdx] at hp
  rw [hS, hr0] at hS2
  have : (0 : ℝ) < 1 / 2 ^ 24 := by norm_num
  linarith

end Ozz.F32
