import Verif.Proofs.TrigFloat
import Verif.Proofs.FloatKeys

/-! Sine and cosine of the crate in single precision. -/

namespace Ozz.Trig

open F32 Ieee Spec

theorem sq_near {x : F32} {ρ : ℝ} (hx : Near x ρ (3.1 / 2 ^ 24)) (hρ : |ρ| ≤ 0.7859) :
    0 ≤ ρ ^ 2 ∧ ρ ^ 2 ≤ 0.618 ∧ Near (x * x) (ρ ^ 2) (5.5 / 2 ^ 24) := by
  have h0 : 0 ≤ ρ ^ 2 := sq_nonneg ρ
  have h1 : ρ ^ 2 ≤ 0.618 := by
    rw [← sq_abs]
    have : |ρ| ^ 2 ≤ 0.7859 ^ 2 := pow_le_pow_left₀ (abs_nonneg ρ) hρ 2
    exact this.trans (by norm_num)
  have h2 := Near.mul 0.7859 0.7859 0.618 (5.5 / 2 ^ 24) hx hx hρ hρ (by rw [← sq, abs_of_nonneg h0]; exact h1) (by norm_num)
  rw [← sq] at h2
  exact ⟨h0, h1, h2⟩

theorem cos_near {x : F32} {ρ : ℝ} (hx : Near x ρ (3.1 / 2 ^ 24)) (hρ : |ρ| ≤ 0.7859) :
    let x2 := x * x
    Near (((NumOps.lit 2443315711809948 (10 ^ 20) * x2 - NumOps.lit 1388731625493765 (10 ^ 18)) * x2 +
      NumOps.lit 4166664568298827 (10 ^ 17)) * x2 * x2 - NumOps.half * x2 + NumOps.one) (Real.cos ρ) (5 / 2 ^ 24) := by
  intro x2
  obtain ⟨t0, t1, h2⟩ := sq_near hx hρ
  have hP := (poly_bound (hρ.trans (by norm_num))).1
  unfold cosP at hP
  generalize ρ ^ 2 = t at *
  have c1 : Near (NumOps.lit 2443315711809948 (10 ^ 20) : F32) (2443315711809948 / 10 ^ 20) (0.0001 / 2 ^ 24) :=
    near_lit' _ _ _ _ (by norm_num) (by norm_num) (by norm_num)
  have c2 : Near (NumOps.lit 1388731625493765 (10 ^ 18) : F32) (1388731625493765 / 10 ^ 18) (0.0015 / 2 ^ 24) :=
    near_lit' _ _ _ _ (by norm_num) (by norm_num) (by norm_num)
  have c3 : Near (NumOps.lit 4166664568298827 (10 ^ 17) : F32) (4166664568298827 / 10 ^ 17) (0.042 / 2 ^ 24) :=
    near_lit' _ _ _ _ (by norm_num) (by norm_num) (by norm_num)
  have tA : |t| ≤ 0.618 := by rw [abs_of_nonneg t0]; exact t1
  have m1 := Near.mul 0.000025 0.618 0.000016 (0.001 / 2 ^ 24) c1 h2 (by rw [abs_of_nonneg] <;> norm_num) tA
    (by rw [abs_of_nonneg (by positivity)]; norm_num; linarith) (by norm_num)
  have s1 := Near.sub 0.0014 (0.005 / 2 ^ 24) m1 c2 (by rw [abs_le]; constructor <;> norm_num <;> linarith) (by norm_num)
  have b1 : |(2443315711809948 / 10 ^ 20 * t - 1388731625493765 / 10 ^ 18 : ℝ)| ≤ 0.0014 := by
    rw [abs_le]; constructor <;> norm_num <;> linarith
  have b2 : |(2443315711809948 / 10 ^ 20 * t - 1388731625493765 / 10 ^ 18 : ℝ) * t| ≤ 0.00087 := by
    rw [abs_mul]
    calc _ ≤ (0.0014 : ℝ) * 0.618 := mul_le_mul b1 tA (abs_nonneg _) (by norm_num)
      _ ≤ 0.00087 := by norm_num
  have m2 := Near.mul 0.0014 0.618 0.00087 (0.02 / 2 ^ 24) s1 h2 b1 tA b2 (by norm_num)
  have b3 : |(2443315711809948 / 10 ^ 20 * t - 1388731625493765 / 10 ^ 18 : ℝ) * t + 4166664568298827 / 10 ^ 17| ≤ 0.043 := by
    rw [abs_le] at b2 ⊢; constructor <;> norm_num at * <;> linarith
  have a1 := Near.add 0.043 (0.11 / 2 ^ 24) m2 c3 b3 (by norm_num)
  have b4 : |((2443315711809948 / 10 ^ 20 * t - 1388731625493765 / 10 ^ 18 : ℝ) * t + 4166664568298827 / 10 ^ 17) * t| ≤ 0.0266 := by
    rw [abs_mul]
    calc _ ≤ (0.043 : ℝ) * 0.618 := mul_le_mul b3 tA (abs_nonneg _) (by norm_num)
      _ ≤ 0.0266 := by norm_num
  have m3 := Near.mul 0.043 0.618 0.0266 (0.34 / 2 ^ 24) a1 h2 b3 tA b4 (by norm_num)
  have b5 : |((2443315711809948 / 10 ^ 20 * t - 1388731625493765 / 10 ^ 18 : ℝ) * t + 4166664568298827 / 10 ^ 17) * t * t| ≤ 0.0165 := by
    rw [abs_mul]
    calc _ ≤ (0.0266 : ℝ) * 0.618 := mul_le_mul b4 tA (abs_nonneg _) (by norm_num)
      _ ≤ 0.0165 := by norm_num
  have m4 := Near.mul 0.0266 0.618 0.0165 (0.38 / 2 ^ 24) m3 h2 b4 tA b5 (by norm_num)
  have m5 := Near.mul (1 / 2) 0.618 0.309 (3.1 / 2 ^ 24) half_near h2 (by rw [abs_of_nonneg] <;> norm_num) tA
    (by rw [abs_of_nonneg (by positivity)]; linarith) (by norm_num)
  rw [abs_le] at b5 hP
  have s2 := Near.sub 0.33 (3.82 / 2 ^ 24) m4 m5 (by rw [abs_le]; constructor <;> norm_num at * <;> linarith) (by norm_num)
  have a2 := Near.add 1.02 (4.9 / 2 ^ 24) s2 one_near (by rw [abs_le]; constructor <;> norm_num at * <;> linarith) (by norm_num)
  refine a2.shift ?_
  have : |(((2443315711809948 / 10 ^ 20 * t - 1388731625493765 / 10 ^ 18 : ℝ) * t + 4166664568298827 / 10 ^ 17) * t * t -
      1 / 2 * t + 1) - Real.cos ρ| ≤ 0.03 / 2 ^ 24 := by
    rw [abs_le]; constructor <;> norm_num at * <;> linarith
  norm_num at *
  linarith

theorem sin_near {x : F32} {ρ : ℝ} (hx : Near x ρ (3.1 / 2 ^ 24)) (hρ : |ρ| ≤ 0.7859) :
    let x2 := x * x
    Near (((-NumOps.lit 19515295891 (10 ^ 14) * x2 + NumOps.lit 83321608736 (10 ^ 13)) * x2 -
      NumOps.lit 16666654611 (10 ^ 11)) * x2 * x + x) (Real.sin ρ) (6 / 2 ^ 24) := by
  intro x2
  obtain ⟨t0, t1, h2⟩ := sq_near hx hρ
  have hP := (poly_bound (hρ.trans (by norm_num))).2
  unfold sinP at hP
  generalize ρ ^ 2 = t at *
  have c1 : Near (-(NumOps.lit 19515295891 (10 ^ 14)) : F32) (-(19515295891 / 10 ^ 14)) (0.0002 / 2 ^ 24) :=
    near_neg (near_lit' _ _ _ _ (by norm_num) (by norm_num) (by norm_num))
  have c2 : Near (NumOps.lit 83321608736 (10 ^ 13) : F32) (83321608736 / 10 ^ 13) (0.009 / 2 ^ 24) :=
    near_lit' _ _ _ _ (by norm_num) (by norm_num) (by norm_num)
  have c3 : Near (NumOps.lit 16666654611 (10 ^ 11) : F32) (16666654611 / 10 ^ 11) (0.167 / 2 ^ 24) :=
    near_lit' _ _ _ _ (by norm_num) (by norm_num) (by norm_num)
  have tA : |t| ≤ 0.618 := by rw [abs_of_nonneg t0]; exact t1
  have m1 := Near.mul 0.0002 0.618 0.00013 (0.002 / 2 ^ 24) c1 h2 (by rw [abs_neg, abs_of_nonneg] <;> norm_num) tA
    (by rw [abs_mul, abs_neg, abs_of_nonneg (show (0:ℝ) ≤ 19515295891 / 10 ^ 14 by norm_num), abs_of_nonneg t0]
        norm_num; linarith) (by norm_num)
  have b1 : |(-(19515295891 / 10 ^ 14) * t + 83321608736 / 10 ^ 13 : ℝ)| ≤ 0.0084 := by
    rw [abs_le]; constructor <;> norm_num <;> linarith
  have s1 := Near.add 0.0084 (0.02 / 2 ^ 24) m1 c2 b1 (by norm_num)
  have b2 : |(-(19515295891 / 10 ^ 14) * t + 83321608736 / 10 ^ 13 : ℝ) * t| ≤ 0.0053 := by
    rw [abs_mul]
    calc _ ≤ (0.0084 : ℝ) * 0.618 := mul_le_mul b1 tA (abs_nonneg _) (by norm_num)
      _ ≤ 0.0053 := by norm_num
  have m2 := Near.mul 0.0084 0.618 0.0053 (0.065 / 2 ^ 24) s1 h2 b1 tA b2 (by norm_num)
  have b3 : |(-(19515295891 / 10 ^ 14) * t + 83321608736 / 10 ^ 13 : ℝ) * t - 16666654611 / 10 ^ 11| ≤ 0.172 := by
    rw [abs_le] at b2 ⊢; constructor <;> norm_num at * <;> linarith
  have a1 := Near.sub 0.172 (0.41 / 2 ^ 24) m2 c3 b3 (by norm_num)
  have b4 : |((-(19515295891 / 10 ^ 14) * t + 83321608736 / 10 ^ 13 : ℝ) * t - 16666654611 / 10 ^ 11) * t| ≤ 0.107 := by
    rw [abs_mul]
    calc _ ≤ (0.172 : ℝ) * 0.618 := mul_le_mul b3 tA (abs_nonneg _) (by norm_num)
      _ ≤ 0.107 := by norm_num
  have m3 := Near.mul 0.172 0.618 0.107 (1.31 / 2 ^ 24) a1 h2 b3 tA b4 (by norm_num)
  have b5 : |((-(19515295891 / 10 ^ 14) * t + 83321608736 / 10 ^ 13 : ℝ) * t - 16666654611 / 10 ^ 11) * t * ρ| ≤ 0.085 := by
    rw [abs_mul]
    calc _ ≤ (0.107 : ℝ) * 0.7859 := mul_le_mul b4 hρ (abs_nonneg _) (by norm_num)
      _ ≤ 0.085 := by norm_num
  have m4 := Near.mul 0.107 0.7859 0.085 (1.46 / 2 ^ 24) m3 hx b4 hρ b5 (by norm_num)
  rw [abs_le] at hP
  have hs := Real.sin_le_one ρ
  have a2 := Near.add 0.88 (5.5 / 2 ^ 24) m4 hx (by rw [abs_le] at hρ b5 ⊢; constructor <;> norm_num at * <;> linarith) (by norm_num)
  refine a2.shift ?_
  have : |(((-(19515295891 / 10 ^ 14) * t + 83321608736 / 10 ^ 13 : ℝ) * t - 16666654611 / 10 ^ 11) * t * ρ + ρ) - Real.sin ρ| ≤ 0.3 / 2 ^ 24 := by
    rw [abs_le]; constructor <;> norm_num at * <;> linarith
  norm_num at *
  linarith

theorem near_flip {x : F32} {r e : ℝ} (b : Bool) (h : Near x r e) : Near (flip b x) (if b then -r else r) e := by
  cases b with
  | false => exact h
  | true => exact near_neg h

theorem lt_val {x y : F32} (hx : Finite32 x.bits) (hy : Finite32 y.bits) :
    NumOps.lt x y = true ↔ val x < val y := by
  show F32.lt x y = true ↔ _
  rw [lt_iff_rank (finite_cases hx).1 (finite_cases hy).1, ← ext_lt_iff (not_nan_of_finite hx) (not_nan_of_finite hy),
    ext_finite hx, ext_finite hy, EReal.coe_lt_coe_iff]

theorem lt_zero_iff {v : F32} (hv : Finite32 v.bits) : NumOps.lt v (NumOps.zero : F32) = true ↔ val v < 0 := by
  have h := lt_val hv zero_finite
  rw [show val F32.zero = 0 from zero_real] at h
  exact h

theorem quadrant_angle (ρ : ℝ) (k : Nat) (b0 b1 : Bool) :
    Real.sin (ρ + ((4 * k + (if b1 then 2 else 0) + (if b0 then 1 else 0) : Nat) : ℝ) * (Real.pi / 2)) =
      (if b1 then -(if b0 then Real.cos ρ else Real.sin ρ) else if b0 then Real.cos ρ else Real.sin ρ) ∧
    Real.cos (ρ + ((4 * k + (if b1 then 2 else 0) + (if b0 then 1 else 0) : Nat) : ℝ) * (Real.pi / 2)) =
      (if b0 != b1 then -(if b0 then Real.sin ρ else Real.cos ρ) else if b0 then Real.sin ρ else Real.cos ρ) := by
  have e : ∀ m : ℝ, ρ + (4 * k + m) * (Real.pi / 2) = (ρ + m * (Real.pi / 2)) + k * (2 * Real.pi) := fun m => by ring
  have e0 : ρ + 0 * (Real.pi / 2) = ρ := by ring
  have e1 : ρ + 1 * (Real.pi / 2) = ρ + Real.pi / 2 := by ring
  have e2 : ρ + 2 * (Real.pi / 2) = ρ + Real.pi := by ring
  have e3 : ρ + 3 * (Real.pi / 2) = (ρ + Real.pi / 2) + Real.pi := by ring
  have c : ∀ m : Nat, ((4 * k + m : Nat) : ℝ) = 4 * k + m := fun m => by push_cast; rfl
  have key : ∀ m : Nat, Real.sin (ρ + ((4 * k + m : Nat) : ℝ) * (Real.pi / 2)) = Real.sin (ρ + m * (Real.pi / 2)) ∧
      Real.cos (ρ + ((4 * k + m : Nat) : ℝ) * (Real.pi / 2)) = Real.cos (ρ + m * (Real.pi / 2)) := fun m => by
    rw [c, e, Real.sin_add_nat_mul_two_pi, Real.cos_add_nat_mul_two_pi]
    exact ⟨rfl, rfl⟩
  rw [Nat.add_assoc, (key _).1, (key _).2]
  cases b0 <;> cases b1
  · simp
  · simp [e2]
  · simp [Real.sin_add_pi_div_two, Real.cos_add_pi_div_two]
  · have : ((if true = true then 2 else 0) + (if true = true then 1 else 0) : Nat) = 3 := rfl
    rw [this]
    push_cast
    rw [e3]
    simp [Real.sin_add_pi_div_two, Real.cos_add_pi_div_two, Real.sin_add_pi, Real.cos_add_pi]

theorem assemble {ts tc : F32} {s c e : ℝ} (hs : Near ts s e) (hc : Near tc c e) (sg b0 b1 : Bool) :
    Near (flip (sg != b1) (if b0 then tc else ts))
      (if sg then -(if b1 then -(if b0 then c else s) else if b0 then c else s)
        else (if b1 then -(if b0 then c else s) else if b0 then c else s)) e ∧
    Near (flip (b0 != b1) (if b0 then ts else tc))
      (if b0 != b1 then -(if b0 then s else c) else if b0 then s else c) e := by
  have h : ∀ b : Bool, Near (if b then tc else ts) (if b then c else s) e := by rintro (_ | _) <;> assumption
  have h' : ∀ b : Bool, Near (if b then ts else tc) (if b then s else c) e := by rintro (_ | _) <;> assumption
  refine ⟨?_, near_flip _ (h' b0)⟩
  have := near_flip (sg != b1) (h b0)
  cases sg <;> cases b1 <;> simpa using this

theorem sinCos_near {v : F32} (hv : Finite32 v.bits) (hV : |val v| ≤ 2048) :
    Near (sinCos v).1 (Real.sin (val v)) (6 / 2 ^ 24) ∧ Near (sinCos v).2 (Real.cos (val v)) (6 / 2 ^ 24) := by
  obtain ⟨n, hbit, hρ, hx⟩ := reduce_ok hv hV
  have hc := (cos_near hx hρ).mono (show (5 : ℝ) / 2 ^ 24 ≤ 6 / 2 ^ 24 by norm_num)
  have hs := sin_near hx hρ
  obtain ⟨ρ, hρ'⟩ : ∃ ρ, ρ = |val v| - n * (Real.pi / 2) := ⟨_, rfl⟩
  rw [← hρ'] at hc hs
  have hw : |val v| = ρ + n * (Real.pi / 2) := by rw [hρ']; ring
  have hcos : Real.cos (val v) = Real.cos (ρ + n * (Real.pi / 2)) := by rw [← hw, Real.cos_abs]
  have hsin : Real.sin (val v) = if NumOps.lt v (NumOps.zero : F32) then -Real.sin (ρ + n * (Real.pi / 2))
      else Real.sin (ρ + n * (Real.pi / 2)) := by
    rw [← hw]
    by_cases h : val v < 0
    · rw [if_pos ((lt_zero_iff hv).mpr h), abs_of_neg h, Real.sin_neg, neg_neg]
    · rw [if_neg (fun h' => h ((lt_zero_iff hv).mp h')), abs_of_nonneg (not_lt.mp h)]
  obtain ⟨k, b0, b1, h0, h1, hn⟩ : ∃ (k : Nat) (b0 b1 : Bool), n.testBit 0 = b0 ∧ n.testBit 1 = b1 ∧
      n = 4 * k + (if b1 then 2 else 0) + (if b0 then 1 else 0) := by
    refine ⟨n / 4, _, _, rfl, rfl, ?_⟩
    simp only [Nat.testBit_succ, Nat.testBit_zero, decide_eq_true_eq]
    split <;> split <;> omega
  have hq := quadrant_angle ρ k b0 b1
  rw [← hn] at hq
  rw [hq.1] at hsin
  rw [hq.2] at hcos
  unfold sinCos
  unfold Trig.quadrant
  simp only [hbit, h0, h1]
  rw [hsin, hcos]
  exact assemble hs hc _ b0 b1

end Ozz.Trig
