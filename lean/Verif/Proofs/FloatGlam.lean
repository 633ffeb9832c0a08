import Verif.Model.Glam
import Verif.Spec.FloatMotion
import Verif.Proofs.FloatBlend
import Verif.Proofs.FloatFromVectors
import Verif.Proofs.FloatVec

/-! The ways in which glam computes are accurate. -/

namespace Ozz.MotionBlending

open F32 Ieee Spec Ozz.Blending Ozz.IK

/-- The root of a squared length known up to five units. -/
theorem sqrt_near {D : F32} {n : ℝ} (hD : Finite32 D.bits) (n0 : 1 / 2 ^ 50 ≤ n) (n1 : n ≤ 2 ^ 50) (h : |val D - n ^ 2| ≤ 5.1 / 2 ^ 24 * n ^ 2) :
    Finite32 (F32.sqrt D).bits ∧ |val (F32.sqrt D) - n| ≤ 3.7 / 2 ^ 24 * n ∧ 0 < val (F32.sqrt D) := by
  have np : 0 < n := lt_of_lt_of_le (by positivity) n0
  have n2 : 0 < n ^ 2 := by positivity
  have h' := abs_le.mp h
  have D0 : 0 ≤ val D := by linarith
  have r := root_near (Real.sqrt_nonneg (val D)) np (c := 2.55 / 2 ^ 24) (by norm_num) (by rw [Real.sq_sqrt D0]; linarith)
  have r' := abs_le.mp r
  obtain ⟨f, e, -⟩ := sqrt_ok hD D0 (by linarith)
  have e' := abs_le.mp e
  have tiny : (1:ℝ) / 2 ^ 150 ≤ 1 / 2 ^ 50 / 2 ^ 60 := by norm_num
  have tiny2 : (1:ℝ) / 2 ^ 50 / 2 ^ 60 ≤ n / 2 ^ 60 := div_le_div_of_nonneg_right n0 (by positivity)
  refine ⟨f, ?_, ?_⟩
  · rw [abs_le]; constructor <;> linarith
  · linarith

theorem norm3_sq (v : V3 ℝ) : norm3 v ^ 2 = v 0 ^ 2 + v 1 ^ 2 + v 2 ^ 2 := Real.sq_sqrt (by positivity)

theorem mul_still {x y : F32} (hx : Finite32 x.bits) (hy : Finite32 y.bits) (h : val x = 0 ∨ val y = 0) :
    Finite32 (x * y).bits ∧ val (x * y) = 0 := by
  have z : val x * val y = 0 := by rcases h with h | h <;> simp [h]
  have f := (mul_ok hx hy (by rw [z]; norm_num)).1
  refine ⟨f, ?_⟩
  have := rounds_exact (mul_roundsTo hx hy) f zero_finite (by change val x * val y = val F32.zero; rw [z, valZero])
  change val (x * y) = val F32.zero at this
  rw [this, valZero]

theorem add_still {x y : F32} (hx : Finite32 x.bits) (hy : Finite32 y.bits) (h : val x = 0) (h' : val y = 0) :
    Finite32 (x + y).bits ∧ val (x + y) = 0 := by
  obtain ⟨f, e⟩ := add_ok hx hy (by rw [h, h']; norm_num)
  rw [h, h', add_zero, abs_zero, zero_div, sub_zero] at e
  exact ⟨f, abs_nonpos_iff.mp e⟩

theorem sqrt_still {x : F32} (hx : Finite32 x.bits) (h : val x = 0) : Finite32 (F32.sqrt x).bits ∧ val (F32.sqrt x) = 0 := by
  have f := (sqrt_ok hx h.ge (by rw [h]; norm_num)).1
  refine ⟨f, ?_⟩
  have := rounds_exact (sqrt_roundsTo hx h.ge) f zero_finite (by change √(val x) = val F32.zero; rw [h, valZero, Real.sqrt_zero])
  change val (F32.sqrt x) = val F32.zero at this
  rw [this, valZero]

theorem length3_still (v : V3 F32) (hv : ∀ i, Finite32 (v i).bits) (h : ∀ i, val (v i) = 0) :
    Finite32 (length3 v).bits ∧ val (length3 v) = 0 := by
  have m := fun i => mul_still (hv i) (hv i) (.inl (h i))
  have a := add_still (m 0).1 (m 1).1 (m 0).2 (m 1).2
  have b := add_still a.1 (m 2).1 a.2 (m 2).2
  exact sqrt_still b.1 b.2

theorem length3_ok (v : V3 F32) (hv : ∀ i, Finite32 (v i).bits) (h0 : 1 / 2 ^ 50 ≤ norm3 (val3 v)) (h1 : norm3 (val3 v) ≤ 2 ^ 50) :
    Finite32 (length3 v).bits ∧ |val (length3 v) - norm3 (val3 v)| ≤ 4 / 2 ^ 24 * norm3 (val3 v) := by
  have s := norm3_sq (val3 v)
  have np : 0 < norm3 (val3 v) := lt_of_lt_of_le (by positivity) h0
  have p0 : (1 / 2 ^ 50 : ℝ) ^ 2 ≤ norm3 (val3 v) ^ 2 := pow_le_pow_left₀ (by positivity) h0 2
  have p1 : norm3 (val3 v) ^ 2 ≤ (2 ^ 50 : ℝ) ^ 2 := pow_le_pow_left₀ np.le h1 2
  have sm : |val (v 0) * val (v 0)| + |val (v 1) * val (v 1)| + |val (v 2) * val (v 2)| ≤ norm3 (val3 v) ^ 2 := by
    rw [s, abs_mul_self, abs_mul_self, abs_mul_self]
    simp only [val3, pow_two]
    exact le_rfl
  obtain ⟨f, e⟩ := dot3_ok (hv 0) (hv 1) (hv 2) (hv 0) (hv 1) (hv 2) sm (p1.trans (by norm_num))
  have e2 : val (v 0) * val (v 0) + val (v 1) * val (v 1) + val (v 2) * val (v 2) = norm3 (val3 v) ^ 2 := by
    rw [s]; simp only [val3, pow_two]
  rw [e2] at e
  have tiny : (4:ℝ) / 2 ^ 150 ≤ 1 / 2 ^ 24 * (1 / 2 ^ 50) ^ 2 := by norm_num
  obtain ⟨g, e3, -⟩ := sqrt_near f h0 h1 (e.trans (by
    have : 1 / 2 ^ 24 * (1 / 2 ^ 50 : ℝ) ^ 2 ≤ 1 / 2 ^ 24 * norm3 (val3 v) ^ 2 := mul_le_mul_of_nonneg_left p0 (by positivity)
    linarith))
  exact ⟨g, e3.trans (mul_le_mul_of_nonneg_right (by norm_num) np.le)⟩

theorem dotV4_ok (a b : F4 F32) (S : ℝ) (ha : ∀ c, Finite32 (a c).bits) (hb : ∀ c, Finite32 (b c).bits)
    (hS : |val (a 0) * val (b 0)| + |val (a 1) * val (b 1)| + |val (a 2) * val (b 2)| + |val (a 3) * val (b 3)| ≤ S) (hB : S ≤ 2 ^ 120) :
    Finite32 (dotV4 a b).bits ∧ |val (dotV4 a b) - dot4 (fun c => val (a c)) (fun c => val (b c))| ≤ 5 * S / 2 ^ 24 + 1 / 2 ^ 147 :=
  qdot_ok (ha 0) (ha 1) (ha 2) (ha 3) (hb 0) (hb 1) (hb 2) (hb 3) hS hB

theorem dotPairs_ok (a b : F4 F32) (S : ℝ) (ha : ∀ c, Finite32 (a c).bits) (hb : ∀ c, Finite32 (b c).bits)
    (hS : |val (a 0) * val (b 0)| + |val (a 1) * val (b 1)| + |val (a 2) * val (b 2)| + |val (a 3) * val (b 3)| ≤ S) (hB : S ≤ 2 ^ 120) :
    Finite32 (dotPairs a b).bits ∧ |val (dotPairs a b) - dot4 (fun c => val (a c)) (fun c => val (b c))| ≤ 5 * S / 2 ^ 24 + 1 / 2 ^ 147 := by
  unfold dotPairs dot4
  have n0 := abs_nonneg (val (a 0) * val (b 0))
  have n1 := abs_nonneg (val (a 1) * val (b 1))
  have n2 := abs_nonneg (val (a 2) * val (b 2))
  have n3 := abs_nonneg (val (a 3) * val (b 3))
  have hB' : S ≤ 2 ^ 126 := hB.trans (by norm_num)
  obtain ⟨f0, e0, b0⟩ := mul_bound (ha 0) (hb 0) le_rfl (by linarith only [hS, hB', n0, n1, n2, n3])
  obtain ⟨f1, e1, b1⟩ := mul_bound (ha 1) (hb 1) le_rfl (by linarith only [hS, hB', n0, n1, n2, n3])
  obtain ⟨f2, e2, b2⟩ := mul_bound (ha 2) (hb 2) le_rfl (by linarith only [hS, hB', n0, n1, n2, n3])
  obtain ⟨f3, e3, b3⟩ := mul_bound (ha 3) (hb 3) le_rfl (by linarith only [hS, hB', n0, n1, n2, n3])
  generalize |val (a 0) * val (b 0)| = P0 at *
  generalize |val (a 1) * val (b 1)| = P1 at *
  generalize |val (a 2) * val (b 2)| = P2 at *
  generalize |val (a 3) * val (b 3)| = P3 at *
  obtain ⟨f4, e4, b4⟩ := add_bound f0 f2 b0 b2 (by norm_num at hB ⊢; linarith)
  obtain ⟨f5, e5, b5⟩ := add_bound f1 f3 b1 b3 (by norm_num at hB ⊢; linarith)
  obtain ⟨f6, e6, -⟩ := add_bound f4 f5 b4 b5 (by norm_num at hB ⊢; linarith)
  refine ⟨f6, ?_⟩
  have r1 := sum_near e4 e0 e2
  have r2 := sum_near e5 e1 e3
  have r3 := sum_near e6 r1 r2
  rw [show val (a 0) * val (b 0) + val (a 1) * val (b 1) + val (a 2) * val (b 2) + val (a 3) * val (b 3) =
    val (a 0) * val (b 0) + val (a 2) * val (b 2) + (val (a 1) * val (b 1) + val (a 3) * val (b 3)) by ring]
  refine r3.trans ?_
  norm_num at hS ⊢
  linarith

/-- The length of a quaternion from its squared length. -/
theorem quat_len {q : F4 F32} {D : F32} (h0 : 1 / 2 ^ 100 ≤ norm2 (fun c => val (q c))) (h1 : norm2 (fun c => val (q c)) ≤ 2 ^ 100)
    (hD : Finite32 D.bits)
    (e : |val D - dot4 (fun c => val (q c)) (fun c => val (q c))| ≤ 5 * norm2 (fun c => val (q c)) / 2 ^ 24 + 1 / 2 ^ 147) :
    Finite32 (F32.sqrt D).bits ∧ |val (F32.sqrt D) - √(norm2 (fun c => val (q c)))| ≤ 3.7 / 2 ^ 24 * √(norm2 (fun c => val (q c))) ∧
    0 < val (F32.sqrt D) ∧ 1 / 2 ^ 50 ≤ √(norm2 (fun c => val (q c))) ∧ √(norm2 (fun c => val (q c))) ≤ 2 ^ 50 ∧
    ∀ c, |val (q c)| ≤ √(norm2 (fun c => val (q c))) := by
  have e2 : dot4 (fun c => val (q c)) (fun c => val (q c)) = norm2 (fun c => val (q c)) := by simp only [dot4, norm2]; ring
  rw [e2] at e
  have cs : ∀ c, val (q c) ^ 2 ≤ norm2 (fun c => val (q c)) := fun c => by
    unfold norm2
    have s := fun c => sq_nonneg (val (q c))
    fin_cases c <;> simp only [Fin.zero_eta, Fin.mk_one, Fin.reduceFinMk] <;> linarith [s 0, s 1, s 2, s 3]
  generalize norm2 (fun c => val (q c)) = N at *
  have N0 : 0 ≤ N := le_trans (by positivity) h0
  have l0 : 1 / 2 ^ 50 ≤ √N := Real.le_sqrt_of_sq_le (le_trans (by norm_num) h0)
  have l1 : √N ≤ 2 ^ 50 := Real.sqrt_le_iff.mpr ⟨by positivity, h1.trans (by norm_num)⟩
  have tiny : (1:ℝ) / 2 ^ 147 ≤ 1 / 2 ^ 30 * (1 / 2 ^ 100) := by norm_num
  obtain ⟨f, e3, p⟩ := sqrt_near hD l0 l1 (by rw [Real.sq_sqrt N0]; linarith)
  exact ⟨f, e3, p, l0, l1, fun c => Real.abs_le_sqrt (cs c)⟩

theorem divide_ok {x s : F32} {n : ℝ} (hx : Finite32 x.bits) (hs : Finite32 s.bits) (n0 : 0 < n)
    (e : |val s - n| ≤ 3.7 / 2 ^ 24 * n) (hxn : |val x| ≤ n) :
    Finite32 (x / s).bits ∧ |val (x / s) - n⁻¹ * val x| ≤ 7 / 2 ^ 24 := by
  have e' := abs_le.mp e
  have s0 : 0 < val s := by linarith
  have key : |val x / val s - n⁻¹ * val x| ≤ 3.8 / 2 ^ 24 := by
    rw [show val x / val s - n⁻¹ * val x = val x * (n - val s) / (val s * n) by field_simp, abs_div, abs_mul, abs_of_pos (mul_pos s0 n0),
      div_le_iff₀ (mul_pos s0 n0), abs_sub_comm]
    refine (mul_le_mul hxn e (abs_nonneg _) n0.le).trans ?_
    have : 3.7 / 2 ^ 24 * n * n ≤ 3.8 / 2 ^ 24 * val s * n := mul_le_mul_of_nonneg_right (by linarith) n0.le
    linarith
  have small : |n⁻¹ * val x| ≤ 1 := by
    rw [abs_mul, abs_of_pos (inv_pos.mpr n0), inv_mul_le_iff₀ n0, mul_one]; exact hxn
  have b : |val x / val s| ≤ 1.1 := by
    have := abs_sub_abs_le_abs_sub (val x / val s) (n⁻¹ * val x)
    linarith
  obtain ⟨f, e2⟩ := div_ok hx hs s0.ne' (b.trans (by norm_num))
  refine ⟨f, ?_⟩
  have := abs_sub_le (val (x / s)) (val x / val s) (n⁻¹ * val x)
  norm_num at e2 key ⊢
  linarith

theorem recip_ok {x s : F32} {n : ℝ} (hx : Finite32 x.bits) (hs : Finite32 s.bits) (n0 : 1 / 2 ^ 50 ≤ n) (n1 : n ≤ 2 ^ 50)
    (e : |val s - n| ≤ 3.7 / 2 ^ 24 * n) (hxn : |val x| ≤ n) :
    Finite32 (x * (F32.one / s)).bits ∧ |val (x * (F32.one / s)) - n⁻¹ * val x| ≤ 7 / 2 ^ 24 := by
  have np : 0 < n := lt_of_lt_of_le (by positivity) n0
  have e' := abs_le.mp e
  have s0 : 0 < val s := by linarith
  have i0 : 0 < n⁻¹ := inv_pos.mpr np
  have i1 : n⁻¹ ≤ 2 ^ 50 := by rw [inv_le_comm₀ np (by positivity)]; exact le_trans (by norm_num) n0
  have i2 : 1 / 2 ^ 50 ≤ n⁻¹ := by rw [le_inv_comm₀ (by positivity) np]; exact n1.trans (by norm_num)
  have key : |1 / val s - n⁻¹| ≤ 3.8 / 2 ^ 24 * n⁻¹ := by
    rw [show 1 / val s - n⁻¹ = (n - val s) / val s * n⁻¹ by field_simp, abs_mul, abs_of_pos i0]
    refine mul_le_mul_of_nonneg_right ?_ i0.le
    rw [abs_div, abs_of_pos s0, div_le_iff₀ s0, abs_sub_comm]
    linarith
  have k' := abs_le.mp key
  have b : |1 / val s| ≤ 1.1 * n⁻¹ := by
    rw [abs_of_pos (by positivity : 0 < 1 / val s)]; linarith
  obtain ⟨f, e2⟩ := div_ok one_finite hs s0.ne' (by rw [valOne]; refine b.trans ?_; linarith)
  rw [valOne] at e2
  have tiny : (1:ℝ) / 2 ^ 150 ≤ 1 / 2 ^ 40 * (1 / 2 ^ 50) := by norm_num
  have tiny2 : 1 / 2 ^ 40 * (1 / 2 ^ 50 : ℝ) ≤ 1 / 2 ^ 40 * n⁻¹ := mul_le_mul_of_nonneg_left i2 (by positivity)
  have e3 : |val (F32.one / s) - n⁻¹| ≤ 5 / 2 ^ 24 * n⁻¹ := by
    have := abs_sub_le (val (F32.one / s)) (1 / val s) n⁻¹
    norm_num at *
    linarith
  generalize F32.one / s = r at *
  have e4 : |val x * val r - n⁻¹ * val x| ≤ 5 / 2 ^ 24 := by
    rw [show val x * val r - n⁻¹ * val x = val x * (val r - n⁻¹) by ring, abs_mul]
    refine (mul_le_mul hxn e3 (abs_nonneg _) np.le).trans (le_of_eq ?_)
    field_simp
  have small : |n⁻¹ * val x| ≤ 1 := by
    rw [abs_mul, abs_of_pos i0, inv_mul_le_iff₀ np, mul_one]; exact hxn
  have b2 : |val x * val r| ≤ 1.1 := by
    have := abs_sub_abs_le_abs_sub (val x * val r) (n⁻¹ * val x)
    linarith
  obtain ⟨g, e5⟩ := mul_ok hx f (b2.trans (by norm_num))
  refine ⟨g, ?_⟩
  have := abs_sub_le (val (x * r)) (val x * val r) (n⁻¹ * val x)
  linarith

theorem self_dot (q : F4 F32) : |val (q 0) * val (q 0)| + |val (q 1) * val (q 1)| + |val (q 2) * val (q 2)| + |val (q 3) * val (q 3)| ≤
    norm2 (fun c => val (q c)) := by
  simp only [abs_mul_self, norm2, pow_two]; exact le_rfl

theorem inOrder_accurate : Accurate inOrder where
  length := length3_ok
  still := length3_still
  dot := dotV4_ok
  normalize := fun q hq h0 h1 c => by
    obtain ⟨f, e⟩ := dotV4_ok q q _ hq hq (self_dot q) (h1.trans (by norm_num))
    obtain ⟨g, e2, -, l0, -, b⟩ := quat_len h0 h1 f e
    exact divide_ok (hq c) g (lt_of_lt_of_le (by positivity) l0) e2 (b c)

theorem inPairs_accurate : Accurate inPairs where
  length := length3_ok
  still := length3_still
  dot := dotPairs_ok
  normalize := fun q hq h0 h1 c => by
    obtain ⟨f, e⟩ := dotPairs_ok q q _ hq hq (self_dot q) (h1.trans (by norm_num))
    obtain ⟨g, e2, -, l0, -, b⟩ := quat_len h0 h1 f e
    exact divide_ok (hq c) g (lt_of_lt_of_le (by positivity) l0) e2 (b c)

theorem byReciprocal_accurate : Accurate byReciprocal where
  length := length3_ok
  still := length3_still
  dot := dotV4_ok
  normalize := fun q hq h0 h1 c => by
    obtain ⟨f, e⟩ := dotV4_ok q q _ hq hq (self_dot q) (h1.trans (by norm_num))
    obtain ⟨g, e2, -, l0, l1, b⟩ := quat_len h0 h1 f e
    exact recip_ok (hq c) g l0 l1 e2 (b c)

end Ozz.MotionBlending
