import Verif.Proofs.FloatRigid
import Verif.Proofs.FloatAdditive
import Verif.Proofs.FloatBlend
import Verif.Proofs.Frame
import Verif.Proofs.TrigQuat

/-! Helpers: dot products, cross products, lengths and quaternions in single precision, lane by lane. -/

namespace Ozz.IK

open F32 Ieee Spec Blending

/-- Length of the first three components. -/
noncomputable def mag3 (v : F4 ℝ) : ℝ := len (v 0) (v 1) (v 2)

theorem mag3_nonneg (v : F4 ℝ) : 0 ≤ mag3 v := len_nonneg

theorem mag3_sq (v : F4 ℝ) : mag3 v ^ 2 = dot3 v v := by
  unfold mag3 dot3
  rw [len_sq]; ring

theorem mag3_eq (v : F4 ℝ) : mag3 v = √(dot3 v v) := by
  rw [← mag3_sq, Real.sqrt_sq (mag3_nonneg v)]

/-- Finite in the first three components. -/
def Fin3 (v : F4 F32) : Prop := ∀ i, i ≠ 3 → Finite32 (v i).bits

/-- `(x0*y0 + x1*y1) + x2*y2` -/
theorem dot3_ok {x0 x1 x2 y0 y1 y2 : F32} (h0 : Finite32 x0.bits) (h1 : Finite32 x1.bits) (h2 : Finite32 x2.bits)
    (g0 : Finite32 y0.bits) (g1 : Finite32 y1.bits) (g2 : Finite32 y2.bits) {S : ℝ}
    (hS : |val x0 * val y0| + |val x1 * val y1| + |val x2 * val y2| ≤ S) (hB : S ≤ 2 ^ 120) :
    Finite32 (x0 * y0 + x1 * y1 + x2 * y2).bits ∧
      |val (x0 * y0 + x1 * y1 + x2 * y2) - (val x0 * val y0 + val x1 * val y1 + val x2 * val y2)| ≤
        3.01 * S / 2 ^ 24 + 4 / 2 ^ 150 := by
  have a0 := abs_nonneg (val x0 * val y0)
  have a1 := abs_nonneg (val x1 * val y1)
  have a2 := abs_nonneg (val x2 * val y2)
  have hS0 : 0 ≤ S := by linarith
  obtain ⟨f0, e0, b0⟩ := mul_bound h0 g0 le_rfl (by linarith [show (2:ℝ) ^ 120 ≤ 2 ^ 126 by norm_num])
  obtain ⟨f1, e1, b1⟩ := mul_bound h1 g1 le_rfl (by linarith [show (2:ℝ) ^ 120 ≤ 2 ^ 126 by norm_num])
  obtain ⟨f2, e2, b2⟩ := mul_bound h2 g2 le_rfl (by linarith [show (2:ℝ) ^ 120 ≤ 2 ^ 126 by norm_num])
  obtain ⟨f3, e3, b3⟩ := add_bound f0 f1 b0 b1 (by norm_num at *; linarith)
  obtain ⟨f4', e4, b4⟩ := add_bound f3 f2 b3 b2 (by norm_num at *; linarith)
  refine ⟨f4', ?_⟩
  refine (sum_near e4 (sum_near e3 e0 e1) e2).trans ?_
  generalize |val x0 * val y0| = p0 at *
  generalize |val x1 * val y1| = p1 at *
  generalize |val x2 * val y2| = p2 at *
  norm_num
  linarith

/-- `x0*y0 - x1*y1` -/
theorem diff2_ok {x0 x1 y0 y1 : F32} (h0 : Finite32 x0.bits) (h1 : Finite32 x1.bits)
    (g0 : Finite32 y0.bits) (g1 : Finite32 y1.bits) {S : ℝ}
    (hS : |val x0 * val y0| + |val x1 * val y1| ≤ S) (hB : S ≤ 2 ^ 120) :
    Finite32 (x0 * y0 - x1 * y1).bits ∧
      |val (x0 * y0 - x1 * y1) - (val x0 * val y0 - val x1 * val y1)| ≤ 2.01 * S / 2 ^ 24 + 3 / 2 ^ 150 := by
  have a0 := abs_nonneg (val x0 * val y0)
  have a1 := abs_nonneg (val x1 * val y1)
  have hS0 : 0 ≤ S := by linarith
  obtain ⟨f0, e0, b0⟩ := mul_bound h0 g0 le_rfl (by linarith [show (2:ℝ) ^ 120 ≤ 2 ^ 126 by norm_num])
  obtain ⟨f1, e1, b1⟩ := mul_bound h1 g1 le_rfl (by linarith [show (2:ℝ) ^ 120 ≤ 2 ^ 126 by norm_num])
  obtain ⟨f3, e3, b3⟩ := sub_bound2 f0 f1 b0 b1 (by norm_num at *; linarith)
  refine ⟨f3, ?_⟩
  refine (sub_near e3 e0 e1).trans ?_
  generalize |val x0 * val y0| = p0 at *
  generalize |val x1 * val y1| = p1 at *
  norm_num
  linarith

/-- `(x0*y0 + x1*y1) + (x2*y2 - x3*y3)` -/
theorem comb4_ok {x0 x1 x2 x3 y0 y1 y2 y3 : F32} (h0 : Finite32 x0.bits) (h1 : Finite32 x1.bits) (h2 : Finite32 x2.bits)
    (h3 : Finite32 x3.bits) (g0 : Finite32 y0.bits) (g1 : Finite32 y1.bits) (g2 : Finite32 y2.bits) (g3 : Finite32 y3.bits) {S : ℝ}
    (hS : |val x0 * val y0| + |val x1 * val y1| + |val x2 * val y2| + |val x3 * val y3| ≤ S) (hB : S ≤ 2 ^ 120) :
    Finite32 ((x0 * y0 + x1 * y1) + (x2 * y2 - x3 * y3)).bits ∧
      |val ((x0 * y0 + x1 * y1) + (x2 * y2 - x3 * y3)) - ((val x0 * val y0 + val x1 * val y1) + (val x2 * val y2 - val x3 * val y3))| ≤
        3.01 * S / 2 ^ 24 + 5 / 2 ^ 150 := by
  have a0 := abs_nonneg (val x0 * val y0)
  have a1 := abs_nonneg (val x1 * val y1)
  have a2 := abs_nonneg (val x2 * val y2)
  have a3 := abs_nonneg (val x3 * val y3)
  have hS0 : 0 ≤ S := by linarith
  obtain ⟨f0, e0, b0⟩ := mul_bound h0 g0 le_rfl (by linarith [show (2:ℝ) ^ 120 ≤ 2 ^ 126 by norm_num])
  obtain ⟨f1, e1, b1⟩ := mul_bound h1 g1 le_rfl (by linarith [show (2:ℝ) ^ 120 ≤ 2 ^ 126 by norm_num])
  obtain ⟨f2, e2, b2⟩ := mul_bound h2 g2 le_rfl (by linarith [show (2:ℝ) ^ 120 ≤ 2 ^ 126 by norm_num])
  obtain ⟨f3, e3, b3⟩ := mul_bound h3 g3 le_rfl (by linarith [show (2:ℝ) ^ 120 ≤ 2 ^ 126 by norm_num])
  obtain ⟨f4', e4, b4⟩ := add_bound f0 f1 b0 b1 (by norm_num at *; linarith)
  obtain ⟨f5, e5, b5⟩ := sub_bound2 f2 f3 b2 b3 (by norm_num at *; linarith)
  obtain ⟨f6, e6, b6⟩ := add_bound f4' f5 b4 b5 (by norm_num at *; linarith)
  refine ⟨f6, ?_⟩
  refine (sum_near e6 (sum_near e4 e0 e1) (sub_near e5 e2 e3)).trans ?_
  generalize |val x0 * val y0| = p0 at *
  generalize |val x1 * val y1| = p1 at *
  generalize |val x2 * val y2| = p2 at *
  generalize |val x3 * val y3| = p3 at *
  norm_num
  linarith

section
set_option linter.unusedSectionVars false
variable {α : Type} [Add α] [Sub α] [Mul α] [Div α] [Neg α] [NumOps α]

theorem dotS_shape (a b : F4 α) : vec3DotS a b 0 = a 0 * b 0 + a 1 * b 1 + a 2 * b 2 := rfl
theorem cross_shape0 (a b : F4 α) : vec3Cross a b 0 = a 1 * b 2 - b 1 * a 2 := rfl
theorem cross_shape1 (a b : F4 α) : vec3Cross a b 1 = a 2 * b 0 - b 2 * a 0 := rfl
theorem cross_shape2 (a b : F4 α) : vec3Cross a b 2 = a 0 * b 1 - b 0 * a 1 := rfl
theorem mul_shape0 (a b : F4 α) : quatMul a b 0 = (a 1 * b 2 + a 3 * b 0) + (a 0 * b 3 - a 2 * b 1) := rfl
theorem mul_shape1 (a b : F4 α) : quatMul a b 1 = (a 2 * b 0 + a 3 * b 1) + (a 1 * b 3 - a 0 * b 2) := rfl
theorem mul_shape2 (a b : F4 α) : quatMul a b 2 = (a 0 * b 1 + a 3 * b 2) + (a 2 * b 3 - a 1 * b 0) := rfl
theorem mul_shape3 (a b : F4 α) : quatMul a b 3 = -((a 1 * b 1 + a 2 * b 2) + (a 0 * b 0 - a 3 * b 3)) := rfl
theorem normalize_shape (q : F4 α) (i : Fin 4) :
    quatNormalize q i = q i * (NumOps.one / NumOps.sqrt (q 0 * q 0 + q 1 * q 1 + q 2 * q 2 + q 3 * q 3)) := rfl
end

/-- Dot product of vectors of at most these lengths. -/
theorem dotS_ok {a b : F4 F32} (ha : Fin3 a) (hb : Fin3 b) {S : ℝ} (hS : mag3 (valVec a) * mag3 (valVec b) ≤ S)
    (hS0 : 1 / 2 ^ 100 ≤ S) (hB : S ≤ 2 ^ 100) :
    Finite32 (vec3DotS a b 0).bits ∧ |val (vec3DotS a b 0) - dot3 (valVec a) (valVec b)| ≤ 3.02 * S / 2 ^ 24 := by
  have h := dot3_ok (ha 0 (by decide)) (ha 1 (by decide)) (ha 2 (by decide)) (hb 0 (by decide)) (hb 1 (by decide)) (hb 2 (by decide))
    (S := S) (dot_abs_le_len.trans hS) (hB.trans (by norm_num))
  rw [dotS_shape]
  refine ⟨h.1, h.2.trans ?_⟩
  norm_num at *
  linarith

theorem len2_ok {a : F4 F32} (ha : Fin3 a) (hS0 : 1 / 2 ^ 100 ≤ dot3 (valVec a) (valVec a))
    (hB : dot3 (valVec a) (valVec a) ≤ 2 ^ 100) :
    Finite32 (vec3Length2S a 0).bits ∧
      |val (vec3Length2S a 0) - dot3 (valVec a) (valVec a)| ≤ 3.02 * dot3 (valVec a) (valVec a) / 2 ^ 24 :=
  dotS_ok ha ha (by rw [← pow_two, mag3_sq]) hS0 hB

/-- Cross product of vectors of at most these lengths. -/
theorem cross_ok {a b : F4 F32} (ha : Fin3 a) (hb : Fin3 b) {S : ℝ} (hS : mag3 (valVec a) * mag3 (valVec b) ≤ S)
    (hS0 : 1 / 2 ^ 100 ≤ S) (hB : S ≤ 2 ^ 100) (i : Fin 4) (hi : i ≠ 3) :
    Finite32 (vec3Cross a b i).bits ∧ |val (vec3Cross a b i) - cross (valVec a) (valVec b) i| ≤ 2.02 * S / 2 ^ 24 := by
  have key : ∀ i j : Fin 4, i ≠ 3 → j ≠ 3 → i ≠ j → Finite32 (a i * b j - b i * a j).bits ∧
      |val (a i * b j - b i * a j) - (val (a i) * val (b j) - val (a j) * val (b i))| ≤ 2.02 * S / 2 ^ 24 := by
    intro i j hi hj hij
    have hs : |val (a i) * val (b j)| + |val (b i) * val (a j)| ≤ S := by
      refine le_trans ?_ hS
      have h := dot_abs_le_len (a := val (a i)) (b := val (a j)) (c := 0) (x := val (b j)) (y := val (b i)) (z := 0)
      rw [mul_comm (val (b i))]
      have l1 : len (val (a i)) (val (a j)) 0 ≤ mag3 (valVec a) := by
        refine len_le (mag3_nonneg _) ?_
        rw [mag3_sq]; unfold dot3 valVec
        have := sq_nonneg (val (a 0)); have := sq_nonneg (val (a 1)); have := sq_nonneg (val (a 2))
        fin_cases i <;> fin_cases j <;> first | exact absurd rfl hi | exact absurd rfl hj | exact absurd rfl hij | (simp; nlinarith)
      have l2 : len (val (b j)) (val (b i)) 0 ≤ mag3 (valVec b) := by
        refine len_le (mag3_nonneg _) ?_
        rw [mag3_sq]; unfold dot3 valVec
        have := sq_nonneg (val (b 0)); have := sq_nonneg (val (b 1)); have := sq_nonneg (val (b 2))
        fin_cases i <;> fin_cases j <;> first | exact absurd rfl hi | exact absurd rfl hj | exact absurd rfl hij | (simp; nlinarith)
      have := mul_le_mul l1 l2 len_nonneg (mag3_nonneg _)
      simp only [mul_zero, abs_zero, add_zero] at h
      linarith
    obtain ⟨f, e⟩ := diff2_ok (ha i hi) (hb i hi) (hb j hj) (ha j hj) hs (hB.trans (by norm_num))
    refine ⟨f, ?_⟩
    rw [mul_comm (val (a j))]
    refine e.trans ?_
    norm_num at *
    linarith
  revert i
  refine four_ne ?_ ?_ ?_
  · rw [cross_shape0]; exact key 1 2 (by decide) (by decide) (by decide)
  · rw [cross_shape1]; exact key 2 0 (by decide) (by decide) (by decide)
  · rw [cross_shape2]; exact key 0 1 (by decide) (by decide) (by decide)

/-- The exact product of quaternions, as the code arranges it. -/
theorem toQuat_mul' (a b : F4 ℝ) : toQuat a * toQuat b = toQuat (f4 ((a 1 * b 2 + a 3 * b 0) + (a 0 * b 3 - a 2 * b 1))
    ((a 2 * b 0 + a 3 * b 1) + (a 1 * b 3 - a 0 * b 2)) ((a 0 * b 1 + a 3 * b 2) + (a 2 * b 3 - a 1 * b 0))
    (-((a 1 * b 1 + a 2 * b 2) + (a 0 * b 0 - a 3 * b 3)))) := by
  rw [toQuat_prod]
  congr 1
  apply ext4 <;> simp <;> ring

theorem mul4_ok {a b : F4 F32} (ha : ∀ c, Finite32 (a c).bits) (hb : ∀ c, Finite32 (b c).bits)
    (na : norm2 (valVec a) ≤ 102 / 100) (nb : norm2 (valVec b) ≤ 102 / 100) :
    (∀ c, Finite32 (quatMul a b c).bits) ∧ ‖toQuat (valVec (quatMul a b)) - toQuat (valVec a) * toQuat (valVec b)‖ ≤ 7 / 2 ^ 24 := by
  have na' : val (a 0) ^ 2 + val (a 1) ^ 2 + val (a 2) ^ 2 + val (a 3) ^ 2 ≤ 102 / 100 := na
  have nb' : val (b 0) ^ 2 + val (b 1) ^ 2 + val (b 2) ^ 2 + val (b 3) ^ 2 ≤ 102 / 100 := nb
  have h := fun i j => abs_mul_le_half (val (a i)) (val (b j))
  have c0 := comb4_ok (S := 102 / 100) (ha 1) (ha 3) (ha 0) (ha 2) (hb 2) (hb 0) (hb 3) (hb 1)
    (by linarith [h 1 2, h 3 0, h 0 3, h 2 1]) (by norm_num)
  have c1 := comb4_ok (S := 102 / 100) (ha 2) (ha 3) (ha 1) (ha 0) (hb 0) (hb 1) (hb 3) (hb 2)
    (by linarith [h 2 0, h 3 1, h 1 3, h 0 2]) (by norm_num)
  have c2 := comb4_ok (S := 102 / 100) (ha 0) (ha 3) (ha 2) (ha 1) (hb 1) (hb 2) (hb 3) (hb 0)
    (by linarith [h 0 1, h 3 2, h 2 3, h 1 0]) (by norm_num)
  have c3 := comb4_ok (S := 102 / 100) (ha 1) (ha 2) (ha 0) (ha 3) (hb 1) (hb 2) (hb 0) (hb 3)
    (by linarith [h 1 1, h 2 2, h 0 0, h 3 3]) (by norm_num)
  rw [← mul_shape0] at c0
  rw [← mul_shape1] at c1
  rw [← mul_shape2] at c2
  have m3 := mul_shape3 a b
  generalize a 1 * b 1 + a 2 * b 2 + (a 0 * b 0 - a 3 * b 3) = w at c3 m3
  have f3 : Finite32 (quatMul a b 3).bits := by rw [m3]; exact neg_finite.mpr c3.1
  have v3 : val (quatMul a b 3) = -val w := by rw [m3]; exact neg_real w
  refine ⟨?_, ?_⟩
  · apply four_all
    exacts [c0.1, c1.1, c2.1, f3]
  · rw [toQuat_mul', ← toQuat_sub]
    refine (norm_toQuat_le (e := 3.02 * (102 / 100) / 2 ^ 24) ?_).trans (by norm_num)
    have t : (3.01 : ℝ) * (102 / 100) / 2 ^ 24 + 5 / 2 ^ 150 ≤ 3.02 * (102 / 100) / 2 ^ 24 := by norm_num
    apply four_all
    · exact c0.2.trans t
    · exact c1.2.trans t
    · exact c2.2.trans t
    · show |val (quatMul a b 3) - -_| ≤ _
      rw [v3, neg_sub_neg, abs_sub_comm]
      exact c3.2.trans t

/-- A normalised quaternion. -/
theorem normalize4_ok {q : F4 F32} (hq : ∀ c, Finite32 (q c).bits) (h0 : 1 / 2 ^ 100 ≤ norm2 (valVec q)) (h1 : norm2 (valVec q) ≤ 2 ^ 100) :
    (∀ c, Finite32 (quatNormalize q c).bits) ∧ |norm2 (valVec (quatNormalize q)) - 1| ≤ 1 / 2 ^ 19 ∧
    ‖toQuat (valVec (quatNormalize q)) - (‖toQuat (valVec q)‖⁻¹) • toQuat (valVec q)‖ ≤ 9 / 2 ^ 24 := by
  have hp : 0 < norm2 (valVec q) := lt_of_lt_of_le (by positivity) h0
  have hs : 0 < √(norm2 (valVec q)) := Real.sqrt_pos.mpr hp
  have key : ∀ c, Finite32 (quatNormalize q c).bits ∧
      |val (quatNormalize q c) - val (q c) / √(norm2 (valVec q))| ≤ |val (q c) / √(norm2 (valVec q))| / 2 ^ 21 + 1 / 2 ^ 150 := by
    intro c
    rw [normalize_shape]
    refine F32.normalize_ok (hq 0) (hq 1) (hq 2) (hq 3) (hq c) rfl h0 h1 ?_
    have s := fun i => sq_nonneg (val (q i))
    unfold norm2 valVec
    revert c
    apply four_all <;> linarith [s 0, s 1, s 2, s 3]
  have hu : ∀ i, (fun c => val (q c) / √(norm2 (valVec q))) i = val (q i) / √(norm2 (valVec q)) := fun _ => rfl
  have h1' : (val (q 0) / √(norm2 (valVec q))) ^ 2 + (val (q 1) / √(norm2 (valVec q))) ^ 2 +
      (val (q 2) / √(norm2 (valVec q))) ^ 2 + (val (q 3) / √(norm2 (valVec q))) ^ 2 = 1 := by
    rw [div_pow, div_pow, div_pow, div_pow, Real.sq_sqrt hp.le, ← add_div, ← add_div, ← add_div]
    exact div_self hp.ne'
  refine ⟨fun c => (key c).1, unit_of_close (o := fun c => val (quatNormalize q c)) (g := fun c => val (q c) / √(norm2 (valVec q))) h1'
    (fun x => (key x).2), ?_⟩
  have e : (‖toQuat (valVec q)‖⁻¹) • toQuat (valVec q) = toQuat (fun c => val (q c) / √(norm2 (valVec q))) := by
    rw [norm_toQuat]
    ext <;> simp [valVec, div_eq_inv_mul]
  rw [e, ← toQuat_sub, norm_toQuat]
  apply Real.sqrt_le_iff.mpr
  refine ⟨by positivity, ?_⟩
  have kk : ∀ c, (val (quatNormalize q c) - val (q c) / √(norm2 (valVec q))) ^ 2 ≤
      (val (q c) / √(norm2 (valVec q))) ^ 2 * (1 / 2 ^ 42) + 1 / 2 ^ 148 := by
    intro c
    have k := (key c).2
    have g1 : |val (q c) / √(norm2 (valVec q))| ≤ 1 := by
      rw [← sq_le_one_iff_abs_le_one]
      have s := fun i => sq_nonneg (val (q i) / √(norm2 (valVec q)))
      revert c
      apply four_all <;> intro _ <;> linarith [s 0, s 1, s 2, s 3]
    rw [← sq_abs (val (quatNormalize q c) - _), ← sq_abs (val (q c) / _)]
    have d0 := abs_nonneg (val (quatNormalize q c) - val (q c) / √(norm2 (valVec q)))
    generalize |val (q c) / √(norm2 (valVec q))| = g at *
    generalize |val (quatNormalize q c) - val (q c) / √(norm2 (valVec q))| = d at *
    have := pow_le_pow_left₀ d0 k 2
    have x1 : g / 2 ^ 21 ≤ 1 := by norm_num; linarith
    have e : (g / 2 ^ 21) ^ 2 = g ^ 2 * (1 / 2 ^ 42) := by ring
    rw [← e]
    generalize g / 2 ^ 21 = x at *
    have y1 : (1 : ℝ) / 2 ^ 150 ≤ 1 := by norm_num
    have y0 : (0 : ℝ) < 1 / 2 ^ 150 := by positivity
    have e2 : (1 : ℝ) / 2 ^ 148 = 4 * (1 / 2 ^ 150) := by norm_num
    rw [e2]
    generalize (1 : ℝ) / 2 ^ 150 = y at *
    nlinarith
  have := kk 0; have := kk 1; have := kk 2; have := kk 3
  show (val (quatNormalize q 0) - val (q 0) / √(norm2 (valVec q))) ^ 2 + (val (quatNormalize q 1) - val (q 1) / √(norm2 (valVec q))) ^ 2 +
    (val (quatNormalize q 2) - val (q 2) / √(norm2 (valVec q))) ^ 2 + (val (quatNormalize q 3) - val (q 3) / √(norm2 (valVec q))) ^ 2 ≤ _
  norm_num at *
  linarith

end Ozz.IK
