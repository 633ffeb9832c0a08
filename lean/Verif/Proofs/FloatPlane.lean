import Verif.Proofs.FloatFromVectors

/-! Helpers: the turn about the target direction in single precision, for both inverse kinematics jobs. -/

namespace Ozz.IK

open F32 Ieee Spec Blending Ozz.Trig

theorem mag3_le_three {v : F4 ℝ} {e : ℝ} (h : ∀ i, i ≠ 3 → |v i| ≤ e) : mag3 v ≤ 7 / 4 * e :=
  len_le_three (h 0 (by decide)) (h 1 (by decide)) (h 2 (by decide))

theorem abs_le_mag3 (v : F4 ℝ) (i : Fin 4) (hi : i ≠ 3) : |v i| ≤ mag3 v := by
  revert i
  exact four_ne abs_le_len1 abs_le_len2 abs_le_len3

section
set_option linter.unusedSectionVars false
variable {α : Type} [Add α] [Sub α] [Mul α] [Div α] [Neg α] [NumOps α]

theorem qtv_shape (q v : F4 α) (i : Fin 4) : quatTransformVector q v i =
    v i + vec3Cross q (fun i => q 3 * v i + vec3Cross q v i) i + vec3Cross q (fun i => q 3 * v i + vec3Cross q v i) i := by
  revert i
  apply four_all <;> rfl

end

theorem cross_within {a b : F4 F32} {A B : ℝ} (ha : Within3 a A) (hb : Within3 b B) (h0 : 1 / 2 ^ 100 ≤ A * B) (h1 : A * B ≤ 2 ^ 100) :
    Within3 (vec3Cross a b) (2.01 * (A * B)) := by
  have A0 : 0 ≤ A := (abs_nonneg _).trans (ha 0 (by decide)).2
  have key : ∀ i j : Fin 4, i ≠ 3 → j ≠ 3 → Finite32 (a i * b j - b i * a j).bits ∧ |val (a i * b j - b i * a j)| ≤ 2.01 * (A * B) := by
    intro i j hi hj
    have p1 : |val (a i) * val (b j)| ≤ A * B := by
      rw [abs_mul]; exact mul_le_mul (ha i hi).2 (hb j hj).2 (abs_nonneg _) A0
    have p2 : |val (b i) * val (a j)| ≤ A * B := by
      rw [abs_mul, mul_comm]; exact mul_le_mul (ha j hj).2 (hb i hi).2 (abs_nonneg _) A0
    obtain ⟨f, e⟩ := diff2_ok (ha i hi).1 (hb i hi).1 (hb j hj).1 (ha j hj).1 (S := 2 * (A * B)) (by linarith) (by linarith)
    refine ⟨f, ?_⟩
    rw [abs_le] at p1 p2 e ⊢
    constructor <;> linarith
  refine four_ne ?_ ?_ ?_
  · rw [cross_shape0]; exact key 1 2 (by decide) (by decide)
  · rw [cross_shape1]; exact key 2 0 (by decide) (by decide)
  · rw [cross_shape2]; exact key 0 1 (by decide) (by decide)

theorem qtv_within {q v : F4 F32} {M : ℝ} (hq : ∀ c, Finite32 (q c).bits) (hq1 : ∀ c, |val (q c)| ≤ 1.01) (hv : Within3 v M)
    (h0 : 1 / 2 ^ 60 ≤ M) (h1 : M ≤ 2 ^ 60) : Within3 (quatTransformVector q v) (14 * M) := by
  have Q : Within3 q 1.01 := fun i _ => ⟨hq i, hq1 i⟩
  have c1 := cross_within Q hv (by linarith) (by linarith)
  have w1 : Within3 (fun i => q 3 * v i + vec3Cross q v i) (3.05 * M) := by
    intro i hi
    have p : |val (q 3) * val (v i)| ≤ 1.01 * M := by
      rw [abs_mul]; exact mul_le_mul (hq1 3) (hv i hi).2 (abs_nonneg _) (by norm_num)
    obtain ⟨f1, -, b1⟩ := mul_bound (hq 3) (hv i hi).1 p (by linarith)
    obtain ⟨f2, -, b2⟩ := add_bound f1 (c1 i hi).1 b1 (c1 i hi).2 (by linarith)
    exact ⟨f2, b2.trans (by linarith)⟩
  have c2 := cross_within Q w1 (by linarith) (by linarith)
  intro i hi
  rw [qtv_shape]
  generalize vec3Cross q (fun i => q 3 * v i + vec3Cross q v i) = c at *
  obtain ⟨f1, -, b1⟩ := add_bound (hv i hi).1 (c2 i hi).1 (hv i hi).2 (c2 i hi).2 (by linarith)
  obtain ⟨f2, -, b2⟩ := add_bound f1 (c2 i hi).1 b1 (c2 i hi).2 (by linarith)
  exact ⟨f2, b2.trans (by linarith)⟩

/-- A finite number that is not zero is not too small. -/
theorem val_ge_tiny {x : F32} (h : val x ≠ 0) : 1 / 2 ^ 149 ≤ |val x| := by
  rw [val_mag]
  have : x.mag ≠ 0 := by
    intro h0
    have := val_mag x
    rw [h0] at this
    simp at this
    exact h this
  have : (1 : ℝ) ≤ x.mag := by exact_mod_cast Nat.one_le_iff_ne_zero.mpr this
  gcongr

/-- The squared length of any bounded vector, and what dividing by its root gives. -/
theorem scaled_within {n : F4 F32} {B : ℝ} (hn : Within3 n B) (hB : B ≤ 2 ^ 50) {D : F32} (hD : D = vec3Length2S n 0) :
    Finite32 D.bits ∧ (val D ≠ 0 → Within3 (fun i => n i * (F32.one / F32.sqrt D)) 2) := by
  have B0 : 0 ≤ B := (abs_nonneg _).trans (hn 0 (by decide)).2
  have B2 : B ^ 2 ≤ 2 ^ 100 := by
    have := pow_le_pow_left₀ B0 hB 2
    linarith
  have sq : ∀ i, i ≠ 3 → Finite32 (n i * n i).bits ∧ |val (n i * n i) - val (n i) ^ 2| ≤ val (n i) ^ 2 / 2 ^ 24 + 1 / 2 ^ 150 ∧
      0 ≤ val (n i * n i) := fun i hi => by
    refine square_ok (hn i hi).1 (B := 2 ^ 100) ?_ (by norm_num)
    rw [← sq_abs]
    exact (pow_le_pow_left₀ (abs_nonneg _) (hn i hi).2 2).trans B2
  have s2 : ∀ i, i ≠ 3 → val (n i) ^ 2 ≤ 2 ^ 100 := fun i hi => by
    rw [← sq_abs]
    exact (pow_le_pow_left₀ (abs_nonneg _) (hn i hi).2 2).trans B2
  have hD' : D = n 0 * n 0 + n 1 * n 1 + n 2 * n 2 := hD
  obtain ⟨f0, e0, p0⟩ := sq 0 (by decide)
  obtain ⟨f1, e1, p1⟩ := sq 1 (by decide)
  obtain ⟨f2, e2, p2⟩ := sq 2 (by decide)
  have t0 := s2 0 (by decide)
  have t1 := s2 1 (by decide)
  have t2 := s2 2 (by decide)
  generalize n 0 * n 0 = x0 at *
  generalize n 1 * n 1 = x1 at *
  generalize n 2 * n 2 = x2 at *
  have u0 : val x0 ≤ 2 ^ 101 := by have := (abs_le.mp e0).2; linarith
  have u1 : val x1 ≤ 2 ^ 101 := by have := (abs_le.mp e1).2; linarith
  have u2 : val x2 ≤ 2 ^ 101 := by have := (abs_le.mp e2).2; linarith
  obtain ⟨g1, k1, q1⟩ := sum_ok f0 f1 p0 p1 (by linarith)
  have r0 : val x0 ≤ val (x0 + x1) := rounds_ge (add_roundsTo f0 f1) g1 f0 (show val x0 ≤ val x0 + val x1 by linarith)
  have r1 : val x1 ≤ val (x0 + x1) := rounds_ge (add_roundsTo f0 f1) g1 f1 (show val x1 ≤ val x0 + val x1 by linarith)
  have b1 : val (x0 + x1) ≤ 2 ^ 103 := by have := (abs_le.mp k1).2; linarith
  generalize x0 + x1 = x01 at *
  obtain ⟨g2, k2, q2⟩ := sum_ok g1 f2 q1 p2 (by linarith)
  have r01 : val x01 ≤ val (x01 + x2) := rounds_ge (add_roundsTo g1 f2) g2 g1 (show val x01 ≤ val x01 + val x2 by linarith)
  have r2 : val x2 ≤ val (x01 + x2) := rounds_ge (add_roundsTo g1 f2) g2 f2 (show val x2 ≤ val x01 + val x2 by linarith)
  have b2 : val (x01 + x2) ≤ 2 ^ 104 := by have := (abs_le.mp k2).2; linarith
  rw [← hD'] at g2 r01 r2 q2 b2
  refine ⟨g2, fun hne => ?_⟩
  have tiny := val_ge_tiny hne
  rw [abs_of_nonneg q2] at tiny
  have hpos : 0 < val D := lt_of_lt_of_le (by positivity) tiny
  have hs : 0 < √(val D) := Real.sqrt_pos.mpr hpos
  have hs2 : √(val D) ^ 2 = val D := Real.sq_sqrt hpos.le
  have lo : 1 / 2 ^ 75 ≤ √(val D) := Real.le_sqrt_of_sq_le (le_trans (by norm_num) tiny)
  have hi : √(val D) ≤ 2 ^ 52 := by
    rw [Real.sqrt_le_left (by positivity)]; exact b2.trans (by norm_num)
  obtain ⟨gf, ge, g0⟩ := sqrt_ok g2 q2 (hi.trans (by norm_num))
  have comp : ∀ i, i ≠ 3 → val (n i) ^ 2 ≤ 1.51 * val D := by
    refine four_ne ?_ ?_ ?_
    · have := (abs_le.mp e0).1; linarith
    · have := (abs_le.mp e1).1; linarith
    · have := (abs_le.mp e2).1; linarith
  generalize F32.sqrt D = r at *
  have rlo : 0.999 * √(val D) ≤ val r := by have := (abs_le.mp ge).1; linarith
  have rpos : 0 < val r := by linarith
  have q : 1 / val r ≤ 1.002 / √(val D) := by
    rw [div_le_div_iff₀ rpos hs]; linarith
  have qq : 1.002 / √(val D) ≤ 2 ^ 76 := by
    rw [div_le_iff₀ hs]; linarith
  have q0 : 0 < 1 / val r := by positivity
  obtain ⟨df, de⟩ := div_ok one_finite gf rpos.ne' (by rw [valOne, abs_of_pos q0]; linarith)
  rw [show val F32.one = 1 from one_real, abs_of_pos q0] at de
  have inv : 1 / 2 ^ 52 ≤ 1 / √(val D) := one_div_le_one_div_of_le hs hi
  have ru : |val (F32.one / r)| ≤ 1.003 / √(val D) := by
    have e : 1.003 / √(val D) = 1.003 * (1 / √(val D)) := by ring
    have e' : 1.002 / √(val D) = 1.002 * (1 / √(val D)) := by ring
    rw [e]
    rw [e'] at q
    rw [abs_le] at de ⊢
    constructor <;> linarith
  generalize F32.one / r = y at *
  intro i hi
  have hc := comp i hi
  have p : |val (n i) * val y| ≤ 1.3 := by
    rw [abs_mul]
    have h1 : |val (n i)| ≤ 1.23 * √(val D) := by
      refine abs_le_of_sq_le_sq ?_ (by positivity)
      rw [mul_pow, hs2]
      linarith
    refine (mul_le_mul h1 ru (abs_nonneg _) (by positivity)).trans ?_
    rw [show 1.23 * √(val D) * (1.003 / √(val D)) = 1.23 * 1.003 * (√(val D) / √(val D)) by ring, div_self hs.ne']
    norm_num
  obtain ⟨mf, -, mb⟩ := mul_bound (hn i hi).1 df p (by norm_num)
  exact ⟨mf, mb.trans (by norm_num)⟩

theorem dotS_within {a b : F4 F32} {A B : ℝ} (ha : Within3 a A) (hb : Within3 b B) (h1 : A * B ≤ 2 ^ 100) :
    Finite32 (vec3DotS a b 0).bits := by
  have A0 : 0 ≤ A := (abs_nonneg _).trans (ha 0 (by decide)).2
  have p : ∀ i, i ≠ 3 → |val (a i) * val (b i)| ≤ A * B := fun i hi => by
    rw [abs_mul]; exact mul_le_mul (ha i hi).2 (hb i hi).2 (abs_nonneg _) A0
  have := p 0 (by decide)
  have := p 1 (by decide)
  have := p 2 (by decide)
  rw [dotS_shape]
  exact (dot3_ok (ha 0 (by decide)).1 (ha 1 (by decide)).1 (ha 2 (by decide)).1 (hb 0 (by decide)).1 (hb 1 (by decide)).1
    (hb 2 (by decide)).1 (S := 3 * (A * B)) (by linarith) (by linarith)).1

theorem clamp_ok {c : F4 F32} (hc : Finite32 (c 0).bits) :
    Finite32 (clamp4 c negOne4 one4 0).bits ∧ |val (clamp4 c negOne4 one4 0)| ≤ 1 := by
  have fn : Finite32 (-F32.one : F32).bits := neg_finite.mpr one_finite
  have vn : val (-F32.one : F32) = -1 := (neg_real F32.one).trans (by rw [one_real])
  have v1 : val F32.one = 1 := one_real
  have l1 := lt_val32 hc fn
  have key : Finite32 (if NumOps.lt (c 0) (-F32.one : F32) then (-F32.one : F32) else c 0).bits ∧
      -1 ≤ val (if NumOps.lt (c 0) (-F32.one : F32) then (-F32.one : F32) else c 0) := by
    split
    · exact ⟨fn, by rw [vn]⟩
    · next h =>
      refine ⟨hc, ?_⟩
      rw [← vn]
      exact not_lt.mp fun h' => h (l1.mpr h')
  show Finite32 (if NumOps.lt F32.one (if NumOps.lt (c 0) (-F32.one : F32) then (-F32.one : F32) else c 0) then F32.one else
      (if NumOps.lt (c 0) (-F32.one : F32) then (-F32.one : F32) else c 0) : F32).bits ∧
    |val (if NumOps.lt F32.one (if NumOps.lt (c 0) (-F32.one : F32) then (-F32.one : F32) else c 0) then F32.one else
      (if NumOps.lt (c 0) (-F32.one : F32) then (-F32.one : F32) else c 0) : F32)| ≤ 1
  generalize (if NumOps.lt (c 0) (-F32.one : F32) then (-F32.one : F32) else c 0 : F32) = x at *
  have l2 := lt_val32 one_finite key.1
  split
  · exact ⟨one_finite, by rw [v1]; norm_num⟩
  · next h =>
    refine ⟨key.1, abs_le.mpr ⟨key.2, ?_⟩⟩
    rw [← v1]
    exact not_lt.mp fun h' => h (l2.mpr h')

/-! ### Turns about a direction -/

/-- A unit quaternion that leaves the direction `V` alone. -/
def Axial (U : Quaternion ℝ) (V : F4 ℝ) : Prop := ‖U‖ = 1 ∧ U * pureQuat V = pureQuat V * U

theorem Axial.one (V : F4 ℝ) : Axial 1 V := ⟨norm_one, by rw [one_mul, mul_one]⟩

theorem Axial.mul {U W : Quaternion ℝ} {V : F4 ℝ} (hU : Axial U V) (hW : Axial W V) : Axial (U * W) V := by
  refine ⟨by rw [norm_mul, hU.1, hW.1, one_mul], ?_⟩
  rw [mul_assoc, hW.2, ← mul_assoc, hU.2, mul_assoc]

/-- Quaternions whose vector part lies along the direction. -/
theorem axial_of {q V : F4 ℝ} {s : ℝ} (h : ∀ i, i ≠ 3 → q i = s * V i) : toQuat q * pureQuat V = pureQuat V * toQuat q := by
  have h0 := h 0 (by decide)
  have h1 := h 1 (by decide)
  have h2 := h 2 (by decide)
  ext <;> simp [h0, h1, h2] <;> ring

theorem norm_sub_unit {G : Quaternion ℝ} (h : G ≠ 0) : ‖G - (‖G‖⁻¹) • G‖ = |‖G‖ - 1| := by
  have hp : 0 < ‖G‖ := norm_pos_iff.mpr h
  have : G - (‖G‖⁻¹) • G = ((‖G‖ - 1) * ‖G‖⁻¹) • G := by
    rw [sub_mul, mul_inv_cancel₀ hp.ne', one_mul, sub_smul, one_smul]
  rw [this, norm_smul, Real.norm_eq_abs, abs_mul, abs_of_pos (inv_pos.mpr hp), mul_assoc, inv_mul_cancel₀ hp.ne', mul_one]

/-- The length of a quaternion whose square is near one. -/
theorem norm_near_one {q : F4 ℝ} {c : ℝ} (hc : c ≤ 1 / 100) (h : |norm2 q - 1| ≤ 2 * c) : |‖toQuat q‖ - 1| ≤ 1.02 * c := by
  have e : ‖toQuat q‖ ^ 2 = norm2 q := by
    rw [norm_toQuat, Real.sq_sqrt]
    unfold norm2; positivity
  have := root_near (r := ‖toQuat q‖) (n := 1) (norm_nonneg _) one_pos hc (by rw [e, one_pow, mul_one]; exact h)
  linarith

theorem mag3_sub_le (a b : F4 ℝ) : mag3 a ≤ mag3 b + mag3 (a - b) := by
  have := len_add (a := b 0) (b := b 1) (c := b 2) (x := a 0 - b 0) (y := a 1 - b 1) (z := a 2 - b 2)
  rw [add_sub_cancel, add_sub_cancel, add_sub_cancel] at this
  exact this

/-- The unit vector along the target. -/
theorem axis_ok {V : F4 F32} (hV : Fin3 V) (v0 : 1 / 2 ^ 30 ≤ mag3 (valVec V)) (v1 : mag3 (valVec V) ≤ 2 ^ 30) {D : F32}
    (hD : Finite32 D.bits) (hDe : |val D - mag3 (valVec V) ^ 2| ≤ mag3 (valVec V) ^ 2 * (42 / 10 / 2 ^ 24)) {axis : F4 F32}
    (ha : ∀ i, i ≠ 3 → axis i = V i * (F32.one / F32.sqrt D)) :
    Fin3 axis ∧ (∀ i, i ≠ 3 → |val (axis i) - val (V i) / mag3 (valVec V)| ≤ 7.7 / 2 ^ 24) ∧
      |val (axis 0) ^ 2 + val (axis 1) ^ 2 + val (axis 2) ^ 2 - 1| ≤ 1 / 2 ^ 19 := by
  have hm : 0 < mag3 (valVec V) := lt_of_lt_of_le (by positivity) v0
  have s := mag3_sq (valVec V)
  have S0 : 1 / 2 ^ 100 ≤ mag3 (valVec V) ^ 2 := le_trans (by norm_num) (pow_le_pow_left₀ (by positivity) v0 2)
  have S1 : mag3 (valVec V) ^ 2 ≤ 2 ^ 100 := (pow_le_pow_left₀ hm.le v1 2).trans (by norm_num)
  obtain ⟨rf, re⟩ := recip_sqrt_ok hD S0 S1 hDe
  rw [Real.sqrt_sq hm.le] at re
  generalize F32.one / F32.sqrt D = y at *
  have key : ∀ i, i ≠ 3 → Finite32 (V i * y).bits ∧
      |val (V i * y) - val (V i) / mag3 (valVec V)| ≤ 7.6 / 2 ^ 24 * |val (V i) / mag3 (valVec V)| + 1 / 2 ^ 150 := by
    intro i hi
    have hVi : |val (V i)| ≤ mag3 (valVec V) := abs_le_mag3 (valVec V) i hi
    have h1 : |val (V i) * val y - val (V i) / mag3 (valVec V)| ≤ 6.5 / 2 ^ 24 * |val (V i) / mag3 (valVec V)| := by
      rw [show val (V i) * val y - val (V i) / mag3 (valVec V) = val (V i) * (val y - 1 / mag3 (valVec V)) by ring, abs_mul, abs_div,
        abs_of_pos hm]
      refine (mul_le_mul_of_nonneg_left re (abs_nonneg _)).trans (le_of_eq ?_)
      ring
    have h2 : |val (V i) / mag3 (valVec V)| ≤ 1 := by
      rw [abs_div, abs_of_pos hm, div_le_one hm]; exact hVi
    have h3 : |val (V i) * val y| ≤ (1 + 6.5 / 2 ^ 24) * |val (V i) / mag3 (valVec V)| := by
      have := abs_add_le (val (V i) * val y - val (V i) / mag3 (valVec V)) (val (V i) / mag3 (valVec V))
      rw [sub_add_cancel] at this
      linarith
    obtain ⟨mf, me⟩ := mul_ok (hV i hi) rf (h3.trans (by linarith))
    refine ⟨mf, ?_⟩
    generalize val (V i * y) = a at *
    generalize val (V i) * val y = b at *
    generalize val (V i) / mag3 (valVec V) = c at *
    have := abs_sub_le a b c
    linarith [abs_nonneg c]
  have h1 : (val (V 0) / mag3 (valVec V)) ^ 2 + (val (V 1) / mag3 (valVec V)) ^ 2 + (val (V 2) / mag3 (valVec V)) ^ 2 = 1 := by
    rw [div_pow, div_pow, div_pow, ← add_div, ← add_div, s, show val (V 0) ^ 2 + val (V 1) ^ 2 + val (V 2) ^ 2 =
      dot3 (valVec V) (valVec V) by unfold dot3 valVec; ring]
    exact div_self (by rw [← s]; positivity)
  refine ⟨fun i hi => by rw [ha i hi]; exact (key i hi).1, fun i hi => ?_, ?_⟩
  · rw [ha i hi]
    refine (key i hi).2.trans ?_
    have h2 : |val (V i) / mag3 (valVec V)| ≤ 1 := by
      rw [abs_div, abs_of_pos hm, div_le_one hm]; exact abs_le_mag3 (valVec V) i hi
    linarith
  · have k : ∀ i, i ≠ 3 → |val (axis i) ^ 2 - (val (V i) / mag3 (valVec V)) ^ 2| ≤
        16 / 2 ^ 24 * (val (V i) / mag3 (valVec V)) ^ 2 + 1 / 2 ^ 140 := by
      intro i hi
      have h2 : |val (V i) / mag3 (valVec V)| ≤ 1 := by
        rw [abs_div, abs_of_pos hm, div_le_one hm]; exact abs_le_mag3 (valVec V) i hi
      have kk := (key i hi).2
      rw [ha i hi, ← sq_abs (_ / _)]
      generalize val (V i * y) = a at *
      generalize val (V i) / mag3 (valVec V) = c at *
      rw [show a ^ 2 - |c| ^ 2 = (a - c) * (a + c) by rw [sq_abs]; ring, abs_mul]
      have h3 : |a + c| ≤ 2.01 * |c| + 1 / 2 ^ 149 := by
        rw [show a + c = (a - c) + 2 * c by ring]
        refine (abs_add_le _ _).trans ?_
        rw [abs_mul, abs_two]
        linarith [abs_nonneg c]
      refine (mul_le_mul kk h3 (abs_nonneg _) (by positivity)).trans ?_
      nlinarith [abs_nonneg c]
    have k0 := k 0 (by decide)
    have k1 := k 1 (by decide)
    have k2 := k 2 (by decide)
    rw [abs_le] at *
    constructor <;> linarith

/-- The rotation by an angle with a given cosine, about the axis either way. -/
theorem cosAngle_ok {V : F4 F32} (v0 : 0 < mag3 (valVec V)) {axis axis' cos : F4 F32} (ha : Fin3 axis)
    (hd : ∀ i, i ≠ 3 → |val (axis i) - val (V i) / mag3 (valVec V)| ≤ 7.7 / 2 ^ 24)
    (hn : |val (axis 0) ^ 2 + val (axis 1) ^ 2 + val (axis 2) ^ 2 - 1| ≤ 1 / 2 ^ 19) {b : Bool}
    (hb : ∀ i, i ≠ 3 → axis' i = flip b (axis i)) (hc : Finite32 (cos 0).bits) (hc1 : |val (cos 0)| ≤ 1) :
    (∀ c, Finite32 (quatFromCosAngle axis' cos c).bits) ∧ norm2 (valVec (quatFromCosAngle axis' cos)) ≤ 102 / 100 ∧
    ∃ U, Axial U (valVec V) ∧ ‖toQuat (valVec (quatFromCosAngle axis' cos)) - U‖ ≤ 60 / 2 ^ 24 := by
  have σ : ∃ σ : ℝ, |σ| = 1 ∧ ∀ i, i ≠ 3 → Finite32 (axis' i).bits ∧ val (axis' i) = σ * val (axis i) := by
    cases b
    · exact ⟨1, abs_one, fun i hi => by rw [hb i hi, one_mul]; exact ⟨ha i hi, rfl⟩⟩
    · refine ⟨-1, by norm_num, fun i hi => ?_⟩
      obtain ⟨f, e⟩ := flip_ok true (ha i hi)
      rw [hb i hi]
      exact ⟨f, by rw [e]; simp⟩
  obtain ⟨σ, hσ, hs⟩ := σ
  have σ2 : σ ^ 2 = 1 := by rw [← sq_abs, hσ, one_pow]
  have hn' : |val (axis' 0) ^ 2 + val (axis' 1) ^ 2 + val (axis' 2) ^ 2 - 1| ≤ 1 / 2 ^ 19 := by
    rw [(hs 0 (by decide)).2, (hs 1 (by decide)).2, (hs 2 (by decide)).2, mul_pow, mul_pow, mul_pow, σ2, one_mul, one_mul, one_mul]
    exact hn
  obtain ⟨qf, -, -, ⟨S, S0, hS⟩, hq⟩ := fromCosAngle_near (fun i hi => (hs i hi).1) (by norm_num) hn' hc hc1
  generalize quatFromCosAngle axis' cos = q at *
  have hq' : |norm2 (valVec q) - 1| ≤ 2 * (23.2 / 2 ^ 24) := by
    refine (show |norm2 (valVec q) - 1| ≤ 1.01 * (1 / 2 ^ 19) + 14 / 2 ^ 24 from hq).trans (by norm_num)
  have nq := norm_near_one (by norm_num) hq'
  have n2 : norm2 (valVec q) ≤ 102 / 100 := by have := (abs_le.mp hq').2; linarith
  refine ⟨qf, n2, ?_⟩
  -- the factor of the axis
  have mq : mag3 (valVec q) ≤ 1.001 := by
    refine abs_le_of_sq_le_sq' ?_ (by norm_num) |>.2
    have e : mag3 (valVec q) ^ 2 ≤ norm2 (valVec q) := by
      rw [mag3_sq]; unfold dot3 norm2
      nlinarith [sq_nonneg (valVec q 3)]
    have := (abs_le.mp hq').2
    linarith
  have ms : mag3 (fun i => val (axis' i) * S) = S * √(val (axis' 0) ^ 2 + val (axis' 1) ^ 2 + val (axis' 2) ^ 2) := by
    rw [mag3_eq]
    unfold dot3
    rw [show val (axis' 0) * S * (val (axis' 0) * S) + val (axis' 1) * S * (val (axis' 1) * S) + val (axis' 2) * S * (val (axis' 2) * S) =
      S ^ 2 * (val (axis' 0) ^ 2 + val (axis' 1) ^ 2 + val (axis' 2) ^ 2) by ring, Real.sqrt_mul (sq_nonneg S), Real.sqrt_sq S0]
  have S1 : S ≤ 1.01 := by
    have h1 := mag3_sub_le (fun i => val (axis' i) * S) (valVec q)
    have h2 : mag3 ((fun i => val (axis' i) * S) - valVec q) ≤ 7 / 4 * (2 / 2 ^ 24) :=
      mag3_le_three fun i hi => by
        show |val (axis' i) * S - val (q i)| ≤ _
        rw [abs_sub_comm]; exact hS i hi
    have h3 : 0.999 ≤ √(val (axis' 0) ^ 2 + val (axis' 1) ^ 2 + val (axis' 2) ^ 2) := by
      apply Real.le_sqrt_of_sq_le
      have := (abs_le.mp hn').1
      linarith
    rw [ms] at h1
    have := mul_le_mul_of_nonneg_left h3 S0
    linarith
  -- the exact rotation, up to its length
  set G : F4 ℝ := fun i => if i = 3 then val (q 3) else σ * S / mag3 (valVec V) * val (V i) with hG
  have hd' : ‖toQuat (valVec q) - toQuat G‖ ≤ 17.2 / 2 ^ 24 := by
    rw [← toQuat_sub]
    refine norm_toQuat_four (e := 9.8 / 2 ^ 24) (w := 0) ?_ ?_ (by positivity) (by norm_num)
    · intro i hi
      show |val (q i) - G i| ≤ _
      simp only [hG, if_neg hi]
      have h1 := hS i hi
      have h2 := hd i hi
      rw [(hs i hi).2] at h1
      have h3 : |σ * val (axis i) * S - σ * S / mag3 (valVec V) * val (V i)| ≤ 7.777 / 2 ^ 24 := by
        rw [show σ * val (axis i) * S - σ * S / mag3 (valVec V) * val (V i) = σ * (S * (val (axis i) - val (V i) / mag3 (valVec V))) by ring,
          abs_mul, hσ, one_mul, abs_mul, abs_of_nonneg S0]
        exact (mul_le_mul S1 h2 (abs_nonneg _) (by norm_num)).trans (by norm_num)
      have := abs_sub_le (val (q i)) (σ * val (axis i) * S) (σ * S / mag3 (valVec V) * val (V i))
      linarith
    · show |val (q 3) - G 3| ≤ 0
      simp [hG]
  have hG1 : |‖toQuat G‖ - 1| ≤ 41 / 2 ^ 24 := by
    have := abs_norm_sub_norm_le (toQuat (valVec q)) (toQuat G)
    rw [abs_le] at *
    constructor <;> linarith
  have hG0 : toQuat G ≠ 0 := by
    intro h
    rw [h, norm_zero] at hG1
    norm_num at hG1
  refine ⟨(‖toQuat G‖⁻¹) • toQuat G, ⟨norm_unit hG0, ?_⟩, ?_⟩
  · rw [smul_mul_assoc, mul_smul_comm, axial_of (V := valVec V) (s := σ * S / mag3 (valVec V)) fun i hi => by simp [hG, hi, valVec]]
  · have h1 := norm_sub_unit hG0
    have h2 := norm_sub_le_norm_sub_add_norm_sub (toQuat (valVec q)) (toQuat G) ((‖toQuat G‖⁻¹) • toQuat G)
    rw [h1] at h2
    linarith

/-- The twist about the axis. -/
theorem twist_ok {V : F4 F32} (v0 : 0 < mag3 (valVec V)) {axis angle : F4 F32} (ha : Fin3 axis)
    (hd : ∀ i, i ≠ 3 → |val (axis i) - val (V i) / mag3 (valVec V)| ≤ 7.7 / 2 ^ 24)
    (hn : |val (axis 0) ^ 2 + val (axis 1) ^ 2 + val (axis 2) ^ 2 - 1| ≤ 1 / 2 ^ 19)
    (hf : Finite32 (angle 0).bits) (hA : |val (angle 0)| ≤ 4095) :
    (∀ c, Finite32 (quatFromAxisAngle (polyTrig (α := F32)).sinCos axis angle c).bits) ∧
    norm2 (valVec (quatFromAxisAngle (polyTrig (α := F32)).sinCos axis angle)) ≤ 102 / 100 ∧
    ∃ U, Axial U (valVec V) ∧ ‖toQuat (valVec (quatFromAxisAngle (polyTrig (α := F32)).sinCos axis angle)) - U‖ ≤ 29 / 2 ^ 24 := by
  obtain ⟨h1, h3⟩ := fromAxisAngle_near ha (by norm_num) hn hf hA
  have hu := fromAxisAngle_unit ha (by norm_num) hn hf hA
  generalize quatFromAxisAngle (polyTrig (α := F32)).sinCos axis angle = q at *
  generalize val (angle 0) / 2 = θ at *
  refine ⟨fun c => ?_, ?_, ?_⟩
  · by_cases hc : c = 3
    · rw [hc]; exact h3.1
    · exact (h1 c hc).1
  · have := (abs_le.mp (show |norm2 (valVec q) - 1| ≤ _ from hu)).2
    linarith
  set G : F4 ℝ := fun i => if i = 3 then Real.cos θ else Real.sin θ / mag3 (valVec V) * val (V i) with hG
  have hd' : ‖toQuat (valVec q) - toQuat G‖ ≤ 29 / 2 ^ 24 := by
    rw [← toQuat_sub]
    refine norm_toQuat_four (e := 15.7 / 2 ^ 24) (w := 8 / 2 ^ 24) ?_ ?_ (by positivity) (by norm_num)
    · intro i hi
      show |val (q i) - G i| ≤ _
      simp only [hG, if_neg hi]
      have e1 := (h1 i hi).2
      have e2 := hd i hi
      have e3 : |val (axis i) * Real.sin θ - Real.sin θ / mag3 (valVec V) * val (V i)| ≤ 7.7 / 2 ^ 24 := by
        rw [show val (axis i) * Real.sin θ - Real.sin θ / mag3 (valVec V) * val (V i) =
          Real.sin θ * (val (axis i) - val (V i) / mag3 (valVec V)) by ring, abs_mul]
        exact (mul_le_mul (Real.abs_sin_le_one θ) e2 (abs_nonneg _) (by norm_num)).trans (by norm_num)
      have := abs_sub_le (val (q i)) (val (axis i) * Real.sin θ) (Real.sin θ / mag3 (valVec V) * val (V i))
      linarith
    · show |val (q 3) - G 3| ≤ _
      simp only [hG, if_true]
      exact h3.2
  have n1 : norm2 G = 1 := by
    unfold norm2
    simp only [hG, if_true]
    have hs := mag3_sq (valVec V)
    have : dot3 (valVec V) (valVec V) = val (V 0) ^ 2 + val (V 1) ^ 2 + val (V 2) ^ 2 := by unfold dot3 valVec; ring
    have e : (Real.sin θ / mag3 (valVec V) * val (V 0)) ^ 2 + (Real.sin θ / mag3 (valVec V) * val (V 1)) ^ 2 +
        (Real.sin θ / mag3 (valVec V) * val (V 2)) ^ 2 = Real.sin θ ^ 2 := by
      rw [mul_pow, mul_pow, mul_pow, ← mul_add, ← mul_add, ← this, ← hs, div_pow, div_mul_cancel₀]
      positivity
    have := Real.sin_sq_add_cos_sq θ
    rw [if_neg (by decide), if_neg (by decide), if_neg (by decide)]
    linarith
  refine ⟨toQuat G, ⟨by rw [norm_toQuat, n1, Real.sqrt_one], axial_of (s := Real.sin θ / mag3 (valVec V)) fun i hi => by simp [hG, hi, valVec]⟩, hd'⟩

/-- A product of two near-unit quaternions with what is near them. -/
theorem mul_near {a b : F4 F32} {A B : Quaternion ℝ} {α β : ℝ} (ha : ∀ c, Finite32 (a c).bits) (hb : ∀ c, Finite32 (b c).bits)
    (na : norm2 (valVec a) ≤ 102 / 100) (nb : norm2 (valVec b) ≤ 102 / 100) (hA : ‖A‖ = 1) (hB : ‖B‖ ≤ 1 + 1 / 2 ^ 19)
    (hα : ‖toQuat (valVec a) - A‖ ≤ α) (hβ : ‖toQuat (valVec b) - B‖ ≤ β) (β1 : β ≤ 1 / 2 ^ 16) :
    (∀ c, Finite32 (quatMul a b c).bits) ∧ ‖toQuat (valVec (quatMul a b)) - A * B‖ ≤ 1.001 * α + β + 7 / 2 ^ 24 := by
  obtain ⟨f, e⟩ := mul4_ok ha hb na nb
  refine ⟨f, ?_⟩
  have α0 := (norm_nonneg _).trans hα
  have h1 : ‖toQuat (valVec a) * toQuat (valVec b) - A * B‖ ≤ 1.001 * α + β := by
    rw [show toQuat (valVec a) * toQuat (valVec b) - A * B = (toQuat (valVec a) - A) * toQuat (valVec b) + A * (toQuat (valVec b) - B) by
      rw [sub_mul, mul_sub]; abel]
    refine (norm_add_le _ _).trans ?_
    rw [norm_mul, norm_mul, hA, one_mul]
    have h2 : ‖toQuat (valVec b)‖ ≤ 1.001 := by
      have := norm_sub_norm_le (toQuat (valVec b)) B
      linarith
    have := mul_le_mul hα h2 (norm_nonneg _) α0
    linarith
  have := norm_sub_le_norm_sub_add_norm_sub (toQuat (valVec (quatMul a b))) (toQuat (valVec a) * toQuat (valVec b)) (A * B)
  linarith

end Ozz.IK
