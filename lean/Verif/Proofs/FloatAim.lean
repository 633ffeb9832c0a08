import Verif.Proofs.FloatPlane

/-! Helpers: the aim job in single precision. -/

namespace Ozz.IK

open F32 Ieee Spec Blending Ozz.Trig

section
set_option linter.unusedSectionVars false
variable {α : Type} [Add α] [Sub α] [Mul α] [Div α] [Neg α] [NumOps α]

theorem offsetted_shape (f o v : F4 α) : offsettedForward f o v =
    if NumOps.lt (vec3Length2S v 0) (vec3Length2S o 0 - vec3DotS f o 0 * vec3DotS f o 0) then none
    else some (fun i => o i + f i *
      (NumOps.sqrt (vec3Length2S v 0 - (vec3Length2S o 0 - vec3DotS f o 0 * vec3DotS f o 0)) - vec3DotS f o 0)) := by
  unfold offsettedForward
  simp only [Pi.sub_apply, Pi.mul_apply]
  split
  · rfl
  · congr 1
    apply ext4 <;> rfl

end

set_option maxHeartbeats 2000000 in
/-- The point on the line of the forward axis: at the distance of the target, up to rounding. -/
theorem offsetted_ok {f o v : F4 F32} (hf : Fin3 f) (ho : Fin3 o) (hv : Fin3 v)
    (f1 : |dot3 (valVec f) (valVec f) - 1| ≤ 1 / 2 ^ 20) (r0 : 1 / 2 ^ 20 ≤ mag3 (valVec v)) (r1 : mag3 (valVec v) ≤ 2 ^ 24)
    (o1 : mag3 (valVec o) ≤ 4 * mag3 (valVec v)) :
    (offsettedForward f o v = none ∧
      mag3 (valVec v) ^ 2 ≤ dot3 (valVec o) (valVec o) - dot3 (valVec f) (valVec o) ^ 2 + 200 / 2 ^ 24 * mag3 (valVec v) ^ 2) ∨
    ∃ fwd, offsettedForward f o v = some fwd ∧ Fin3 fwd ∧
      dot3 (valVec o) (valVec o) - dot3 (valVec f) (valVec o) ^ 2 ≤ mag3 (valVec v) ^ 2 + 200 / 2 ^ 24 * mag3 (valVec v) ^ 2 ∧
      ∃ s : ℝ, |mag3 (valVec o + s • valVec f) - mag3 (valVec v)| ≤ 330 / 2 ^ 24 * mag3 (valVec v) ∧
        mag3 (valVec fwd - (valVec o + s • valVec f)) ≤ 26 / 2 ^ 24 * mag3 (valVec v) := by
  have hR : 0 < mag3 (valVec v) := lt_of_lt_of_le (by positivity) r0
  have sv := mag3_sq (valVec v)
  have so := mag3_sq (valVec o)
  have o0 := mag3_nonneg (valVec o)
  have sf := mag3_sq (valVec f)
  have hfm : mag3 (valVec f) ≤ 1 + 1 / 2 ^ 20 := by
    refine abs_le_of_sq_le_sq' ?_ (by positivity) |>.2
    rw [sf]
    have := (abs_le.mp f1).2
    linarith
  have R2 : (0 : ℝ) < mag3 (valVec v) ^ 2 := by positivity
  have R2l : 1 / 2 ^ 40 ≤ mag3 (valVec v) ^ 2 := by
    have := pow_le_pow_left₀ (by positivity) r0 2
    linarith
  have R2u : mag3 (valVec v) ^ 2 ≤ 2 ^ 48 := by
    have := pow_le_pow_left₀ hR.le r1 2
    linarith
  have o2 : mag3 (valVec o) ^ 2 ≤ 16 * mag3 (valVec v) ^ 2 := by
    have := pow_le_pow_left₀ o0 o1 2
    rw [mul_pow] at this; norm_num at this; exact this
  -- dot products
  have hfo : mag3 (valVec f) * mag3 (valVec o) ≤ 4.001 * mag3 (valVec v) := by
    have := mul_le_mul hfm o1 o0 (by positivity)
    linarith
  have hdo : |dot3 (valVec f) (valVec o)| ≤ mag3 (valVec f) * mag3 (valVec o) := dot_le_len
  obtain ⟨fao, eao⟩ := dotS_ok hf ho hfo (by linarith) (by linarith)
  obtain ⟨fo2, eo2⟩ := dotS_ok ho ho (S := 16 * mag3 (valVec v) ^ 2) (by rw [← pow_two]; exact o2) (by linarith)
    (by linarith)
  obtain ⟨fr2, er2⟩ := len2_ok hv (by rw [← sv]; linarith) (by rw [← sv]; linarith)
  rw [← sv] at er2
  rw [← so] at eo2
  obtain ⟨ao, hao⟩ : ∃ x, x = vec3DotS f o 0 := ⟨_, rfl⟩
  obtain ⟨oo, hoo⟩ : ∃ x, x = vec3Length2S o 0 := ⟨_, rfl⟩
  obtain ⟨rr, hrr⟩ : ∃ x, x = vec3Length2S v 0 := ⟨_, rfl⟩
  have hoo' : oo = vec3DotS o o 0 := hoo
  rw [offsetted_shape, ← hao, ← hoo, ← hrr]
  rw [← hao] at fao eao
  rw [← hoo'] at fo2 eo2
  rw [← hrr] at fr2 er2
  rw [← so]
  have hd : |dot3 (valVec f) (valVec o)| ≤ 4.001 * mag3 (valVec v) := hdo.trans hfo
  generalize hdd : dot3 (valVec f) (valVec o) = d at *
  have hcs : d ^ 2 ≤ (1 + 1 / 2 ^ 20) * mag3 (valVec o) ^ 2 := by
    have h1 := pow_le_pow_left₀ (abs_nonneg d) hdo 2
    rw [sq_abs, mul_pow] at h1
    refine h1.trans (mul_le_mul_of_nonneg_right ?_ (sq_nonneg _))
    rw [sf]; linarith [(abs_le.mp f1).2]
  generalize hRR : mag3 (valVec v) = R at *
  generalize hOO : mag3 (valVec o) = O at *
  -- the square of the dot product
  have aob : |val ao| ≤ 4.002 * R := by
    rw [abs_le] at eao hd ⊢
    constructor <;> linarith
  have ad : |val ao ^ 2 - d ^ 2| ≤ 98 / 2 ^ 24 * R ^ 2 := by
    rw [show val ao ^ 2 - d ^ 2 = (val ao - d) * (val ao + d) by ring, abs_mul]
    have h1 : |val ao + d| ≤ 8.01 * R := (abs_add_le _ _).trans (by linarith)
    have h2 : |val ao - d| ≤ 12.09 / 2 ^ 24 * R := eao.trans (by linarith)
    refine (mul_le_mul h2 h1 (abs_nonneg _) (by positivity)).trans ?_
    rw [show 12.09 / 2 ^ 24 * R * (8.01 * R) = 12.09 * 8.01 / 2 ^ 24 * R ^ 2 by ring]
    exact mul_le_mul_of_nonneg_right (by norm_num) R2.le
  have ao2b : val ao ^ 2 ≤ 16.02 * R ^ 2 := by
    have := pow_le_pow_left₀ (abs_nonneg _) aob 2
    rw [sq_abs] at this
    refine this.trans ?_
    rw [mul_pow]
    exact mul_le_mul_of_nonneg_right (by norm_num) R2.le
  obtain ⟨fsq, esq, sq0⟩ := square_ok fao ao2b (by linarith)
  obtain ⟨a2, ha2⟩ : ∃ x, x = ao * ao := ⟨_, rfl⟩
  rw [← ha2] at fsq esq sq0 ⊢
  have esq' : |val a2 - d ^ 2| ≤ 115 / 2 ^ 24 * R ^ 2 := by
    rw [abs_le] at esq ad ⊢
    constructor <;> linarith
  -- the squared distance of the line
  have hst : |(O ^ 2 - d ^ 2)| ≤ 16.01 * R ^ 2 := by
    rw [abs_le]
    have hd2 := sq_nonneg d
    have hO2 := sq_nonneg O
    constructor <;> linarith
  have hac : |val oo - val a2 - (O ^ 2 - d ^ 2)| ≤ 164 / 2 ^ 24 * R ^ 2 := by
    rw [abs_le] at eo2 esq' ⊢
    constructor <;> linarith
  have hacb : |val oo - val a2| ≤ 16.02 * R ^ 2 := by
    rw [abs_le] at hst hac ⊢
    constructor <;> linarith
  obtain ⟨fac, eac⟩ := sub_ok fo2 fsq (by linarith)
  obtain ⟨ac, hac'⟩ : ∃ x, x = oo - a2 := ⟨_, rfl⟩
  rw [← hac'] at fac eac ⊢
  have eac' : |val ac - (O ^ 2 - d ^ 2)| ≤ 181 / 2 ^ 24 * R ^ 2 := by
    rw [abs_le] at hac eac hacb ⊢
    have := hacb.1
    have hh : |val oo - val a2| ≤ 16.02 * R ^ 2 := abs_le.mpr hacb
    constructor <;> linarith
  have hlt := lt_val32 fr2 fac
  by_cases h : NumOps.lt rr ac = true
  · left
    rw [if_pos h]
    refine ⟨rfl, ?_⟩
    have := hlt.mp h
    rw [abs_le] at eac' er2
    linarith
  right
  rw [if_neg h]
  have hge : val ac ≤ val rr := by
    by_contra hh
    exact h (hlt.mpr (not_le.mp hh))
  refine ⟨_, rfl, ?_⟩
  have hlow : -(1 / 2 ^ 15) * R ^ 2 ≤ O ^ 2 - d ^ 2 := by linarith [sq_nonneg O]
  -- the root
  have hxb : |val rr - val ac| ≤ 1.01 * R ^ 2 := by
    rw [abs_le] at eac' er2 ⊢
    constructor <;> linarith
  obtain ⟨fx, ex⟩ := sub_ok fr2 fac (by linarith)
  have x0 : 0 ≤ val (rr - ac) := by
    have := rounds_ge (sub_roundsTo fr2 fac) fx zero_finite (by rw [zero_real]; exact sub_nonneg.mpr hge)
    rwa [zero_real] at this
  obtain ⟨x, hx⟩ : ∃ x, x = rr - ac := ⟨_, rfl⟩
  rw [← hx] at fx ex x0 ⊢
  have ex' : |val x - (R ^ 2 - (O ^ 2 - d ^ 2))| ≤ 186 / 2 ^ 24 * R ^ 2 := by
    rw [abs_le] at eac' er2 ex ⊢
    constructor <;> linarith
  have xb : val x ≤ 1.001 * R ^ 2 := by
    rw [abs_le] at ex'
    linarith
  have q2 := Real.sq_sqrt x0
  have q0 := Real.sqrt_nonneg (val x)
  have qb : √(val x) ≤ 1.001 * R := by
    refine abs_le_of_sq_le_sq' ?_ (by positivity) |>.2
    rw [q2, mul_pow]
    refine xb.trans (mul_le_mul_of_nonneg_right (by norm_num) R2.le)
  obtain ⟨fi, ei, i0⟩ := sqrt_ok fx x0 (by linarith)
  obtain ⟨ai, hai⟩ : ∃ y : F32, y = NumOps.sqrt x := ⟨_, rfl⟩
  have hai' : ai = F32.sqrt x := hai
  rw [← hai'] at fi ei i0
  rw [← hai]
  have ei' : |val ai - √(val x)| ≤ 1.01 / 2 ^ 24 * R := ei.trans (by linarith)
  have aib : val ai ≤ 1.002 * R := by
    rw [abs_le] at ei'
    linarith
  have ai2 : |val ai ^ 2 - val x| ≤ 2.03 / 2 ^ 24 * R ^ 2 := by
    rw [← q2, show val ai ^ 2 - √(val x) ^ 2 = (val ai - √(val x)) * (val ai + √(val x)) by ring, abs_mul]
    have h1 : |val ai + √(val x)| ≤ 2.004 * R := by rw [abs_of_nonneg (by linarith)]; linarith
    refine (mul_le_mul ei' h1 (abs_nonneg _) (by positivity)).trans ?_
    rw [show 1.01 / 2 ^ 24 * R * (2.004 * R) = 1.01 * 2.004 / 2 ^ 24 * R ^ 2 by ring]
    exact mul_le_mul_of_nonneg_right (by norm_num) R2.le
  -- the step along the forward axis
  have sb : |val ai - val ao| ≤ 5.01 * R := by
    rw [abs_le] at aob ⊢
    constructor <;> linarith
  obtain ⟨fs, es⟩ := sub_ok fi fao (by linarith)
  obtain ⟨s, hs⟩ : ∃ y, y = ai - ao := ⟨_, rfl⟩
  rw [← hs] at fs es ⊢
  have es' : |val s - (val ai - d)| ≤ 17.2 / 2 ^ 24 * R := by
    have := es.trans (div_le_div_of_nonneg_right sb (by positivity : (0:ℝ) ≤ 2 ^ 24))
    rw [abs_le] at this eao ⊢
    constructor <;> linarith
  have sb' : |val s| ≤ 5.02 * R := by
    rw [abs_le] at es' hd ⊢
    constructor <;> linarith
  have hfi : ∀ i, i ≠ 3 → |val (f i)| ≤ 1.001 := fun i hi => (abs_le_mag3 (valVec f) i hi).trans (hfm.trans (by norm_num))
  have hoi : ∀ i, i ≠ 3 → |val (o i)| ≤ 4 * R := fun i hi => (abs_le_mag3 (valVec o) i hi).trans (by rw [hOO]; exact o1)
  have step : ∀ i, i ≠ 3 → Finite32 (o i + f i * s).bits ∧ |val (o i + f i * s) - (val (o i) + val (f i) * val s)| ≤ 14.2 / 2 ^ 24 * R := by
    intro i hi
    have h1 : |val (f i) * val s| ≤ 5.03 * R := by
      rw [abs_mul]
      refine (mul_le_mul (hfi i hi) sb' (abs_nonneg _) (by norm_num)).trans ?_
      linarith
    obtain ⟨g1, g2, g3⟩ := mul_bound (hf i hi) fs h1 (by linarith)
    obtain ⟨g4, g5, -⟩ := add_bound (ho i hi) g1 (hoi i hi) g3 (by linarith)
    refine ⟨g4, ?_⟩
    refine (sum_near (f := 0) g5 (by rw [sub_self, abs_zero]) g2).trans ?_
    linarith
  refine ⟨fun i hi => (step i hi).1, ?_, val s, ?_, ?_⟩
  · rw [abs_le] at eac' er2
    linarith
  · have e : mag3 (valVec o + val s • valVec f) ^ 2 = O ^ 2 - d ^ 2 + (val s + d) ^ 2 + val s ^ 2 * (mag3 (valVec f) ^ 2 - 1) := by
      rw [mag3_sq, ← hdd, ← hOO, mag3_sq, mag3_sq]
      simp only [dot3, Pi.add_apply, Pi.smul_apply, smul_eq_mul]
      ring
    have t1 : |(val s + d) ^ 2 - val ai ^ 2| ≤ 34.6 / 2 ^ 24 * R ^ 2 := by
      rw [show (val s + d) ^ 2 - val ai ^ 2 = (val s - (val ai - d)) * (val s - (val ai - d) + 2 * val ai) by ring, abs_mul]
      have h1 : |val s - (val ai - d) + 2 * val ai| ≤ 2.005 * R := by
        rw [abs_le] at es' ⊢
        constructor <;> linarith
      refine (mul_le_mul es' h1 (abs_nonneg _) (by positivity)).trans ?_
      rw [show 17.2 / 2 ^ 24 * R * (2.005 * R) = 17.2 * 2.005 / 2 ^ 24 * R ^ 2 by ring]
      exact mul_le_mul_of_nonneg_right (by norm_num) R2.le
    have t2 : |val s ^ 2 * (mag3 (valVec f) ^ 2 - 1)| ≤ 404 / 2 ^ 24 * R ^ 2 := by
      rw [abs_mul, sf, abs_of_nonneg (sq_nonneg _), ← sq_abs]
      have h1 := pow_le_pow_left₀ (abs_nonneg _) sb' 2
      refine (mul_le_mul h1 f1 (abs_nonneg _) (by positivity)).trans ?_
      rw [mul_pow, show (5.02 : ℝ) ^ 2 * R ^ 2 * (1 / 2 ^ 20) = 5.02 ^ 2 * 16 / 2 ^ 24 * R ^ 2 by norm_num; ring]
      exact mul_le_mul_of_nonneg_right (by norm_num) R2.le
    have t3 : |mag3 (valVec o + val s • valVec f) ^ 2 - R ^ 2| ≤ 2 * (314 / 2 ^ 24) * R ^ 2 := by
      rw [e]
      generalize val s ^ 2 * (mag3 (valVec f) ^ 2 - 1) = z at *
      generalize (val s + d) ^ 2 = y at *
      rw [abs_le] at t1 t2 ai2 ex' ⊢
      constructor <;> linarith
    refine (root_near (mag3_nonneg _) hR (by norm_num) t3).trans ?_
    exact mul_le_mul_of_nonneg_right (by norm_num) hR.le
  · refine (mag3_le_three (e := 14.2 / 2 ^ 24 * R) fun i hi => ?_).trans ?_
    · have := (step i hi).2
      have e : (valVec (fun i => o i + f i * s) - (valVec o + val s • valVec f)) i = val (o i + f i * s) - (val (o i) + val (f i) * val s) := by
        simp only [valVec, Pi.sub_apply, Pi.add_apply, Pi.smul_apply, smul_eq_mul]; ring
      rw [e]; exact this
    · linarith

end Ozz.IK
