import Verif.Proofs.FloatPlane

/-! Helpers: the plane, the twist and the weight of the aim job in single precision. -/

namespace Ozz.IK

open F32 Ieee Spec Blending Ozz.Trig

section
set_option linter.unusedSectionVars false
variable {α : Type} [Add α] [Sub α] [Mul α] [Div α] [Neg α] [NumOps α]

theorem rotatePlane_axis (j : Aim α) (inv : Mat4 α) (V rot : F4 α) (i : Fin 4) :
    (j.rotatePlane inv V rot).1 i = V i * (NumOps.one / NumOps.sqrt (vec3Length2S V 0)) := by
  have h : (j.rotatePlane inv V rot).1 = V * Mat4.splatX (recip4 (sqrt4 (setZ (setY (vec3Length2S V)
      (vec3Length2S (vec3Cross (quatTransformVector rot j.up) V))) (vec3Length2S (vec3Cross (inv.transformVector j.poleVector) V))))) := by
    unfold Aim.rotatePlane
    simp only
    split <;> rfl
  rw [h]
  revert i
  apply four_all <;> rfl

theorem rotatePlane_plane (j : Aim α) (inv : Mat4 α) (V rot : F4 α) :
    (j.rotatePlane inv V rot).2 = quatUnit ∨
    (NumOps.eq (vec3Length2S (vec3Cross (quatTransformVector rot j.up) V) 0) NumOps.zero = false ∧
     NumOps.eq (vec3Length2S (vec3Cross (inv.transformVector j.poleVector) V) 0) NumOps.zero = false ∧
     ∃ axis c : F4 α, ∃ b : Bool, (j.rotatePlane inv V rot).2 = quatFromCosAngle axis (clamp4 c negOne4 one4) ∧
      (∀ i, i ≠ 3 → axis i = flip b ((j.rotatePlane inv V rot).1 i)) ∧
      c 0 = vec3DotS
        (fun i => vec3Cross (quatTransformVector rot j.up) V i *
          (NumOps.one / NumOps.sqrt (vec3Length2S (vec3Cross (quatTransformVector rot j.up) V) 0)))
        (fun i => vec3Cross (inv.transformVector j.poleVector) V i *
          (NumOps.one / NumOps.sqrt (vec3Length2S (vec3Cross (inv.transformVector j.poleVector) V) 0))) 0) := by
  unfold Aim.rotatePlane
  simp only
  split
  · next h =>
    right
    unfold allNonZero at h
    simp only [Bool.and_eq_true, Bool.not_eq_true'] at h
    refine ⟨h.1.2, h.2, _, _, NumOps.lt (vec3DotS (vec3Cross (inv.transformVector j.poleVector) V) (quatTransformVector rot j.up) 0) NumOps.zero,
      rfl, ?_, rfl⟩
    exact four_ne rfl rfl rfl
  · left; rfl

theorem positiveW_shape (q : F4 α) (i : Fin 4) : quatPositiveW q i = flip (NumOps.lt (q 3) NumOps.zero) (q i) := by
  revert i
  apply four_all <;> rfl

theorem lerp_shape (q w : F4 α) (i : Fin 4) : lerp4 quatUnit q w i = w i * (q i - quatUnit i) + quatUnit i := rfl

end

theorem norm_pos_coords {q : F4 F32} (h : |norm2 (valVec q) - 1| ≤ 1 / 2 ^ 10) (c : Fin 4) : |val (q c)| ≤ 1.01 :=
  ((coords_of_unit h).1 c).trans (by norm_num)

/-- A vector through the computed inverse. -/
theorem rigid_vector {m : Mat4 F32} {ε T : ℝ} (h : Rigid32 m ε T) (hε : ε ≤ 1 / 1000) (hT : 1 ≤ T) (hT2 : T ≤ 2 ^ 16)
    {x : F4 F32} (hx : Within3 x T) (r : Fin 4) (hr : r ≠ 3) :
    App (m.invert.transformVector x r) ((valMat m).invert.transformVector (valVec x) r) (3.6 * T) 112 20 := by
  obtain ⟨-, h1, -⟩ := rigid_inverse h hε hT hT2
  have ax : ∀ i, i ≠ 3 → App (x i) (val (x i)) T 0 16 := fun i hi =>
    App.exact_ (hx i hi).1 (hx i hi).2 (by norm_num; linarith) hT2
  rw [vector_shape, vector_shape]
  have p := fun i hi => (ax i hi).mul (h1 i r hi hr) (by decide) (by decide) (by decide)
  have s := (p 1 (by decide)).add ((p 2 (by decide)).add (p 0 (by decide)) (by decide) (by decide) (by decide)) (by decide) (by decide) (by decide)
  refine s.mono rfl (le_of_eq ?_) (by decide) (by decide) ?_
  · ring
  · norm_num at *; linarith

theorem App.within {v : F4 F32} {X : F4 ℝ} {B : ℝ} {n e : ℕ} (h : ∀ r, r ≠ 3 → App (v r) (X r) B n e) (hn : n ≤ 2000) :
    Within3 v (1.001 * B) := fun r hr => by
  refine ⟨(h r hr).fin, (h r hr).val_le.trans ?_⟩
  have hp := (h r hr).pos
  have : (n : ℝ) ≤ 2000 := by exact_mod_cast hn
  have : (1 + (n : ℝ) / 2 ^ 24) ≤ 1.001 := by
    have : (n : ℝ) / 2 ^ 24 ≤ 2000 / 2 ^ 24 := by gcongr
    linarith
  rw [mul_comm]
  exact mul_le_mul_of_nonneg_right this hp.le

/-- Axis and plane of the aim job. -/
theorem rotatePlane_ok {j : Aim F32} {inv : Mat4 F32} {V rot : F4 F32} {T : ℝ} (hT : 1 ≤ T) (hT2 : T ≤ 2 ^ 16) (hup : Within3 j.up T)
    (hpole : Within3 (inv.transformVector j.poleVector) (4 * T)) (hV : Fin3 V) (v0 : 1 / 2 ^ 20 ≤ mag3 (valVec V))
    (v1 : mag3 (valVec V) ≤ 2 ^ 20) (hr : ∀ c, Finite32 (rot c).bits) (hr1 : |norm2 (valVec rot) - 1| ≤ 1 / 2 ^ 10)
    {axis plane : F4 F32} (hp : j.rotatePlane inv V rot = (axis, plane)) :
    (Fin3 axis ∧ (∀ i, i ≠ 3 → |val (axis i) - val (V i) / mag3 (valVec V)| ≤ 7.7 / 2 ^ 24) ∧
      |val (axis 0) ^ 2 + val (axis 1) ^ 2 + val (axis 2) ^ 2 - 1| ≤ 1 / 2 ^ 19) ∧
    (∀ c, Finite32 (plane c).bits) ∧ norm2 (valVec plane) ≤ 102 / 100 ∧
    ∃ U, Axial U (valVec V) ∧ ‖toQuat (valVec plane) - U‖ ≤ 60 / 2 ^ 24 := by
  have hm : 0 < mag3 (valVec V) := lt_of_lt_of_le (by positivity) v0
  have sq := mag3_sq (valVec V)
  have S0 : 1 / 2 ^ 100 ≤ dot3 (valVec V) (valVec V) := by
    rw [← sq]; exact le_trans (by norm_num) (pow_le_pow_left₀ (by positivity) v0 2)
  have S1 : dot3 (valVec V) (valVec V) ≤ 2 ^ 100 := by
    rw [← sq]; exact (pow_le_pow_left₀ hm.le v1 2).trans (by norm_num)
  obtain ⟨fD, eD⟩ := len2_ok hV S0 S1
  rw [← sq] at eD
  have ax : ∀ i, axis i = V i * (F32.one / F32.sqrt (vec3Length2S V 0)) := fun i => by
    have := rotatePlane_axis j inv V rot i
    rw [hp] at this
    exact this
  have hA := axis_ok hV (le_trans (by norm_num) v0) (v1.trans (by norm_num)) fD (eD.trans (by nlinarith [sq_nonneg (mag3 (valVec V))]))
    (fun i _ => ax i)
  refine ⟨hA, ?_⟩
  have wV : Within3 V (mag3 (valVec V)) := fun i hi => ⟨hV i hi, abs_le_mag3 (valVec V) i hi⟩
  have wu := qtv_within hr (norm_pos_coords hr1) hup (by linarith) (by linarith)
  have pl := rotatePlane_plane j inv V rot
  rw [hp] at pl
  simp only at pl
  generalize quatTransformVector rot j.up = cu at *
  generalize inv.transformVector j.poleVector = pv at *
  have l1 : 1 / 2 ^ 20 ≤ T * mag3 (valVec V) := by nlinarith
  have l2 : T * mag3 (valVec V) ≤ 2 ^ 36 := (mul_le_mul hT2 v1 hm.le (by positivity)).trans (by norm_num)
  have wn := cross_within wu wV (by linarith) (by linarith)
  have wr := cross_within hpole wV (by linarith) (by linarith)
  rcases pl with pl | ⟨d1, d2, axis', c, b, e1, e2, e3⟩
  · rw [pl]
    have n1 : toQuat (valVec (quatUnit : F4 F32)) = 1 := by
      have h0 : val (NumOps.zero : F32) = 0 := zero_real
      have h1 : val (NumOps.one : F32) = 1 := one_real
      ext <;> simp [valVec, quatUnit, h0, h1] <;> rfl
    refine ⟨?_, ?_, 1, Axial.one _, ?_⟩
    · apply four_all
      exacts [zero_finite, zero_finite, zero_finite, one_finite]
    · have : ‖toQuat (valVec (quatUnit : F4 F32))‖ = 1 := by rw [n1, norm_one]
      rw [norm_toQuat, Real.sqrt_eq_one] at this
      rw [this]; norm_num
    · rw [n1, sub_self, norm_zero]; positivity
  · obtain ⟨fn, sn⟩ := scaled_within wn (by linarith) rfl
    obtain ⟨fr, sr⟩ := scaled_within wr (by linarith) rfl
    have ne : ∀ {x : F32}, Finite32 x.bits → NumOps.eq x (NumOps.zero : F32) = false → val x ≠ 0 := by
      intro x hx h h0
      have := (eq_val32 hx zero_finite).mpr (by rw [h0, valZero])
      have h' : F32.eq x F32.zero = false := h
      rw [this] at h'
      exact Bool.noConfusion h'
    have sn := sn (ne fn d1)
    have sr := sr (ne fr d2)
    have fc : Finite32 (c 0).bits := by rw [e3]; exact dotS_within sn sr (by norm_num)
    obtain ⟨g1, g2⟩ := clamp_ok fc
    rw [e1]
    exact cosAngle_ok hm hA.1 hA.2.1 hA.2.2 e2 g1 g2

/-- Twist and plane after the turn towards the target. -/
theorem twisted_ok {j : Aim F32} {V rot axis plane : F4 F32} (hm : 0 < mag3 (valVec V))
    (hA : Fin3 axis ∧ (∀ i, i ≠ 3 → |val (axis i) - val (V i) / mag3 (valVec V)| ≤ 7.7 / 2 ^ 24) ∧
      |val (axis 0) ^ 2 + val (axis 1) ^ 2 + val (axis 2) ^ 2 - 1| ≤ 1 / 2 ^ 19)
    (hp : (∀ c, Finite32 (plane c).bits) ∧ norm2 (valVec plane) ≤ 102 / 100 ∧
      ∃ U, Axial U (valVec V) ∧ ‖toQuat (valVec plane) - U‖ ≤ 60 / 2 ^ 24)
    (hr : ∀ c, Finite32 (rot c).bits) (hr1 : |norm2 (valVec rot) - 1| ≤ 1 / 2 ^ 19)
    (ft : Finite32 j.twistAngle.bits) (ht : |val j.twistAngle| ≤ 4095) :
    (∀ c, Finite32 (j.twisted polyTrig axis plane rot c).bits) ∧
    ∃ U, Axial U (valVec V) ∧ ‖toQuat (valVec (j.twisted polyTrig axis plane rot)) - U * toQuat (valVec rot)‖ ≤ 105 / 2 ^ 24 := by
  obtain ⟨pf, pn, U, hU, pU⟩ := hp
  have rn : norm2 (valVec rot) ≤ 102 / 100 := by have := (abs_le.mp hr1).2; linarith
  have rb : ‖toQuat (valVec rot)‖ ≤ 1 + 1 / 2 ^ 19 := by
    have := norm_near_one (q := valVec rot) (c := 1 / 2 ^ 20) (by norm_num) (hr1.trans (by norm_num))
    have := (abs_le.mp this).2
    linarith
  unfold Aim.twisted
  split
  · obtain ⟨f, e⟩ := mul_near pf hr pn rn hU.1 rb pU (le_of_eq (by rw [sub_self, norm_zero])) (by norm_num)
    exact ⟨f, U, hU, e.trans (by norm_num)⟩
  · obtain ⟨tf, tn, W, hW, tW⟩ := twist_ok hm hA.1 hA.2.1 hA.2.2 (angle := splat j.twistAngle) ft ht
    obtain ⟨f, e⟩ := mul_near tf pf tn pn hW.1 (by rw [hU.1]; norm_num) tW pU (by norm_num)
    have hWU := hW.mul hU
    have n : norm2 (valVec (quatMul (quatFromAxisAngle (polyTrig (α := F32)).sinCos axis (splat j.twistAngle)) plane)) ≤ 102 / 100 := by
      have h1 := norm_sub_norm_le (toQuat (valVec (quatMul (quatFromAxisAngle (polyTrig (α := F32)).sinCos axis (splat j.twistAngle)) plane))) (W * U)
      rw [hWU.1, norm_toQuat] at h1
      have h2 := h1.trans e
      have h3 : √(norm2 (valVec (quatMul (quatFromAxisAngle (polyTrig (α := F32)).sinCos axis (splat j.twistAngle)) plane))) ≤ 1.001 := by linarith
      rw [Real.sqrt_le_left (by norm_num)] at h3
      linarith
    obtain ⟨g, e'⟩ := mul_near f hr n rn hWU.1 rb e (le_of_eq (by rw [sub_self, norm_zero])) (by norm_num)
    exact ⟨g, W * U, hWU, e'.trans (by norm_num)⟩

theorem positiveW4_ok {q : F4 F32} (hq : ∀ c, Finite32 (q c).bits) :
    (∀ c, Finite32 (quatPositiveW q c).bits) ∧ valVec (quatPositiveW q) = shortWay (valVec q) := by
  have hs : NumOps.lt (q 3) (NumOps.zero : F32) = true ↔ val (q 3) < 0 := by
    have := lt_val32 (hq 3) zero_finite
    rw [valZero] at this
    exact this
  have key : ∀ c, Finite32 (quatPositiveW q c).bits ∧ val (quatPositiveW q c) = shortWay (valVec q) c := by
    intro c
    rw [positiveW_shape]
    obtain ⟨f, e⟩ := flip_ok (NumOps.lt (q 3) NumOps.zero) (hq c)
    refine ⟨f, ?_⟩
    rw [e]
    unfold shortWay
    by_cases h : val (q 3) < 0
    · rw [if_pos (hs.mpr h), if_pos (show valVec q 3 < 0 from h)]; rfl
    · rw [if_neg (fun h' => h (hs.mp h')), if_neg (show ¬ valVec q 3 < 0 from h)]; rfl
  exact ⟨fun c => (key c).1, funext fun c => (key c).2⟩

/-- Part of a rotation. -/
theorem lerped_ok {q : F4 F32} {w : F32} (hq : ∀ c, Finite32 (q c).bits) (hq1 : |norm2 (valVec q) - 1| ≤ 1 / 2 ^ 10) (hw : Finite32 w.bits)
    (w0 : 0 ≤ val w) (w1 : val w ≤ 1) {l : F4 F32} (hl : ∀ i, l i = w * (quatPositiveW q i - quatUnit i) + quatUnit i) :
    (∀ c, Finite32 (quatNormalize l c).bits) ∧ |norm2 (valVec (quatNormalize l)) - 1| ≤ 1 / 2 ^ 19 ∧
    ‖toQuat (valVec (quatNormalize l)) - partly (val w) (valVec q)‖ ≤ 30 / 2 ^ 24 := by
  obtain ⟨pf, pv⟩ := positiveW4_ok hq
  have hp1 : |norm2 (shortWay (valVec q)) - 1| ≤ 1 / 2 ^ 10 := by rw [shortWay_norm]; exact hq1
  have hp3 := shortWay_w (valVec q)
  obtain ⟨b1, b2⟩ := between_norm hp1 hp3 w0 w1
  have hpc := (coords_of_unit hp1).1
  have pc : ∀ c, val (quatPositiveW q c) = shortWay (valVec q) c := fun c => congrFun pv c
  have u : ∀ c, Finite32 (quatUnit c : F32).bits ∧ val (quatUnit c : F32) = identityQ c := by
    apply four_all
    exacts [⟨zero_finite, zero_real⟩, ⟨zero_finite, zero_real⟩, ⟨zero_finite, zero_real⟩, ⟨one_finite, one_real⟩]
  have sub1 : ∀ c, |shortWay (valVec q) c - identityQ c| ≤ 1.001 := by
    apply four_all
    · show |_ - (0:ℝ)| ≤ _; rw [sub_zero]; exact (hpc 0).trans (by norm_num)
    · show |_ - (0:ℝ)| ≤ _; rw [sub_zero]; exact (hpc 1).trans (by norm_num)
    · show |_ - (0:ℝ)| ≤ _; rw [sub_zero]; exact (hpc 2).trans (by norm_num)
    · show |_ - (1:ℝ)| ≤ _
      have := (abs_le.mp (hpc 3)).2
      rw [abs_le]; constructor <;> linarith
  have key : ∀ c, Finite32 (l c).bits ∧ |val (l c) - (identityQ + val w • (shortWay (valVec q) - identityQ)) c| ≤ 3.1 / 2 ^ 24 := by
    intro c
    have hb2 := b2 c
    rw [hl, show (identityQ + val w • (shortWay (valVec q) - identityQ)) c =
      val w * (shortWay (valVec q) c - identityQ c) + identityQ c by simp [add_comm]]
    rw [show (identityQ + val w • (shortWay (valVec q) - identityQ)) c =
      val w * (shortWay (valVec q) c - identityQ c) + identityQ c by simp [add_comm]] at hb2
    have s1 := sub1 c
    obtain ⟨uf, uv⟩ := u c
    have p := pc c
    have pcf := pf c
    generalize quatPositiveW q c = x at *
    generalize (quatUnit c : F32) = y at *
    rw [← p, ← uv] at s1 hb2 ⊢
    obtain ⟨f1, e1⟩ := sub_ok pcf uf (s1.trans (by norm_num))
    have d1 : |val (x - y) - (val x - val y)| ≤ 1.001 / 2 ^ 24 := e1.trans (by linarith)
    have b3 : |val (x - y)| ≤ 1.002 := by
      have := abs_add_le (val (x - y) - (val x - val y)) (val x - val y)
      rw [sub_add_cancel] at this
      linarith
    generalize x - y = z at *
    have p2 : |val w * val z| ≤ 1.002 := by
      rw [abs_mul, abs_of_nonneg w0]
      have := mul_le_mul w1 b3 (abs_nonneg _) zero_le_one
      linarith
    obtain ⟨f2, e2, -⟩ := mul_bound hw f1 p2 (by norm_num)
    have d2 : |val (w * z) - val w * (val x - val y)| ≤ 2.004 / 2 ^ 24 := by
      have h1 : |val w * val z - val w * (val x - val y)| ≤ 1.001 / 2 ^ 24 := by
        rw [← mul_sub, abs_mul, abs_of_nonneg w0]
        have := mul_le_mul w1 d1 (abs_nonneg _) zero_le_one
        linarith
      have := abs_sub_le (val (w * z)) (val w * val z) (val w * (val x - val y))
      linarith
    generalize w * z = v at *
    have s3 : |val v + val y| ≤ 1.002 := by
      have := abs_add_le (val v - val w * (val x - val y)) (val w * (val x - val y) + val y)
      rw [show val v - val w * (val x - val y) + (val w * (val x - val y) + val y) = val v + val y by ring] at this
      linarith
    obtain ⟨f3, e3⟩ := add_ok f2 uf (s3.trans (by norm_num))
    refine ⟨f3, ?_⟩
    have := abs_sub_le (val (v + y)) (val v + val y) (val w * (val x - val y) + val y)
    rw [show val v + val y - (val w * (val x - val y) + val y) = val v - val w * (val x - val y) by ring] at this
    linarith
  set R := identityQ + val w • (shortWay (valVec q) - identityQ) with hR
  have hs : 7 / 10 ≤ ‖toQuat R‖ := by
    rw [norm_toQuat]; apply Real.le_sqrt_of_sq_le; linarith
  have hR0 : toQuat R ≠ 0 := by
    intro h; rw [h, norm_zero] at hs; norm_num at hs
  have dn : ‖toQuat (valVec l) - toQuat R‖ ≤ 6.2 / 2 ^ 24 := by
    rw [← toQuat_sub]
    exact (norm_toQuat_le fun c => (key c).2).trans (by norm_num)
  have hl0 : 0.6 ≤ ‖toQuat (valVec l)‖ := by
    have := norm_sub_norm_le (toQuat R) (toQuat (valVec l))
    rw [norm_sub_rev] at this
    linarith
  have hl1 : ‖toQuat (valVec l)‖ ≤ 3 := by
    have h1 := norm_sub_norm_le (toQuat (valVec l)) (toQuat R)
    have h2 : ‖toQuat R‖ ≤ 2 * (1001 / 1000) := norm_toQuat_le b2
    linarith
  have e : ‖toQuat (valVec l)‖ ^ 2 = norm2 (valVec l) := by
    rw [norm_toQuat, Real.sq_sqrt]
    unfold norm2; positivity
  have hln : toQuat (valVec l) ≠ 0 := by
    intro h; rw [h, norm_zero] at hl0; norm_num at hl0
  obtain ⟨g1, g2, g3⟩ := normalize4_ok (fun c => (key c).1) (by rw [← e]; exact le_trans (by norm_num) (pow_le_pow_left₀ (by norm_num) hl0 2))
    (by rw [← e]; exact (pow_le_pow_left₀ (norm_nonneg _) hl1 2).trans (by norm_num))
  refine ⟨g1, g2, ?_⟩
  have hpart : partly (val w) (valVec q) = (‖toQuat R‖⁻¹) • toQuat R := by
    unfold partly unitOf
    rw [← hR, norm_toQuat]
    ext <;> simp
  rw [hpart]
  have n := normalized_near hln hR0
  have k : ‖toQuat (valVec l) - toQuat R‖ / ‖toQuat R‖ ≤ 8.9 / 2 ^ 24 := by
    rw [div_le_iff₀ (by linarith)]
    have : 8.9 / 2 ^ 24 * (7 / 10) ≤ 8.9 / 2 ^ 24 * ‖toQuat R‖ := mul_le_mul_of_nonneg_left hs (by positivity)
    linarith
  have := norm_sub_le_norm_sub_add_norm_sub (toQuat (valVec (quatNormalize l))) ((‖toQuat (valVec l)‖⁻¹) • toQuat (valVec l))
    ((‖toQuat R‖⁻¹) • toQuat R)
  linarith

/-- The weight of the aim job. -/
theorem weighted_ok {j : Aim F32} {q : F4 F32} (hq : ∀ c, Finite32 (q c).bits) (hq1 : |norm2 (valVec q) - 1| ≤ 1 / 2 ^ 10)
    (hw : Finite32 j.weight.bits) :
    (∀ c, Finite32 (j.weighted q c).bits) ∧
    (1 ≤ val j.weight → valVec (j.weighted q) = shortWay (valVec q)) ∧
    (val j.weight < 1 → |norm2 (valVec (j.weighted q)) - 1| ≤ 1 / 2 ^ 19 ∧
      ‖toQuat (valVec (j.weighted q)) - partly (max (val j.weight) 0) (valVec q)‖ ≤ 30 / 2 ^ 24) := by
  obtain ⟨pf, pv⟩ := positiveW4_ok hq
  have hlt : NumOps.lt j.weight (NumOps.one : F32) = true ↔ val j.weight < 1 := by
    have := lt_val32 hw one_finite
    rw [valOne] at this
    exact this
  unfold Aim.weighted
  simp only
  split
  · next h =>
    have h := hlt.mp h
    obtain ⟨mf, mv⟩ := fmax_val32 hw zero_finite
    rw [valZero] at mv
    have := lerped_ok (l := lerp4 quatUnit (quatPositiveW q) (max4 (splat j.weight) zero4)) (w := F32.fmax j.weight F32.zero) hq hq1 mf
      (by rw [mv]; exact le_max_right _ _) (by rw [mv]; exact max_le h.le zero_le_one) (fun i => rfl)
    rw [mv] at this
    exact ⟨this.1, fun h' => absurd h (not_lt.mpr h'), fun _ => this.2⟩
  · next h =>
    exact ⟨pf, fun _ => pv, fun h' => absurd (hlt.mpr h') h⟩

end Ozz.IK
