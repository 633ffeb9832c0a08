import Verif.Proofs.Additive
import Verif.Proofs.FloatBlend

/-! Additive layers in single precision. -/

namespace Ozz.Blending

open Ieee Spec F32

/-! ## Weights -/

/-- The weight of an additive layer at a lane, `x` being its weight or minus its weight. -/
theorem addWeight_ok {y : Layer F32} {i : Nat} {l : Fin 4} {B : ℝ} (h : Additive32Ok y i l B) {x : F32} (hx : Finite32 x.bits) {W : ℝ}
    (hW : (val x = val y.weight ∧ W = addWeight (valLayer y) i l) ∨ (val x = -val y.weight ∧ W = -addWeight (valLayer y) i l)) :
    Finite32 ((if y.isPartial then splat x * max4 (y.jointWeights[i]?.getD zero4) zero4 else splat x : F4 F32) l).bits ∧
      |val ((if y.isPartial then splat x * max4 (y.jointWeights[i]?.getD zero4) zero4 else splat x : F4 F32) l) - W| ≤ 1 / 2 ^ 24 + 1 / 2 ^ 150 := by
  have hr : |W| ≤ 1 := by
    rcases hW with ⟨-, rfl⟩ | ⟨-, rfl⟩
    · exact h.range
    · rw [abs_neg]; exact h.range
  have key : ∀ f : ℝ, addWeight (valLayer y) i l = val y.weight * f → W = val x * f := by
    intro f hf
    rcases hW with ⟨h1, h2⟩ | ⟨h1, h2⟩
    · rw [h2, hf, h1]
    · rw [h2, hf, h1, neg_mul]
  cases hj : y.jointWeights with
  | nil =>
    have hp : y.isPartial = false := by simp [Layer.isPartial, hj]
    have e2 : W = val x := by
      rw [key 1 (by
        unfold addWeight
        have : (valLayer y).jointWeights = [] := by simp [valLayer, hj]
        rw [this]; rfl), mul_one]
    rw [hp, e2]
    refine ⟨hx, ?_⟩
    change |val x - val x| ≤ _
    rw [sub_self, abs_zero]
    positivity
  | cons a as =>
    have hp : y.isPartial = true := by simp [Layer.isPartial, hj]
    rw [hp, if_pos rfl]
    set jw : F32 := ((a :: as)[i]?.getD zero4) l with hjw
    have jf : Finite32 jw.bits := by
      rw [hjw]
      cases hi : (a :: as)[i]? with
      | none => exact zero_finite
      | some w => exact h.jointWeight w (by rw [hj]; exact hi)
    have e2 : W = val x * max (val jw) 0 := by
      apply key
      unfold addWeight
      have : (valLayer y).jointWeights = (fun l => val (a l)) :: as.map (fun w l => val (w l)) := by simp [valLayer, hj]
      rw [this]
      change val y.weight * _ = _
      congr 1
      change (match ((a :: as).map (fun (w : F4 F32) l => val (w l)))[i]? with
        | some w => max 0 (w l)
        | none => 0) = _
      rw [List.getElem?_map, hjw]
      cases (a :: as)[i]? with
      | none =>
        change (0:ℝ) = max (val F32.zero) 0
        rw [valZero, max_self]
      | some w => exact max_comm _ _
    obtain ⟨mf, mv⟩ := fmax_val32 jf zero_finite
    rw [valZero] at mv
    have hm : val x * val (F32.fmax jw F32.zero) = W := by rw [mv, e2]
    obtain ⟨f, e⟩ := mul_ok hx mf (by rw [hm]; exact hr.trans (by norm_num))
    rw [hm] at e
    refine ⟨f, e.trans ?_⟩
    have := div_le_div_of_nonneg_right hr (show (0:ℝ) ≤ 2 ^ 24 by positivity)
    linarith

/-! ## The part of a rotation -/

theorem shortWay_norm (q : F4 ℝ) : norm2 (shortWay q) = norm2 q := by
  unfold shortWay
  split
  · simp [norm2]
  · rfl

theorem shortWay_w (q : F4 ℝ) : 0 ≤ shortWay q 3 := by
  unfold shortWay
  split
  · rename_i h; simp only [Pi.neg_apply]; linarith
  · rename_i h; exact not_lt.mp h

theorem positiveW_ok {q : SoaQuat F32} {l : Fin 4} (hq : ∀ c, Finite32 (q.lane l c).bits) (c : Fin 4) :
    Finite32 (q.positiveW.lane l c).bits ∧ val (q.positiveW.lane l c) = shortWay (fun c => val (q.lane l c)) c := by
  have key : ∀ c, Finite32 (flip (sign4 q.w l) (q.lane l c)).bits ∧ val (flip (sign4 q.w l) (q.lane l c)) = shortWay (fun c => val (q.lane l c)) c := by
    intro c
    obtain ⟨f, e⟩ := flip_ok (sign4 q.w l) (hq c)
    refine ⟨f, ?_⟩
    rw [e]
    have hs : sign4 q.w l = true ↔ val (q.lane l 3) < 0 := by
      have := lt_val32 (hq 3) zero_finite
      rw [valZero] at this
      exact this
    unfold shortWay
    by_cases h : val (q.lane l 3) < 0
    · rw [if_pos (hs.mpr h), if_pos h]; rfl
    · rw [if_neg (fun h' => h (hs.mp h')), if_neg h]
  fin_cases c
  · exact key 0
  · exact key 1
  · exact key 2
  · exact key 3

/-- The quaternion between the identity and a rotation. -/
theorem interpQuat_ok {q : SoaQuat F32} {w : F4 F32} {l : Fin 4} {W : ℝ} (hq : ∀ c, Finite32 (q.lane l c).bits)
    (hu : |norm2 (fun c => val (q.lane l c)) - 1| ≤ 1 / 2 ^ 10) (hw : Finite32 (w l).bits) (hW0 : 0 ≤ W) (hW1 : W ≤ 1)
    (he : |val (w l) - W| ≤ 1 / 2 ^ 24 + 1 / 2 ^ 150) (c : Fin 4) :
    Finite32 ((interpQuat q w).lane l c).bits ∧
      |val ((interpQuat q w).lane l c) - (identityQ + W • (shortWay (fun c => val (q.lane l c)) - identityQ)) c| ≤ 5 / 2 ^ 24 := by
  set p : F4 ℝ := shortWay (fun c => val (q.lane l c)) with hp
  have hpu : |norm2 p - 1| ≤ 1 / 2 ^ 10 := by rw [hp, shortWay_norm]; exact hu
  have hpc := (coords_of_unit hpu).1
  have hp3 : 0 ≤ p 3 := shortWay_w _
  have hpv := fun c => positiveW_ok hq c
  have hxyz : ∀ c, c ≠ 3 → Finite32 (q.positiveW.lane l c * w l).bits ∧
      |val (q.positiveW.lane l c * w l) - (identityQ + W • (p - identityQ)) c| ≤ 5 / 2 ^ 24 := by
    intro c hc
    obtain ⟨pf, pv⟩ := hpv c
    obtain ⟨f, e, -⟩ := scaled_ok (M := 1) (B := 1001 / 1000) pf hw (by norm_num) (by norm_num) (by norm_num) (by norm_num)
      (by rw [pv]; exact hpc c) (e := 1 / 2 ^ 24 + 1 / 2 ^ 150) (by norm_num) he (by rw [abs_of_nonneg hW0]; exact hW1)
    refine ⟨f, ?_⟩
    have h0 : identityQ c = 0 := by
      fin_cases c
      · rfl
      · rfl
      · rfl
      · exact absurd rfl hc
    have : (identityQ + W • (p - identityQ)) c = W * p c := by
      change identityQ c + W * (p c - identityQ c) = _
      rw [h0]; ring
    rw [this, hp, ← pv]
    refine e.trans ?_
    norm_num
  have hw4 : Finite32 ((q.positiveW.lane l 3 - F32.one) * w l + F32.one).bits ∧
      |val ((q.positiveW.lane l 3 - F32.one) * w l + F32.one) - (identityQ + W • (p - identityQ)) 3| ≤ 5 / 2 ^ 24 := by
    obtain ⟨pf, pv⟩ := hpv 3
    have hd : |p 3 - 1| ≤ 1 := by
      have := (abs_le.mp (hpc 3)).2
      rw [abs_le]; constructor <;> linarith
    obtain ⟨f1, e1⟩ := sub_ok pf one_finite (by rw [pv, valOne, ← hp]; exact hd.trans (by norm_num))
    rw [pv, valOne, ← hp] at e1
    have e1' := e1.trans (div_le_div_of_nonneg_right hd (by positivity : (0:ℝ) ≤ 2 ^ 24))
    have b1 : |val (q.positiveW.lane l 3 - F32.one)| ≤ 1001 / 1000 := by
      have := abs_add_le (val (q.positiveW.lane l 3 - F32.one) - (p 3 - 1)) (p 3 - 1)
      rw [sub_add_cancel] at this
      norm_num at e1' ⊢; linarith
    obtain ⟨f2, e2, b2⟩ := scaled_ok (M := 1) (B := 1001 / 1000) f1 hw (by norm_num) (by norm_num) (by norm_num) (by norm_num)
      b1 (e := 1 / 2 ^ 24 + 1 / 2 ^ 150) (by norm_num) he (by rw [abs_of_nonneg hW0]; exact hW1)
    set v1 := val (q.positiveW.lane l 3 - F32.one) with hv1
    set v2 := val ((q.positiveW.lane l 3 - F32.one) * w l) with hv2
    have d1 : |v2 - W * (p 3 - 1)| ≤ 32 / 10 / 2 ^ 24 := by
      have h1 : |W * v1 - W * (p 3 - 1)| ≤ 1 / 2 ^ 24 := by
        rw [← mul_sub, abs_mul, abs_of_nonneg hW0]
        calc W * |v1 - (p 3 - 1)| ≤ 1 * (1 / 2 ^ 24) := mul_le_mul hW1 e1' (abs_nonneg _) (by norm_num)
          _ = _ := one_mul _
      have h2 := abs_add_le (v2 - W * v1) (W * v1 - W * (p 3 - 1))
      rw [sub_add_sub_cancel] at h2
      refine h2.trans ((add_le_add e2 h1).trans ?_)
      norm_num
    have hval : |W * (p 3 - 1) + 1| ≤ 1001 / 1000 := by
      have h1 := (abs_le.mp (hpc 3)).2
      have h2 : W * (p 3 - 1) = -(W * (1 - p 3)) := by ring
      have h3 : 0 ≤ W * p 3 := mul_nonneg hW0 hp3
      have h4 : W * p 3 ≤ W * (1001 / 1000) := mul_le_mul_of_nonneg_left h1 hW0
      rw [abs_le]; constructor <;> linarith
    have b3 : |v2 + 1| ≤ 1002 / 1000 := by
      have := abs_add_le (v2 - W * (p 3 - 1)) (W * (p 3 - 1) + 1)
      rw [show v2 - W * (p 3 - 1) + (W * (p 3 - 1) + 1) = v2 + 1 by ring] at this
      norm_num at d1 ⊢; linarith
    obtain ⟨f3, e3⟩ := add_ok f2 one_finite (by rw [valOne, ← hv2]; exact b3.trans (by norm_num))
    rw [valOne, ← hv2] at e3
    refine ⟨f3, ?_⟩
    have e3' := e3.trans (div_le_div_of_nonneg_right b3 (by positivity : (0:ℝ) ≤ 2 ^ 24))
    have : (identityQ + W • (p - identityQ)) 3 = W * (p 3 - 1) + 1 := by
      change (1:ℝ) + W * (p 3 - 1) = _
      ring
    rw [this]
    have h2 := abs_add_le (val ((q.positiveW.lane l 3 - F32.one) * w l + F32.one) - (v2 + 1)) (v2 + 1 - (W * (p 3 - 1) + 1))
    rw [sub_add_sub_cancel, show v2 + 1 - (W * (p 3 - 1) + 1) = v2 - W * (p 3 - 1) by ring] at h2
    refine h2.trans ((add_le_add e3' d1).trans ?_)
    norm_num
  fin_cases c
  · exact hxyz 0 (by decide)
  · exact hxyz 1 (by decide)
  · exact hxyz 2 (by decide)
  · exact hw4

theorem between_norm {p : F4 ℝ} {W : ℝ} (hp : |norm2 p - 1| ≤ 1 / 2 ^ 10) (hp3 : 0 ≤ p 3) (hW0 : 0 ≤ W) (hW1 : W ≤ 1) :
    49 / 100 ≤ norm2 (identityQ + W • (p - identityQ)) ∧ ∀ c, |(identityQ + W • (p - identityQ)) c| ≤ 1001 / 1000 := by
  have hpc := (coords_of_unit hp).1
  constructor
  · have e : norm2 (identityQ + W • (p - identityQ)) = (1 - W) ^ 2 + 2 * (W * (1 - W) * p 3) + W ^ 2 * norm2 p := by
      unfold norm2
      simp only [Pi.add_apply, Pi.smul_apply, Pi.sub_apply, smul_eq_mul, identityQ, f4_0, f4_1, f4_2, f4_3]
      ring
    rw [e]
    have h1 : 0 ≤ W * (1 - W) * p 3 := mul_nonneg (mul_nonneg hW0 (by linarith)) hp3
    have h2 : W ^ 2 * (1 - 1 / 2 ^ 10) ≤ W ^ 2 * norm2 p := mul_le_mul_of_nonneg_left (by linarith [(abs_le.mp hp).1]) (sq_nonneg _)
    nlinarith [sq_nonneg (W - 1 / 2)]
  · intro c
    have e : (identityQ + W • (p - identityQ)) c = (1 - W) * identityQ c + W * p c := by
      change identityQ c + W * (p c - identityQ c) = _; ring
    rw [e]
    have hi : |identityQ c| ≤ 1001 / 1000 := by
      fin_cases c
      · change |(0:ℝ)| ≤ _; norm_num
      · change |(0:ℝ)| ≤ _; norm_num
      · change |(0:ℝ)| ≤ _; norm_num
      · change |(1:ℝ)| ≤ _; norm_num
    have h1 := abs_add_le ((1 - W) * identityQ c) (W * p c)
    rw [abs_mul, abs_mul, abs_of_nonneg hW0, abs_of_nonneg (show 0 ≤ 1 - W by linarith)] at h1
    have h2 := mul_le_mul_of_nonneg_left hi (show 0 ≤ 1 - W by linarith)
    have h3 := mul_le_mul_of_nonneg_left (hpc c) hW0
    linarith

theorem norm_toQuat (q : F4 ℝ) : ‖toQuat q‖ = √(norm2 q) := by
  rw [← norm2_toQuat, Quaternion.normSq_eq_norm_mul_self, Real.sqrt_mul_self (norm_nonneg _)]

theorem norm_toQuat_le {q : F4 ℝ} {e : ℝ} (h : ∀ c, |q c| ≤ e) : ‖toQuat q‖ ≤ 2 * e := by
  have e0 : 0 ≤ e := (abs_nonneg _).trans (h 0)
  rw [norm_toQuat]
  apply Real.sqrt_le_iff.mpr
  refine ⟨by linarith, ?_⟩
  have hc : ∀ c, q c ^ 2 ≤ e ^ 2 := fun c => by
    rw [← sq_abs]; exact pow_le_pow_left₀ (abs_nonneg _) (h c) 2
  unfold norm2
  linarith [hc 0, hc 1, hc 2, hc 3]

theorem toQuat_sub (a b : F4 ℝ) : toQuat (a - b) = toQuat a - toQuat b := by ext <;> rfl

/-- The normalized part of a rotation. -/
theorem partly_ok {q : SoaQuat F32} {w : F4 F32} {l : Fin 4} {W : ℝ} (hq : ∀ c, Finite32 (q.lane l c).bits)
    (hu : |norm2 (fun c => val (q.lane l c)) - 1| ≤ 1 / 2 ^ 10) (hw : Finite32 (w l).bits) (hW0 : 0 ≤ W) (hW1 : W ≤ 1)
    (he : |val (w l) - W| ≤ 1 / 2 ^ 24 + 1 / 2 ^ 150) :
    (∀ c, Finite32 ((interpQuat q w).normalize.lane l c).bits) ∧
    ‖toQuat (fun c => val ((interpQuat q w).normalize.lane l c)) - partly W (fun c => val (q.lane l c))‖ ≤ 80 / 2 ^ 24 ∧
    ‖partly W (fun c => val (q.lane l c))‖ = 1 := by
  have hi := interpQuat_ok hq hu hw hW0 hW1 he
  obtain ⟨b1, b2⟩ := between_norm (p := shortWay (fun c => val (q.lane l c))) (by rw [shortWay_norm]; exact hu) (shortWay_w _) hW0 hW1
  obtain ⟨n1, n2, -⟩ := near_unit (M := 1) (D := 5 / 2 ^ 24) (fun c => (hi c).1) (by norm_num) (by norm_num) (by linarith) (by simpa using b2)
    (fun c => (hi c).2) (by norm_num)
  set R := identityQ + W • (shortWay (fun c => val (q.lane l c)) - identityQ) with hR
  have hs : 7 / 10 ≤ √(norm2 R) := by
    apply Real.le_sqrt_of_sq_le; norm_num; linarith
  refine ⟨n1, ?_, ?_⟩
  · unfold partly
    rw [← hR, ← toQuat_sub]
    refine (norm_toQuat_le (e := 40 / 2 ^ 24) fun c => ?_).trans (by norm_num)
    refine (n2 c).trans ?_
    have : 3 * (5 / 2 ^ 24) / √(norm2 R) ≤ 3 * (5 / 2 ^ 24) / (7 / 10) := div_le_div_of_nonneg_left (by positivity) (by norm_num) hs
    refine (add_le_add_left this _).trans ?_
    norm_num
  · unfold partly
    rw [← hR, norm_toQuat, norm2_unitOf, Real.sqrt_one]
    intro h
    rw [h] at b1
    simp [norm2] at b1
    norm_num at b1

/-! ## Products of quaternions -/

theorem sub_near {s a b : ℝ} {e f g : ℝ} {x y : ℝ} (h : |s - (a - b)| ≤ e) (ha : |a - x| ≤ f) (hb : |b - y| ≤ g) :
    |s - (x - y)| ≤ e + f + g := by
  rw [abs_le] at *
  constructor <;> linarith [h.1, h.2, ha.1, ha.2, hb.1, hb.2]

theorem sub_bound2 {x y : F32} (hx : Finite32 x.bits) (hy : Finite32 y.bits) {X Y : ℝ} (hX : |val x| ≤ X) (hY : |val y| ≤ Y)
    (hB : X + Y ≤ 2 ^ 127) :
    Finite32 (x - y).bits ∧ |val (x - y) - (val x - val y)| ≤ (X + Y) / 2 ^ 24 ∧ |val (x - y)| ≤ X + Y + (X + Y) / 2 ^ 24 :=
  F32.sub_bound hx hy ((abs_sub _ _).trans (add_le_add hX hY)) hB

/-- `x0*y0 + x1*y1 + x2*y2 - x3*y3` and `x0*y0 - x1*y1 - x2*y2 - x3*y3`. -/
theorem qcomp_ok {x0 x1 x2 x3 y0 y1 y2 y3 : F32} (h0 : Finite32 x0.bits) (h1 : Finite32 x1.bits) (h2 : Finite32 x2.bits)
    (h3 : Finite32 x3.bits) (g0 : Finite32 y0.bits) (g1 : Finite32 y1.bits) (g2 : Finite32 y2.bits) (g3 : Finite32 y3.bits)
    {S : ℝ} (hS : |val x0 * val y0| + |val x1 * val y1| + |val x2 * val y2| + |val x3 * val y3| ≤ S) (hB : S ≤ 2 ^ 120) :
    (Finite32 (x0 * y0 + x1 * y1 + x2 * y2 - x3 * y3).bits ∧
      |val (x0 * y0 + x1 * y1 + x2 * y2 - x3 * y3) -
        (val x0 * val y0 + val x1 * val y1 + val x2 * val y2 - val x3 * val y3)| ≤ 5 * S / 2 ^ 24 + 1 / 2 ^ 147) ∧
    (Finite32 (x0 * y0 - x1 * y1 - x2 * y2 - x3 * y3).bits ∧
      |val (x0 * y0 - x1 * y1 - x2 * y2 - x3 * y3) -
        (val x0 * val y0 - val x1 * val y1 - val x2 * val y2 - val x3 * val y3)| ≤ 5 * S / 2 ^ 24 + 1 / 2 ^ 147) := by
  have n0 := abs_nonneg (val x0 * val y0)
  have n1 := abs_nonneg (val x1 * val y1)
  have n2 := abs_nonneg (val x2 * val y2)
  have n3 := abs_nonneg (val x3 * val y3)
  have hB' : S ≤ 2 ^ 126 := hB.trans (by norm_num)
  obtain ⟨f0, e0, b0⟩ := mul_bound h0 g0 le_rfl (by linarith only [hS, hB', n0, n1, n2, n3])
  obtain ⟨f1, e1, b1⟩ := mul_bound h1 g1 le_rfl (by linarith only [hS, hB', n0, n1, n2, n3])
  obtain ⟨f2, e2, b2⟩ := mul_bound h2 g2 le_rfl (by linarith only [hS, hB', n0, n1, n2, n3])
  obtain ⟨f3, e3, b3⟩ := mul_bound h3 g3 le_rfl (by linarith only [hS, hB', n0, n1, n2, n3])
  generalize |val x0 * val y0| = P0 at *
  generalize |val x1 * val y1| = P1 at *
  generalize |val x2 * val y2| = P2 at *
  generalize |val x3 * val y3| = P3 at *
  constructor
  · obtain ⟨f4, e4, b4⟩ := add_bound f0 f1 b0 b1 (by norm_num at hB ⊢; linarith)
    obtain ⟨f5, e5, b5⟩ := add_bound f4 f2 b4 b2 (by norm_num at hB ⊢; linarith)
    obtain ⟨f6, e6, -⟩ := sub_bound2 f5 f3 b5 b3 (by norm_num at hB ⊢; linarith)
    refine ⟨f6, ?_⟩
    have r1 := sum_near e4 e0 e1
    have r2 := sum_near e5 r1 e2
    have r3 := sub_near e6 r2 e3
    refine r3.trans ?_
    norm_num at hS ⊢
    linarith
  · obtain ⟨f4, e4, b4⟩ := sub_bound2 f0 f1 b0 b1 (by norm_num at hB ⊢; linarith)
    obtain ⟨f5, e5, b5⟩ := sub_bound2 f4 f2 b4 b2 (by norm_num at hB ⊢; linarith)
    obtain ⟨f6, e6, -⟩ := sub_bound2 f5 f3 b5 b3 (by norm_num at hB ⊢; linarith)
    refine ⟨f6, ?_⟩
    have r1 := sub_near e4 e0 e1
    have r2 := sub_near e5 r1 e2
    have r3 := sub_near e6 r2 e3
    refine r3.trans ?_
    norm_num at hS ⊢
    linarith

theorem abs_mul_le_half (a b : ℝ) : |a * b| ≤ (a ^ 2 + b ^ 2) / 2 := by
  rw [abs_le]
  constructor <;> nlinarith [sq_nonneg (a + b), sq_nonneg (a - b)]

theorem toQuat_prod (a b : F4 ℝ) : toQuat a * toQuat b = toQuat (f4 (a 3 * b 0 + a 0 * b 3 + a 1 * b 2 - a 2 * b 1)
    (a 3 * b 1 + a 1 * b 3 + a 2 * b 0 - a 0 * b 2) (a 3 * b 2 + a 2 * b 3 + a 0 * b 1 - a 1 * b 0)
    (a 3 * b 3 - a 0 * b 0 - a 1 * b 1 - a 2 * b 2)) := by
  ext <;> simp <;> ring

theorem qmul_ok {a b : SoaQuat F32} {l : Fin 4} (ha : ∀ c, Finite32 (a.lane l c).bits) (hb : ∀ c, Finite32 (b.lane l c).bits)
    (na : norm2 (fun c => val (a.lane l c)) ≤ 102 / 100) (nb : norm2 (fun c => val (b.lane l c)) ≤ 102 / 100) :
    (∀ c, Finite32 ((a.mul b).lane l c).bits) ∧
    ‖toQuat (fun c => val ((a.mul b).lane l c)) - toQuat (fun c => val (a.lane l c)) * toQuat (fun c => val (b.lane l c))‖ ≤ 11 / 2 ^ 24 := by
  have na' : val (a.lane l 0) ^ 2 + val (a.lane l 1) ^ 2 + val (a.lane l 2) ^ 2 + val (a.lane l 3) ^ 2 ≤ 102 / 100 := na
  have nb' : val (b.lane l 0) ^ 2 + val (b.lane l 1) ^ 2 + val (b.lane l 2) ^ 2 + val (b.lane l 3) ^ 2 ≤ 102 / 100 := nb
  have h := fun i j => abs_mul_le_half (val (a.lane l i)) (val (b.lane l j))
  have c0 := (qcomp_ok (S := 102 / 100) (ha 3) (ha 0) (ha 1) (ha 2) (hb 0) (hb 3) (hb 2) (hb 1)
    (by linarith [h 3 0, h 0 3, h 1 2, h 2 1]) (by norm_num)).1
  have c1 := (qcomp_ok (S := 102 / 100) (ha 3) (ha 1) (ha 2) (ha 0) (hb 1) (hb 3) (hb 0) (hb 2)
    (by linarith [h 3 1, h 1 3, h 2 0, h 0 2]) (by norm_num)).1
  have c2 := (qcomp_ok (S := 102 / 100) (ha 3) (ha 2) (ha 0) (ha 1) (hb 2) (hb 3) (hb 1) (hb 0)
    (by linarith [h 3 2, h 2 3, h 0 1, h 1 0]) (by norm_num)).1
  have c3 := (qcomp_ok (S := 102 / 100) (ha 3) (ha 0) (ha 1) (ha 2) (hb 3) (hb 0) (hb 1) (hb 2)
    (by linarith [h 3 3, h 0 0, h 1 1, h 2 2]) (by norm_num)).2
  set P : F4 ℝ := f4
    (val (a.lane l 3) * val (b.lane l 0) + val (a.lane l 0) * val (b.lane l 3) + val (a.lane l 1) * val (b.lane l 2) - val (a.lane l 2) * val (b.lane l 1))
    (val (a.lane l 3) * val (b.lane l 1) + val (a.lane l 1) * val (b.lane l 3) + val (a.lane l 2) * val (b.lane l 0) - val (a.lane l 0) * val (b.lane l 2))
    (val (a.lane l 3) * val (b.lane l 2) + val (a.lane l 2) * val (b.lane l 3) + val (a.lane l 0) * val (b.lane l 1) - val (a.lane l 1) * val (b.lane l 0))
    (val (a.lane l 3) * val (b.lane l 3) - val (a.lane l 0) * val (b.lane l 0) - val (a.lane l 1) * val (b.lane l 1) - val (a.lane l 2) * val (b.lane l 2))
    with hP
  have hprod : toQuat (fun c => val (a.lane l c)) * toQuat (fun c => val (b.lane l c)) = toQuat P := by
    rw [hP]; exact toQuat_prod _ _
  have hle : (5:ℝ) * (102 / 100) / 2 ^ 24 + 1 / 2 ^ 147 ≤ 11 / 2 / 2 ^ 24 := by norm_num
  have key : ∀ c, Finite32 ((a.mul b).lane l c).bits ∧ |val ((a.mul b).lane l c) - P c| ≤ 11 / 2 / 2 ^ 24 := by
    intro c
    fin_cases c
    · exact ⟨c0.1, c0.2.trans hle⟩
    · exact ⟨c1.1, c1.2.trans hle⟩
    · exact ⟨c2.1, c2.2.trans hle⟩
    · exact ⟨c3.1, c3.2.trans hle⟩
  refine ⟨fun c => (key c).1, ?_⟩
  rw [hprod, ← toQuat_sub]
  exact (norm_toQuat_le fun c => (key c).2).trans (by norm_num)

/-- Rotation after one more layer. -/
theorem rotation_step {a b : SoaQuat F32} {l : Fin 4} {R Q : Quaternion ℝ} {e : ℝ} (ha : ∀ c, Finite32 (a.lane l c).bits)
    (hb : ∀ c, Finite32 (b.lane l c).bits) (hR : ‖R‖ ≤ 1001 / 1000) (hQ : ‖Q‖ = 1)
    (he : e ≤ 4 / 1000) (h : ‖toQuat (fun c => val (a.lane l c)) - R‖ ≤ e) (hq : ‖toQuat (fun c => val (b.lane l c)) - Q‖ ≤ 80 / 2 ^ 24) :
    (∀ c, Finite32 ((a.mul b).lane l c).bits) ∧ ‖toQuat (fun c => val ((a.mul b).lane l c)) - R * Q‖ ≤ e + 100 / 2 ^ 24 := by
  set A := toQuat (fun c => val (a.lane l c)) with hA
  set B := toQuat (fun c => val (b.lane l c)) with hB
  have nA : ‖A‖ ≤ 1006 / 1000 := by
    have := norm_add_le (A - R) R
    rw [sub_add_cancel] at this
    linarith
  have nB : ‖B‖ ≤ 1006 / 1000 := by
    have := norm_add_le (B - Q) Q
    rw [sub_add_cancel, hQ] at this
    norm_num at hq; linarith
  have sq : ∀ q : F4 ℝ, ‖toQuat q‖ ≤ 1006 / 1000 → norm2 q ≤ 102 / 100 := by
    intro q hq
    have := pow_le_pow_left₀ (norm_nonneg _) hq 2
    rw [norm_toQuat, Real.sq_sqrt (norm2_nonneg q)] at this
    norm_num at this ⊢; linarith
  obtain ⟨f, e1⟩ := qmul_ok ha hb (sq _ nA) (sq _ nB)
  refine ⟨f, ?_⟩
  rw [← hA, ← hB] at e1
  have e2 : ‖A * (B - Q)‖ ≤ 1006 / 1000 * (80 / 2 ^ 24) := by
    rw [norm_mul]; exact mul_le_mul nA hq (norm_nonneg _) (by norm_num)
  have e3 : ‖(A - R) * Q‖ ≤ e := by rw [norm_mul, hQ, mul_one]; exact h
  have t1 := norm_add_le (toQuat (fun c => val ((a.mul b).lane l c)) - A * B) (A * (B - Q) + (A - R) * Q)
  have t2 := norm_add_le (A * (B - Q)) ((A - R) * Q)
  rw [show toQuat (fun c => val ((a.mul b).lane l c)) - A * B + (A * (B - Q) + (A - R) * Q) =
    toQuat (fun c => val ((a.mul b).lane l c)) - R * Q by noncomm_ring] at t1
  have e2' := e2.trans (show (1006:ℝ) / 1000 * (80 / 2 ^ 24) ≤ 81 / 2 ^ 24 by norm_num)
  have e4 : (11:ℝ) / 2 ^ 24 + 81 / 2 ^ 24 ≤ 100 / 2 ^ 24 := by norm_num
  linarith

/-! ## Translation and scale -/

theorem translation_step {o x w : F32} {S W B e : ℝ} (ho : Finite32 o.bits) (hx : Finite32 x.bits) (hw : Finite32 w.bits)
    (hB : 1 / 2 ^ 60 ≤ B) (hB2 : B ≤ 2 ^ 60) (hxB : |val x| ≤ B) (hW0 : 0 ≤ W) (hW1 : W ≤ 1)
    (hW : |val w - W| ≤ 1 / 2 ^ 24 + 1 / 2 ^ 150) (hS : |val o - S| ≤ e) (hSB : |S| ≤ B) (he : e ≤ B / 8) :
    (Finite32 (o + x * w).bits ∧ |val (o + x * w) - (S + W * val x)| ≤ e + 7 * B / 2 ^ 24) ∧
    (Finite32 (o - x * w).bits ∧ |val (o - x * w) - (S - W * val x)| ≤ e + 7 * B / 2 ^ 24) := by
  have B0 : 0 < B := lt_of_lt_of_le (by positivity) hB
  obtain ⟨pf, pe, pb⟩ := scaled_ok (M := 1) (e := 1 / 2 ^ 24 + 1 / 2 ^ 150) hx hw (by norm_num) (by norm_num) hB hB2 hxB (by norm_num) hW
    (by rw [abs_of_nonneg hW0]; exact hW1)
  rw [abs_of_nonneg hW0] at pb
  have pe' : |val (x * w) - W * val x| ≤ 22 / 10 * B / 2 ^ 24 := by
    refine pe.trans ?_
    norm_num
    linarith
  have pb' : |val (x * w)| ≤ 11 / 10 * B := by
    have h1 : W * B ≤ 1 * B := mul_le_mul_of_nonneg_right hW1 B0.le
    refine pb.trans ?_
    norm_num
    linarith
  have o1 : |val o| ≤ 9 / 8 * B := by
    have := abs_add_le (val o - S) S
    rw [sub_add_cancel] at this
    linarith
  constructor
  · obtain ⟨f, e1, -⟩ := add_bound ho pf o1 pb' (by norm_num at hB2 ⊢; linarith)
    refine ⟨f, ?_⟩
    refine (sum_near e1 hS pe').trans ?_
    norm_num
    linarith
  · obtain ⟨f, e1, -⟩ := sub_bound2 ho pf o1 pb' (by norm_num at hB2 ⊢; linarith)
    refine ⟨f, ?_⟩
    refine (sub_near e1 hS pe').trans ?_
    norm_num
    linarith

/-- The factor of a scale. -/
theorem factor_ok {x w : F32} {W : ℝ} (hx : Finite32 x.bits) (hw : Finite32 w.bits) (hx0 : 1 / 4 ≤ val x) (hx1 : val x ≤ 4)
    (hW0 : 0 ≤ W) (hW1 : W ≤ 1) (hW : |val w - W| ≤ 1 / 2 ^ 24 + 1 / 2 ^ 150) :
    1 / 4 ≤ 1 + W * (val x - 1) ∧ 1 + W * (val x - 1) ≤ 4 ∧
    (Finite32 ((F32.one - w) + x * w).bits ∧ |val ((F32.one - w) + x * w) - (1 + W * (val x - 1))| ≤ 16 / 2 ^ 24) ∧
    (Finite32 (x * w + (F32.one - w)).bits ∧ |val (x * w + (F32.one - w)) - (1 + W * (val x - 1))| ≤ 16 / 2 ^ 24) := by
  have hw' := abs_le.mp hW
  refine ⟨by nlinarith, by nlinarith, ?_⟩
  have w0 : |1 - val w| ≤ 1001 / 1000 := by
    rw [abs_le]; norm_num at hw' ⊢; constructor <;> linarith [hw'.1, hw'.2]
  obtain ⟨f1, e1, b1⟩ := F32.sub_bound one_finite hw (B := 1001 / 1000) (by rw [valOne]; exact w0) (by norm_num)
  rw [valOne] at e1
  have e1' : |val (F32.one - w) - (1 - W)| ≤ 201 / 100 / 2 ^ 24 := by
    have h1 := abs_add_le (val (F32.one - w) - (1 - val w)) (-(val w - W))
    rw [show val (F32.one - w) - (1 - val w) + -(val w - W) = val (F32.one - w) - (1 - W) by ring, abs_neg] at h1
    refine h1.trans ((add_le_add e1 hW).trans ?_)
    norm_num
  obtain ⟨f2, e2, b2⟩ := scaled_ok (M := 1) (B := 4) (e := 1 / 2 ^ 24 + 1 / 2 ^ 150) hx hw (by norm_num) (by norm_num) (by norm_num)
    (by norm_num) (by rw [abs_of_nonneg (by linarith)]; exact hx1) (by norm_num) hW (by rw [abs_of_nonneg hW0]; exact hW1)
  have b2' : |val (x * w)| ≤ 41 / 10 := by
    rw [abs_of_nonneg hW0] at b2
    refine b2.trans ?_
    norm_num
    linarith
  have b1' : |val (F32.one - w)| ≤ 11 / 10 := b1.trans (by norm_num)
  have e2' := e2.trans (show (4:ℝ) * (1 / 2 ^ 24 + 1 / 2 ^ 150) + 11 / 10 * (4 * 1) / 2 ^ 24 ≤ 85 / 10 / 2 ^ 24 by norm_num)
  have eq : 1 + W * (val x - 1) = (1 - W) + W * val x := by ring
  have eq' : 1 + W * (val x - 1) = W * val x + (1 - W) := by ring
  constructor
  · obtain ⟨f3, e3, -⟩ := add_bound f1 f2 b1' b2' (by norm_num)
    refine ⟨f3, ?_⟩
    rw [eq]
    refine (sum_near e3 e1' e2').trans ?_
    norm_num
  · obtain ⟨f3, e3, -⟩ := add_bound f2 f1 b2' b1' (by norm_num)
    refine ⟨f3, ?_⟩
    rw [eq']
    refine (sum_near e3 e2' e1').trans ?_
    norm_num

/-- A product whose factors are known up to relative errors. -/
theorem relative_mul {o g : F32} {S F ρ : ℝ} (ho : Finite32 o.bits) (hg : Finite32 g.bits) (hF0 : 1 / 4 ≤ F) (hF1 : F ≤ 4)
    (hS : |val o - S| ≤ ρ * |S|) (hρ0 : 0 ≤ ρ) (hρ : ρ ≤ 1 / 100) (hG : |val g - F| ≤ 66 / 2 ^ 24 * F) (hS1 : |S| ≤ 2 ^ 60)
    (hSF : 1 / 2 ^ 60 ≤ |S * F|) :
    Finite32 (o * g).bits ∧ |val (o * g) - S * F| ≤ (ρ + 70 / 2 ^ 24) * |S * F| := by
  have F0 : 0 < F := by linarith
  have S0 := abs_nonneg S
  have eSF : |S * F| = |S| * F := by rw [abs_mul, abs_of_pos F0]
  -- the exact product of the floats
  have h1 : |val o * val g - S * F| ≤ (ρ + 68 / 2 ^ 24) * (|S| * F) := by
    have e : val o * val g - S * F = (val o - S) * (val g - F) + (val o - S) * F + S * (val g - F) := by ring
    rw [e]
    have a1 : |(val o - S) * (val g - F)| ≤ 1 / 100 * |S| * (66 / 2 ^ 24 * F) := by
      rw [abs_mul]
      refine mul_le_mul (hS.trans (mul_le_mul_of_nonneg_right hρ S0)) hG (abs_nonneg _) (by positivity)
    have a2 : |(val o - S) * F| ≤ ρ * |S| * F := by
      rw [abs_mul, abs_of_pos F0]; exact mul_le_mul_of_nonneg_right hS F0.le
    have a3 : |S * (val g - F)| ≤ |S| * (66 / 2 ^ 24 * F) := by
      rw [abs_mul]; exact mul_le_mul_of_nonneg_left hG S0
    have t1 := abs_add_le ((val o - S) * (val g - F) + (val o - S) * F) (S * (val g - F))
    have t2 := abs_add_le ((val o - S) * (val g - F)) ((val o - S) * F)
    have p0 : 0 ≤ |S| * F := mul_nonneg S0 F0.le
    have e4 : ρ * |S| * F = ρ * (|S| * F) := by ring
    have e5 : 1 / 100 * |S| * (66 / 2 ^ 24 * F) = 66 / 100 / 2 ^ 24 * (|S| * F) := by ring
    have e6 : |S| * (66 / 2 ^ 24 * F) = 66 / 2 ^ 24 * (|S| * F) := by ring
    rw [e4] at a2
    rw [e5] at a1
    rw [e6] at a3
    rw [add_mul]
    generalize ρ * (|S| * F) = r at *
    generalize |S| * F = P at *
    have e7 : (66:ℝ) / 100 / 2 ^ 24 * P + 66 / 2 ^ 24 * P ≤ 68 / 2 ^ 24 * P := by
      rw [← add_mul]; exact mul_le_mul_of_nonneg_right (by norm_num) p0
    linarith
  have hsf4 : |S| * F ≤ 2 ^ 60 * 4 := mul_le_mul hS1 hF1 F0.le (by positivity)
  have p0 : 0 ≤ |S| * F := mul_nonneg S0 F0.le
  have h2 : |val o * val g| ≤ 102 / 100 * (|S| * F) := by
    have := abs_add_le (val o * val g - S * F) (S * F)
    rw [sub_add_cancel, eSF] at this
    have h3 : (ρ + 68 / 2 ^ 24) * (|S| * F) ≤ 2 / 100 * (|S| * F) := mul_le_mul_of_nonneg_right (by norm_num; linarith) p0
    linarith
  obtain ⟨f, e⟩ := mul_ok ho hg (h2.trans (by norm_num at hsf4 ⊢; linarith))
  refine ⟨f, ?_⟩
  rw [eSF] at hSF ⊢
  have t := abs_add_le (val (o * g) - val o * val g) (val o * val g - S * F)
  rw [sub_add_sub_cancel] at t
  have e1 := div_le_div_of_nonneg_right h2 (by positivity : (0:ℝ) ≤ 2 ^ 24)
  have e2 : (1:ℝ) / 2 ^ 150 ≤ 1 / 2 ^ 90 * (|S| * F) := by
    refine le_trans ?_ (mul_le_mul_of_nonneg_left hSF (by positivity))
    norm_num
  rw [add_mul] at h1 ⊢
  generalize ρ * (|S| * F) = r at *
  generalize |S| * F = P at *
  have e3 : 102 / 100 * P / 2 ^ 24 + 1 / 2 ^ 90 * P + 68 / 2 ^ 24 * P ≤ 70 / 2 ^ 24 * P := by
    have : 102 / 100 * P / 2 ^ 24 + 1 / 2 ^ 90 * P + 68 / 2 ^ 24 * P = (102 / 100 / 2 ^ 24 + 1 / 2 ^ 90 + 68 / 2 ^ 24) * P := by ring
    rw [this]
    exact mul_le_mul_of_nonneg_right (by norm_num) p0
  linarith

/-- One over a factor. -/
theorem recip_factor {g : F32} {F : ℝ} (hg : Finite32 g.bits) (hF0 : 1 / 4 ≤ F) (hF1 : F ≤ 4) (hG : |val g - F| ≤ 16 / 2 ^ 24) :
    Finite32 (F32.one / g).bits ∧ |val (F32.one / g) - F⁻¹| ≤ 66 / 2 ^ 24 * F⁻¹ := by
  have F0 : 0 < F := by linarith
  have hg' := abs_le.mp hG
  have g0 : 99 / 400 ≤ val g := by norm_num at hg'; linarith [hg'.1]
  have gp : 0 < val g := by linarith
  have hinv : |1 / val g| ≤ 5 := by
    rw [abs_of_pos (by positivity), div_le_iff₀ gp]; linarith
  obtain ⟨f, e⟩ := div_ok one_finite hg gp.ne' (by rw [valOne]; exact hinv.trans (by norm_num))
  rw [valOne] at e
  refine ⟨f, ?_⟩
  have hFi : (1:ℝ) / 4 ≤ F⁻¹ := by rw [one_div]; exact inv_anti₀ F0 hF1
  have h1 : |1 / val g - F⁻¹| ≤ 647 / 10 / 2 ^ 24 * F⁻¹ := by
    have e1 : 1 / val g - F⁻¹ = (F - val g) / val g * F⁻¹ := by field_simp
    rw [e1, abs_mul, abs_of_pos (inv_pos.mpr F0)]
    apply mul_le_mul_of_nonneg_right _ (inv_pos.mpr F0).le
    rw [abs_div, abs_of_pos gp, div_le_iff₀ gp, abs_sub_comm]
    refine hG.trans ?_
    refine le_trans ?_ (mul_le_mul_of_nonneg_left g0 (by positivity))
    norm_num
  have h2 : |1 / val g| ≤ 101 / 100 * F⁻¹ := by
    have := abs_add_le (1 / val g - F⁻¹) F⁻¹
    rw [sub_add_cancel, abs_of_pos (inv_pos.mpr F0)] at this
    have h3 : 647 / 10 / 2 ^ 24 * F⁻¹ ≤ 1 / 100 * F⁻¹ := mul_le_mul_of_nonneg_right (by norm_num) (inv_pos.mpr F0).le
    linarith
  have t := abs_add_le (val (F32.one / g) - 1 / val g) (1 / val g - F⁻¹)
  rw [sub_add_sub_cancel] at t
  generalize 1 / val g = y at *
  generalize F⁻¹ = z at *
  norm_num at e h1 ⊢
  linarith

/-! ## One layer -/

section

variable {α : Type} [Add α] [Sub α] [Mul α] [Div α] [Neg α] [NumOps α]

theorem blendAdd_scale (t o : SoaTransform α) (w : F4 α) (l c : Fin 4) (hc : c ≠ 3) :
    (blendAdd t w (one4 - w) o).scale.lane l c = o.scale.lane l c * ((NumOps.one - w l) + t.scale.lane l c * w l) := by
  fin_cases c
  · rfl
  · rfl
  · rfl
  · exact absurd rfl hc

theorem blendSub_scale (t o : SoaTransform α) (w : F4 α) (l c : Fin 4) (hc : c ≠ 3) :
    (blendSub t w (one4 - w) o).scale.lane l c = o.scale.lane l c * (NumOps.one / (t.scale.lane l c * w l + (NumOps.one - w l))) := by
  fin_cases c
  · rfl
  · rfl
  · rfl
  · exact absurd rfl hc

theorem blendAdd_translation (t o : SoaTransform α) (w : F4 α) (l c : Fin 4) (hc : c ≠ 3) :
    (blendAdd t w (one4 - w) o).translation.lane l c = o.translation.lane l c + t.translation.lane l c * w l := by
  fin_cases c
  · rfl
  · rfl
  · rfl
  · exact absurd rfl hc

theorem blendSub_translation (t o : SoaTransform α) (w : F4 α) (l c : Fin 4) (hc : c ≠ 3) :
    (blendSub t w (one4 - w) o).translation.lane l c = o.translation.lane l c - t.translation.lane l c * w l := by
  fin_cases c
  · rfl
  · rfl
  · rfl
  · exact absurd rfl hc

theorem lane3_3 (v : SoaVec3 α) (l : Fin 4) : v.lane l 3 = NumOps.zero := rfl

end

theorem conjugate_ok {q : SoaQuat F32} {l : Fin 4} {e : ℝ} {Q : Quaternion ℝ} (hq : ∀ c, Finite32 (q.lane l c).bits)
    (h : ‖toQuat (fun c => val (q.lane l c)) - Q‖ ≤ e) :
    (∀ c, Finite32 (q.conjugate.lane l c).bits) ∧ ‖toQuat (fun c => val (q.conjugate.lane l c)) - star Q‖ ≤ e := by
  have key : toQuat (fun c => val (q.conjugate.lane l c)) = star (toQuat (fun c => val (q.lane l c))) := by
    have n : ∀ x : F32, val (-x) = -val x := neg_real
    ext
    · rw [toQuat_re, Quaternion.re_star, toQuat_re]; rfl
    · rw [toQuat_imI, Quaternion.imI_star, toQuat_imI]; exact n _
    · rw [toQuat_imJ, Quaternion.imJ_star, toQuat_imJ]; exact n _
    · rw [toQuat_imK, Quaternion.imK_star, toQuat_imK]; exact n _
  constructor
  · intro c
    fin_cases c
    · exact neg_finite.mpr (hq 0)
    · exact neg_finite.mpr (hq 1)
    · exact neg_finite.mpr (hq 2)
    · exact hq 3
  · rw [key, ← star_sub, norm_star]; exact h

theorem addOne_norm {i : Nat} {l : Fin 4} {p : LanePose} {y : Layer ℝ}
    (h : y.weight ≠ 0 → ‖partly |addWeight y i l| ((poseOf y i).rotation.lane l)‖ = 1) :
    ‖(addOne i l p y).rotation‖ = ‖p.rotation‖ := by
  by_cases h0 : y.weight = 0
  · rw [addOne_weightless h0]
  · have h1 := h h0
    rcases le_total 0 (addWeight y i l) with hw | hw
    · rw [abs_of_nonneg hw] at h1
      rw [addOne_add hw, norm_mul, h1, mul_one]
    · rw [abs_of_nonpos hw] at h1
      rw [addOne_sub hw, norm_mul, norm_star, h1, mul_one]

theorem near_mono {l : Fin 4} {B : ℝ} {k m : Nat} {p : LanePose} {o : SoaTransform F32} (hB : 0 ≤ B) (hkm : k ≤ m)
    (h : NearPose l B k p o) : NearPose l B m p o := by
  have hk : (k:ℝ) ≤ m := by exact_mod_cast hkm
  refine ⟨h.translationFinite, fun c => (h.translation c).trans ?_, h.rotationFinite, h.rotation.trans ?_, h.scaleFinite,
    fun c => (h.scale c).trans ?_⟩
  · gcongr
  · gcongr
  · gcongr

theorem near_step {y : Layer F32} {i : Nat} {l : Fin 4} {B : ℝ} {k : Nat} {p : LanePose} {o : SoaTransform F32}
    (hB : 1 / 2 ^ 60 ≤ B) (hB2 : B ≤ 2 ^ 60) (hk : k < 512) (h : NearPose l B k p o) (hp : PoseWithin B p)
    (hp' : PoseWithin B (addOne i l p (valLayer y))) (hy : Additive32Ok y i l B) (hR : ‖p.rotation‖ ≤ 1001 / 1000) :
    NearPose l B (k + 1) (addOne i l p (valLayer y)) (additiveStep i o y) ∧
      ‖(addOne i l p (valLayer y)).rotation‖ = ‖p.rotation‖ := by
  have B0 : 0 < B := lt_of_lt_of_le (by positivity) hB
  have hk' : (k:ℝ) ≤ 511 := by exact_mod_cast Nat.le_of_lt_succ hk
  have k0 : (0:ℝ) ≤ k := Nat.cast_nonneg k
  have eT : 7 * (k:ℝ) * B / 2 ^ 24 ≤ B / 8 := by
    have : (k:ℝ) * B ≤ 511 * B := mul_le_mul_of_nonneg_right hk' B0.le
    norm_num
    linarith
  have eR : 100 * (k:ℝ) / 2 ^ 24 ≤ 4 / 1000 := by norm_num; linarith
  have eS : 70 * (k:ℝ) / 2 ^ 24 ≤ 1 / 100 := by norm_num; linarith
  -- the fourth coordinates
  have s3 : p.scale 3 = 0 := by
    have h3 := h.scale 3
    rw [lane3_3] at h3
    change |val F32.zero - p.scale 3| ≤ _ at h3
    rw [valZero, zero_sub, abs_neg, mul_div_right_comm] at h3
    have : 70 * (k:ℝ) / 2 ^ 24 * |p.scale 3| ≤ 1 / 100 * |p.scale 3| := mul_le_mul_of_nonneg_right eS (abs_nonneg _)
    exact abs_eq_zero.mp (le_antisymm (by linarith) (abs_nonneg _))
  by_cases h0 : val y.weight = 0
  · -- a layer without weight
    have ez : NumOps.lt NumOps.zero y.weight = false := by
      rw [Bool.eq_false_iff]
      intro hc
      have := (lt_val32 zero_finite hy.weight).mp hc
      rw [valZero, h0] at this
      exact lt_irrefl _ this
    have ez2 : NumOps.lt y.weight NumOps.zero = false := by
      rw [Bool.eq_false_iff]
      intro hc
      have := (lt_val32 hy.weight zero_finite).mp hc
      rw [valZero, h0] at this
      exact lt_irrefl _ this
    have e1 : additiveStep i o y = o := by
      unfold additiveStep
      simp only [ez, ez2, Bool.false_eq_true, if_false]
    rw [addOne_weightless h0, e1]
    exact ⟨near_mono B0.le (Nat.le_succ k) h, rfl⟩
  obtain ⟨ts, t, ht1, ht2, hpose, hs4⟩ := hy.pose h0
  have epose : y.poseAt i = t := by
    unfold Layer.poseAt
    rw [ht1]
    simp only [ht2, Option.getD_some]
  have eval' := poseOf_val y i
  rw [epose] at eval'
  have elane : ∀ c, (valTransform t).translation.lane l c = val (t.translation.lane l c) := fun c => (lane_val t l c).1
  have elanes : ∀ c, (valTransform t).scale.lane l c = val (t.scale.lane l c) := fun c => (lane_val t l c).2.2
  have eq : (valTransform t).rotation.lane l = fun c => val (t.rotation.lane l c) := funext fun c => (lane_val t l c).2.1
  have eo : toQuat (fun c => val (o.rotation.lane l c)) = (lanePose (valTransform o) l).rotation := by
    change _ = toQuat ((valTransform o).rotation.lane l)
    congr 1
    exact (funext fun c => (lane_val o l c).2.1).symm
  have eout : ∀ o' : SoaTransform F32, (lanePose (valTransform o') l).rotation = toQuat (fun c => val (o'.rotation.lane l c)) := by
    intro o'
    change toQuat ((valTransform o').rotation.lane l) = _
    congr 1
    exact funext fun c => (lane_val o' l c).2.1
  have hu := hpose.rotation
  rw [eq] at hu
  have t3 : val (t.translation.lane l 3) = 0 := by rw [lane3_3]; exact valZero
  have eT1 : ∀ x : ℝ, x ≤ 7 * k * B / 2 ^ 24 + 7 * B / 2 ^ 24 → x ≤ 7 * ((k + 1 : Nat) : ℝ) * B / 2 ^ 24 := by
    intro x hx
    refine hx.trans (le_of_eq ?_)
    push_cast
    ring
  have eR1 : ∀ x : ℝ, x ≤ 100 * k / 2 ^ 24 + 100 / 2 ^ 24 → x ≤ 100 * ((k + 1 : Nat) : ℝ) / 2 ^ 24 := by
    intro x hx
    refine hx.trans (le_of_eq ?_)
    push_cast
    ring
  have eS1 : ∀ x z : ℝ, x ≤ (70 * k / 2 ^ 24 + 70 / 2 ^ 24) * z → x ≤ 70 * ((k + 1 : Nat) : ℝ) * z / 2 ^ 24 := by
    intro x z hx
    refine hx.trans (le_of_eq ?_)
    push_cast
    ring
  have oS : ∀ c, |val (o.scale.lane l c) - p.scale c| ≤ 70 * k / 2 ^ 24 * |p.scale c| := by
    intro c
    refine (h.scale c).trans (le_of_eq ?_)
    ring
  have oT3 : ∀ e, |val F32.zero - p.translation 3| ≤ e → |val F32.zero - (p.translation 3 + 0)| ≤ e := by
    intro e he; rw [add_zero]; exact he
  have hz3 := h.translation 3
  rw [lane3_3] at hz3
  change |val F32.zero - p.translation 3| ≤ _ at hz3
  obtain ⟨f, hf0, ef, -⟩ := addFactor (valLayer y) i l
  rcases lt_or_gt_of_ne h0 with hneg | hpos
  · -- taken away
    have ez : NumOps.lt NumOps.zero y.weight = false := by
      rw [Bool.eq_false_iff]
      intro hc
      have := (lt_val32 zero_finite hy.weight).mp hc
      rw [valZero] at this
      exact lt_asymm hneg this
    have ez2 : NumOps.lt y.weight NumOps.zero = true := (lt_val32 hy.weight zero_finite).mpr (by rw [valZero]; exact hneg)
    set x : F4 F32 := if y.isPartial then splat (-y.weight) * max4 (y.jointWeights[i]?.getD zero4) zero4 else splat (-y.weight) with hx
    have estep : additiveStep i o y = blendSub t x (one4 - x) o := by
      unfold additiveStep
      simp only [ez, ez2, if_true, Bool.false_eq_true, if_false, epose]
      rfl
    have hW0 : addWeight (valLayer y) i l ≤ 0 := by
      rw [ef]; exact mul_nonpos_of_nonpos_of_nonneg hneg.le hf0
    obtain ⟨wf, we⟩ := addWeight_ok hy (x := -y.weight) (neg_finite.mpr hy.weight) (W := -addWeight (valLayer y) i l)
      (.inr ⟨neg_real _, rfl⟩)
    rw [← hx] at wf we
    rw [addOne_sub hW0] at hp' ⊢
    have hW1 : -addWeight (valLayer y) i l ≤ 1 := by
      have := (abs_le.mp hy.range).1; linarith
    rw [eval'] at hp' ⊢
    have hW0' : 0 ≤ -addWeight (valLayer y) i l := by linarith
    generalize -addWeight (valLayer y) i l = W at *
    obtain ⟨q1, q2, q3⟩ := partly_ok hpose.rotationFinite hu wf hW0' hW1 we
    rw [← eq] at q2 q3
    obtain ⟨c1, c2⟩ := conjugate_ok q1 q2
    obtain ⟨r1, r2⟩ := rotation_step h.rotationFinite c1 hR (by rw [norm_star]; exact q3) eR (by rw [eo]; exact h.rotation) c2
    rw [estep]
    refine ⟨⟨?_, ?_, r1, ?_, ?_, ?_⟩, by rw [norm_mul, norm_star, q3, mul_one]⟩
    · intro c
      by_cases hc : c = 3
      · rw [hc, lane3_3]; exact zero_finite
      · rw [blendSub_translation _ _ _ _ _ hc]
        exact (translation_step (h.translationFinite c) (hpose.translationFinite c) wf hB hB2 (hpose.translation c) hW0' hW1 we
          (h.translation c) (hp.translation c) eT).2.1
    · intro c
      apply eT1
      by_cases hc : c = 3
      · subst hc
        have e3 : (p.translation - W • (valTransform t).translation.lane l) 3 = p.translation 3 := by
          change p.translation 3 - W * (valTransform t).translation.lane l 3 = _
          rw [elane, t3, mul_zero, sub_zero]
        rw [lane3_3]
        change |val F32.zero - (p.translation - W • (valTransform t).translation.lane l) 3| ≤ _
        rw [e3]
        have : 0 ≤ 7 * B / 2 ^ 24 := by positivity
        linarith
      · rw [blendSub_translation _ _ _ _ _ hc]
        have e3 : (p.translation - W • (valTransform t).translation.lane l) c = p.translation c - W * val (t.translation.lane l c) := by
          rw [← elane]; rfl
        change |_ - (p.translation - W • (valTransform t).translation.lane l) c| ≤ _
        rw [e3]
        exact (translation_step (h.translationFinite c) (hpose.translationFinite c) wf hB hB2 (hpose.translation c) hW0' hW1 we
          (h.translation c) (hp.translation c) eT).2.2
    · apply eR1
      rw [eout]
      exact r2
    · intro c
      by_cases hc : c = 3
      · rw [hc, lane3_3]; exact zero_finite
      · rw [blendSub_scale _ _ _ _ _ hc]
        obtain ⟨F0, F1, -, g1, g2⟩ := factor_ok (hpose.scaleFinite c) wf (hs4 c hc) ((le_abs_self _).trans (hpose.scale c)) hW0' hW1 we
        obtain ⟨u1, u2⟩ := recip_factor g1 F0 F1 g2
        have hlo := hp'.scale_ge c hc
        change _ ≤ |p.scale c / (1 + W * ((valTransform t).scale.lane l c - 1))| at hlo
        rw [elanes, div_eq_mul_inv] at hlo
        exact (relative_mul (h.scaleFinite c) u1 (by rw [one_div]; exact inv_anti₀ (by linarith) F1)
          ((inv_anti₀ (by norm_num) F0).trans (by norm_num)) (oS c) (by positivity) eS u2 (hp.scale_le c hc) hlo).1
    · intro c
      change |_ - p.scale c / (1 + W * ((valTransform t).scale.lane l c - 1))| ≤ 70 * ((k + 1 : Nat) : ℝ) * |p.scale c / (1 + W * ((valTransform t).scale.lane l c - 1))| / 2 ^ 24
      by_cases hc : c = 3
      · subst hc
        rw [lane3_3, s3, zero_div, abs_zero, mul_zero, zero_div, sub_zero]
        change |val F32.zero| ≤ 0
        rw [valZero, abs_zero]
      · apply eS1
        rw [blendSub_scale _ _ _ _ _ hc]
        obtain ⟨F0, F1, -, g1, g2⟩ := factor_ok (hpose.scaleFinite c) wf (hs4 c hc) ((le_abs_self _).trans (hpose.scale c)) hW0' hW1 we
        obtain ⟨u1, u2⟩ := recip_factor g1 F0 F1 g2
        have hlo := hp'.scale_ge c hc
        change _ ≤ |p.scale c / (1 + W * ((valTransform t).scale.lane l c - 1))| at hlo
        rw [elanes, div_eq_mul_inv] at hlo ⊢
        exact (relative_mul (h.scaleFinite c) u1 (by rw [one_div]; exact inv_anti₀ (by linarith) F1)
          ((inv_anti₀ (by norm_num) F0).trans (by norm_num)) (oS c) (by positivity) eS u2 (hp.scale_le c hc) hlo).2
  · -- added
    have ez : NumOps.lt NumOps.zero y.weight = true := (lt_val32 zero_finite hy.weight).mpr (by rw [valZero]; exact hpos)
    set x : F4 F32 := if y.isPartial then splat y.weight * max4 (y.jointWeights[i]?.getD zero4) zero4 else splat y.weight with hx
    have estep : additiveStep i o y = blendAdd t x (one4 - x) o := by
      unfold additiveStep
      simp only [ez, if_true, epose]
      rfl
    have hW0 : 0 ≤ addWeight (valLayer y) i l := by
      rw [ef]; exact mul_nonneg hpos.le hf0
    obtain ⟨wf, we⟩ := addWeight_ok hy (x := y.weight) hy.weight (W := addWeight (valLayer y) i l) (.inl ⟨rfl, rfl⟩)
    rw [← hx] at wf we
    rw [addOne_add hW0] at hp' ⊢
    have hW1 : addWeight (valLayer y) i l ≤ 1 := (abs_le.mp hy.range).2
    rw [eval'] at hp' ⊢
    generalize addWeight (valLayer y) i l = W at *
    obtain ⟨q1, q2, q3⟩ := partly_ok hpose.rotationFinite hu wf hW0 hW1 we
    rw [← eq] at q2 q3
    obtain ⟨r1, r2⟩ := rotation_step h.rotationFinite q1 hR q3 eR (by rw [eo]; exact h.rotation) q2
    rw [estep]
    refine ⟨⟨?_, ?_, r1, ?_, ?_, ?_⟩, by rw [norm_mul, q3, mul_one]⟩
    · intro c
      by_cases hc : c = 3
      · rw [hc, lane3_3]; exact zero_finite
      · rw [blendAdd_translation _ _ _ _ _ hc]
        exact (translation_step (h.translationFinite c) (hpose.translationFinite c) wf hB hB2 (hpose.translation c) hW0 hW1 we
          (h.translation c) (hp.translation c) eT).1.1
    · intro c
      apply eT1
      by_cases hc : c = 3
      · subst hc
        have e3 : (p.translation + W • (valTransform t).translation.lane l) 3 = p.translation 3 := by
          change p.translation 3 + W * (valTransform t).translation.lane l 3 = _
          rw [elane, t3, mul_zero, add_zero]
        rw [lane3_3]
        change |val F32.zero - (p.translation + W • (valTransform t).translation.lane l) 3| ≤ _
        rw [e3]
        have : 0 ≤ 7 * B / 2 ^ 24 := by positivity
        linarith
      · rw [blendAdd_translation _ _ _ _ _ hc]
        have e3 : (p.translation + W • (valTransform t).translation.lane l) c = p.translation c + W * val (t.translation.lane l c) := by
          rw [← elane]; rfl
        change |_ - (p.translation + W • (valTransform t).translation.lane l) c| ≤ _
        rw [e3]
        exact (translation_step (h.translationFinite c) (hpose.translationFinite c) wf hB hB2 (hpose.translation c) hW0 hW1 we
          (h.translation c) (hp.translation c) eT).1.2
    · apply eR1
      rw [eout]
      exact r2
    · intro c
      by_cases hc : c = 3
      · rw [hc, lane3_3]; exact zero_finite
      · rw [blendAdd_scale _ _ _ _ _ hc]
        obtain ⟨F0, F1, ⟨g1, g2⟩, -⟩ := factor_ok (hpose.scaleFinite c) wf (hs4 c hc) ((le_abs_self _).trans (hpose.scale c)) hW0 hW1 we
        have hlo := hp'.scale_ge c hc
        change _ ≤ |p.scale c * (1 + W * ((valTransform t).scale.lane l c - 1))| at hlo
        rw [elanes] at hlo
        exact (relative_mul (h.scaleFinite c) g1 F0 F1 (oS c) (by positivity) eS
          (g2.trans (by linarith)) (hp.scale_le c hc) hlo).1
    · intro c
      change |_ - p.scale c * (1 + W * ((valTransform t).scale.lane l c - 1))| ≤ 70 * ((k + 1 : Nat) : ℝ) * |p.scale c * (1 + W * ((valTransform t).scale.lane l c - 1))| / 2 ^ 24
      by_cases hc : c = 3
      · subst hc
        rw [lane3_3, s3, zero_mul, abs_zero, mul_zero, zero_div, sub_zero]
        change |val F32.zero| ≤ 0
        rw [valZero, abs_zero]
      · apply eS1
        rw [blendAdd_scale _ _ _ _ _ hc]
        obtain ⟨F0, F1, ⟨g1, g2⟩, -⟩ := factor_ok (hpose.scaleFinite c) wf (hs4 c hc) ((le_abs_self _).trans (hpose.scale c)) hW0 hW1 we
        have hlo := hp'.scale_ge c hc
        change _ ≤ |p.scale c * (1 + W * ((valTransform t).scale.lane l c - 1))| at hlo
        rw [elanes] at hlo ⊢
        exact (relative_mul (h.scaleFinite c) g1 F0 F1 (oS c) (by positivity) eS
          (g2.trans (by linarith)) (hp.scale_le c hc) hlo).2

/-! ## All layers -/

theorem near_fold {i : Nat} {l : Fin 4} {B : ℝ} (hB : 1 / 2 ^ 60 ≤ B) (hB2 : B ≤ 2 ^ 60) :
    ∀ (ys : List (Layer F32)) (k : Nat) (p : LanePose) (o : SoaTransform F32), k + ys.length ≤ 512 → NearPose l B k p o →
      (∀ m ≤ ys.length, PoseWithin B (((ys.take m).map valLayer).foldl (addOne i l) p)) → (∀ y ∈ ys, Additive32Ok y i l B) →
      ‖p.rotation‖ ≤ 1001 / 1000 →
      NearPose l B (k + ys.length) ((ys.map valLayer).foldl (addOne i l) p) (ys.foldl (additiveStep i) o) ∧
        ‖((ys.map valLayer).foldl (addOne i l) p).rotation‖ = ‖p.rotation‖ := by
  intro ys
  induction ys with
  | nil => intro k p o _ h _ _ _; exact ⟨h, rfl⟩
  | cons y ys ih =>
    intro k p o hk h hw hy hR
    rw [List.length_cons] at hk
    obtain ⟨s1, s2⟩ := near_step hB hB2 (by omega) h (hw 0 (Nat.zero_le _)) (hw 1 (by simp)) (hy y List.mem_cons_self) hR
    obtain ⟨f1, f2⟩ := ih (k + 1) (addOne i l p (valLayer y)) (additiveStep i o y) (by omega) s1
      (fun m hm => hw (m + 1) (by rw [List.length_cons]; omega)) (fun z hz => hy z (List.mem_cons_of_mem _ hz)) (by rw [s2]; exact hR)
    refine ⟨?_, f2.trans s2⟩
    have e : k + (y :: ys).length = k + 1 + ys.length := by rw [List.length_cons]; omega
    rw [e]
    exact f1

end Ozz.Blending
