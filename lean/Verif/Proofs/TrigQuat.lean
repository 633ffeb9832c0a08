import Verif.Proofs.TrigAsinFloat
import Verif.Proofs.FloatRotation

/-! Rotations built from an axis and an angle, in single precision. -/

namespace Ozz.Trig

open F32 Ieee Spec Sampling

/-- Halving is exact but for the smallest numbers. -/
theorem mul_half {x : F32} (hx : Finite32 x.bits) : Near (x * NumOps.half) (val x / 2) (1 / 2 ^ 148) := by
  have hh : val (NumOps.half : F32) = 1 / 2 := by have := half_near.2; rw [abs_nonpos_iff, sub_eq_zero] at this; exact this
  have hr := mul_roundsTo hx half_near.1
  change RoundsTo (val x * val (NumOps.half : F32)) _ _ at hr
  rw [hh] at hr
  have hlow := (finite32_iff x).mp hx
  have hp : (0 : ℝ) < 2 ^ 149 := by positivity
  rcases Nat.lt_or_ge x.low (2 * 2 ^ 23) with h | h
  · have hm : x.mag < 2 ^ 24 := by
      have : x.mag < magOf (2 * 2 ^ 23) := magOf_strictMono h
      have e : magOf (2 * 2 ^ 23) = 2 ^ 24 := by decide +kernel
      omega
    have hv : |val x| ≤ 1 / 2 ^ 125 := by
      rw [val_mag, div_le_div_iff₀ hp (by positivity)]
      have : (x.mag : ℝ) ≤ 2 ^ 24 := by exact_mod_cast hm.le
      calc (x.mag : ℝ) * 2 ^ 125 ≤ 2 ^ 24 * 2 ^ 125 := by gcongr
        _ = 1 * 2 ^ 149 := by norm_num
    have ha : |val x * (1 / 2)| = |val x| / 2 := by rw [abs_mul, abs_of_nonneg (show (0:ℝ) ≤ 1 / 2 by norm_num)]; ring
    have hf := finite_of_rounds hr (small_finite (by rw [ha]; norm_num at *; linarith))
    refine ⟨hf, ?_⟩
    have := rounds_error hr hf
    rw [ha] at this
    rw [show val x / 2 = val x * (1 / 2) by ring]
    refine le_trans this ?_
    norm_num at *
    linarith
  · have hlt : x.low - 2 ^ 23 < 2 ^ 31 := by omega
    have hw : Finite32 (pack x.negative (x.low - 2 ^ 23)).bits := by
      rw [finite32_iff, pack_low _ hlt]; omega
    have hv : val (pack x.negative (x.low - 2 ^ 23)) = val x * (1 / 2) := by
      rw [val, real_eq_signed, val, real_eq_signed, pack_negative _ hlt]
      unfold mag
      rw [pack_low _ hlt]
      have : magOf x.low = 2 * magOf (x.low - 2 ^ 23) := by
        obtain ⟨e, m, he, hl⟩ : ∃ e m, m < 2 ^ 23 ∧ x.low = (e + 2) * 2 ^ 23 + m :=
          ⟨x.low / 2 ^ 23 - 2, x.low % 2 ^ 23, Nat.mod_lt _ (by positivity), by omega⟩
        have d1 : ((e + 2) * 2 ^ 23 + m) / 2 ^ 23 = e + 2 := by omega
        have d2 : ((e + 2) * 2 ^ 23 + m - 2 ^ 23) / 2 ^ 23 = e + 1 := by omega
        have d3 : ((e + 2) * 2 ^ 23 + m) % 2 ^ 23 = m := by omega
        have d4 : ((e + 2) * 2 ^ 23 + m - 2 ^ 23) % 2 ^ 23 = m := by omega
        rw [hl]
        unfold magOf
        rw [if_neg (by omega), if_neg (by omega), d1, d2, d3, d4]
        simp only [Nat.add_sub_cancel, show e + 2 - 1 = e + 1 by omega]
        rw [Nat.pow_succ]; ring
      rw [this]; push_cast; ring
    have hb : |val x * (1 / 2)| ≤ 2 ^ 127 := by
      rw [abs_mul, abs_of_nonneg (show (0:ℝ) ≤ 1 / 2 by norm_num), val_mag]
      have : x.mag ≤ magOf (255 * 2 ^ 23) := magOf_strictMono.monotone hlow.le
      have e : magOf (255 * 2 ^ 23) = 2 ^ 277 := by decide +kernel
      rw [e] at this
      have : (x.mag : ℝ) ≤ 2 ^ 128 * 2 ^ 149 := by rw [← pow_add]; exact_mod_cast this
      have := (div_le_iff₀ hp).mpr this
      calc (x.mag : ℝ) / 2 ^ 149 * (1 / 2) ≤ 2 ^ 128 * (1 / 2) := by gcongr
        _ = 2 ^ 127 := by norm_num
    have hf := finite_of_rounds hr (small_finite hb)
    refine ⟨hf, ?_⟩
    have e := rounds_exact hr hf hw hv.symm
    have e' : val (x * NumOps.half) = val x * (1 / 2) := e.trans hv
    rw [e', show val x * (1 / 2) - val x / 2 = 0 by ring, abs_zero]
    positivity

/-- Squared lengths of nearby quaternions. -/
theorem sumSq_near {o g : Fin 4 → ℝ} {d : ℝ} (hd : ∀ i, |o i - g i| ≤ d) (hg : sumSq g ≤ 1.01) :
    |sumSq o - sumSq g| ≤ 4.05 * d + 4 * d ^ 2 := by
  have d0 : 0 ≤ d := (abs_nonneg _).trans (hd 0)
  have hs : |g 0| + |g 1| + |g 2| + |g 3| ≤ 2.02 := by
    have : (|g 0| + |g 1| + |g 2| + |g 3|) ^ 2 ≤ 4 * sumSq g := by
      unfold sumSq
      rw [← sq_abs (g 0), ← sq_abs (g 1), ← sq_abs (g 2), ← sq_abs (g 3)]
      nlinarith [sq_nonneg (|g 0| - |g 1|), sq_nonneg (|g 0| - |g 2|), sq_nonneg (|g 0| - |g 3|), sq_nonneg (|g 1| - |g 2|),
        sq_nonneg (|g 1| - |g 3|), sq_nonneg (|g 2| - |g 3|)]
    refine abs_le_of_sq_le_sq' (b := (2.02 : ℝ)) ?_ (by norm_num) |>.2
    norm_num at *
    linarith
  have one : ∀ i, |o i ^ 2 - g i ^ 2| ≤ d * (2 * |g i| + d) := fun i => by
    rw [show o i ^ 2 - g i ^ 2 = (o i - g i) * (2 * g i + (o i - g i)) by ring, abs_mul]
    refine mul_le_mul (hd i) ?_ (abs_nonneg _) d0
    calc |2 * g i + (o i - g i)| ≤ |2 * g i| + |o i - g i| := abs_add_le _ _
      _ ≤ 2 * |g i| + d := by rw [abs_mul, abs_two]; linarith [hd i]
  have := one 0; have := one 1; have := one 2; have := one 3
  calc |sumSq o - sumSq g| = |((o 0 ^ 2 - g 0 ^ 2) + (o 1 ^ 2 - g 1 ^ 2)) + ((o 2 ^ 2 - g 2 ^ 2) + (o 3 ^ 2 - g 3 ^ 2))| := by
        unfold sumSq; ring_nf
    _ ≤ |(o 0 ^ 2 - g 0 ^ 2) + (o 1 ^ 2 - g 1 ^ 2)| + |(o 2 ^ 2 - g 2 ^ 2) + (o 3 ^ 2 - g 3 ^ 2)| := abs_add_le _ _
    _ ≤ |o 0 ^ 2 - g 0 ^ 2| + |o 1 ^ 2 - g 1 ^ 2| + (|o 2 ^ 2 - g 2 ^ 2| + |o 3 ^ 2 - g 3 ^ 2|) := by
        linarith [abs_add_le (o 0 ^ 2 - g 0 ^ 2) (o 1 ^ 2 - g 1 ^ 2), abs_add_le (o 2 ^ 2 - g 2 ^ 2) (o 3 ^ 2 - g 3 ^ 2)]
    _ ≤ d * (2 * (|g 0| + |g 1| + |g 2| + |g 3|)) + 4 * d ^ 2 := by linarith
    _ ≤ d * 4.05 + 4 * d ^ 2 := by
        have := mul_le_mul_of_nonneg_left (show 2 * (|g 0| + |g 1| + |g 2| + |g 3|) ≤ 4.05 by linarith) d0
        linarith
    _ = _ := by ring

/-- Components of an axis that is nearly unit. -/
theorem axis_le {a0 a1 a2 ε : ℝ} (h : |a0 ^ 2 + a1 ^ 2 + a2 ^ 2 - 1| ≤ ε) (hε : ε ≤ 0.01) :
    |a0| ≤ 1.01 ∧ |a1| ≤ 1.01 ∧ |a2| ≤ 1.01 := by
  rw [abs_le] at h
  have key : ∀ a : ℝ, a ^ 2 ≤ 1.01 → |a| ≤ 1.01 := fun a ha => abs_le_of_sq_le_sq (by norm_num at *; linarith) (by norm_num)
  refine ⟨key _ ?_, key _ ?_, key _ ?_⟩ <;> nlinarith [sq_nonneg a0, sq_nonneg a1, sq_nonneg a2]

theorem fromAxisAngle_near {axis angle : F4 F32} (hax : ∀ i, i ≠ 3 → Finite32 (axis i).bits) {ε : ℝ} (hε : ε ≤ 0.01)
    (hn : |val (axis 0) ^ 2 + val (axis 1) ^ 2 + val (axis 2) ^ 2 - 1| ≤ ε)
    (hang : Finite32 (angle 0).bits) (hA : |val (angle 0)| ≤ 4095) :
    (∀ i, i ≠ 3 → Near (quatFromAxisAngle (polyTrig (α := F32)).sinCos axis angle i) (val (axis i) * Real.sin (val (angle 0) / 2)) (8 / 2 ^ 24)) ∧
    Near (quatFromAxisAngle (polyTrig (α := F32)).sinCos axis angle 3) (Real.cos (val (angle 0) / 2)) (8 / 2 ^ 24) := by
  have hh := mul_half hang
  obtain ⟨h0, h1, h2⟩ := axis_le hn hε
  have hhA : |val (angle 0 * NumOps.half)| ≤ 2048 := by
    refine (hh.abs_le (B := 2047.5) ?_).trans (by norm_num)
    rw [abs_div, abs_two]; linarith
  obtain ⟨s, c⟩ := sinCos_near hh.1 hhA
  have hd : |val (angle 0 * NumOps.half) - val (angle 0) / 2| ≤ 1 / 2 ^ 148 := hh.2
  have s' : Near (sinCos (angle 0 * NumOps.half)).1 (Real.sin (val (angle 0) / 2)) (6.1 / 2 ^ 24) := by
    refine s.shift ?_
    have := (Real.abs_sin_sub_sin_le (val (angle 0 * NumOps.half)) (val (angle 0) / 2)).trans hd
    norm_num at *
    linarith
  have c' : Near (sinCos (angle 0 * NumOps.half)).2 (Real.cos (val (angle 0) / 2)) (8 / 2 ^ 24) := by
    refine c.shift ?_
    have := (Real.abs_cos_sub_cos_le (val (angle 0 * NumOps.half)) (val (angle 0) / 2)).trans hd
    norm_num at *
    linarith
  refine ⟨fun i hi => ?_, c'⟩
  have hi' : |val (axis i)| ≤ 1.01 := by fin_cases i <;> first | exact h0 | exact h1 | exact h2 | exact absurd rfl hi
  have hs1 := Real.abs_sin_le_one (val (angle 0) / 2)
  have m := Near.mul 1.01 1 1.01 (8 / 2 ^ 24) (near_self (hax i hi)) s' hi' hs1
    (by rw [abs_mul]; calc _ ≤ (1.01 : ℝ) * 1 := mul_le_mul hi' hs1 (abs_nonneg _) (by norm_num)
          _ ≤ _ := by norm_num) (by norm_num)
  fin_cases i
  · exact m
  · exact m
  · exact m
  · exact absurd rfl hi

/-- Square of a rounded square root. -/
theorem sqrt_sq_near {x : F32} (hx : Finite32 x.bits) (h0 : 0 ≤ val x) (h1 : val x ≤ 1) :
    Finite32 (NumOps.sqrt x).bits ∧ 0 ≤ val (NumOps.sqrt x) ∧ val (NumOps.sqrt x) ≤ 1 + 1.1 / 2 ^ 24 ∧
      |val (NumOps.sqrt x) ^ 2 - val x| ≤ 2.1 / 2 ^ 24 := by
  have r0 := Real.sqrt_nonneg (val x)
  have r1 : √(val x) ≤ 1 := Real.sqrt_le_one.mpr h1
  obtain ⟨hf, he, hn⟩ := sqrt_ok hx h0 (r1.trans (by norm_num))
  have hsq := Real.sq_sqrt h0
  change Finite32 (F32.sqrt x).bits ∧ 0 ≤ val (F32.sqrt x) ∧ val (F32.sqrt x) ≤ _ ∧ |val (F32.sqrt x) ^ 2 - val x| ≤ _
  generalize val (F32.sqrt x) = S at *
  generalize √(val x) = r at *
  have he' : |S - r| ≤ 1.01 / 2 ^ 24 := he.trans (by norm_num at *; linarith)
  refine ⟨hf, hn, ?_, ?_⟩
  · rw [abs_le] at he'; norm_num at *; linarith
  · rw [← hsq, show S ^ 2 - r ^ 2 = (S - r) * (S + r) by ring, abs_mul]
    have hS : S + r ≤ 2.01 := by rw [abs_le] at he'; norm_num at *; linarith
    calc |S - r| * |S + r| ≤ 1.01 / 2 ^ 24 * 2.01 := by
          refine mul_le_mul he' ?_ (abs_nonneg _) (by norm_num)
          rw [abs_of_nonneg (by linarith)]; exact hS
      _ ≤ _ := by norm_num

theorem fromCosAngle_near {axis cos : F4 F32} (hax : ∀ i, i ≠ 3 → Finite32 (axis i).bits) {ε : ℝ} (hε : ε ≤ 0.001)
    (hn : |val (axis 0) ^ 2 + val (axis 1) ^ 2 + val (axis 2) ^ 2 - 1| ≤ ε)
    (hc : Finite32 (cos 0).bits) (hc1 : |val (cos 0)| ≤ 1) :
    (∀ i, Finite32 (quatFromCosAngle axis cos i).bits) ∧ 0 ≤ val (quatFromCosAngle axis cos 3) ∧
    |2 * val (quatFromCosAngle axis cos 3) ^ 2 - 1 - val (cos 0)| ≤ 7 / 2 ^ 24 ∧
    (∃ S : ℝ, 0 ≤ S ∧ ∀ i, i ≠ 3 → |val (quatFromCosAngle axis cos i) - val (axis i) * S| ≤ 2 / 2 ^ 24) ∧
    |sumSq (fun i => val (quatFromCosAngle axis cos i)) - 1| ≤ 1.01 * ε + 14 / 2 ^ 24 := by
  obtain ⟨h0, h1, h2⟩ := axis_le hn (hε.trans (by norm_num))
  have hε0 : 0 ≤ ε := (abs_nonneg _).trans hn
  have one1 : val (NumOps.one : F32) = 1 := one_real
  have hh : val (NumOps.half : F32) = 1 / 2 := by have := half_near.2; rw [abs_nonpos_iff, sub_eq_zero] at this; exact this
  rw [abs_le] at hc1
  -- one plus the cosine
  have p := Near.add 2 (2 / 2 ^ 24) one_near (near_self hc) (by rw [abs_le]; constructor <;> linarith) (by norm_num)
  have p0 : 0 ≤ val (NumOps.one + cos 0) := add_nonneg32 one_finite hc p.1 (by
    have : (0:ℝ) ≤ val (NumOps.one : F32) + val (cos 0) := by rw [one1]; linarith
    exact this)
  have p2 : val (NumOps.one + cos 0) ≤ 2 := by
    obtain ⟨oF, oV⟩ := ofNat_ok (show 2 < 2 ^ 24 by norm_num)
    have := rounds_le (add_roundsTo one_finite hc) p.1 oF (by
      have : val (NumOps.one : F32) + val (cos 0) ≤ val (ofNat 2) := by rw [one1, oV]; push_cast; linarith
      exact this)
    have oV' : real (ofNat 2).bits = 2 := by have := oV; push_cast at this; exact this
    rw [oV'] at this; exact this
  obtain ⟨P, hP⟩ : ∃ P : F32, P = NumOps.one + cos 0 := ⟨_, rfl⟩
  rw [← hP] at p p0 p2
  have q := mul_half p.1
  have q0 : 0 ≤ val (P * NumOps.half) := mul_nonneg32 p.1 half_near.1 q.1 (by
    have : (0:ℝ) ≤ val P * val (NumOps.half : F32) := by rw [hh]; linarith
    exact this)
  have q1 : val (P * NumOps.half) ≤ 1 := by
    have := rounds_le (mul_roundsTo p.1 half_near.1) q.1 one_finite (by
      have : val P * val (NumOps.half : F32) ≤ val F32.one := by rw [hh, show val F32.one = 1 from one_real]; linarith
      exact this)
    rw [one_real] at this; exact this
  obtain ⟨H, hH⟩ : ∃ H : F32, H = P * NumOps.half := ⟨_, rfl⟩
  rw [← hH] at q q0 q1
  have k := Near.sub 1 (1 / 2 ^ 24) one_near (near_self q.1) (by rw [abs_le]; constructor <;> linarith) (by norm_num)
  have k0 : 0 ≤ val (NumOps.one - H) := by
    have := rounds_ge (sub_roundsTo one_finite q.1) k.1 zero_finite (by
      have : (0:ℝ) ≤ val (NumOps.one : F32) - val H := by rw [one1]; linarith
      rw [zero_real]; exact this)
    rw [zero_real] at this; exact this
  have k1 : val (NumOps.one - H) ≤ 1 := by
    have := rounds_le (sub_roundsTo one_finite q.1) k.1 one_finite (by
      have : val (NumOps.one : F32) - val H ≤ val F32.one := by rw [one1, show val F32.one = 1 from one_real]; linarith
      exact this)
    rw [one_real] at this; exact this
  obtain ⟨K, hK⟩ : ∃ K : F32, K = NumOps.one - H := ⟨_, rfl⟩
  rw [← hK] at k k0 k1
  obtain ⟨CF, C0, C1, C2⟩ := sqrt_sq_near q.1 q0 q1
  obtain ⟨SF, S0, S1, S2⟩ := sqrt_sq_near k.1 k0 k1
  have e3 : quatFromCosAngle axis cos 3 = NumOps.sqrt H := by rw [hH, hP]; rfl
  have ei : ∀ i, i ≠ 3 → quatFromCosAngle axis cos i = axis i * NumOps.sqrt K := by
    intro i hi
    rw [hK, hH, hP]
    fin_cases i
    · rfl
    · rfl
    · rfl
    · exact absurd rfl hi
  generalize (NumOps.sqrt H : F32) = C at *
  generalize (NumOps.sqrt K : F32) = S at *
  have m : ∀ i, i ≠ 3 → Near (axis i * S) (val (axis i) * val S) (1.05 / 2 ^ 24) := by
    intro i hi
    have hi' : |val (axis i)| ≤ 1.01 := by fin_cases i <;> first | exact h0 | exact h1 | exact h2 | exact absurd rfl hi
    have hS : |val S| ≤ 1.001 := by rw [abs_of_nonneg S0]; norm_num at *; linarith
    exact Near.mul 1.01 1.001 1.02 (1.05 / 2 ^ 24) (near_self (hax i hi)) (near_self SF) hi' hS
      (by rw [abs_mul]; calc _ ≤ (1.01 : ℝ) * 1.001 := mul_le_mul hi' hS (abs_nonneg _) (by norm_num)
            _ ≤ _ := by norm_num) (by norm_num)
  have hp := p.2
  have hq := q.2
  have hk := k.2
  rw [abs_le] at hp hq hk C2 S2
  refine ⟨fun i => ?_, by rw [e3]; exact C0, ?_, ⟨val S, S0, fun i hi => ?_⟩, ?_⟩
  · by_cases hi : i = 3
    · rw [hi, e3]; exact CF
    · rw [ei i hi]; exact (m i hi).1
  · rw [e3, abs_le]
    constructor <;> norm_num at * <;> linarith
  · rw [ei i hi]
    exact (m i hi).2.trans (by norm_num)
  · set g : Fin 4 → ℝ := fun i => if i = 3 then val C else val (axis i) * val S with hg
    have hd : ∀ i, |val (quatFromCosAngle axis cos i) - g i| ≤ 1.05 / 2 ^ 24 := by
      intro i
      by_cases hi : i = 3
      · rw [hi, e3]; simp only [hg, if_true, sub_self, abs_zero]; positivity
      · rw [ei i hi]; simp only [hg, if_neg hi]; exact (m i hi).2
    have hs : sumSq g = (val (axis 0) ^ 2 + val (axis 1) ^ 2 + val (axis 2) ^ 2 - 1) * val S ^ 2 + (val S ^ 2 + val C ^ 2) := by
      unfold sumSq
      simp only [hg]
      simp
      ring
    have hs1 : val S ^ 2 ≤ 1.001 := by norm_num at *; linarith
    have hs0 : 0 ≤ val S ^ 2 := sq_nonneg _
    have hA : |(val (axis 0) ^ 2 + val (axis 1) ^ 2 + val (axis 2) ^ 2 - 1) * val S ^ 2| ≤ 1.001 * ε := by
      rw [abs_mul, abs_of_nonneg hs0]
      calc _ ≤ ε * 1.001 := mul_le_mul hn hs1 hs0 hε0
        _ = _ := by ring
    have hsc : |val S ^ 2 + val C ^ 2 - 1| ≤ 5.3 / 2 ^ 24 := by
      rw [abs_le]; constructor <;> norm_num at * <;> linarith
    have hgn : |sumSq g - 1| ≤ 1.001 * ε + 5.3 / 2 ^ 24 := by
      rw [hs]
      calc _ = |(val (axis 0) ^ 2 + val (axis 1) ^ 2 + val (axis 2) ^ 2 - 1) * val S ^ 2 + (val S ^ 2 + val C ^ 2 - 1)| := by ring_nf
        _ ≤ _ := (abs_add_le _ _).trans (add_le_add hA hsc)
    have hgle : sumSq g ≤ 1.01 := by rw [abs_le] at hgn; norm_num at *; linarith
    have hfin := sumSq_near hd hgle
    generalize sumSq (fun i => val (quatFromCosAngle axis cos i)) = o at *
    calc |o - 1| = |(o - sumSq g) + (sumSq g - 1)| := by ring_nf
      _ ≤ |o - sumSq g| + |sumSq g - 1| := abs_add_le _ _
      _ ≤ _ := by norm_num at *; linarith

theorem fromAxisAngle_unit {axis angle : F4 F32} (hax : ∀ i, i ≠ 3 → Finite32 (axis i).bits) {ε : ℝ} (hε : ε ≤ 0.01)
    (hn : |val (axis 0) ^ 2 + val (axis 1) ^ 2 + val (axis 2) ^ 2 - 1| ≤ ε)
    (hang : Finite32 (angle 0).bits) (hA : |val (angle 0)| ≤ 4095) :
    |sumSq (fun i => val (quatFromAxisAngle (polyTrig (α := F32)).sinCos axis angle i)) - 1| ≤ ε + 33 / 2 ^ 24 := by
  obtain ⟨hi, h3⟩ := fromAxisAngle_near hax hε hn hang hA
  set θ := val (angle 0) / 2
  set g : Fin 4 → ℝ := fun i => if i = 3 then Real.cos θ else val (axis i) * Real.sin θ with hg
  have hd : ∀ i, |val (quatFromAxisAngle (polyTrig (α := F32)).sinCos axis angle i) - g i| ≤ 8 / 2 ^ 24 := by
    intro i
    by_cases h : i = 3
    · rw [h]; simp only [hg, if_true]; exact h3.2
    · simp only [hg, if_neg h]; exact (hi i h).2
  have hs : sumSq g = (val (axis 0) ^ 2 + val (axis 1) ^ 2 + val (axis 2) ^ 2 - 1) * Real.sin θ ^ 2 + 1 := by
    unfold sumSq
    simp only [hg]
    simp
    linear_combination Real.sin_sq_add_cos_sq θ
  have hgn : |sumSq g - 1| ≤ ε := by
    rw [hs, add_sub_cancel_right, abs_mul, abs_of_nonneg (sq_nonneg (Real.sin θ))]
    calc _ ≤ ε * 1 := mul_le_mul hn (Real.sin_sq_le_one θ) (sq_nonneg _) ((abs_nonneg _).trans hn)
      _ = ε := mul_one _
  have hgle : sumSq g ≤ 1.01 := by rw [abs_le] at hgn; norm_num at *; linarith
  have hfin := sumSq_near hd hgle
  generalize sumSq (fun i => val (quatFromAxisAngle (polyTrig (α := F32)).sinCos axis angle i)) = o at *
  calc |o - 1| = |(o - sumSq g) + (sumSq g - 1)| := by ring_nf
    _ ≤ |o - sumSq g| + |sumSq g - 1| := abs_add_le _ _
    _ ≤ _ := by norm_num at *; linarith

end Ozz.Trig
