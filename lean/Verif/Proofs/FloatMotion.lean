import Verif.Proofs.FloatGlam
import Verif.Proofs.MotionBlending
import Verif.Proofs.FloatBonesAim

/-! Motion blending on floats. -/

namespace Ozz.MotionBlending

open F32 Ieee Spec Ozz.Blending Ozz.IK

/-! ## The layers that are used -/

def used (y : Layer F32) : Bool := !F32.le y.weight F32.zero

theorem used_val {y : Layer F32} (h : Finite32 y.weight.bits) : used y = true ↔ 0 < val y.weight := by
  unfold used
  have := le_val32 h zero_finite
  rw [valZero] at this
  cases hl : F32.le y.weight F32.zero with
  | true => simpa using this.mp hl
  | false =>
    simp only [Bool.not_false, true_iff]
    by_contra hc
    rw [this.mpr (not_lt.mp hc)] at hl
    cases hl

theorem fold_used (g : Glam F32) (ls : List (Layer F32)) (s : Acc F32) :
    ls.foldl (accumulateWith g) s = (ls.filter used).foldl (accumulateWith g) s := by
  induction ls generalizing s with
  | nil => rfl
  | cons y ys ih =>
    rw [List.foldl_cons]
    cases h : used y with
    | true => rw [List.filter_cons_of_pos h, List.foldl_cons]; exact ih _
    | false =>
      rw [List.filter_cons_of_neg (by simp [h]), ← ih]
      congr 1
      unfold accumulateWith
      have : NumOps.le y.weight NumOps.zero = true := by
        unfold used at h
        rwa [Bool.not_eq_false'] at h
      simp only [this, if_true]

theorem positives_used (ls : List (Layer F32)) (h : ∀ y ∈ ls, Finite32 y.weight.bits) :
    positives (ls.map valMotion) = (ls.filter used).map valMotion := by
  unfold positives
  rw [List.filter_map]
  congr 1
  apply List.filter_congr
  intro y hy
  rw [Bool.eq_iff_iff, used_val (h y hy)]
  exact decide_eq_true_iff

/-! ## One step -/

theorem acc_used (g : Glam F32) (s : Acc F32) {y : Layer F32} (h : used y = true) :
    accumulateWith g s y = ⟨s.weight + y.weight, s.dl + g.length y.delta.translation * y.weight,
      fun i => s.dt i + y.delta.translation i * (if NumOps.eq (g.length y.delta.translation) NumOps.zero then NumOps.zero
        else y.weight / g.length y.delta.translation),
      fun i => s.dr i + y.delta.rotation i * withSign y.weight (NumOps.le NumOps.zero (g.dot s.dr y.delta.rotation))⟩ := by
  have : NumOps.le y.weight NumOps.zero = false := by
    unfold used at h
    rwa [Bool.not_eq_true'] at h
  unfold accumulateWith
  simp only [this, Bool.false_eq_true, if_false]

/-- The bounds on the total weight. -/
structure Total (M : ℝ) (n : ℕ) : Prop where
  ge : 1 / 2 ^ 30 ≤ M
  le : M ≤ 2 ^ 30
  few : n ≤ 512

theorem Total.tiny {M : ℝ} {n : ℕ} (h : Total M n) : (1:ℝ) / 2 ^ 147 ≤ M / 2 ^ 60 ∧ (1:ℝ) / 2 ^ 150 ≤ M / 2 ^ 60 ∧ (1:ℝ) / 2 ^ 109 ≤ M / 2 ^ 60 := by
  have := div_le_div_of_nonneg_right h.ge (show (0:ℝ) ≤ 2 ^ 60 by positivity)
  refine ⟨?_, ?_, ?_⟩ <;> refine le_trans ?_ this <;> norm_num

/-- The weights. -/
theorem weight_fold {g : Glam F32} {M : ℝ} {n : ℕ} (hM : Total M n) (ms : List (Layer F32)) (hok : ∀ y ∈ ms, Motion32Ok y)
    (hu : ∀ y ∈ ms, used y = true) : ∀ (k : ℕ) (A : ℝ) (s : Acc F32), 0 ≤ A → Finite32 s.weight.bits →
      |val s.weight - A| ≤ 3 * k * M / 2 ^ 24 → k + ms.length ≤ n → A + (ms.map fun y => val y.weight).sum ≤ M →
      Finite32 (ms.foldl (accumulateWith g) s).weight.bits ∧
      |val (ms.foldl (accumulateWith g) s).weight - (A + (ms.map fun y => val y.weight).sum)| ≤ 3 * ((k + ms.length : ℕ) : ℝ) * M / 2 ^ 24 := by
  induction ms with
  | nil => intro k A s _ hf he _ _; simpa using ⟨hf, he⟩
  | cons y ys ih =>
    intro k A s hA hf he hk hs
    rw [List.forall_mem_cons] at hok hu
    have hw := (used_val hok.1.weight).mp hu.1
    have hw0 := hw.le
    have hn := hM.few
    have M0 : 0 < M := lt_of_lt_of_le (by positivity) hM.ge
    simp only [List.length_cons] at hk
    simp only [List.map_cons, List.sum_cons, List.length_cons] at hs ⊢
    have rest : 0 ≤ (ys.map fun y => val y.weight).sum := List.sum_nonneg (by
      intro x hx
      obtain ⟨z, hz, rfl⟩ := List.mem_map.mp hx
      exact ((used_val (hok.2 z hz).weight).mp (hu.2 z hz)).le)
    have kR : (k:ℝ) ≤ 512 := by exact_mod_cast (by omega : k ≤ 512)
    have e16 : 3 * k * M / 2 ^ 24 ≤ M / 16 := by
      have : (k:ℝ) * M ≤ 512 * M := mul_le_mul_of_nonneg_right kR M0.le
      rw [mul_assoc]
      linarith
    obtain ⟨f, e⟩ := weight_step hf hok.1.weight (le_trans (by norm_num) hM.ge) (hM.le.trans (by norm_num)) he e16 hA hw0
      (by linarith) (by rw [sub_self, abs_zero]; positivity)
    rw [List.foldl_cons, acc_used g s hu.1]
    have := ih hok.2 hu.2 (k + 1) (A + val y.weight) ⟨s.weight + y.weight, s.dl + g.length y.delta.translation * y.weight,
      fun i => s.dt i + y.delta.translation i * (if NumOps.eq (g.length y.delta.translation) NumOps.zero then NumOps.zero
        else y.weight / g.length y.delta.translation),
      fun i => s.dr i + y.delta.rotation i * withSign y.weight (NumOps.le NumOps.zero (g.dot s.dr y.delta.rotation))⟩
      (by linarith) f (e.trans (le_of_eq (by push_cast; ring))) (by omega) (by linarith)
    rw [← add_assoc, show k + (ys.length + 1) = k + 1 + ys.length by omega]
    exact this

/-- The rotations: one step. -/
theorem turn_step {g : Glam F32} (hg : Accurate g) {M A e : ℝ} {n : ℕ} (hM : Total M n) {s : Acc F32} {y : Layer F32} (hok : Motion32Ok y)
    (hw : 0 < val y.weight) {R : F4 ℝ} (hf : ∀ c, Finite32 (s.dr c).bits) (he : ∀ c, |val (s.dr c) - R c| ≤ e) (he2 : e ≤ M / 16)
    (hR : ∀ c, |R c| ≤ 1001 / 1000 * A) (hA : 0 ≤ A) (hAM : A + val y.weight ≤ M) :
    ∃ R' : F4 ℝ, (∀ c, Finite32 (s.dr c + y.delta.rotation c * withSign y.weight (NumOps.le NumOps.zero (g.dot s.dr y.delta.rotation))).bits ∧
      |val (s.dr c + y.delta.rotation c * withSign y.weight (NumOps.le NumOps.zero (g.dot s.dr y.delta.rotation))) - R' c| ≤ e + 3 * M / 2 ^ 24 ∧
      |R' c| ≤ 1001 / 1000 * (A + val y.weight)) ∧
    (R' = R + val y.weight • (valMotion y).delta.rotation ∧ -(12 * M / 2 ^ 24 + 2002 / 1000 * e) ≤ dot4 R (valMotion y).delta.rotation ∨
     R' = R - val y.weight • (valMotion y).delta.rotation ∧ dot4 R (valMotion y).delta.rotation ≤ 12 * M / 2 ^ 24 + 2002 / 1000 * e) := by
  have hq := hok.rotationFinite hw
  obtain ⟨qc, qs⟩ := coords_of_unit (hok.rotation hw)
  have M0 : 0 < M := lt_of_lt_of_le (by positivity) hM.ge
  obtain ⟨t1, t2, -⟩ := hM.tiny
  have e0 : 0 ≤ e := (abs_nonneg _).trans (he 0)
  change ∃ R' : F4 ℝ, _ ∧ (R' = R + val y.weight • (fun c => val (y.delta.rotation c)) ∧ _ ≤ dot4 R (fun c => val (y.delta.rotation c)) ∨
    R' = R - val y.weight • (fun c => val (y.delta.rotation c)) ∧ dot4 R (fun c => val (y.delta.rotation c)) ≤ _)
  generalize hQ : (fun c => val (y.delta.rotation c)) = Q at *
  have Qc : ∀ c, val (y.delta.rotation c) = Q c := fun c => congrFun hQ c
  simp only [Qc] at qc qs
  have A1 : A ≤ M := by linarith
  have drb : ∀ c, |val (s.dr c)| ≤ 1.07 * M := fun c => by
    have h1 := abs_sub_abs_le_abs_sub (val (s.dr c)) (R c)
    have h2 := he c
    have h3 := hR c
    linarith
  -- the dot product
  have S1 : |val (s.dr 0) * val (y.delta.rotation 0)| + |val (s.dr 1) * val (y.delta.rotation 1)| + |val (s.dr 2) * val (y.delta.rotation 2)| +
      |val (s.dr 3) * val (y.delta.rotation 3)| ≤ 2.2 * M := by
    have h := fun c => mul_le_mul_of_nonneg_right (drb c) (abs_nonneg (val (y.delta.rotation c)))
    simp only [← abs_mul] at h
    have h0 := h 0; have h1 := h 1; have h2 := h 2; have h3 := h 3
    rw [Qc] at h0 h1 h2 h3 ⊢
    rw [Qc, Qc, Qc]
    have := mul_le_mul_of_nonneg_left qs M0.le
    linarith
  obtain ⟨fd, ed⟩ := hg.dot s.dr y.delta.rotation _ hf hq S1 (by have := hM.le; norm_num at this ⊢; linarith)
  rw [hQ] at ed
  have dd : |dot4 (fun c => val (s.dr c)) Q - dot4 R Q| ≤ 2002 / 1000 * e := by
    have : dot4 (fun c => val (s.dr c)) Q - dot4 R Q = (val (s.dr 0) - R 0) * Q 0 + (val (s.dr 1) - R 1) * Q 1 +
        (val (s.dr 2) - R 2) * Q 2 + (val (s.dr 3) - R 3) * Q 3 := by simp only [dot4]; ring
    rw [this]
    have h := fun c => mul_le_mul_of_nonneg_right (he c) (abs_nonneg (Q c))
    simp only [← abs_mul] at h
    have h0 := abs_le.mp (h 0); have h1 := abs_le.mp (h 1); have h2 := abs_le.mp (h 2); have h3 := abs_le.mp (h 3)
    have := mul_le_mul_of_nonneg_left qs e0
    rw [abs_le]
    constructor <;> linarith
  have dd' := abs_le.mp dd
  have ed' := abs_le.mp ed
  have le := le_val32 zero_finite fd
  rw [valZero] at le
  -- the sum
  have aw := abs_ok32 hok.weight
  rw [abs_of_pos hw] at aw
  have sum : ∀ (x : F32) (σ : ℝ), |σ| = 1 → Finite32 x.bits → val x = σ * val y.weight → ∀ c,
      Finite32 (s.dr c + y.delta.rotation c * x).bits ∧ |val (s.dr c + y.delta.rotation c * x) - (R c + σ * (val y.weight * Q c))| ≤ e + 3 * M / 2 ^ 24 := by
    intro x σ hσ hx hv c
    have p1 : |val (y.delta.rotation c) * val x| ≤ 1001 / 1000 * val y.weight := by
      rw [hv, abs_mul, abs_mul, hσ, one_mul, abs_of_pos hw]
      exact mul_le_mul_of_nonneg_right (by rw [Qc]; exact qc c) hw.le
    have w1 : val y.weight ≤ M := by linarith
    obtain ⟨f1, e1, b1⟩ := mul_bound (hq c) hx p1 (by have := hM.le; norm_num at this ⊢; linarith)
    obtain ⟨f2, e2⟩ := add_ok (hf c) f1 (by
      have := abs_add_le (val (s.dr c)) (val (y.delta.rotation c * x))
      have := drb c
      have := hM.le
      norm_num at *
      linarith)
    refine ⟨f2, ?_⟩
    have h1 : |val (s.dr c) + val (y.delta.rotation c * x)| ≤ 1.1 * M := by
      have h3 := abs_add_le (val (s.dr c)) (val (y.delta.rotation c * x))
      have h4 := abs_sub_abs_le_abs_sub (val (s.dr c)) (R c)
      have h5 := he c
      have h6 := hR c
      linarith
    have r := sum_near e2 (he c) e1
    rw [hv, Qc, show Q c * (σ * val y.weight) = σ * (val y.weight * Q c) by ring] at r
    linarith
  have bound : ∀ (σ : ℝ), |σ| = 1 → ∀ c, |R c + σ * (val y.weight * Q c)| ≤ 1001 / 1000 * (A + val y.weight) := by
    intro σ hσ c
    have h1 := abs_add_le (R c) (σ * (val y.weight * Q c))
    rw [abs_mul σ, hσ, one_mul, abs_mul, abs_of_pos hw] at h1
    have := mul_le_mul_of_nonneg_left (qc c) hw.le
    linarith [hR c]
  have leE : NumOps.le NumOps.zero (g.dot s.dr y.delta.rotation) = F32.le F32.zero (g.dot s.dr y.delta.rotation) := rfl
  rw [leE]
  cases hb : F32.le F32.zero (g.dot s.dr y.delta.rotation) with
  | true =>
    have pos := le.mp hb
    refine ⟨R + val y.weight • Q, fun c => ?_, Or.inl ⟨rfl, by linarith⟩⟩
    have := sum (NumOps.abs y.weight) 1 abs_one aw.1 (by rw [aw.2, one_mul]) c
    have b := bound 1 abs_one c
    rw [one_mul] at this b
    exact ⟨this.1, this.2, b⟩
  | false =>
    have neg : val (g.dot s.dr y.delta.rotation) < 0 := by
      by_contra hc
      rw [le.mpr (not_lt.mp hc)] at hb
      cases hb
    refine ⟨R - val y.weight • Q, fun c => ?_, Or.inr ⟨rfl, by linarith⟩⟩
    have := sum (-(NumOps.abs y.weight)) (-1) (by simp) (neg_finite.mpr aw.1) (by
      have := neg_real (NumOps.abs y.weight)
      change val (-(NumOps.abs y.weight)) = -val (NumOps.abs y.weight) at this
      rw [this, aw.2]; ring) c
    have b := bound (-1) (by simp) c
    rw [neg_one_mul, ← sub_eq_add_neg] at this b
    exact ⟨this.1, this.2, b⟩

/-- The rotations. -/
theorem turn_fold {g : Glam F32} (hg : Accurate g) {M : ℝ} {n : ℕ} (hM : Total M n) (ms : List (Layer F32)) (hok : ∀ y ∈ ms, Motion32Ok y)
    (hu : ∀ y ∈ ms, used y = true) : ∀ (k : ℕ) (A : ℝ) (R : F4 ℝ) (s : Acc F32), 0 ≤ A → (∀ c, Finite32 (s.dr c).bits) →
      (∀ c, |val (s.dr c) - R c| ≤ 3 * k * M / 2 ^ 24) → (∀ c, |R c| ≤ 1001 / 1000 * A) → k + ms.length ≤ n →
      A + (ms.map fun y => val y.weight).sum ≤ M →
      ∃ R', AlignedUpTo (12 * n * M / 2 ^ 24) R (ms.map fun y => (val y.weight, (valMotion y).delta.rotation)) R' ∧
        (∀ c, Finite32 ((ms.foldl (accumulateWith g) s).dr c).bits) ∧
        (∀ c, |val ((ms.foldl (accumulateWith g) s).dr c) - R' c| ≤ 3 * ((k + ms.length : ℕ) : ℝ) * M / 2 ^ 24) := by
  induction ms with
  | nil => intro k A R s _ hf he _ _ _; exact ⟨R, .nil _, hf, by simpa using he⟩
  | cons y ys ih =>
    intro k A R s hA hf he hR hk hs
    rw [List.forall_mem_cons] at hok hu
    have hw := (used_val hok.1.weight).mp hu.1
    have hn := hM.few
    have M0 : 0 < M := lt_of_lt_of_le (by positivity) hM.ge
    simp only [List.length_cons] at hk
    simp only [List.map_cons, List.sum_cons, List.length_cons] at hs ⊢
    have rest : 0 ≤ (ys.map fun y => val y.weight).sum := List.sum_nonneg (by
      intro x hx
      obtain ⟨z, hz, rfl⟩ := List.mem_map.mp hx
      exact ((used_val (hok.2 z hz).weight).mp (hu.2 z hz)).le)
    have kR : (k:ℝ) ≤ 512 := by exact_mod_cast (by omega : k ≤ 512)
    have e16 : 3 * k * M / 2 ^ 24 ≤ M / 16 := by
      have : (k:ℝ) * M ≤ 512 * M := mul_le_mul_of_nonneg_right kR M0.le
      rw [mul_assoc]
      linarith
    obtain ⟨R', h1, h2⟩ := turn_step hg hM hok.1 hw hf he e16 hR hA (by linarith)
    rw [List.foldl_cons, acc_used g s hu.1]
    obtain ⟨R2, a1, a2, a3⟩ := ih hok.2 hu.2 (k + 1) (A + val y.weight) R' ⟨s.weight + y.weight, s.dl + g.length y.delta.translation * y.weight,
      fun i => s.dt i + y.delta.translation i * (if NumOps.eq (g.length y.delta.translation) NumOps.zero then NumOps.zero
        else y.weight / g.length y.delta.translation),
      fun i => s.dr i + y.delta.rotation i * withSign y.weight (NumOps.le NumOps.zero (g.dot s.dr y.delta.rotation))⟩
      (by linarith) (fun c => (h1 c).1) (fun c => (h1 c).2.1.trans (le_of_eq (by push_cast; ring))) (fun c => (h1 c).2.2) (by omega) (by linarith)
    refine ⟨R2, ?_, a2, ?_⟩
    · have kn : (k:ℝ) + 1 ≤ n := by exact_mod_cast (by omega : k + 1 ≤ n)
      have δ : 12 * M / 2 ^ 24 + 2002 / 1000 * (3 * k * M / 2 ^ 24) ≤ 12 * n * M / 2 ^ 24 := by
        have := mul_le_mul_of_nonneg_right kn M0.le
        have k0 : 0 ≤ (k:ℝ) * M := by positivity
        rw [show 3 * (k:ℝ) * M = 3 * (k * M) by ring, show 12 * (n:ℝ) * M = 12 * (n * M) by ring]
        linarith
      rcases h2 with ⟨rfl, h2⟩ | ⟨rfl, h2⟩
      · exact .keep (by linarith) a1
      · exact .turn (by linarith) a1
    · rw [show k + (ys.length + 1) = k + 1 + ys.length by omega]
      exact a3

/-! ## Lengths -/

def lift3 (v : V3 ℝ) : F4 ℝ := f4 (v 0) (v 1) (v 2) 0

theorem norm3_lift (v : V3 ℝ) : norm3 v = mag3 (lift3 v) := rfl

theorem norm3_add_le (a b : V3 ℝ) : norm3 (a + b) ≤ norm3 a + norm3 b := by
  have := mag3_sub_le (lift3 (a + b)) (lift3 a)
  rw [show lift3 (a + b) - lift3 a = lift3 b by funext i; fin_cases i <;> simp [lift3, f4]] at this
  exact this

theorem norm3_sub_le (a b : V3 ℝ) : norm3 a ≤ norm3 b + norm3 (a - b) := by
  have := norm3_add_le b (a - b)
  rwa [add_sub_cancel] at this

theorem norm3_comm (a b : V3 ℝ) : norm3 (a - b) = norm3 (b - a) := by
  unfold norm3
  congr 1
  simp only [Pi.sub_apply]
  ring

theorem norm3_mono {a b : V3 ℝ} (h : ∀ i, |a i| ≤ b i) : norm3 a ≤ norm3 b := by
  apply Real.sqrt_le_sqrt
  have h' := fun i => pow_le_pow_left₀ (abs_nonneg _) (h i) 2
  simp only [sq_abs] at h'
  linarith [h' 0, h' 1, h' 2]

theorem norm3_const {e : ℝ} (he : 0 ≤ e) : norm3 (fun _ => e) ≤ 1.733 * e := by
  unfold norm3
  rw [Real.sqrt_le_left (by positivity)]
  have := sq_nonneg e
  rw [mul_pow]
  linarith

theorem norm3_box {v : V3 ℝ} {e : ℝ} (h : ∀ i, |v i| ≤ e) : norm3 v ≤ 1.733 * e :=
  (norm3_mono h).trans (norm3_const ((abs_nonneg _).trans (h 0)))

theorem norm3_near {a b : V3 ℝ} {c τ : ℝ} (hc : 0 ≤ c) (hτ : 0 ≤ τ) (h : ∀ i, |a i| ≤ c * |b i| + τ) : norm3 a ≤ c * norm3 b + 1.733 * τ := by
  have h1 : norm3 a ≤ norm3 ((c • fun i => |b i|) + fun _ => τ) := norm3_mono h
  have h2 := norm3_add_le (c • fun i => |b i|) (fun _ => τ)
  have h3 := norm3_const hτ
  rw [norm3_smul c hc] at h2
  have h4 : norm3 (fun i => |b i|) = norm3 b := by unfold norm3; simp only [sq_abs]
  rw [h4] at h2
  linarith

theorem comp_le_norm3 (v : V3 ℝ) (i : Fin 3) : |v i| ≤ norm3 v := by
  apply Real.abs_le_sqrt
  have h0 := sq_nonneg (v 0); have h1 := sq_nonneg (v 1); have h2 := sq_nonneg (v 2)
  fin_cases i <;> simp only [Fin.zero_eta, Fin.mk_one, Fin.reduceFinMk] <;> linarith

/-! ## Translations -/

/-- A component times weight over length. -/
theorem term_ok {t w l : F32} {n M : ℝ} (ht : Finite32 t.bits) (hw : Finite32 w.bits) (hl : Finite32 l.bits) (w0 : 0 < val w) (wM : val w ≤ M)
    (M0 : 1 / 2 ^ 30 ≤ M) (M1 : M ≤ 2 ^ 30) (n0 : 1 / 2 ^ 40 ≤ n) (n1 : n ≤ 2 ^ 40) (tn : |val t| ≤ n) (e : |val l - n| ≤ 4 / 2 ^ 24 * n) :
    Finite32 (t * (w / l)).bits ∧ |val (t * (w / l)) - val w * (n⁻¹ * val t)| ≤ 6.4 * M / 2 ^ 24 := by
  have np : 0 < n := lt_of_lt_of_le (by positivity) n0
  have e' := abs_le.mp e
  have lp : 0 < val l := by linarith
  -- the exact quotients
  have yn : val w / n * n = val w := div_mul_cancel₀ _ np.ne'
  have rl : val w / val l * val l = val w := div_mul_cancel₀ _ lp.ne'
  have y0 : 0 < val w / n := div_pos w0 np
  have r0 : 0 < val w / val l := div_pos w0 lp
  have yB : val w / n ≤ 2 ^ 70 := by
    rw [div_le_iff₀ np]
    have : (2:ℝ) ^ 70 * (1 / 2 ^ 40) ≤ 2 ^ 70 * n := mul_le_mul_of_nonneg_left n0 (by positivity)
    norm_num at this M1 ⊢
    linarith
  obtain ⟨y, hy⟩ : ∃ y, val w / n = y := ⟨_, rfl⟩
  obtain ⟨r, hr⟩ : ∃ r, val w / val l = r := ⟨_, rfl⟩
  rw [hy] at yn y0 yB
  have ry1 : r * (1 - 4 / 2 ^ 24) ≤ y := by
    by_contra hc
    push Not at hc
    have h1 := mul_lt_mul_of_pos_right hc np
    rw [hr] at rl r0
    have h2 : r * ((1 - 4 / 2 ^ 24) * n) ≤ r * val l := mul_le_mul_of_nonneg_left (by linarith) r0.le
    linarith
  have ry2 : y ≤ r * (1 + 4 / 2 ^ 24) := by
    by_contra hc
    push Not at hc
    have h1 := mul_lt_mul_of_pos_right hc np
    rw [hr] at rl r0
    have h2 : r * val l ≤ r * ((1 + 4 / 2 ^ 24) * n) := mul_le_mul_of_nonneg_left (by linarith) r0.le
    linarith
  obtain ⟨f1, e1⟩ := div_ok hw hl lp.ne' (by
    rw [hr, abs_of_pos (by rwa [hr] at r0)]
    norm_num at yB ry1 ⊢
    linarith)
  rw [hr] at e1 r0
  rw [abs_of_pos r0] at e1
  have e1' := abs_le.mp e1
  have d1 : |val (w / l) - y| ≤ 5.1 / 2 ^ 24 * y + 1 / 2 ^ 150 := by
    rw [abs_le]; constructor <;> linarith
  have ty : |val t| * y ≤ val w := by
    have := mul_le_mul_of_nonneg_right tn y0.le
    linarith
  have tny : (1:ℝ) / 2 ^ 110 ≤ M / 2 ^ 80 := le_trans (by norm_num) (div_le_div_of_nonneg_right M0 (by positivity))
  have tt : |val t| * (1 / 2 ^ 150) ≤ 1 / 2 ^ 110 := by
    have : |val t| * (1 / 2 ^ 150) ≤ 2 ^ 40 * (1 / 2 ^ 150) := mul_le_mul_of_nonneg_right (tn.trans n1) (by positivity)
    norm_num at this ⊢
    linarith
  have d2 : |val t * val (w / l) - val t * y| ≤ 5.1 / 2 ^ 24 * val w + 1 / 2 ^ 110 := by
    rw [← mul_sub, abs_mul]
    have := mul_le_mul_of_nonneg_left d1 (abs_nonneg (val t))
    linarith
  have ty' : |val t * y| ≤ val w := by rwa [abs_mul, abs_of_pos y0]
  have p1 : |val t * val (w / l)| ≤ 1.01 * M := by
    have := abs_sub_abs_le_abs_sub (val t * val (w / l)) (val t * y)
    linarith
  obtain ⟨f2, e2, -⟩ := mul_bound ht f1 p1 (by norm_num at M1 ⊢; linarith)
  refine ⟨f2, ?_⟩
  have e3 : val w * (n⁻¹ * val t) = val t * y := by rw [← hy, div_eq_mul_inv]; ring
  rw [e3]
  have t150 : (1:ℝ) / 2 ^ 150 ≤ 1 / 2 ^ 110 := by norm_num
  have a1 := abs_le.mp d2
  have a2 := abs_le.mp e2
  rw [abs_le]
  constructor <;> linarith

/-- What one motion adds. -/
theorem move_ok {g : Glam F32} (hg : Accurate g) {M : ℝ} {n : ℕ} (hM : Total M n) {y : Layer F32} (hok : Motion32Ok y) (hw : 0 < val y.weight)
    (wM : val y.weight ≤ M) :
    (Finite32 (g.length y.delta.translation * y.weight).bits ∧
      |val (g.length y.delta.translation * y.weight) - val y.weight * norm3 (val3 y.delta.translation)| ≤
        5.1 / 2 ^ 24 * (val y.weight * norm3 (val3 y.delta.translation)) + 1 / 2 ^ 150) ∧
    (∀ i, Finite32 (y.delta.translation i * (if NumOps.eq (g.length y.delta.translation) NumOps.zero then NumOps.zero
        else y.weight / g.length y.delta.translation)).bits ∧
      |val (y.delta.translation i * (if NumOps.eq (g.length y.delta.translation) NumOps.zero then NumOps.zero
        else y.weight / g.length y.delta.translation)) - (val y.weight • direction (val3 y.delta.translation)) i| ≤ 6.4 * M / 2 ^ 24) ∧
    (∀ i, |(val y.weight • direction (val3 y.delta.translation)) i| ≤ val y.weight) ∧
    (∀ i, |(val y.weight • direction (val3 y.delta.translation)) i| ≤ 2 ^ 40 * (val y.weight * norm3 (val3 y.delta.translation))) ∧
    0 ≤ val y.weight * norm3 (val3 y.delta.translation) := by
  have ht := hok.translationFinite hw
  have M0 : 0 < M := lt_of_lt_of_le (by positivity) hM.ge
  have eqE : NumOps.eq (g.length y.delta.translation) NumOps.zero = F32.eq (g.length y.delta.translation) F32.zero := rfl
  have zE : (NumOps.zero : F32) = F32.zero := rfl
  rw [eqE, zE]
  rcases hok.translation hw with h | ⟨h0, h1⟩
  · have n0 : val3 y.delta.translation = 0 := funext h
    obtain ⟨fl, el⟩ := hg.still _ ht h
    have : F32.eq (g.length y.delta.translation) F32.zero = true := (eq_val32 fl zero_finite).mpr (by rw [el, valZero])
    simp only [this, if_true]
    have m1 := mul_still fl hok.weight (.inl el)
    have z3 : norm3 (0 : V3 ℝ) = 0 := by simp [norm3]
    rw [n0, z3, mul_zero]
    have dz : direction (0 : V3 ℝ) = 0 := if_pos rfl
    rw [dz, smul_zero]
    refine ⟨⟨m1.1, ?_⟩, fun i => ?_, fun i => ?_, fun i => ?_, le_rfl⟩
    · rw [m1.2, sub_zero, abs_zero]; positivity
    · have m2 := mul_still (ht i) zero_finite (.inl (h i))
      refine ⟨m2.1, ?_⟩
      rw [m2.2, Pi.zero_apply, sub_zero, abs_zero]; positivity
    · rw [Pi.zero_apply, abs_zero]; exact hw.le
    · rw [Pi.zero_apply, abs_zero, mul_zero]
  · obtain ⟨fl, el⟩ := hg.length _ ht (le_trans (by norm_num) h0) (h1.trans (by norm_num))
    have cn := comp_le_norm3 (val3 y.delta.translation)
    have np : 0 < norm3 (val3 y.delta.translation) := lt_of_lt_of_le (by positivity) h0
    have ne : val3 y.delta.translation ≠ 0 := by
      intro hc
      rw [hc] at np
      simp [norm3] at np
    have dv : direction (val3 y.delta.translation) = (norm3 (val3 y.delta.translation))⁻¹ • val3 y.delta.translation := if_neg ne
    rw [dv]
    generalize hn : norm3 (val3 y.delta.translation) = N at *
    generalize hl : g.length y.delta.translation = l at *
    have el' := abs_le.mp el
    have lp : 0 < val l := by linarith
    have hne : F32.eq l F32.zero = false := by
      cases hb : F32.eq l F32.zero with
      | false => rfl
      | true => have := (eq_val32 fl zero_finite).mp hb; rw [valZero] at this; linarith
    simp only [hne, Bool.false_eq_true, if_false]
    have wN : 0 < val y.weight * N := mul_pos hw np
    have lw : |val l * val y.weight - val y.weight * N| ≤ 4 / 2 ^ 24 * (val y.weight * N) := by
      rw [show val l * val y.weight - val y.weight * N = val y.weight * (val l - N) by ring, abs_mul, abs_of_pos hw]
      have := mul_le_mul_of_nonneg_left el hw.le
      linarith
    have lwb : |val l * val y.weight| ≤ 1.001 * (val y.weight * N) := by
      have := abs_sub_abs_le_abs_sub (val l * val y.weight) (val y.weight * N)
      rw [abs_of_pos wN] at this
      linarith
    have big : val y.weight * N ≤ 2 ^ 70 := by
      have := mul_le_mul (wM.trans hM.le) h1 np.le (by positivity)
      norm_num at this ⊢
      exact this
    obtain ⟨f1, e1, -⟩ := mul_bound fl hok.weight lwb (by norm_num at big ⊢; linarith)
    refine ⟨⟨f1, ?_⟩, fun i => ?_, fun i => ?_, fun i => ?_, wN.le⟩
    · have a1 := abs_le.mp e1
      have a2 := abs_le.mp lw
      rw [abs_le]; constructor <;> linarith
    · obtain ⟨f2, e2⟩ := term_ok (ht i) hok.weight fl hw wM hM.ge hM.le h0 h1 (cn i) el
      exact ⟨f2, e2⟩
    · simp only [Pi.smul_apply, smul_eq_mul]
      rw [abs_mul, abs_mul, abs_of_pos hw, abs_of_pos (inv_pos.mpr np)]
      have : N⁻¹ * |val3 y.delta.translation i| ≤ N⁻¹ * N := mul_le_mul_of_nonneg_left (cn i) (inv_pos.mpr np).le
      rw [inv_mul_cancel₀ np.ne'] at this
      have := mul_le_mul_of_nonneg_left this hw.le
      linarith
    · simp only [Pi.smul_apply, smul_eq_mul]
      rw [abs_mul, abs_mul, abs_of_pos hw, abs_of_pos (inv_pos.mpr np)]
      have h3 : N⁻¹ ≤ 2 ^ 40 := by
        rw [inv_le_comm₀ np (by positivity)]
        rwa [one_div] at h0
      have : N⁻¹ * |val3 y.delta.translation i| ≤ 2 ^ 40 * N := mul_le_mul h3 (cn i) (abs_nonneg _) (by positivity)
      have := mul_le_mul_of_nonneg_left this hw.le
      linarith

/-- The translations. -/
theorem move_fold {g : Glam F32} (hg : Accurate g) {M X : ℝ} {n : ℕ} (hM : Total M n) (X0 : 1 / 2 ^ 90 ≤ X) (X1 : X ≤ 2 ^ 90)
    (ms : List (Layer F32)) (hok : ∀ y ∈ ms, Motion32Ok y)
    (hu : ∀ y ∈ ms, used y = true) : ∀ (k : ℕ) (A L : ℝ) (D : V3 ℝ) (s : Acc F32), 0 ≤ A → 0 ≤ L → Finite32 s.dl.bits →
      (∀ i, Finite32 (s.dt i).bits) → |val s.dl - L| ≤ 7 * k * X / 2 ^ 24 → (∀ i, |val (s.dt i) - D i| ≤ 9 * k * M / 2 ^ 24) →
      (∀ i, |D i| ≤ A) → k + ms.length ≤ n → A + (ms.map fun y => val y.weight).sum ≤ M →
      L + (ms.map fun y => val y.weight * norm3 (val3 y.delta.translation)).sum ≤ X →
      (Finite32 (ms.foldl (accumulateWith g) s).dl.bits ∧
        |val (ms.foldl (accumulateWith g) s).dl - (L + (ms.map fun y => val y.weight * norm3 (val3 y.delta.translation)).sum)| ≤
          7 * ((k + ms.length : ℕ) : ℝ) * X / 2 ^ 24) ∧
      (∀ i, Finite32 ((ms.foldl (accumulateWith g) s).dt i).bits ∧
        |val ((ms.foldl (accumulateWith g) s).dt i) - (D + (ms.map fun y => val y.weight • direction (val3 y.delta.translation)).sum) i| ≤
          9 * ((k + ms.length : ℕ) : ℝ) * M / 2 ^ 24) := by
  induction ms with
  | nil => intro k A L D s _ _ hf hf' he he' _ _ _ _; simpa using ⟨⟨hf, he⟩, fun i => ⟨hf' i, he' i⟩⟩
  | cons y ys ih =>
    intro k A L D s hA hL hf hf' he he' hD hk hs hx
    rw [List.forall_mem_cons] at hok hu
    have hw := (used_val hok.1.weight).mp hu.1
    have hn := hM.few
    have M0 : 0 < M := lt_of_lt_of_le (by positivity) hM.ge
    have Xp : 0 < X := lt_of_lt_of_le (by positivity) X0
    simp only [List.length_cons] at hk
    simp only [List.map_cons, List.sum_cons, List.length_cons] at hs hx ⊢
    have rest : 0 ≤ (ys.map fun y => val y.weight).sum := List.sum_nonneg (by
      intro x hx
      obtain ⟨z, hz, rfl⟩ := List.mem_map.mp hx
      exact ((used_val (hok.2 z hz).weight).mp (hu.2 z hz)).le)
    have rest2 : 0 ≤ (ys.map fun y => val y.weight * norm3 (val3 y.delta.translation)).sum := List.sum_nonneg (by
      intro x hx
      obtain ⟨z, hz, rfl⟩ := List.mem_map.mp hx
      exact mul_nonneg ((used_val (hok.2 z hz).weight).mp (hu.2 z hz)).le (norm3_nonneg _))
    have kR : (k:ℝ) ≤ 512 := by exact_mod_cast (by omega : k ≤ 512)
    have e16 : 9 * k * M / 2 ^ 24 ≤ M / 16 := by
      have : (k:ℝ) * M ≤ 512 * M := mul_le_mul_of_nonneg_right kR M0.le
      rw [mul_assoc]
      linarith
    have e17 : 7 * k * X / 2 ^ 24 ≤ X / 16 := by
      have : (k:ℝ) * X ≤ 512 * X := mul_le_mul_of_nonneg_right kR Xp.le
      rw [mul_assoc]
      linarith
    have tinyX : (1:ℝ) / 2 ^ 150 ≤ X / 2 ^ 60 := by
      have := div_le_div_of_nonneg_right X0 (show (0:ℝ) ≤ 2 ^ 60 by positivity)
      exact le_trans (by norm_num) this
    obtain ⟨⟨f1, e1⟩, h2, h3, -, h5⟩ := move_ok hg hM hok.1 hw (by linarith)
    rw [List.foldl_cons, acc_used g s hu.1]
    -- lengths
    have stepL : Finite32 (s.dl + g.length y.delta.translation * y.weight).bits ∧
        |val (s.dl + g.length y.delta.translation * y.weight) - (L + val y.weight * norm3 (val3 y.delta.translation))| ≤ 7 * ((k + 1 : ℕ) : ℝ) * X / 2 ^ 24 := by
      generalize val y.weight * norm3 (val3 y.delta.translation) = q at *
      generalize g.length y.delta.translation * y.weight = p at *
      have b1 : |val s.dl + val p| ≤ 1.1 * X := by
        have a1 := abs_le.mp he
        have a2 := abs_le.mp e1
        rw [abs_le]; constructor <;> linarith
      obtain ⟨f, e⟩ := add_ok hf f1 (b1.trans (by norm_num at X1 ⊢; linarith))
      refine ⟨f, ?_⟩
      have r := sum_near e he e1
      have : 7 * ((k + 1 : ℕ) : ℝ) * X / 2 ^ 24 = 7 * k * X / 2 ^ 24 + 7 * X / 2 ^ 24 := by push_cast; ring
      rw [this]
      linarith
    have stepD : ∀ i, Finite32 (s.dt i + y.delta.translation i * (if NumOps.eq (g.length y.delta.translation) NumOps.zero then NumOps.zero
        else y.weight / g.length y.delta.translation)).bits ∧
        |val (s.dt i + y.delta.translation i * (if NumOps.eq (g.length y.delta.translation) NumOps.zero then NumOps.zero
        else y.weight / g.length y.delta.translation)) - (D + val y.weight • direction (val3 y.delta.translation)) i| ≤ 9 * ((k + 1 : ℕ) : ℝ) * M / 2 ^ 24 := by
      intro i
      obtain ⟨f2, e2⟩ := h2 i
      have b3 := h3 i
      have b4 := hD i
      have b5 := he' i
      have b6 := hf' i
      rw [Pi.add_apply]
      generalize (val y.weight • direction (val3 y.delta.translation)) i = q at *
      generalize (y.delta.translation i * (if NumOps.eq (g.length y.delta.translation) NumOps.zero then NumOps.zero
        else y.weight / g.length y.delta.translation)) = p at *
      have b1 : |val (s.dt i) + val p| ≤ 1.1 * M := by
        have a1 := abs_le.mp b5
        have a2 := abs_le.mp e2
        have a3 := abs_le.mp b3
        have a4 := abs_le.mp b4
        rw [abs_le]; constructor <;> linarith
      obtain ⟨f, e⟩ := add_ok b6 f2 (b1.trans (by have := hM.le; norm_num at this ⊢; linarith))
      refine ⟨f, ?_⟩
      have r := sum_near e b5 e2
      have : 9 * ((k + 1 : ℕ) : ℝ) * M / 2 ^ 24 = 9 * k * M / 2 ^ 24 + 9 * M / 2 ^ 24 := by push_cast; ring
      rw [this]
      linarith
    have := ih hok.2 hu.2 (k + 1) (A + val y.weight) (L + val y.weight * norm3 (val3 y.delta.translation))
      (D + val y.weight • direction (val3 y.delta.translation)) ⟨s.weight + y.weight, s.dl + g.length y.delta.translation * y.weight,
      fun i => s.dt i + y.delta.translation i * (if NumOps.eq (g.length y.delta.translation) NumOps.zero then NumOps.zero
        else y.weight / g.length y.delta.translation),
      fun i => s.dr i + y.delta.rotation i * withSign y.weight (NumOps.le NumOps.zero (g.dot s.dr y.delta.rotation))⟩
      (by linarith) (by linarith) stepL.1 (fun i => (stepD i).1) stepL.2 (fun i => (stepD i).2)
      (fun i => (abs_add_le _ _).trans (add_le_add (hD i) (h3 i))) (by omega) (by linarith) (by linarith)
    rw [show k + (ys.length + 1) = k + 1 + ys.length by omega, ← add_assoc L, ← add_assoc D]
    exact this

/-! ## The end -/

/-- The factor of the summed directions. -/
theorem factor_ok {dl W l : F32} {M X ℓ η : ℝ} (hW : Finite32 W.bits) (hdl : Finite32 dl.bits) (hl : Finite32 l.bits)
    (M0 : 1 / 2 ^ 30 ≤ M) (M1 : M ≤ 2 ^ 30) (X0 : 0 < X) (XM : X ≤ 2 ^ 40 * M) (ℓ0 : 1 / 2 ^ 46 ≤ ℓ) (ℓ1 : ℓ ≤ 2 ^ 32)
    (η0 : 0 ≤ η) (η1 : η ≤ 1 / 2 ^ 15) (eW : |val W - M| ≤ 3 * η * M) (eX : |val dl - X| ≤ 7 * η * X) (el : |val l - ℓ| ≤ 4 / 2 ^ 24 * ℓ) :
    Finite32 (l * W).bits ∧ 0 < val (l * W) ∧ Finite32 (dl / (l * W)).bits ∧
    |val (dl / (l * W)) - X / M / ℓ| ≤ (10.05 * η + 6.3 / 2 ^ 24) * (X / M / ℓ) + 1 / 2 ^ 150 := by
  have Mp : 0 < M := lt_of_lt_of_le (by positivity) M0
  have ℓp : 0 < ℓ := lt_of_lt_of_le (by positivity) ℓ0
  have P0 : 0 < ℓ * M := mul_pos ℓp Mp
  have hηM : η * M ≤ 1 / 2 ^ 15 * M := mul_le_mul_of_nonneg_right η1 Mp.le
  have hηX : η * X ≤ 1 / 2 ^ 15 * X := mul_le_mul_of_nonneg_right η1 X0.le
  have hηP : η * (ℓ * M) ≤ 1 / 2 ^ 15 * (ℓ * M) := mul_le_mul_of_nonneg_right η1 P0.le
  have ηP0 : 0 ≤ η * (ℓ * M) := mul_nonneg η0 P0.le
  have eW' := abs_le.mp eW
  have el' := abs_le.mp el
  have l0 : 0 < val l := by linarith
  have W0 : 0 < val W := by
    have : 3 * η * M ≤ 3 / 2 ^ 15 * M := by linarith
    linarith
  have PL : (1:ℝ) / 2 ^ 76 ≤ ℓ * M := by
    have := mul_le_mul ℓ0 M0 (by positivity) ℓp.le
    exact le_trans (by norm_num) this
  have PU : ℓ * M ≤ 2 ^ 62 := by
    have := mul_le_mul ℓ1 M1 Mp.le (by positivity)
    exact this.trans (by norm_num)
  have tinyP : (1:ℝ) / 2 ^ 150 ≤ ℓ * M / 2 ^ 60 := le_trans (by norm_num) (div_le_div_of_nonneg_right PL (by positivity))
  have d1 : |val l * val W - ℓ * M| ≤ (3.001 * η + 4 / 2 ^ 24) * (ℓ * M) := by
    rw [show val l * val W - ℓ * M = val l * (val W - M) + (val l - ℓ) * M by ring]
    refine (abs_add_le _ _).trans ?_
    rw [abs_mul, abs_mul, abs_of_pos l0, abs_of_pos Mp]
    have h1 : val l * |val W - M| ≤ (1.0001 * ℓ) * (3 * η * M) := mul_le_mul (by linarith) eW (abs_nonneg _) (by positivity)
    have h2 := mul_le_mul_of_nonneg_right el Mp.le
    rw [show 1.0001 * ℓ * (3 * η * M) = 3.0003 * (η * (ℓ * M)) by ring] at h1
    rw [add_mul, mul_assoc]
    linarith
  rw [add_mul, mul_assoc] at d1
  have d1' := abs_le.mp d1
  have b1 : |val l * val W| ≤ 1.001 * (ℓ * M) := by rw [abs_le]; constructor <;> linarith
  obtain ⟨f1, e1, -⟩ := mul_bound hl hW b1 (by norm_num at PU ⊢; linarith)
  have e1' := abs_le.mp e1
  have d2 : |val (l * W) - ℓ * M| ≤ 3.01 * (η * (ℓ * M)) + 5.1 / 2 ^ 24 * (ℓ * M) := by
    rw [abs_le]; constructor <;> linarith
  generalize l * W = d at *
  have d2' := abs_le.mp d2
  have dp : 0 < val d := by linarith
  have dlow : 0.999 * (ℓ * M) ≤ val d := by linarith
  refine ⟨f1, dp, ?_⟩
  have hρ : X / M / ℓ = X / (ℓ * M) := by rw [div_div, mul_comm]
  rw [hρ]
  have ρP : X / (ℓ * M) * (ℓ * M) = X := div_mul_cancel₀ _ P0.ne'
  have ρ0 : 0 < X / (ℓ * M) := div_pos X0 P0
  have ρU : X / (ℓ * M) ≤ 2 ^ 86 := by
    rw [div_le_iff₀ P0]
    have : (1:ℝ) * M ≤ 2 ^ 46 * ℓ * M := mul_le_mul_of_nonneg_right (by
      have := mul_le_mul_of_nonneg_left ℓ0 (show (0:ℝ) ≤ 2 ^ 46 by positivity)
      norm_num at this ⊢
      linarith) Mp.le
    have : (2:ℝ) ^ 40 * (1 * M) ≤ 2 ^ 40 * (2 ^ 46 * ℓ * M) := mul_le_mul_of_nonneg_left this (by positivity)
    linarith
  generalize hρe : X / (ℓ * M) = ρ at *
  have qd : val dl / val d * val d = val dl := div_mul_cancel₀ _ dp.ne'
  generalize hq : val dl / val d = q at *
  have ηρ0 : 0 ≤ η * ρ := mul_nonneg η0 ρ0.le
  have hηρ : η * ρ ≤ 1 / 2 ^ 15 * ρ := mul_le_mul_of_nonneg_right η1 ρ0.le
  have q1 : |q - ρ| ≤ 10.04 * (η * ρ) + 5.2 / 2 ^ 24 * ρ := by
    have h1 : |(q - ρ) * val d| ≤ (10.01 * η + 5.1 / 2 ^ 24) * X := by
      rw [show (q - ρ) * val d = (val dl - X) + ρ * (ℓ * M - val d) by linear_combination qd - ρP]
      refine (abs_add_le _ _).trans ?_
      rw [abs_mul, abs_of_pos ρ0, abs_sub_comm (ℓ * M)]
      have h2 := mul_le_mul_of_nonneg_left d2 ρ0.le
      rw [show ρ * (3.01 * (η * (ℓ * M)) + 5.1 / 2 ^ 24 * (ℓ * M)) = (3.01 * η + 5.1 / 2 ^ 24) * (ρ * (ℓ * M)) by ring, ρP] at h2
      linarith
    rw [abs_mul, abs_of_pos dp] at h1
    have low : (1 - 1.1e-4) * (ℓ * M) ≤ val d := by linarith
    have h3 : |q - ρ| * ((1 - 1.1e-4) * (ℓ * M)) ≤ |q - ρ| * val d := mul_le_mul_of_nonneg_left low (abs_nonneg _)
    have h4 : |q - ρ| * (1 - 1.1e-4) * (ℓ * M) ≤ ((10.01 * η + 5.1 / 2 ^ 24) * ρ) * (ℓ * M) := by
      rw [mul_assoc ((10.01 * η + 5.1 / 2 ^ 24)), ρP]
      linarith
    have h5 := le_of_mul_le_mul_right h4 P0
    linarith
  have q1' := abs_le.mp q1
  have qb : |q| ≤ 1.001 * ρ := by rw [abs_le]; constructor <;> linarith
  obtain ⟨f2, e2⟩ := div_ok hdl f1 dp.ne' (by rw [hq]; refine qb.trans ?_; norm_num at ρU ⊢; linarith)
  rw [hq] at e2
  refine ⟨f2, ?_⟩
  have e2' := abs_le.mp e2
  rw [abs_le]; constructor <;> linarith

/-- The output translation. -/
theorem finish_move {g : Glam F32} (hg : Accurate g) {M X : ℝ} {n : ℕ} (hM : Total M n) (n1 : 1 ≤ n) {s : Acc F32} {D : V3 ℝ}
    (hW : Finite32 s.weight.bits) (eW : |val s.weight - M| ≤ 3 * n * M / 2 ^ 24) (hdl : Finite32 s.dl.bits)
    (eX : |val s.dl - X| ≤ 7 * n * X / 2 ^ 24) (hdt : ∀ i, Finite32 (s.dt i).bits ∧ |val (s.dt i) - D i| ≤ 9 * n * M / 2 ^ 24)
    (far : 512 * n * M / 2 ^ 24 ≤ norm3 D) (DM : norm3 D ≤ 2 * M) (XD : norm3 D ≤ 2 ^ 41 * X) (XM : X ≤ 2 ^ 40 * M) :
    (∀ i, Finite32 ((finishWith g s).translation i).bits) ∧
    norm3 (val3 s.dt - D) ≤ 15.6 * n * M / 2 ^ 24 ∧ 0 < norm3 (val3 s.dt) ∧
    norm3 (val3 (finishWith g s).translation - (X / M / norm3 (val3 s.dt)) • val3 s.dt) ≤ 12 * (n + 1) / 2 ^ 24 * (X / M) := by
  have Mp : 0 < M := lt_of_lt_of_le (by positivity) hM.ge
  have nR : (n:ℝ) ≤ 512 := by exact_mod_cast hM.few
  have n1R : (1:ℝ) ≤ n := by exact_mod_cast n1
  have nM : M ≤ n * M := le_mul_of_one_le_left Mp.le n1R
  have Dl : M / 2 ^ 15 ≤ norm3 D := by
    refine le_trans ?_ far
    rw [mul_assoc]
    linarith
  have Dlow : (1:ℝ) / 2 ^ 45 ≤ norm3 D := le_trans (le_trans (by norm_num) (div_le_div_of_nonneg_right hM.ge (by positivity))) Dl
  have Dp : 0 < norm3 D := lt_of_lt_of_le (by positivity) Dlow
  have X0 : 0 < X := by
    by_contra hc
    push Not at hc
    have : (2:ℝ) ^ 41 * X ≤ 0 := mul_nonpos_of_nonneg_of_nonpos (by positivity) hc
    linarith
  have vD : norm3 (val3 s.dt - D) ≤ 15.6 * n * M / 2 ^ 24 := by
    have := norm3_box (v := val3 s.dt - D) (fun i => (hdt i).2)
    refine this.trans ?_
    rw [show 9 * (n:ℝ) * M = 9 * (n * M) by ring, show 15.6 * (n:ℝ) * M = 15.6 * (n * M) by ring]
    linarith
  have vD32 : norm3 (val3 s.dt - D) ≤ norm3 D / 32 := by
    rw [show 512 * (n:ℝ) * M = 512 * (n * M) by ring] at far
    rw [show 15.6 * (n:ℝ) * M = 15.6 * (n * M) by ring] at vD
    linarith
  have v1 := norm3_sub_le (val3 s.dt) D
  have v2 := norm3_sub_le D (val3 s.dt)
  rw [norm3_comm D] at v2
  have vlow : 1 / 2 ^ 46 ≤ norm3 (val3 s.dt) := by
    have : (1:ℝ) / 2 ^ 46 = 1 / 2 ^ 45 / 2 := by norm_num
    linarith
  have vhigh : norm3 (val3 s.dt) ≤ 2 ^ 32 := by
    have := hM.le
    norm_num at this ⊢
    linarith
  have vp : 0 < norm3 (val3 s.dt) := lt_of_lt_of_le (by positivity) vlow
  obtain ⟨fl, el⟩ := hg.length s.dt (fun i => (hdt i).1) (le_trans (by norm_num) vlow) (vhigh.trans (by norm_num))
  obtain ⟨fd, dp, fq, eq⟩ := factor_ok (η := n / 2 ^ 24) hW hdl fl hM.ge hM.le X0 XM vlow vhigh (by positivity)
    (by rw [div_le_iff₀ (by positivity)]; norm_num at nR ⊢; linarith) (by linarith) (by linarith) el
  have outE : ∀ i, (finishWith g s).translation i = s.dt i * (s.dl / (g.length s.dt * s.weight)) := by
    intro i
    have hne : NumOps.eq (g.length s.dt * s.weight) (NumOps.zero : F32) = false := by
      change F32.eq (g.length s.dt * s.weight) F32.zero = false
      cases hb : F32.eq (g.length s.dt * s.weight) F32.zero with
      | false => rfl
      | true => have := (eq_val32 fd zero_finite).mp hb; rw [valZero] at this; linarith
    unfold finishWith
    simp only [hne, Bool.false_eq_true, if_false]
  have avg0 : 0 < X / M := div_pos X0 Mp
  have avgM : X / M * M = X := div_mul_cancel₀ _ Mp.ne'
  have avgU : X / M ≤ 2 ^ 40 := by rwa [div_le_iff₀ Mp]
  have avgL : 1 / 2 ^ 56 ≤ X / M := by
    rw [le_div_iff₀ Mp]
    linarith
  have ρℓ : X / M / norm3 (val3 s.dt) * norm3 (val3 s.dt) = X / M := div_mul_cancel₀ _ vp.ne'
  have ρ0 : 0 < X / M / norm3 (val3 s.dt) := div_pos avg0 vp
  generalize s.dl / (g.length s.dt * s.weight) = ν at *
  generalize hρ : X / M / norm3 (val3 s.dt) = ρ at *
  generalize hη : (n:ℝ) / 2 ^ 24 = η at *
  have η0 : 0 ≤ η := by rw [← hη]; positivity
  have η1 : η ≤ 1 / 2 ^ 15 := by rw [← hη, div_le_iff₀ (by positivity)]; norm_num at nR ⊢; linarith
  have hηρ : η * ρ ≤ 1 / 2 ^ 15 * ρ := mul_le_mul_of_nonneg_right η1 ρ0.le
  have ηρ0 : 0 ≤ η * ρ := mul_nonneg η0 ρ0.le
  have comp : ∀ i, Finite32 (s.dt i * ν).bits ∧ |val (s.dt i * ν) - ρ * val (s.dt i)| ≤ (10.06 * η + 7.4 / 2 ^ 24) * ρ * |val (s.dt i)| + 1 / 2 ^ 116 := by
    intro i
    have ci := comp_le_norm3 (val3 s.dt) i
    change |val (s.dt i)| ≤ _ at ci
    have c0 := abs_nonneg (val (s.dt i))
    have t1 : |val (s.dt i)| * (1 / 2 ^ 150) ≤ 1 / 2 ^ 118 := by
      have : |val (s.dt i)| * (1 / 2 ^ 150) ≤ 2 ^ 32 * (1 / 2 ^ 150) := mul_le_mul_of_nonneg_right (ci.trans vhigh) (by positivity)
      norm_num at this ⊢
      linarith
    have cρ : ρ * |val (s.dt i)| ≤ X / M := by
      have := mul_le_mul_of_nonneg_left ci ρ0.le
      linarith
    have cρ0 : 0 ≤ ρ * |val (s.dt i)| := mul_nonneg ρ0.le c0
    have ηc : η * (ρ * |val (s.dt i)|) ≤ 1 / 2 ^ 15 * (ρ * |val (s.dt i)|) := mul_le_mul_of_nonneg_right η1 cρ0
    have ηc0 : 0 ≤ η * (ρ * |val (s.dt i)|) := mul_nonneg η0 cρ0
    have p1 : |val (s.dt i) * val ν - ρ * val (s.dt i)| ≤ 10.05 * (η * (ρ * |val (s.dt i)|)) + 6.3 / 2 ^ 24 * (ρ * |val (s.dt i)|) + 1 / 2 ^ 118 := by
      rw [show val (s.dt i) * val ν - ρ * val (s.dt i) = val (s.dt i) * (val ν - ρ) by ring, abs_mul]
      have := mul_le_mul_of_nonneg_left eq c0
      linarith
    have p2 : |val (s.dt i) * val ν| ≤ 1.001 * (ρ * |val (s.dt i)|) + 1 / 2 ^ 118 := by
      have h1 := abs_sub_abs_le_abs_sub (val (s.dt i) * val ν) (ρ * val (s.dt i))
      rw [abs_mul ρ, abs_of_pos ρ0] at h1
      linarith
    obtain ⟨f, e, -⟩ := mul_bound (hdt i).1 fq p2 (by
      have h118 : (1:ℝ) / 2 ^ 118 ≤ 1 := by norm_num
      norm_num at avgU ⊢
      norm_num at h118
      linarith)
    refine ⟨f, ?_⟩
    have a1 := abs_le.mp p1
    have a2 := abs_le.mp e
    have t3 : (1:ℝ) / 2 ^ 150 ≤ 1 / 2 ^ 118 := by norm_num
    have t4 : (4:ℝ) * (1 / 2 ^ 118) = 1 / 2 ^ 116 := by norm_num
    rw [show (10.06 * η + 7.4 / 2 ^ 24) * ρ * |val (s.dt i)| = 10.06 * (η * (ρ * |val (s.dt i)|)) + 7.4 / 2 ^ 24 * (ρ * |val (s.dt i)|) by ring]
    rw [abs_le]; constructor <;> linarith
  refine ⟨fun i => by rw [outE]; exact (comp i).1, vD, vp, ?_⟩
  have near := norm3_near (a := val3 (finishWith g s).translation - ρ • val3 s.dt) (b := val3 s.dt) (c := (10.06 * η + 7.4 / 2 ^ 24) * ρ)
    (τ := 1 / 2 ^ 116) (by positivity) (by positivity) (fun i => by
      have := (comp i).2
      rw [← outE] at this
      exact this)
  refine near.trans ?_
  rw [mul_assoc, ρℓ]
  have tiny : 1.733 * ((1:ℝ) / 2 ^ 116) ≤ 1 / 2 ^ 50 * (1 / 2 ^ 56) := by norm_num
  have tiny2 : (1:ℝ) / 2 ^ 50 * (1 / 2 ^ 56) ≤ 1 / 2 ^ 50 * (X / M) := mul_le_mul_of_nonneg_left avgL (by positivity)
  have η2 : 0 ≤ η * (X / M) := mul_nonneg η0 avg0.le
  rw [show 12 * ((n:ℝ) + 1) / 2 ^ 24 * (X / M) = 12 * (n / 2 ^ 24 * (X / M)) + 12 / 2 ^ 24 * (X / M) by ring, hη]
  linarith

/-- The output rotation. -/
theorem finish_turn {g : Glam F32} (hg : Accurate g) {M : ℝ} {n : ℕ} (hM : Total M n) (n1 : 1 ≤ n) {s : Acc F32} {R : F4 ℝ}
    (hf : ∀ c, Finite32 (s.dr c).bits) (he : ∀ c, |val (s.dr c) - R c| ≤ 3 * n * M / 2 ^ 24) (hR : ∀ c, |R c| ≤ 1001 / 1000 * M)
    (long : M ^ 2 ≤ 2 * n * norm2 R) :
    (∀ c, Finite32 ((finishWith g s).rotation c).bits) ∧
    (∀ c, |val ((finishWith g s).rotation c) - unitOf R c| ≤ 9 * n * M / 2 ^ 24 / √(norm2 R) + 7 / 2 ^ 24) ∧
    |norm2 (fun c => val ((finishWith g s).rotation c)) - 1| ≤ 1 / 2 ^ 19 := by
  have Mp : 0 < M := lt_of_lt_of_le (by positivity) hM.ge
  have nR : (n:ℝ) ≤ 512 := by exact_mod_cast hM.few
  have n1R : (1:ℝ) ≤ n := by exact_mod_cast n1
  have R0 : 0 < norm2 R := by
    by_contra hc
    push Not at hc
    have : 2 * (n:ℝ) * norm2 R ≤ 0 := mul_nonpos_of_nonneg_of_nonpos (by positivity) hc
    have : 0 < M ^ 2 := by positivity
    linarith
  have Rlong : M ^ 2 ≤ 1024 * norm2 R := by
    have : 2 * (n:ℝ) * norm2 R ≤ 1024 * norm2 R := mul_le_mul_of_nonneg_right (by linarith) R0.le
    linarith
  have sR : M / 32 ≤ √(norm2 R) := Real.le_sqrt_of_sq_le (by rw [div_pow]; linarith)
  have e512 : 3 * n * M / 2 ^ 24 ≤ M / 2 ^ 13 := by
    have : (n:ℝ) * M ≤ 512 * M := mul_le_mul_of_nonneg_right nR Mp.le
    rw [mul_assoc]
    linarith
  obtain ⟨a, ha⟩ : ∃ a : F4 ℝ, (fun c => val (s.dr c)) = a := ⟨_, rfl⟩
  have hac : ∀ c, val (s.dr c) = a c := fun c => congrFun ha c
  have dist : ∀ c, |(a - R) c| ≤ M / 2 ^ 13 := fun c => by rw [← ha]; exact (he c).trans e512
  have sd : √(norm2 (a - R)) ≤ 2 * (M / 2 ^ 13) := by
    apply Real.sqrt_le_iff.mpr
    refine ⟨by positivity, ?_⟩
    have hc : ∀ c, ((a - R) c) ^ 2 ≤ (M / 2 ^ 13) ^ 2 := fun c => by
      rw [← sq_abs]; exact pow_le_pow_left₀ (abs_nonneg _) (dist c) 2
    have : norm2 (a - R) = (a - R) 0 ^ 2 + (a - R) 1 ^ 2 + (a - R) 2 ^ 2 + (a - R) 3 ^ 2 := rfl
    rw [this]
    linarith [hc 0, hc 1, hc 2, hc 3]
  have sa := abs_le.mp ((sqrt_norm2_sub a R).trans sd)
  have sqa : M / 64 ≤ √(norm2 a) := by linarith
  have a0 : 0 < norm2 a := Real.sqrt_pos.mp (lt_of_lt_of_le (by positivity) sqa)
  have alow : 1 / 2 ^ 100 ≤ norm2 a := by
    rw [← Real.sq_sqrt a0.le]
    have h1 := pow_le_pow_left₀ (by positivity) sqa 2
    have h2 : (1 / 2 ^ 30 / 64 : ℝ) ^ 2 ≤ (M / 64) ^ 2 := pow_le_pow_left₀ (by positivity) (div_le_div_of_nonneg_right hM.ge (by norm_num)) 2
    exact le_trans (le_trans (by norm_num) h2) h1
  have ahigh : norm2 a ≤ 2 ^ 100 := by
    have hc : ∀ c, (a c) ^ 2 ≤ (2 ^ 31 : ℝ) ^ 2 := fun c => by
      rw [← sq_abs]
      refine pow_le_pow_left₀ (abs_nonneg _) ?_ 2
      have h1 := abs_sub_abs_le_abs_sub (a c) (R c)
      have h2 := dist c
      rw [Pi.sub_apply] at h2
      have h3 := hR c
      have := hM.le
      norm_num at this ⊢
      linarith
    have : norm2 a = a 0 ^ 2 + a 1 ^ 2 + a 2 ^ 2 + a 3 ^ 2 := rfl
    rw [this]
    have h0 := hc 0; have h1 := hc 1; have h2 := hc 2; have h3 := hc 3
    norm_num at h0 h1 h2 h3 ⊢
    linarith
  -- no identity
  have sdot := self_dot s.dr
  rw [ha] at sdot
  obtain ⟨fd, ed⟩ := hg.dot s.dr s.dr _ hf hf sdot (ahigh.trans (by norm_num))
  rw [ha, show dot4 a a = norm2 a by simp only [dot4, norm2]; ring] at ed
  have ed' := abs_le.mp ed
  have tiny : (1:ℝ) / 2 ^ 147 ≤ norm2 a / 2 ^ 40 := le_trans (by norm_num) (div_le_div_of_nonneg_right alow (by positivity))
  have hne : NumOps.eq (g.dot s.dr s.dr) (NumOps.zero : F32) = false := by
    change F32.eq (g.dot s.dr s.dr) F32.zero = false
    cases hb : F32.eq (g.dot s.dr s.dr) F32.zero with
    | false => rfl
    | true => have := (eq_val32 fd zero_finite).mp hb; rw [valZero] at this; linarith
  have outE : (finishWith g s).rotation = g.normalize s.dr := by
    unfold finishWith
    simp only [hne, Bool.false_eq_true, if_false]
  rw [outE]
  have nrm := hg.normalize s.dr hf (by rw [ha]; exact alow) (by rw [ha]; exact ahigh)
  rw [ha] at nrm
  refine ⟨fun c => (nrm c).1, fun c => ?_, ?_⟩
  · have near := unit_near R0 a0 (D := 3 * n * M / 2 ^ 24) (fun c => by rw [← ha]; exact he c) c
    have hu : unitOf a c = a c / √(norm2 a) := by
      unfold unitOf
      rw [Pi.smul_apply, smul_eq_mul, div_eq_inv_mul]
    rw [← hu] at near
    have e : 3 * (3 * (n:ℝ) * M / 2 ^ 24) / √(norm2 R) = 9 * n * M / 2 ^ 24 / √(norm2 R) := by ring
    rw [e] at near
    have a1 := abs_le.mp near
    have a2 := abs_le.mp (nrm c).2
    rw [abs_le]; constructor <;> linarith
  · have u1 := norm2_unitOf a (by intro hc; rw [hc] at a0; simp [norm2] at a0)
    have hc : ∀ c, |val (g.normalize s.dr c) ^ 2 - unitOf a c ^ 2| ≤ 14 / 2 ^ 24 * |unitOf a c| + 1 / 2 ^ 40 := by
      intro c
      have h := (nrm c).2
      rw [show val (g.normalize s.dr c) ^ 2 - unitOf a c ^ 2 = 2 * (unitOf a c * (val (g.normalize s.dr c) - unitOf a c)) +
        (val (g.normalize s.dr c) - unitOf a c) ^ 2 by ring]
      refine (abs_add_le _ _).trans ?_
      rw [abs_mul, abs_mul, abs_two, abs_pow]
      have h1 := mul_le_mul_of_nonneg_left h (abs_nonneg (unitOf a c))
      have h2 := pow_le_pow_left₀ (abs_nonneg _) h 2
      have h3 : ((7:ℝ) / 2 ^ 24) ^ 2 ≤ 1 / 2 ^ 40 := by norm_num
      linarith
    have s2 : |unitOf a 0| + |unitOf a 1| + |unitOf a 2| + |unitOf a 3| ≤ 2 := by
      have q := fun c => sq_nonneg (|unitOf a c| - 1 / 2)
      have q0 := q 0; have q1 := q 1; have q2 := q 2; have q3 := q 3
      have e : ∀ c, (|unitOf a c| - 1 / 2) ^ 2 = unitOf a c ^ 2 - |unitOf a c| + 1 / 4 := fun c => by
        rw [← sq_abs (unitOf a c)]; ring
      rw [e] at q0 q1 q2 q3
      have : norm2 (unitOf a) = unitOf a 0 ^ 2 + unitOf a 1 ^ 2 + unitOf a 2 ^ 2 + unitOf a 3 ^ 2 := rfl
      linarith
    have n1 : norm2 (unitOf a) = unitOf a 0 ^ 2 + unitOf a 1 ^ 2 + unitOf a 2 ^ 2 + unitOf a 3 ^ 2 := rfl
    have n2 : norm2 (fun c => val (g.normalize s.dr c)) = val (g.normalize s.dr 0) ^ 2 + val (g.normalize s.dr 1) ^ 2 +
      val (g.normalize s.dr 2) ^ 2 + val (g.normalize s.dr 3) ^ 2 := rfl
    have c0 := abs_le.mp (hc 0); have c1 := abs_le.mp (hc 1); have c2 := abs_le.mp (hc 2); have c3 := abs_le.mp (hc 3)
    rw [n2, abs_le]
    constructor <;> linarith

/-! ## All together -/

theorem acc_zero : Finite32 (Acc.zero : Acc F32).weight.bits ∧ val (Acc.zero : Acc F32).weight = 0 := ⟨zero_finite, valZero⟩

/-- Every motion that is used has a positive weight. -/
theorem used_list {ls : List (Layer F32)} (h : Motions32Ok ls) :
    (∀ y ∈ ls.filter used, Motion32Ok y) ∧ (∀ y ∈ ls.filter used, used y = true) ∧
    positives (ls.map valMotion) = (ls.filter used).map valMotion ∧
    ((ls.filter used).map fun y => val y.weight).sum = weightSum (ls.map valMotion) ∧
    (ls.filter used).length = (positives (ls.map valMotion)).length ∧ 1 ≤ (positives (ls.map valMotion)).length ∧
    Total (weightSum (ls.map valMotion)) (positives (ls.map valMotion)).length := by
  have hp := positives_used ls (fun y hy => (h.each y hy).weight)
  have hs : ((ls.filter used).map fun y => val y.weight).sum = weightSum (ls.map valMotion) := by
    unfold weightSum
    rw [hp, List.map_map]
    rfl
  refine ⟨fun y hy => h.each y (List.mem_filter.mp hy).1, fun y hy => (List.mem_filter.mp hy).2, hp, hs,
    by rw [hp, List.length_map], ?_, ⟨h.weight_ge, h.weight_le, h.few⟩⟩
  rcases Nat.eq_zero_or_pos (positives (ls.map valMotion)).length with h0 | h0
  · exfalso
    have h1 := h.weight_ge
    unfold weightSum at h1
    rw [List.length_eq_zero_iff.mp h0] at h1
    simp at h1
    norm_num at h1
  · exact h0

theorem used_weight {g : Glam F32} {ls : List (Layer F32)} (h : Motions32Ok ls) :
    Finite32 (ls.foldl (accumulateWith g) Acc.zero).weight.bits ∧
    |val (ls.foldl (accumulateWith g) Acc.zero).weight - weightSum (ls.map valMotion)| ≤
      3 * (positives (ls.map valMotion)).length * weightSum (ls.map valMotion) / 2 ^ 24 := by
  obtain ⟨h1, h2, -, h4, h5, -, h7⟩ := used_list h
  rw [fold_used]
  have := weight_fold (g := g) h7 (ls.filter used) h1 h2 0 0 Acc.zero le_rfl zero_finite (by
    have := acc_zero.2
    rw [this]; simp) (by omega) (by rw [h4, zero_add])
  rw [h4, zero_add, zero_add, h5] at this
  exact this

theorem used_turn {g : Glam F32} (hg : Accurate g) {ls : List (Layer F32)} (h : Motions32Ok ls) :
    ∃ R, AlignedUpTo (12 * (positives (ls.map valMotion)).length * weightSum (ls.map valMotion) / 2 ^ 24) 0 (turns (ls.map valMotion)) R ∧
      weightSum (ls.map valMotion) ^ 2 ≤ 2 * (positives (ls.map valMotion)).length * norm2 R ∧
      (∀ c, Finite32 ((runWith g ls).rotation c).bits) ∧
      (∀ c, |val ((runWith g ls).rotation c) - unitOf R c| ≤
        9 * (positives (ls.map valMotion)).length * weightSum (ls.map valMotion) / 2 ^ 24 / √(norm2 R) + 7 / 2 ^ 24) ∧
      |norm2 (fun c => val ((runWith g ls).rotation c)) - 1| ≤ 1 / 2 ^ 19 := by
  obtain ⟨h1, h2, h3, h4, h5, h6, h7⟩ := used_list h
  have M0 : 0 < weightSum (ls.map valMotion) := lt_of_lt_of_le (by positivity) h7.ge
  have hz : ∀ c, val ((Acc.zero : Acc F32).dr c) = 0 := fun _ => valZero
  obtain ⟨R, a1, a2, a3⟩ := turn_fold hg h7 (ls.filter used) h1 h2 0 0 0 Acc.zero le_rfl (fun _ => zero_finite) (by
    intro c; rw [hz]; simp) (by intro c; simp) (by omega) (by rw [h4, zero_add])
  have et : ((ls.filter used).map fun y => (val y.weight, (valMotion y).delta.rotation)) = turns (ls.map valMotion) := by
    unfold turns
    rw [h3, List.map_map]
    rfl
  rw [et] at a1
  rw [zero_add, h5] at a3
  have wpos : ∀ c ∈ turns (ls.map valMotion), 0 ≤ c.1 := by
    intro c hc
    rw [← et] at hc
    obtain ⟨y, hy, rfl⟩ := List.mem_map.mp hc
    exact ((used_val (h1 y hy).weight).mp (h2 y hy)).le
  have long := aligned_long a1 wpos (by
      intro c hc
      rw [← et] at hc
      obtain ⟨y, hy, rfl⟩ := List.mem_map.mp hc
      right
      have := abs_le.mp ((h1 y hy).rotation ((used_val (h1 y hy).weight).mp (h2 y hy)))
      change 1 - 1 / 2 ^ 10 ≤ norm2 (fun c => val (y.delta.rotation c))
      linarith)
    (M := weightSum (ls.map valMotion)) (m := (positives (ls.map valMotion)).length)
    (by unfold turns weightSum; rw [List.map_map]; rfl) (by unfold turns; rw [List.length_map]) h.few M0 rfl
  have RB : ∀ c, |R c| ≤ 1001 / 1000 * weightSum (ls.map valMotion) := by
    have key : ∀ (cs : List (ℝ × F4 ℝ)) (acc r : F4 ℝ) (A δ : ℝ), (∀ c ∈ cs, 0 ≤ c.1) → (∀ c ∈ cs, ∀ j, |c.2 j| ≤ 1001 / 1000) →
        (∀ j, |acc j| ≤ 1001 / 1000 * A) → AlignedUpTo δ acc cs r → ∀ j, |r j| ≤ 1001 / 1000 * (A + (cs.map fun c => c.1).sum) := by
      intro cs
      induction cs with
      | nil => intro acc r A δ _ _ h3 h4; cases h4; simpa using h3
      | cons c cs ih =>
        intro acc r A δ p1 p2 p3 p4
        obtain ⟨w, q'⟩ := c
        rw [List.forall_mem_cons] at p1 p2
        simp only [List.map_cons, List.sum_cons]
        rw [← add_assoc]
        have b := fun j => mul_le_mul_of_nonneg_left (p2.1 j) p1.1
        cases p4 with
        | keep _ q =>
          refine ih _ _ _ _ p1.2 p2.2 (fun j => ?_) q
          have := abs_add_le (acc j) (w * q' j)
          rw [abs_mul w, abs_of_nonneg p1.1] at this
          change |acc j + _ * _| ≤ _
          linarith [p3 j, b j]
        | turn _ q =>
          refine ih _ _ _ _ p1.2 p2.2 (fun j => ?_) q
          have := abs_sub (acc j) (w * q' j)
          rw [abs_mul w, abs_of_nonneg p1.1] at this
          change |acc j - _ * _| ≤ _
          linarith [p3 j, b j]
    have := key _ 0 R 0 _ wpos (by
      intro c hc
      rw [← et] at hc
      obtain ⟨y, hy, rfl⟩ := List.mem_map.mp hc
      exact (coords_of_unit ((h1 y hy).rotation ((used_val (h1 y hy).weight).mp (h2 y hy)))).1) (by simp) a1
    rw [zero_add, show ((turns (ls.map valMotion)).map fun c => c.1).sum = weightSum (ls.map valMotion) by
      unfold turns weightSum; rw [List.map_map]; rfl] at this
    exact this
  have fin := finish_turn hg h7 h6 a2 a3 RB long
  rw [← fold_used] at fin
  exact ⟨R, a1, long, fin⟩

theorem used_move {g : Glam F32} (hg : Accurate g) {ls : List (Layer F32)} (h : Motions32Ok ls)
    (far : 512 * (positives (ls.map valMotion)).length * weightSum (ls.map valMotion) / 2 ^ 24 ≤ norm3 (directionSum (ls.map valMotion))) :
    (∀ i, Finite32 ((runWith g ls).translation i).bits) ∧ ∃ v : V3 ℝ,
    norm3 (v - directionSum (ls.map valMotion)) ≤ 15.6 * (positives (ls.map valMotion)).length * weightSum (ls.map valMotion) / 2 ^ 24 ∧
    0 < norm3 v ∧ 0 < averageLength (ls.map valMotion) ∧
    norm3 (val3 (runWith g ls).translation - (averageLength (ls.map valMotion) / norm3 v) • v) ≤
      12 * ((positives (ls.map valMotion)).length + 1) / 2 ^ 24 * averageLength (ls.map valMotion) := by
  obtain ⟨h1, h2, h3, h4, h5, h6, h7⟩ := used_list h
  have M0 : 0 < weightSum (ls.map valMotion) := lt_of_lt_of_le (by positivity) h7.ge
  have n1R : (1:ℝ) ≤ (positives (ls.map valMotion)).length := by exact_mod_cast h6
  have eD : ((ls.filter used).map fun y => val y.weight • direction (val3 y.delta.translation)).sum = directionSum (ls.map valMotion) := by
    unfold directionSum
    rw [h3, List.map_map]
    rfl
  have eL : averageLength (ls.map valMotion) = ((ls.filter used).map fun y => val y.weight * norm3 (val3 y.delta.translation)).sum /
      weightSum (ls.map valMotion) := by
    unfold averageLength
    rw [h3, List.map_map]
    rfl
  have wpos : ∀ y ∈ ls.filter used, 0 < val y.weight := fun y hy => (used_val (h1 y hy).weight).mp (h2 y hy)
  have wle : ∀ y ∈ ls.filter used, val y.weight ≤ weightSum (ls.map valMotion) := by
    intro y hy
    rw [← h4]
    apply List.single_le_sum
    · intro x hx
      obtain ⟨z, hz, rfl⟩ := List.mem_map.mp hx
      exact (wpos z hz).le
    · exact List.mem_map.mpr ⟨y, hy, rfl⟩
  have mv := fun y hy => move_ok hg h7 (h1 y hy) (wpos y hy) (wle y hy)
  -- sums of components
  have sums : ∀ (ms : List (Layer F32)), (∀ y ∈ ms, y ∈ ls.filter used) → ∀ i,
      |(ms.map fun y => val y.weight • direction (val3 y.delta.translation)).sum i| ≤ (ms.map fun y => val y.weight).sum ∧
      |(ms.map fun y => val y.weight • direction (val3 y.delta.translation)).sum i| ≤
        2 ^ 40 * (ms.map fun y => val y.weight * norm3 (val3 y.delta.translation)).sum ∧
      (ms.map fun y => val y.weight * norm3 (val3 y.delta.translation)).sum ≤ 2 ^ 40 * (ms.map fun y => val y.weight).sum := by
    intro ms
    induction ms with
    | nil => intro _ i; simp
    | cons y ys ih =>
      intro hm i
      rw [List.forall_mem_cons] at hm
      obtain ⟨i1, i2, i3⟩ := ih hm.2 i
      obtain ⟨-, -, m3, m4, -⟩ := mv y hm.1
      have m3 := m3 i
      have m4 := m4 i
      simp only [List.map_cons, List.sum_cons]
      rw [Pi.add_apply]
      have := abs_add_le ((val y.weight • direction (val3 y.delta.translation)) i)
        ((ys.map fun y => val y.weight • direction (val3 y.delta.translation)).sum i)
      have nb : norm3 (val3 y.delta.translation) ≤ 2 ^ 40 := by
        rcases (h1 y hm.1).translation (wpos y hm.1) with hz | ⟨-, hz⟩
        · have : val3 y.delta.translation = 0 := funext hz
          rw [this]; simp [norm3]
        · exact hz
      have := mul_le_mul_of_nonneg_left nb (wpos y hm.1).le
      refine ⟨by linarith, by linarith, by linarith⟩
  have sm := sums _ (fun y hy => hy)
  rw [eD, h4] at sm
  generalize hX : ((ls.filter used).map fun y => val y.weight * norm3 (val3 y.delta.translation)).sum = X at *
  have DM : norm3 (directionSum (ls.map valMotion)) ≤ 2 * weightSum (ls.map valMotion) := by
    have := norm3_box (fun i => (sm i).1)
    linarith
  have XD : norm3 (directionSum (ls.map valMotion)) ≤ 2 ^ 41 * X := by
    have := norm3_box (fun i => (sm i).2.1)
    have h0 := (abs_nonneg _).trans (sm 0).2.1
    linarith
  have XM := (sm 0).2.2
  have nM : weightSum (ls.map valMotion) ≤ (positives (ls.map valMotion)).length * weightSum (ls.map valMotion) := le_mul_of_one_le_left M0.le n1R
  have Xlow : 1 / 2 ^ 90 ≤ X := by
    rw [mul_assoc] at far
    have h1 := h7.ge
    have : (1:ℝ) / 2 ^ 90 = 1 / 2 ^ 30 / 2 ^ 60 := by norm_num
    linarith
  have Xhigh : X ≤ 2 ^ 90 := by
    have := h7.le
    norm_num at this XM ⊢
    linarith
  have hzt : ∀ i, val ((Acc.zero : Acc F32).dt i) = 0 := fun _ => valZero
  have hzl : val (Acc.zero : Acc F32).dl = 0 := valZero
  obtain ⟨⟨fl, el⟩, ft⟩ := move_fold hg h7 Xlow Xhigh (ls.filter used) h1 h2 0 0 0 0 Acc.zero le_rfl le_rfl zero_finite (fun _ => zero_finite)
    (by rw [hzl]; simp) (fun i => by rw [hzt]; simp) (fun i => by simp) (by omega) (by rw [h4, zero_add]) (by rw [hX, zero_add])
  rw [hX, zero_add, zero_add, h5] at el
  rw [eD, zero_add, zero_add, h5] at ft
  obtain ⟨fw, ew⟩ := used_weight (g := g) h
  rw [fold_used] at fw ew
  have fin := finish_move hg h7 h6 fw ew fl el ft far DM XD XM
  rw [← eL, ← fold_used] at fin
  obtain ⟨f1, f2, f3, f4⟩ := fin
  refine ⟨f1, _, f2, f3, ?_, f4⟩
  rw [eL]
  exact div_pos (lt_of_lt_of_le (by positivity) Xlow) M0

end Ozz.MotionBlending
