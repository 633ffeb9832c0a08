import Verif.Spec.FloatModel
import Verif.Proofs.FloatLocal
import Verif.Proofs.Pipeline

/-! Model matrices in single precision: error along a path. -/

namespace Ozz.F32

open Ieee Spec LocalToModel

/-- Rotations normalised. -/
noncomputable def normT (t : SoaTransform ℝ) : SoaTransform ℝ :=
  let n : F4 ℝ := fun l => √(t.rotation.x l ^ 2 + t.rotation.y l ^ 2 + t.rotation.z l ^ 2 + t.rotation.w l ^ 2)
  { t with rotation := ⟨fun l => t.rotation.x l / n l, fun l => t.rotation.y l / n l, fun l => t.rotation.z l / n l,
      fun l => t.rotation.w l / n l⟩ }

/-- The ideal local matrix. -/
noncomputable def idealLocal (t : SoaTransform F32) (l : Fin 4) : Mat4 ℝ := localMatrices (normT (valTransform t)) l

/-- What is needed about a local matrix. -/
structure LocalNear (m : Mat4 F32) (L : Mat4 ℝ) (s B δ : ℝ) : Prop where
  finite : ∀ c r, Finite32 (m c r).bits
  near : ∀ c r, c ≠ 3 → r ≠ 3 → |val (m c r) - L c r| ≤ s * (9 / 2 ^ 24 + 2 * δ)
  column : ∀ c, c ≠ 3 → len (L c 0) (L c 1) (L c 2) ≤ s
  op : ∀ a b c : ℝ, len (a * L 0 0 + b * L 0 1 + c * L 0 2) (a * L 1 0 + b * L 1 1 + c * L 1 2)
    (a * L 2 0 + b * L 2 1 + c * L 2 2) ≤ s * len a b c
  last : ∀ c, c ≠ 3 → val (m c 3) = 0 ∧ L c 3 = 0
  lastOne : val (m 3 3) = 1 ∧ L 3 3 = 1
  translation : ∀ r, r ≠ 3 → val (m 3 r) = L 3 r
  bounded : len (L 3 0) (L 3 1) (L 3 2) ≤ B

/-- Normalising changes an entry little. -/
theorem norm_shift {n δ N s z : ℝ} (hn : |n - 1| ≤ δ) (hδ : δ ≤ 1 / 2) (hN : |N| ≤ 2 * n) (hs : |z| ≤ s) :
    |z * N - z * (N / n)| ≤ s * (2 * δ) := by
  have h0 : 0 < n := by have := (abs_le.mp hn).1; linarith
  rw [← mul_sub, abs_mul]
  refine mul_le_mul hs ?_ (abs_nonneg _) ((abs_nonneg _).trans hs)
  rw [show N - N / n = (n - 1) * (N / n) by field_simp, abs_mul, abs_div, abs_of_pos h0]
  have : |N| / n ≤ 2 := by rw [div_le_iff₀ h0]; exact hN
  calc |n - 1| * (|N| / n) ≤ δ * 2 := mul_le_mul hn this (by positivity) ((abs_nonneg _).trans hn)
    _ = 2 * δ := by ring

/-- The rotation matrix of a unit quaternion keeps lengths of rows. -/
theorem rotation_rows {x y z w : ℝ} (h : x ^ 2 + y ^ 2 + z ^ 2 + w ^ 2 = 1) (a b c : ℝ) :
    (a * (1 - 2 * (y ^ 2 + z ^ 2)) + b * (2 * (x * y + z * w)) + c * (2 * (x * z - y * w))) ^ 2 +
    (a * (2 * (x * y - z * w)) + b * (1 - 2 * (x ^ 2 + z ^ 2)) + c * (2 * (y * z + x * w))) ^ 2 +
    (a * (2 * (x * z + y * w)) + b * (2 * (y * z - x * w)) + c * (1 - 2 * (x ^ 2 + y ^ 2))) ^ 2 = a ^ 2 + b ^ 2 + c ^ 2 := by
  linear_combination (-2 * (a * (a * (1 - 2 * (y ^ 2 + z ^ 2)) + b * (2 * (x * y + z * w)) + c * (2 * (x * z - y * w))) +
    b * (a * (2 * (x * y - z * w)) + b * (1 - 2 * (x ^ 2 + z ^ 2)) + c * (2 * (y * z + x * w))) +
    c * (a * (2 * (x * z + y * w)) + b * (2 * (y * z - x * w)) + c * (1 - 2 * (x ^ 2 + y ^ 2))) - (a ^ 2 + b ^ 2 + c ^ 2))) * h

theorem unit_of_norm {x y z w n : ℝ} (hn : n = x ^ 2 + y ^ 2 + z ^ 2 + w ^ 2) (h0 : 0 < n) :
    (x / √n) ^ 2 + (y / √n) ^ 2 + (z / √n) ^ 2 + (w / √n) ^ 2 = 1 := by
  rw [div_pow, div_pow, div_pow, div_pow, Real.sq_sqrt h0.le, ← add_div, ← add_div, ← add_div, ← hn, div_self h0.ne']

theorem div_sqrt_mul (a b : ℝ) {n : ℝ} (h0 : 0 < n) : a / √n * (b / √n) = a * b / n := by
  rw [div_mul_div_comm, Real.mul_self_sqrt h0.le]

theorem diag_shift {v s y z n δ σ : ℝ} (hv : |v - s * (1 - 2 * (y ^ 2 + z ^ 2))| ≤ 9 * σ / 2 ^ 24) (hn : |n - 1| ≤ δ)
    (hδ : δ ≤ 1 / 2) (hN : y ^ 2 + z ^ 2 ≤ n) (hs : |s| ≤ σ) :
    |v - s * (1 - 2 * (y / √n * (y / √n) + z / √n * (z / √n)))| ≤ σ * (9 / 2 ^ 24 + 2 * δ) := by
  have h0 : 0 < n := by have := (abs_le.mp hn).1; linarith
  rw [div_sqrt_mul _ _ h0, div_sqrt_mul _ _ h0]
  have h1 := norm_shift (N := 2 * (y ^ 2 + z ^ 2)) hn hδ (by rw [abs_of_nonneg (by positivity)]; linarith) hs
  have h := abs_add_le (v - s * (1 - 2 * (y ^ 2 + z ^ 2)))
    (-(s * (2 * (y ^ 2 + z ^ 2)) - s * (2 * (y ^ 2 + z ^ 2) / n)))
  rw [abs_neg] at h
  rw [show v - s * (1 - 2 * (y * y / n + z * z / n)) = v - s * (1 - 2 * (y ^ 2 + z ^ 2)) +
    -(s * (2 * (y ^ 2 + z ^ 2)) - s * (2 * (y ^ 2 + z ^ 2) / n)) by ring]
  linarith

theorem off_shift {v s a b c d n δ σ : ℝ} (hv : |v - s * (2 * (a * b + c * d))| ≤ 9 * σ / 2 ^ 24) (hn : |n - 1| ≤ δ)
    (hδ : δ ≤ 1 / 2) (hN : a ^ 2 + b ^ 2 + c ^ 2 + d ^ 2 = n) (hs : |s| ≤ σ) :
    |v - s * (2 * (a / √n * (b / √n) + c / √n * (d / √n)))| ≤ σ * (9 / 2 ^ 24 + 2 * δ) := by
  have h0 : 0 < n := by have := (abs_le.mp hn).1; linarith
  rw [div_sqrt_mul _ _ h0, div_sqrt_mul _ _ h0]
  have h1 := norm_shift (N := 2 * (a * b + c * d)) hn hδ (by
    rw [abs_le]
    constructor <;> nlinarith [sq_nonneg (a - b), sq_nonneg (a + b), sq_nonneg (c - d), sq_nonneg (c + d)]) hs
  have h := abs_add_le (v - s * (2 * (a * b + c * d))) (s * (2 * (a * b + c * d)) - s * (2 * (a * b + c * d) / n))
  rw [show v - s * (2 * (a * b / n + c * d / n)) = v - s * (2 * (a * b + c * d)) +
    (s * (2 * (a * b + c * d)) - s * (2 * (a * b + c * d) / n)) by ring]
  linarith

theorem off_shift' {v s a b c d n δ σ : ℝ} (hv : |v - s * (2 * (a * b - c * d))| ≤ 9 * σ / 2 ^ 24) (hn : |n - 1| ≤ δ)
    (hδ : δ ≤ 1 / 2) (hN : a ^ 2 + b ^ 2 + c ^ 2 + d ^ 2 = n) (hs : |s| ≤ σ) :
    |v - s * (2 * (a / √n * (b / √n) - c / √n * (d / √n)))| ≤ σ * (9 / 2 ^ 24 + 2 * δ) := by
  have := off_shift (a := a) (b := b) (c := -c) (d := d) (v := v) (s := s) (n := n) (δ := δ) (σ := σ)
    (by rw [show a * b + -c * d = a * b - c * d by ring]; exact hv) hn hδ (by rw [neg_sq]; exact hN) hs
  rw [show a / √n * (b / √n) + -c / √n * (d / √n) = a / √n * (b / √n) - c / √n * (d / √n) by ring] at this
  exact this

theorem four_ne {P : Fin 4 → Prop} (h0 : P 0) (h1 : P 1) (h2 : P 2) : ∀ c, c ≠ 3 → P c := by
  intro c hc
  fin_cases c
  · exact h0
  · exact h1
  · exact h2
  · exact absurd rfl hc

theorem four_all {P : Fin 4 → Prop} (h0 : P 0) (h1 : P 1) (h2 : P 2) (h3 : P 3) : ∀ c, P c := by
  intro c
  fin_cases c
  · exact h0
  · exact h1
  · exact h2
  · exact h3

/-- Local matrices in single precision. -/
theorem local_near {t : SoaTransform F32} {l : Fin 4} {s B δ : ℝ} (h : Joint32Ok t l s B δ) (hδ : δ ≤ 1 / 1000) (h1 : 1 ≤ s)
    (hs : s ≤ 2 ^ 100) : LocalNear (localMatrices t l) (idealLocal t l) s B δ := by
  obtain ⟨⟨tx, ty, tz⟩, ⟨rx, ry, rz, rw'⟩, ⟨sx, sy, sz⟩, hB, hn, ⟨bx, by', bz⟩⟩ := h
  have hn0 := hn
  set X := val (t.rotation.x l) with hX
  set Y := val (t.rotation.y l) with hY
  set Z := val (t.rotation.z l) with hZ
  set W := val (t.rotation.w l) with hW
  set n := X ^ 2 + Y ^ 2 + Z ^ 2 + W ^ 2 with hN
  have hup : n ≤ 1.001 := by have := (abs_le.mp hn).2; norm_num at *; linarith
  have h0 : 0 < n := by have := (abs_le.mp hn).1; linarith
  have hδ' : δ ≤ 1 / 2 := hδ.trans (by norm_num)
  have x2 := sq_nonneg X
  have y2 := sq_nonneg Y
  have z2 := sq_nonneg Z
  have w2 := sq_nonneg W
  -- the nine entries
  have e00 := entry_diag sx ry rz (by linarith) bx h1 hs
  have e11 := entry_diag sy rx rz (by linarith) by' h1 hs
  have e22 := entry_diag sz rx ry (by linarith) bz h1 hs
  obtain ⟨f, b, e⟩ := inner_sum rx ry rz rw' (by linarith)
  have e01 := entry_off sx f b e bx h1 hs
  obtain ⟨f, b, e⟩ := inner_diff rx ry rz rw' (by linarith)
  have e10 := entry_off sy f b e by' h1 hs
  obtain ⟨f, b, e⟩ := inner_diff rx rz ry rw' (by linarith)
  have e02 := entry_off sx f b e bx h1 hs
  obtain ⟨f, b, e⟩ := inner_sum rx rz ry rw' (by linarith)
  have e20 := entry_off sz f b e bz h1 hs
  obtain ⟨f, b, e⟩ := inner_sum ry rz rx rw' (by linarith)
  have e12 := entry_off' sy f b e by' h1 hs
  obtain ⟨f, b, e⟩ := inner_diff ry rz rx rw' (by linarith)
  have e21 := entry_off sz f b e bz h1 hs
  have hz : Finite32 (NumOps.zero : F32).bits ∧ val (NumOps.zero : F32) = 0 := ⟨zero_finite, zero_real⟩
  -- the ideal matrix
  have hu := unit_of_norm hN h0
  have I00 : idealLocal t l 0 0 = val (t.scale.x l) * (1 - 2 * (Y / √n * (Y / √n) + Z / √n * (Z / √n))) := by
    unfold idealLocal localMatrices; rw [toAos_apply]; rfl
  have I01 : idealLocal t l 0 1 = val (t.scale.x l) * (2 * (X / √n * (Y / √n) + Z / √n * (W / √n))) := by
    rw [← mul_assoc]; unfold idealLocal localMatrices; rw [toAos_apply]; rfl
  have I02 : idealLocal t l 0 2 = val (t.scale.x l) * (2 * (X / √n * (Z / √n) - Y / √n * (W / √n))) := by
    rw [← mul_assoc]; unfold idealLocal localMatrices; rw [toAos_apply]; rfl
  have I10 : idealLocal t l 1 0 = val (t.scale.y l) * (2 * (X / √n * (Y / √n) - Z / √n * (W / √n))) := by
    rw [← mul_assoc]; unfold idealLocal localMatrices; rw [toAos_apply]; rfl
  have I11 : idealLocal t l 1 1 = val (t.scale.y l) * (1 - 2 * (X / √n * (X / √n) + Z / √n * (Z / √n))) := by
    unfold idealLocal localMatrices; rw [toAos_apply]; rfl
  have I12 : idealLocal t l 1 2 = val (t.scale.y l) * (2 * (Y / √n * (Z / √n) + X / √n * (W / √n))) := by
    unfold idealLocal localMatrices; rw [toAos_apply]; rfl
  have I20 : idealLocal t l 2 0 = val (t.scale.z l) * (2 * (X / √n * (Z / √n) + Y / √n * (W / √n))) := by
    rw [← mul_assoc]; unfold idealLocal localMatrices; rw [toAos_apply]; rfl
  have I21 : idealLocal t l 2 1 = val (t.scale.z l) * (2 * (Y / √n * (Z / √n) - X / √n * (W / √n))) := by
    rw [← mul_assoc]; unfold idealLocal localMatrices; rw [toAos_apply]; rfl
  have I22 : idealLocal t l 2 2 = val (t.scale.z l) * (1 - 2 * (X / √n * (X / √n) + Y / √n * (Y / √n))) := by
    unfold idealLocal localMatrices; rw [toAos_apply]; rfl
  -- the distance
  have N00 := diag_shift e00.2 hn hδ' (by linarith) bx
  have N01 := off_shift e01.2 hn hδ' rfl bx
  have N02 := off_shift' e02.2 hn hδ' (by rw [hN]; ring) bx
  have N10 := off_shift' e10.2 hn hδ' rfl by'
  have N11 := diag_shift e11.2 hn hδ' (by linarith) by'
  have N12 := off_shift e12.2 hn hδ' (by rw [hN]; ring) by'
  have N20 := off_shift e20.2 hn hδ' (by rw [hN]; ring) bz
  have N21 := off_shift' e21.2 hn hδ' (by rw [hN]; ring) bz
  have N22 := diag_shift e22.2 hn hδ' (by linarith) bz
  rw [← I00] at N00
  rw [← I01] at N01
  rw [← I02] at N02
  rw [← I10] at N10
  rw [← I11] at N11
  rw [← I12] at N12
  rw [← I20] at N20
  rw [← I21] at N21
  rw [← I22] at N22
  have s0 : 0 ≤ s := by linarith
  refine ⟨?_, ?_, ?_, ?_, ?_, ?_, ?_, ?_⟩
  · refine four_all (four_all ?_ ?_ ?_ ?_) (four_all ?_ ?_ ?_ ?_) (four_all ?_ ?_ ?_ ?_) (four_all ?_ ?_ ?_ ?_) <;>
      (unfold localMatrices; rw [toAos_apply])
    · exact e00.1
    · exact e01.1
    · exact e02.1
    · exact hz.1
    · exact e10.1
    · exact e11.1
    · exact e12.1
    · exact hz.1
    · exact e20.1
    · exact e21.1
    · exact e22.1
    · exact hz.1
    · exact tx
    · exact ty
    · exact tz
    · exact one_ok.1
  · intro c r hc hr
    revert c r
    have key : ∀ c, c ≠ 3 → ∀ r, r ≠ 3 →
        |val (localMatrices t l c r) - idealLocal t l c r| ≤ s * (9 / 2 ^ 24 + 2 * δ) := by
      refine four_ne (four_ne ?_ ?_ ?_) (four_ne ?_ ?_ ?_) (four_ne ?_ ?_ ?_)
      all_goals (unfold localMatrices; rw [toAos_apply])
      · exact N00
      · exact N01
      · exact N02
      · exact N10
      · exact N11
      · exact N12
      · exact N20
      · exact N21
      · exact N22
    exact fun c r hc hr => key c hc r hr
  · generalize X / √n = x at *
    generalize Y / √n = y at *
    generalize Z / √n = z at *
    generalize W / √n = w at *
    have u' : x ^ 2 + y ^ 2 + z ^ 2 + (-w) ^ 2 = 1 := by rw [neg_sq]; exact hu
    have cr0 := rotation_rows u' 1 0 0
    have cr1 := rotation_rows u' 0 1 0
    have cr2 := rotation_rows u' 0 0 1
    have sq : ∀ v : ℝ, |v| ≤ s → v ^ 2 ≤ s ^ 2 := fun v hv => sq_le_sq' (abs_le.mp hv).1 (abs_le.mp hv).2
    refine four_ne ?_ ?_ ?_
    · rw [I00, I01, I02]
      refine len_le s0 (le_trans (le_of_eq ?_) (sq _ bx))
      linear_combination val (t.scale.x l) ^ 2 * cr0
    · rw [I10, I11, I12]
      refine len_le s0 (le_trans (le_of_eq ?_) (sq _ by'))
      linear_combination val (t.scale.y l) ^ 2 * cr1
    · rw [I20, I21, I22]
      refine len_le s0 (le_trans (le_of_eq ?_) (sq _ bz))
      linear_combination val (t.scale.z l) ^ 2 * cr2
  · generalize X / √n = x at *
    generalize Y / √n = y at *
    generalize Z / √n = z at *
    generalize W / √n = w at *
    intro a b c
    refine len_le (mul_nonneg s0 len_nonneg) ?_
    rw [mul_pow, len_sq, ← rotation_rows hu a b c, I00, I01, I02, I10, I11, I12, I20, I21, I22]
    have sq : ∀ v u : ℝ, |v| ≤ s → (v * u) ^ 2 ≤ s ^ 2 * u ^ 2 := fun v u hv => by
      rw [mul_pow]
      exact mul_le_mul_of_nonneg_right (sq_le_sq' (abs_le.mp hv).1 (abs_le.mp hv).2) (sq_nonneg _)
    have k0 := sq _ (a * (1 - 2 * (y ^ 2 + z ^ 2)) + b * (2 * (x * y + z * w)) + c * (2 * (x * z - y * w))) bx
    have k1 := sq _ (a * (2 * (x * y - z * w)) + b * (1 - 2 * (x ^ 2 + z ^ 2)) + c * (2 * (y * z + x * w))) by'
    have k2 := sq _ (a * (2 * (x * z + y * w)) + b * (2 * (y * z - x * w)) + c * (1 - 2 * (x ^ 2 + y ^ 2))) bz
    refine le_trans (le_of_eq ?_) ((add_le_add (add_le_add k0 k1) k2).trans (le_of_eq ?_))
    · ring
    · ring
  · refine four_ne ?_ ?_ ?_ <;>
      exact ⟨by unfold localMatrices; rw [toAos_apply]; exact hz.2, by unfold idealLocal localMatrices; rw [toAos_apply]; rfl⟩
  · exact ⟨by unfold localMatrices; rw [toAos_apply]; exact one_ok.2, by unfold idealLocal localMatrices; rw [toAos_apply]; rfl⟩
  · refine four_ne ?_ ?_ ?_ <;> (unfold idealLocal localMatrices; rw [toAos_apply, toAos_apply]; rfl)
  · unfold idealLocal localMatrices; rw [toAos_apply, toAos_apply, toAos_apply]; exact hB

theorem mul_row {α : Type} [Add α] [Mul α] (P m : Mat4 α) (c r : Fin 4) :
    P.mul m c r = (m c 1 * P 1 r + m c 0 * P 0 r) + (m c 3 * P 3 r + m c 2 * P 2 r) := by
  have h : ∀ (v : F4 α) (i : Fin 4), swz v i i i i r = v i := fun v i => by fin_cases r <;> rfl
  show (swz (m c) 1 1 1 1 r * P 1 r + swz (m c) 0 0 0 0 r * P 0 r) + (swz (m c) 3 3 3 3 r * P 3 r + swz (m c) 2 2 2 2 r * P 2 r) = _
  rw [h, h, h, h]

/-- One joint further along a path, for one row. -/
theorem row_step {m P : Mat4 F32} {L Q : Mat4 ℝ} {s B δ : ℝ} (hL : LocalNear m L s B δ) (hδ0 : 0 ≤ δ) (hδ : δ ≤ 1 / 1000)
    (h1 : 1 ≤ s) (hB : 1 / 2 ^ 100 ≤ B) {r : Fin 4} (hr : r ≠ 3) (hP : ∀ c, Finite32 (P c r).bits) {R g D : ℝ} (hR : 1 ≤ R)
    (hg1 : 1 ≤ g) (hg2 : g ≤ 2) (hlen : len (Q 0 r) (Q 1 r) (Q 2 r) ≤ R)
    (herr : len (val (P 0 r) - Q 0 r) (val (P 1 r) - Q 1 r) (val (P 2 r) - Q 2 r) ≤ R * (g - 1)) (htr : |Q 3 r| ≤ D)
    (hte : |val (P 3 r) - Q 3 r| ≤ D * (g - 1)) (hov1 : s * R ≤ 2 ^ 100) (hov2 : B * R + D ≤ 2 ^ 100) :
    (∀ c, Finite32 (P.mul m c r).bits) ∧ len (Q.mul L 0 r) (Q.mul L 1 r) (Q.mul L 2 r) ≤ R * s ∧
    len (val (P.mul m 0 r) - Q.mul L 0 r) (val (P.mul m 1 r) - Q.mul L 1 r) (val (P.mul m 2 r) - Q.mul L 2 r) ≤
      R * s * (g * (1 + perJoint δ) - 1) ∧
    |Q.mul L 3 r| ≤ D + B * R ∧ |val (P.mul m 3 r) - Q.mul L 3 r| ≤ (D + B * R) * (g * (1 + perJoint δ) - 1) := by
  have s0 : 0 < s := by linarith
  have R0 : 0 < R := by linarith
  have g0 : 0 < g := by linarith
  have D0 : 0 ≤ D := (abs_nonneg _).trans htr
  have B0 : 0 < B := lt_of_lt_of_le (by positivity) hB
  -- the row
  set a0 := val (P 0 r) with ha0
  set a1 := val (P 1 r) with ha1
  set a2 := val (P 2 r) with ha2
  set a3 := val (P 3 r) with ha3
  have hrow : len a0 a1 a2 ≤ R * g := by
    have := len_add (a := a0 - Q 0 r) (b := a1 - Q 1 r) (c := a2 - Q 2 r) (x := Q 0 r) (y := Q 1 r) (z := Q 2 r)
    rw [sub_add_cancel, sub_add_cancel, sub_add_cancel] at this
    linarith
  have htrans : |a3| ≤ D * g := by
    have := abs_add_le (a3 - Q 3 r) (Q 3 r)
    rw [sub_add_cancel] at this
    linarith
  set e := s * (9 / 2 ^ 24 + 2 * δ) with he
  have e0 : 0 ≤ e := by positivity
  have esmall : e ≤ s / 250 := by rw [he]; norm_num; nlinarith
  have colf : ∀ c, c ≠ 3 → len (val (m c 0)) (val (m c 1)) (val (m c 2)) ≤ 1.01 * s := by
    intro c hc
    have h2 := len_add (a := val (m c 0) - L c 0) (b := val (m c 1) - L c 1) (c := val (m c 2) - L c 2)
      (x := L c 0) (y := L c 1) (z := L c 2)
    rw [sub_add_cancel, sub_add_cancel, sub_add_cancel] at h2
    have h3 := len_le_three (hL.near c 0 hc (by decide)) (hL.near c 1 hc (by decide)) (hL.near c 2 hc (by decide))
    have h4 := hL.column c hc
    rw [← he] at h3
    norm_num
    linarith
  have hRg : R * g ≤ 2 * R := by nlinarith
  have hsR : 0 < s * R := by positivity
  -- linear entries: rounding
  have lin : ∀ c, c ≠ 3 → Finite32 (P.mul m c r).bits ∧
      |val (P.mul m c r) - (a0 * val (m c 0) + a1 * val (m c 1) + a2 * val (m c 2))| ≤ 4.1 * (s * R * g) / 2 ^ 24 := by
    intro c hc
    have hd := dot_abs_le_len (a := val (m c 0)) (b := val (m c 1)) (c := val (m c 2)) (x := a0) (y := a1) (z := a2)
    have hS : |val (m c 0) * a0| + |val (m c 1) * a1| + |val (m c 2) * a2| + |val (m c 3) * a3| ≤ 1.01 * (s * R * g) := by
      rw [(hL.last c hc).1, zero_mul, abs_zero, add_zero]
      refine hd.trans ?_
      calc _ ≤ 1.01 * s * (R * g) := mul_le_mul (colf c hc) hrow len_nonneg (by positivity)
        _ = _ := by ring
    obtain ⟨f, h⟩ := dot4_ok (hL.finite c 0) (hL.finite c 1) (hL.finite c 2) (hL.finite c 3) (hP 0) (hP 1) (hP 2) (hP 3) hS
      (by norm_num at hov1 ⊢; nlinarith)
    rw [mul_row]
    refine ⟨f, ?_⟩
    rw [(hL.last c hc).1, zero_mul, add_zero] at h
    rw [show a0 * val (m c 0) + a1 * val (m c 1) + a2 * val (m c 2) = val (m c 0) * a0 + val (m c 1) * a1 + val (m c 2) * a2 by ring]
    refine h.trans ?_
    have : 1 ≤ s * R * g := by nlinarith [mul_le_mul h1 hR (by norm_num) s0.le]
    norm_num
    linarith
  -- ideal entries
  have idl : ∀ c, c ≠ 3 → Q.mul L c r = Q 0 r * L c 0 + Q 1 r * L c 1 + Q 2 r * L c 2 := by
    intro c hc
    rw [mul_row, (hL.last c hc).2]; ring
  -- columns against the row
  have col : ∀ c, c ≠ 3 → |a0 * (val (m c 0) - L c 0) + a1 * (val (m c 1) - L c 1) + a2 * (val (m c 2) - L c 2)| ≤
      R * g * (7 / 4 * e) := by
    intro c hc
    refine dot_le_len.trans (mul_le_mul hrow ?_ len_nonneg (by positivity))
    exact len_le_three (hL.near c 0 hc (by decide)) (hL.near c 1 hc (by decide)) (hL.near c 2 hc (by decide))
  -- one entry
  have ent : ∀ c, c ≠ 3 → |val (P.mul m c r) - Q.mul L c r -
      ((a0 - Q 0 r) * L c 0 + (a1 - Q 1 r) * L c 1 + (a2 - Q 2 r) * L c 2)| ≤
      4.1 * (s * R * g) / 2 ^ 24 + R * g * (7 / 4 * e) := by
    intro c hc
    have h2 := (lin c hc).2
    have h3 := col c hc
    rw [idl c hc]
    have h4 := abs_add_le (val (P.mul m c r) - (a0 * val (m c 0) + a1 * val (m c 1) + a2 * val (m c 2)))
      (a0 * (val (m c 0) - L c 0) + a1 * (val (m c 1) - L c 1) + a2 * (val (m c 2) - L c 2))
    rw [show val (P.mul m c r) - (Q 0 r * L c 0 + Q 1 r * L c 1 + Q 2 r * L c 2) -
        ((a0 - Q 0 r) * L c 0 + (a1 - Q 1 r) * L c 1 + (a2 - Q 2 r) * L c 2) =
      val (P.mul m c r) - (a0 * val (m c 0) + a1 * val (m c 1) + a2 * val (m c 2)) +
        (a0 * (val (m c 0) - L c 0) + a1 * (val (m c 1) - L c 1) + a2 * (val (m c 2) - L c 2)) by ring]
    linarith
  -- translation
  have hS : |val (m 3 0) * a0| + |val (m 3 1) * a1| + |val (m 3 2) * a2| + |val (m 3 3) * a3| ≤ (B * R + D) * g := by
    have hd := dot_abs_le_len (a := val (m 3 0)) (b := val (m 3 1)) (c := val (m 3 2)) (x := a0) (y := a1) (z := a2)
    rw [hL.lastOne.1, one_mul]
    rw [hL.translation 0 (by decide), hL.translation 1 (by decide), hL.translation 2 (by decide)] at hd ⊢
    have := mul_le_mul hL.bounded hrow len_nonneg B0.le
    nlinarith
  obtain ⟨f3, h3⟩ := dot4_ok (hL.finite 3 0) (hL.finite 3 1) (hL.finite 3 2) (hL.finite 3 3) (hP 0) (hP 1) (hP 2) (hP 3) hS
    (by norm_num at hov2 ⊢; nlinarith)
  rw [← mul_row] at f3 h3
  rw [hL.lastOne.1, one_mul, hL.translation 0 (by decide), hL.translation 1 (by decide), hL.translation 2 (by decide)] at h3
  have id3 : Q.mul L 3 r = L 3 0 * Q 0 r + L 3 1 * Q 1 r + L 3 2 * Q 2 r + Q 3 r := by
    rw [mul_row, hL.lastOne.2]; ring
  have hκ : perJoint δ = 1 / 2 ^ 18 + 8 * δ := rfl
  refine ⟨four_all (lin 0 (by decide)).1 (lin 1 (by decide)).1 (lin 2 (by decide)).1 f3, ?_, ?_, ?_, ?_⟩
  · rw [idl 0 (by decide), idl 1 (by decide), idl 2 (by decide)]
    refine (hL.op _ _ _).trans ?_
    rw [mul_comm R s]
    exact mul_le_mul_of_nonneg_left hlen s0.le
  · have h4 := hL.op (a0 - Q 0 r) (a1 - Q 1 r) (a2 - Q 2 r)
    have h5 := len_le_three (ent 0 (by decide)) (ent 1 (by decide)) (ent 2 (by decide))
    have h6 := len_add
      (a := val (P.mul m 0 r) - Q.mul L 0 r - ((a0 - Q 0 r) * L 0 0 + (a1 - Q 1 r) * L 0 1 + (a2 - Q 2 r) * L 0 2))
      (b := val (P.mul m 1 r) - Q.mul L 1 r - ((a0 - Q 0 r) * L 1 0 + (a1 - Q 1 r) * L 1 1 + (a2 - Q 2 r) * L 1 2))
      (c := val (P.mul m 2 r) - Q.mul L 2 r - ((a0 - Q 0 r) * L 2 0 + (a1 - Q 1 r) * L 2 1 + (a2 - Q 2 r) * L 2 2))
      (x := (a0 - Q 0 r) * L 0 0 + (a1 - Q 1 r) * L 0 1 + (a2 - Q 2 r) * L 0 2)
      (y := (a0 - Q 0 r) * L 1 0 + (a1 - Q 1 r) * L 1 1 + (a2 - Q 2 r) * L 1 2)
      (z := (a0 - Q 0 r) * L 2 0 + (a1 - Q 1 r) * L 2 1 + (a2 - Q 2 r) * L 2 2)
    rw [sub_add_cancel, sub_add_cancel, sub_add_cancel] at h6
    refine h6.trans ((add_le_add h5 (h4.trans (mul_le_mul_of_nonneg_left herr s0.le))).trans ?_)
    rw [he, hκ]
    have hsRg : 0 ≤ s * R * g := by positivity
    have hsRgδ : 0 ≤ s * R * g * δ := by positivity
    have h7 : 7 / 4 * (4.1 * (s * R * g) / 2 ^ 24 + R * g * (7 / 4 * (s * (9 / 2 ^ 24 + 2 * δ)))) + s * (R * (g - 1)) =
      s * R * (g - 1) + (s * R * g) * ((7 / 4 * 4.1 + 7 / 4 * (7 / 4) * 9) / 2 ^ 24) + 49 / 8 * (s * R * g * δ) := by ring
    have h8 : R * s * (g * (1 + (1 / 2 ^ 18 + 8 * δ)) - 1) =
      s * R * (g - 1) + (s * R * g) * (1 / 2 ^ 18) + 8 * (s * R * g * δ) := by ring
    rw [h7, h8]
    have h9 : (s * R * g) * ((7 / 4 * 4.1 + 7 / 4 * (7 / 4) * 9) / 2 ^ 24) ≤ (s * R * g) * (1 / 2 ^ 18) :=
      mul_le_mul_of_nonneg_left (by norm_num) hsRg
    linarith only [h9, hsRgδ]
  · rw [id3]
    have h4 := dot_le_len (a := L 3 0) (b := L 3 1) (c := L 3 2) (x := Q 0 r) (y := Q 1 r) (z := Q 2 r)
    have h5 := mul_le_mul hL.bounded hlen len_nonneg B0.le
    have h6 := abs_add_le (L 3 0 * Q 0 r + L 3 1 * Q 1 r + L 3 2 * Q 2 r) (Q 3 r)
    linarith
  · have h4 := dot_le_len (a := L 3 0) (b := L 3 1) (c := L 3 2) (x := a0 - Q 0 r) (y := a1 - Q 1 r) (z := a2 - Q 2 r)
    have h5 := mul_le_mul hL.bounded herr len_nonneg B0.le
    have h6 := abs_add_le (L 3 0 * (a0 - Q 0 r) + L 3 1 * (a1 - Q 1 r) + L 3 2 * (a2 - Q 2 r)) (a3 - Q 3 r)
    have h7 := abs_add_le (val (P.mul m 3 r) - (L 3 0 * a0 + L 3 1 * a1 + L 3 2 * a2 + a3))
      (L 3 0 * (a0 - Q 0 r) + L 3 1 * (a1 - Q 1 r) + L 3 2 * (a2 - Q 2 r) + (a3 - Q 3 r))
    rw [id3, show val (P.mul m 3 r) - (L 3 0 * Q 0 r + L 3 1 * Q 1 r + L 3 2 * Q 2 r + Q 3 r) =
      val (P.mul m 3 r) - (L 3 0 * a0 + L 3 1 * a1 + L 3 2 * a2 + a3) +
        (L 3 0 * (a0 - Q 0 r) + L 3 1 * (a1 - Q 1 r) + L 3 2 * (a2 - Q 2 r) + (a3 - Q 3 r)) by ring]
    have hBR : 1 / 2 ^ 100 ≤ B * R := by
      calc (1:ℝ) / 2 ^ 100 = 1 / 2 ^ 100 * 1 := by ring
        _ ≤ B * R := mul_le_mul hB hR (by norm_num) B0.le
    have hX : 1 / 2 ^ 100 ≤ (B * R + D) * g := by
      calc (1:ℝ) / 2 ^ 100 ≤ B * R + D := by linarith
        _ = (B * R + D) * 1 := by ring
        _ ≤ (B * R + D) * g := mul_le_mul_of_nonneg_left hg1 (by positivity)
    have hXδ : 0 ≤ (B * R + D) * g * δ := by positivity
    have h8 : (1:ℝ) / 2 ^ 147 ≤ 1 / 2 ^ 47 * ((B * R + D) * g) := by
      calc (1:ℝ) / 2 ^ 147 = 1 / 2 ^ 47 * (1 / 2 ^ 100) := by norm_num
        _ ≤ _ := mul_le_mul_of_nonneg_left hX (by positivity)
    have h9 : (D + B * R) * (g * (1 + (1 / 2 ^ 18 + 8 * δ)) - 1) =
      (D + B * R) * (g - 1) + ((B * R + D) * g) * (1 / 2 ^ 18) + 8 * ((B * R + D) * g * δ) := by ring
    have h10 : B * (R * (g - 1)) + D * (g - 1) = (D + B * R) * (g - 1) := by ring
    have h11 : (4:ℝ) * ((B * R + D) * g) / 2 ^ 24 + 1 / 2 ^ 47 * ((B * R + D) * g) ≤ ((B * R + D) * g) * (1 / 2 ^ 18) := by
      norm_num
      linarith only [show 0 ≤ (B * R + D) * g by positivity]
    rw [hκ, h9]
    linarith only [h3, h4, h5, h6, h7, h8, h10, h11, hte, hXδ]

theorem reach_succ (s B ρ T : ℝ) (d : ℕ) : reach s B ρ T (d + 1) = reach s B ρ T d + B * (ρ * s ^ d) := by
  rw [reach, reach, Finset.sum_range_succ]; ring

/-- What is known about row `r` of a product along a path of `d` joints. -/
structure RowNear (P : Mat4 F32) (Q : Mat4 ℝ) (r : Fin 4) (s B δ ρ T : ℝ) (d : ℕ) : Prop where
  finite : ∀ c, Finite32 (P c r).bits
  linear : len (Q 0 r) (Q 1 r) (Q 2 r) ≤ ρ * s ^ d
  linearNear : len (val (P 0 r) - Q 0 r) (val (P 1 r) - Q 1 r) (val (P 2 r) - Q 2 r) ≤ ρ * s ^ d * ((1 + perJoint δ) ^ d - 1)
  translation : |Q 3 r| ≤ reach s B ρ T d
  translationNear : |val (P 3 r) - Q 3 r| ≤ reach s B ρ T d * ((1 + perJoint δ) ^ d - 1)

theorem path_rows {root : Mat4 F32} {loc : Nat → Mat4 F32} {ideal : Nat → Mat4 ℝ} {s B δ ρ T : ℝ} (path : List Nat)
    (hL : ∀ k ∈ path, LocalNear (loc k) (ideal k) s B δ) (hδ0 : 0 ≤ δ) (hδ : δ ≤ 1 / 1000) (h1 : 1 ≤ s)
    (hB : 1 / 2 ^ 100 ≤ B) (hρ : 1 ≤ ρ) (hroot : Root32Ok root ρ T) {r : Fin 4} (hr : r ≠ 3)
    (hg : (1 + perJoint δ) ^ path.length ≤ 2) (hov1 : ρ * s ^ path.length ≤ 2 ^ 100)
    (hov2 : reach s B ρ T path.length ≤ 2 ^ 100) :
    RowNear (path.foldl (fun acc k => Mat4.mul acc (loc k)) root)
      (path.foldl (fun acc k => Mat4.mul acc (ideal k)) (valMat root)) r s B δ ρ T path.length := by
  have κ0 : 0 ≤ perJoint δ := by unfold perJoint; positivity
  induction path using List.reverseRecOn with
  | nil =>
    have e : len (val (root 0 r) - valMat root 0 r) (val (root 1 r) - valMat root 1 r) (val (root 2 r) - valMat root 2 r) = 0 := by
      simp [valMat, len]
    refine ⟨fun c => hroot.finite c r hr, ?_, ?_, ?_, ?_⟩
    · simpa [valMat] using hroot.linear r hr
    · simp only [List.foldl_nil, List.length_nil, pow_zero, sub_self, mul_zero]
      exact e.le
    · simpa [valMat, reach] using hroot.translation r hr
    · simp [valMat]
  | append_singleton l k ih =>
    rw [List.length_append, List.length_singleton] at hg hov1 hov2 ⊢
    have s0 : 0 < s := by linarith
    have p1 : (1:ℝ) ≤ (1 + perJoint δ) ^ l.length := one_le_pow₀ (by linarith)
    have p2 : (1 + perJoint δ) ^ l.length ≤ 2 := by
      refine le_trans ?_ hg
      exact pow_le_pow_right₀ (by linarith) (by omega)
    have q1 : (1:ℝ) ≤ s ^ l.length := one_le_pow₀ h1
    have q2 : s ^ l.length ≤ s ^ (l.length + 1) := pow_le_pow_right₀ h1 (by omega)
    have B0 : 0 < B := lt_of_lt_of_le (by positivity) hB
    have R0 : 1 ≤ ρ * s ^ l.length := by nlinarith
    rw [reach_succ] at hov2
    have ih' := ih (fun i hi => hL i (by simp [hi])) p2 (le_trans (mul_le_mul_of_nonneg_left q2 (by linarith)) hov1)
      (le_trans (by nlinarith) hov2)
    obtain ⟨f, h2, h3, h4, h5⟩ := row_step (hL k (by simp)) hδ0 hδ h1 hB hr ih'.finite R0 p1 p2 ih'.linear ih'.linearNear
      ih'.translation ih'.translationNear (by rw [pow_succ] at hov1; linarith) (by linarith)
    simp only [List.foldl_append, List.foldl_cons, List.foldl_nil]
    refine ⟨f, ?_, ?_, ?_, ?_⟩
    · rw [pow_succ, ← mul_assoc]; exact h2
    · rw [pow_succ, pow_succ, ← mul_assoc]; exact h3
    · rw [reach_succ]; exact h4
    · rw [reach_succ, pow_succ]; exact h5

theorem valZero : val F32.zero = 0 := zero_real
theorem valOne : val F32.one = 1 := one_real

theorem mul_exact {x y w : F32} (hx : Finite32 x.bits) (hy : Finite32 y.bits) (hw : Finite32 w.bits)
    (h : val x * val y = val w) (hb : |val w| ≤ 2 ^ 127) : Finite32 (x * y).bits ∧ val (x * y) = val w := by
  have hr := mul_roundsTo hx hy
  have hf := finite_of_rounds hr (small_finite (by change |val x * val y| ≤ _; rw [h]; exact hb))
  exact ⟨hf, rounds_exact hr hf hw h⟩

theorem add_exact {x y w : F32} (hx : Finite32 x.bits) (hy : Finite32 y.bits) (hw : Finite32 w.bits)
    (h : val x + val y = val w) (hb : |val w| ≤ 2 ^ 127) : Finite32 (x + y).bits ∧ val (x + y) = val w := by
  have hr := add_roundsTo hx hy
  have hf := finite_of_rounds hr (small_finite (by change |val x + val y| ≤ _; rw [h]; exact hb))
  exact ⟨hf, rounds_exact hr hf hw h⟩

/-- The bottom row of an affine matrix. -/
structure Affine32 (m : Mat4 F32) : Prop where
  finite : ∀ c, Finite32 (m c 3).bits
  last : ∀ c, c ≠ 3 → val (m c 3) = 0
  one : val (m 3 3) = 1

theorem affine_mul {P m : Mat4 F32} (hP : Affine32 P) (hm : Affine32 m) (hf : ∀ c r, Finite32 (m c r).bits) :
    Affine32 (P.mul m) := by
  have z : ∀ c k, k ≠ 3 → Finite32 (m c k * P k 3).bits ∧ val (m c k * P k 3) = 0 := by
    intro c k hk
    have := mul_exact (w := F32.zero) (hf c k) (hP.finite k) zero_finite (by rw [hP.last k hk, valZero, mul_zero])
      (by rw [valZero]; norm_num)
    rw [valZero] at this
    exact this
  have key : ∀ c (w : F32), Finite32 w.bits → |val w| ≤ 2 ^ 127 → val (m c 3) = val w →
      Finite32 (P.mul m c 3).bits ∧ val (P.mul m c 3) = val w := by
    intro c w hw hb h
    obtain ⟨f0, v0⟩ := z c 0 (by decide)
    obtain ⟨f1, v1⟩ := z c 1 (by decide)
    obtain ⟨f2, v2⟩ := z c 2 (by decide)
    obtain ⟨f3, v3⟩ := mul_exact (w := w) (hf c 3) (hP.finite 3) hw (by rw [hP.one, mul_one, h]) hb
    obtain ⟨g1, u1⟩ := add_exact (w := F32.zero) f1 f0 zero_finite (by rw [v1, v0, valZero, add_zero]) (by rw [valZero]; norm_num)
    obtain ⟨g2, u2⟩ := add_exact (w := w) f3 f2 hw (by rw [v3, v2, add_zero]) hb
    rw [mul_row]
    exact add_exact g1 g2 hw (by rw [u1, u2, valZero, zero_add]) hb
  have k0 : ∀ c, c ≠ 3 → Finite32 (P.mul m c 3).bits ∧ val (P.mul m c 3) = 0 := by
    intro c hc
    have := key c F32.zero zero_finite (by rw [valZero]; norm_num) (by rw [hm.last c hc, valZero])
    rw [valZero] at this
    exact this
  have k1 := key 3 F32.one one_finite (by rw [valOne]; norm_num) (by rw [hm.one, valOne])
  rw [valOne] at k1
  exact ⟨four_all (k0 0 (by decide)).1 (k0 1 (by decide)).1 (k0 2 (by decide)).1 k1.1, fun c hc => (k0 c hc).2, k1.2⟩

theorem path_affine {root : Mat4 F32} {loc : Nat → Mat4 F32} {ideal : Nat → Mat4 ℝ} {s B δ : ℝ} (path : List Nat)
    (hL : ∀ k ∈ path, LocalNear (loc k) (ideal k) s B δ) (hroot : Affine32 root) :
    Affine32 (path.foldl (fun acc k => Mat4.mul acc (loc k)) root) := by
  induction path using List.reverseRecOn with
  | nil => exact hroot
  | append_singleton l k ih =>
    simp only [List.foldl_append, List.foldl_cons, List.foldl_nil]
    have hk := hL k (by simp)
    exact affine_mul (ih (fun i hi => hL i (by simp [hi]))) ⟨fun c => hk.finite c 3, fun c hc => (hk.last c hc).1, hk.lastOne.1⟩
      hk.finite

/-! ## Normalised poses move points alike -/

theorem move_scaled (j : JointPose) {n : ℝ} (hn : n ≠ 0) :
    ({ j with rotation := n⁻¹ • j.rotation } : JointPose).move = j.move := by
  funext v
  obtain ⟨x, h⟩ : ∃ x : Quaternion ℝ, x.re = 0 ∧ x.imI = j.scale.1 * v.imI ∧ x.imJ = j.scale.2.1 * v.imJ ∧
    x.imK = j.scale.2.2 * v.imK := ⟨⟨0, _, _, _⟩, rfl, rfl, rfl, rfl⟩
  rw [Pipeline.move_def j h, Pipeline.move_def { j with rotation := n⁻¹ • j.rotation } h]
  simp only
  congr 1
  have hc : ((n⁻¹ : ℝ) : Quaternion ℝ) ≠ 0 := by
    intro h0
    exact inv_ne_zero hn (congrArg QuaternionAlgebra.re h0)
  have hm : ∀ q : Quaternion ℝ, n⁻¹ • q = ((n⁻¹ : ℝ) : Quaternion ℝ) * q := fun q => (Quaternion.coe_mul_eq_smul _ _).symm
  rw [hm, mul_inv_rev, ← mul_assoc, mul_assoc _ j.rotation x, mul_assoc _ (j.rotation * x), Quaternion.coe_commutes, mul_assoc,
    mul_inv_cancel₀ hc, mul_one]

theorem moveAlong_congr {p q : Nat → JointPose} (path : List Nat) (h : ∀ k ∈ path, (p k).move = (q k).move) (v : Quaternion ℝ) :
    moveAlong p path v = moveAlong q path v := by
  induction path with
  | nil => rfl
  | cons k l ih =>
    have := ih (fun i hi => h i (by simp [hi]))
    simp only [moveAlong, List.foldr_cons] at this ⊢
    rw [this, h k (by simp)]

/-- The pose with its rotation normalised. -/
noncomputable def normPose (j : JointPose) : JointPose :=
  { j with rotation := (√(Quaternion.normSq j.rotation))⁻¹ • j.rotation }

theorem normPose_move {j : JointPose} (h : Quaternion.normSq j.rotation ≠ 0) : (normPose j).move = j.move := by
  apply move_scaled
  exact Real.sqrt_ne_zero'.2 (lt_of_le_of_ne Quaternion.normSq_nonneg (Ne.symm h))

theorem normPose_unit {j : JointPose} (h : Quaternion.normSq j.rotation ≠ 0) :
    Quaternion.normSq (normPose j).rotation = 1 := by
  have h0 := lt_of_le_of_ne Quaternion.normSq_nonneg (Ne.symm h)
  rw [normPose]
  simp only
  rw [Quaternion.normSq_smul, inv_pow, Real.sq_sqrt h0.le, inv_mul_cancel₀ h]

theorem normSq_four (w x y z : ℝ) : Quaternion.normSq (⟨w, x, y, z⟩ : Quaternion ℝ) = x ^ 2 + y ^ 2 + z ^ 2 + w ^ 2 := by
  have h : ∀ q : Quaternion ℝ, Quaternion.normSq q = q.imI ^ 2 + q.imJ ^ 2 + q.imK ^ 2 + q.re ^ 2 := fun q => by
    rw [Quaternion.normSq_def']; ring
  exact h _

theorem jointPose_norm {input : List (SoaTransform F32)} {i : Nat} {j : JointPose}
    (h : jointPose (input.map valTransform) i = some j) :
    jointPose ((input.map valTransform).map normT) i = some (normPose j) := by
  rw [jointPose, Option.map_eq_some_iff] at h
  obtain ⟨t, ht, rfl⟩ := h
  rw [jointPose, List.getElem?_map, ht]
  simp only [Option.map_some, Option.some.injEq, normPose, normT]
  rw [normSq_four]
  congr 1
  have h : ∀ (n : ℝ) (a b : Quaternion ℝ), a.re = b.re / n → a.imI = b.imI / n → a.imJ = b.imJ / n → a.imK = b.imK / n →
      a = n⁻¹ • b := by
    intro n a b h0 h1 h2 h3
    apply Quaternion.ext
    · rw [h0, Quaternion.re_smul, smul_eq_mul, div_eq_inv_mul]
    · rw [h1, Quaternion.imI_smul, smul_eq_mul, div_eq_inv_mul]
    · rw [h2, Quaternion.imJ_smul, smul_eq_mul, div_eq_inv_mul]
    · rw [h3, Quaternion.imK_smul, smul_eq_mul, div_eq_inv_mul]
  exact h _ _ _ rfl rfl rfl rfl

/-! ## Points -/

theorem tp_row (m : Mat4 ℝ) (p : F4 ℝ) (r : Fin 4) :
    m.transformPoint p r = m 0 r * p 0 + m 1 r * p 1 + m 2 r * p 2 + m 3 r := by
  have h : ∀ (i : Fin 4), swz p i i i i r = p i := fun i => by fin_cases r <;> rfl
  show (swz p 1 1 1 1 r * m 1 r + swz p 0 0 0 0 r * m 0 r) + (swz p 2 2 2 2 r * m 2 r + m 3 r) = _
  rw [h, h, h]
  ring

theorem local_exists32 {input : List (SoaTransform F32)} {n : Nat} (h : numSoa n ≤ input.length) : ∃ loc : Nat → Mat4 F32,
    ∀ i, i < n → LocalMatrix localMatrices input i (loc i) := by
  have hl : ∀ i, i < n → i / 4 < input.length := by
    intro i hi; unfold numSoa at h; omega
  refine ⟨fun i => if h : i < n then localMatrices (input[i / 4]'(hl i h)) ⟨i % 4, Nat.mod_lt _ (by decide)⟩
    else fun _ _ => F32.zero, ?_⟩
  intro i hi
  exact ⟨input[i / 4]'(hl i hi), List.getElem?_eq_getElem _, by simp [hi]⟩

theorem path_near {input : List (SoaTransform F32)} {loc : Nat → Mat4 F32} {root : Mat4 F32} {pose : Nat → JointPose}
    {s B δ ρ T : ℝ} (path : List Nat)
    (hloc : ∀ k ∈ path, LocalMatrix localMatrices input k (loc k))
    (hjoints : ∀ k ∈ path, ∀ t, input[k / 4]? = some t → Joint32Ok t ⟨k % 4, Nat.mod_lt _ (by decide)⟩ s B δ)
    (hpose : ∀ k ∈ path, jointPose (input.map valTransform) k = some (pose k))
    (hδ0 : 0 ≤ δ) (hδ : δ ≤ 1 / 1000) (h1 : 1 ≤ s) (h2 : s ≤ 2 ^ 100)
    (hB : 1 / 2 ^ 100 ≤ B) (hρ : 1 ≤ ρ) (hroot : Root32Ok root ρ T)
    (hg : (1 + perJoint δ) ^ path.length ≤ 2) (hov1 : ρ * s ^ path.length ≤ 2 ^ 100)
    (hov2 : reach s B ρ T path.length ≤ 2 ^ 100) :
    (∀ c r, r ≠ 3 → Finite32 (path.foldl (fun acc k => Mat4.mul acc (loc k)) root c r).bits) ∧
    ∀ p : F4 ℝ, ∃ x : F4 ℝ, pureQuat x = moveAlong pose path (pureQuat p) ∧ ∀ r, r ≠ 3 →
      |(valMat (path.foldl (fun acc k => Mat4.mul acc (loc k)) root)).transformPoint p r - (valMat root).transformPoint x r| ≤
        (ρ * s ^ path.length * len (p 0) (p 1) (p 2) + reach s B ρ T path.length) * ((1 + perJoint δ) ^ path.length - 1) := by
  have hL : ∀ k, ∃ L, k ∈ path → LocalNear (loc k) L s B δ ∧
      LocalMatrix localMatrices ((input.map valTransform).map normT) k L := by
    intro k
    by_cases hk : k ∈ path
    · obtain ⟨t, ht, e⟩ := hloc k hk
      refine ⟨idealLocal t ⟨k % 4, Nat.mod_lt _ (by decide)⟩, fun _ => ⟨?_, normT (valTransform t), ?_, rfl⟩⟩
      · rw [e]; exact local_near (hjoints k hk t ht) hδ h1 h2
      · rw [List.getElem?_map, List.getElem?_map, ht]; rfl
    · exact ⟨fun _ _ => 0, fun h => absurd h hk⟩
  choose ideal hideal using hL
  have rows := fun {r : Fin 4} (hr : r ≠ 3) => path_rows (root := root) path (fun k hk => (hideal k hk).1) hδ0 hδ h1 hB hρ hroot hr
    hg hov1 hov2
  refine ⟨fun c r hr => (rows hr).finite c, fun p => ?_⟩
  -- rotations are not zero
  have hnz : ∀ k ∈ path, Quaternion.normSq (pose k).rotation ≠ 0 := by
    intro k hk
    obtain ⟨t, ht, -⟩ := hloc k hk
    have hj := (hjoints k hk t ht).rotation
    have hq := hpose k hk
    rw [jointPose, List.getElem?_map, ht] at hq
    simp only [Option.map_some, Option.some.injEq] at hq
    rw [← hq]
    simp only
    rw [normSq_four]
    have := (abs_le.mp hj).1
    intro h0
    simp only [valTransform] at h0
    rw [h0] at this
    linarith
  have hmove : ∀ k ∈ path, (normPose (pose k)).move = (pose k).move := fun k hk => normPose_move (hnz k hk)
  -- where the point goes
  have hre : ∀ (q : List Nat), (∀ k ∈ q, k ∈ path) → (moveAlong (fun k => normPose (pose k)) q (pureQuat p)).re = 0 := by
    intro q
    induction q with
    | nil => intro _; rfl
    | cons k l ih =>
      intro h
      have hk := h k (by simp)
      refine Pipeline.move_re (normPose_unit (hnz k hk)) ?_ _
      exact Pipeline.jointPose_re (jointPose_norm (hpose k hk))
  obtain ⟨x, hx⟩ := Pipeline.pure_exists (hre path (fun _ h => h))
  refine ⟨x, by rw [hx]; exact moveAlong_congr path hmove _, fun r hr => ?_⟩
  have hpt := Pipeline.path_point (valMat root) path (fun k hk => (hideal k hk).2)
    (fun k hk => jointPose_norm (hpose k hk)) (fun k hk => normPose_unit (hnz k hk)) p x hx
  rw [← hpt, tp_row, tp_row]
  have hn := rows hr
  set Q := path.foldl (fun acc k => Mat4.mul acc (ideal k)) (valMat root) with hQ
  set P := path.foldl (fun acc k => Mat4.mul acc (loc k)) root with hP
  have e1 := dot_le_len (a := val (P 0 r) - Q 0 r) (b := val (P 1 r) - Q 1 r) (c := val (P 2 r) - Q 2 r) (x := p 0) (y := p 1) (z := p 2)
  have e2 := mul_le_mul_of_nonneg_right hn.linearNear (len_nonneg (a := p 0) (b := p 1) (c := p 2))
  have e3 := abs_add_le ((val (P 0 r) - Q 0 r) * p 0 + (val (P 1 r) - Q 1 r) * p 1 + (val (P 2 r) - Q 2 r) * p 2) (val (P 3 r) - Q 3 r)
  have e4 := hn.translationNear
  rw [show valMat P 0 r * p 0 + valMat P 1 r * p 1 + valMat P 2 r * p 2 + valMat P 3 r -
      (Q 0 r * p 0 + Q 1 r * p 1 + Q 2 r * p 2 + Q 3 r) =
    (val (P 0 r) - Q 0 r) * p 0 + (val (P 1 r) - Q 1 r) * p 1 + (val (P 2 r) - Q 2 r) * p 2 + (val (P 3 r) - Q 3 r) by
      simp only [valMat]; ring]
  linarith only [e1, e2, e3, e4]

theorem compound {d : ℕ} (hd : d ≤ 1024) : (1 + perJoint (1 / 2 ^ 19)) ^ d - 1 ≤ d / 2 ^ 15 := by
  have hκ : perJoint (1 / 2 ^ 19) = 5 / 2 ^ 18 := by unfold perJoint; norm_num
  rw [hκ]
  have key : ∀ n : ℕ, n ≤ 1024 → (1 + 5 / 2 ^ 18 : ℝ) ^ n ≤ 1 + 11 / 10 * n * (5 / 2 ^ 18) := by
    intro n
    induction n with
    | zero => intro _; norm_num
    | succ n ih =>
      intro hn
      have h := ih (by omega)
      have hn' : (n:ℝ) ≤ 1024 := by exact_mod_cast (by omega : n ≤ 1024)
      rw [pow_succ]
      push_cast
      refine (mul_le_mul_of_nonneg_right h (by positivity)).trans ?_
      norm_num
      linarith
  have h := key d hd
  have h0 : (0:ℝ) ≤ d := by positivity
  norm_num at h ⊢
  linarith

theorem eye_root {m : Mat4 F32} (h : ∀ c r, Finite32 (m c r).bits ∧ val (m c r) = if c = r then 1 else 0) : Root32Ok m 1 0 := by
  refine ⟨fun c r _ => (h c r).1, four_ne ?_ ?_ ?_, four_ne ?_ ?_ ?_⟩ <;> simp [h, len]

theorem eye_point32 {m : Mat4 F32} (h : ∀ c r, Finite32 (m c r).bits ∧ val (m c r) = if c = r then 1 else 0) (x : F4 ℝ) :
    ∀ r, r ≠ 3 → (valMat m).transformPoint x r = x r := by
  refine four_ne ?_ ?_ ?_ <;> rw [tp_row] <;> simp [valMat, h]

/-! ## Bones -/

theorem rotation_ne_zero {t : SoaTransform F32} {input : List (SoaTransform F32)} {k : Nat} {s B δ : ℝ} {q : JointPose} (hδ : δ ≤ 1 / 1000)
    (ht : input[k / 4]? = some t) (hj : Joint32Ok t ⟨k % 4, Nat.mod_lt _ (by decide)⟩ s B δ)
    (hq : jointPose (input.map valTransform) k = some q) : Quaternion.normSq q.rotation ≠ 0 := by
  have hj := hj.rotation
  rw [jointPose, List.getElem?_map, ht] at hq
  simp only [Option.map_some, Option.some.injEq] at hq
  rw [← hq]
  simp only
  rw [normSq_four]
  have := (abs_le.mp hj).1
  intro h0
  simp only [valTransform] at h0
  rw [h0] at this
  linarith

theorem moveAlong_rigid32 {input : List (SoaTransform F32)} {pose : Nat → JointPose} (path : List Nat)
    (hpose : ∀ k ∈ path, jointPose (input.map valTransform) k = some (pose k))
    (hu : ∀ k ∈ path, Quaternion.normSq (pose k).rotation ≠ 0) (hs : ∀ k ∈ path, (pose k).scale = (1, 1, 1))
    {v w : Quaternion ℝ} (hv : v.re = 0) (hw : w.re = 0) :
    Quaternion.normSq (moveAlong pose path v - moveAlong pose path w) = Quaternion.normSq (v - w) := by
  have h := (Pipeline.moveAlong_rigid (pose := fun k => normPose (pose k)) path (fun k hk => jointPose_norm (hpose k hk))
    (fun k hk => normPose_unit (hu k hk)) (fun k hk => hs k hk) hv hw).2.2
  rw [moveAlong_congr path (fun k hk => normPose_move (hu k hk)), moveAlong_congr path (fun k hk => normPose_move (hu k hk))] at h
  exact h

theorem move_zero (j : JointPose) : j.move 0 = j.translation := by
  rw [Pipeline.move_def j (x := 0) ⟨rfl, (mul_zero _).symm, (mul_zero _).symm, (mul_zero _).symm⟩, mul_zero, zero_mul, zero_add]

/-- The origins of a joint and its parent are as far apart as the joint's translation is long. -/
theorem bone_length {input : List (SoaTransform F32)} {pose : Nat → JointPose} (l : List Nat) (i : Nat)
    (hpose : ∀ k ∈ l ++ [i], jointPose (input.map valTransform) k = some (pose k))
    (hu : ∀ k ∈ l ++ [i], Quaternion.normSq (pose k).rotation ≠ 0) (hs : ∀ k ∈ l, (pose k).scale = (1, 1, 1)) {x y : F4 ℝ}
    (hx : pureQuat x = moveAlong pose (l ++ [i]) (pureQuat (splat 0))) (hy : pureQuat y = moveAlong pose l (pureQuat (splat 0))) :
    len (x 0 - y 0) (x 1 - y 1) (x 2 - y 2) =
      len (pose i).translation.imI (pose i).translation.imJ (pose i).translation.imK := by
  have h0 : pureQuat (splat 0) = 0 := by
    apply Quaternion.ext <;> rfl
  have ht := Pipeline.jointPose_re (hpose i (by simp))
  rw [h0] at hx hy
  rw [moveAlong, List.foldr_append, List.foldr_cons, List.foldr_nil, move_zero] at hx
  have h := moveAlong_rigid32 l (fun k hk => hpose k (by simp [hk])) (fun k hk => hu k (by simp [hk])) hs ht (w := 0) rfl
  rw [← hy] at h
  change Quaternion.normSq (List.foldr (fun k v => (pose k).move v) (pose i).translation l - pureQuat y) = _ at h
  rw [← hx, Pipeline.normSq_pure_sub, sub_zero, Quaternion.normSq_def', ht] at h
  rw [len, len]
  congr 1
  simp only [dot3, Pi.sub_apply] at h
  linarith

theorem len_near {a b c x y z A e : ℝ} (hl : len x y z = A) (h1 : |a - x| ≤ e) (h2 : |b - y| ≤ e) (h3 : |c - z| ≤ e) :
    |len a b c - A| ≤ 7 / 4 * e := by
  have h := len_le_three h1 h2 h3
  have e1 := len_add (a := a - x) (b := b - y) (c := c - z) (x := x) (y := y) (z := z)
  have e2 := len_add (a := x - a) (b := y - b) (c := z - c) (x := a) (y := b) (z := c)
  rw [sub_add_cancel, sub_add_cancel, sub_add_cancel] at e1 e2
  rw [len_sub_comm] at e2
  rw [abs_le]
  constructor <;> linarith

theorem tp_origin (m : Mat4 ℝ) (r : Fin 4) : m.transformPoint (splat 0) r = m 3 r := by
  rw [tp_row]; simp [splat]

end Ozz.F32
