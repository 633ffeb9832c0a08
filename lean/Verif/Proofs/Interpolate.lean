import Verif.Proofs.SamplingHistory
import Verif.Proofs.Exact
import Verif.Model.Interpolate
import Verif.Spec.Interpolate
import Mathlib.Topology.Algebra.Field
import Mathlib.Topology.Instances.Real.Lemmas
import Mathlib.Topology.LocallyFinite
import Mathlib.Tactic.Linarith
import Mathlib.Tactic.FieldSimp
import Mathlib.Tactic.Ring

/-! Helper lemmas for interpolation over the real numbers. -/

namespace Ozz.Sampling

open Spec

theorem realOrder : RatioOrder ℝ where
  trans := fun _ _ _ h h' => le_trans h h'
  total := fun a b _ _ => le_total a b
  lt_iff := fun a b => by simp
  left := fun a _ _ => le_refl a
  right := fun _ b _ => le_refl b

/-- The straight line through two points, as the code computes it. -/
def line {α : Type} [Add α] [Sub α] [Mul α] [Div α] (t0 t1 a b r : α) : α := (b - a) * ((r - t0) / (t1 - t0)) + a

theorem line_left (t0 t1 a b : ℝ) : line t0 t1 a b t0 = a := by simp [line]

theorem line_right {t0 t1 : ℝ} (h : t0 < t1) (a b : ℝ) : line t0 t1 a b t1 = b := by
  have : t1 - t0 ≠ 0 := by linarith [sub_pos.mpr h]
  simp [line, div_self this]

theorem fraction_mem {t0 t1 r : ℝ} (h : t0 < t1) (h0 : t0 ≤ r) (h1 : r ≤ t1) : 0 ≤ (r - t0) / (t1 - t0) ∧ (r - t0) / (t1 - t0) ≤ 1 := by
  have : 0 < t1 - t0 := sub_pos.mpr h
  exact ⟨div_nonneg (by linarith) this.le, (div_le_one this).mpr (by linarith)⟩

theorem line_mem {t0 t1 a b r : ℝ} (h : t0 < t1) (h0 : t0 ≤ r) (h1 : r ≤ t1) : line t0 t1 a b r ∈ Set.uIcc a b := by
  obtain ⟨f0, f1⟩ := fraction_mem h h0 h1
  unfold line
  generalize (r - t0) / (t1 - t0) = f at f0 f1
  rcases le_total a b with hab | hab
  · rw [Set.uIcc_of_le hab]; constructor <;> nlinarith
  · rw [Set.uIcc_of_ge hab]; constructor <;> nlinarith

section
variable {lo hi : ℝ} {real T N : Nat} {time : Nat → ℝ} {pred track : Nat → Nat}

theorem consecutive_pred (h : KeyOrder lo hi real T N time pred track) {t l k : Nat} (c : Consecutive N track t l k) :
    T ≤ k ∧ pred k = l := by
  have hT : T ≤ k := by
    rcases Nat.lt_or_ge k T with h' | h'
    · have e1 := h.first k h'
      have e2 := h.first l (by have := c.lt; omega)
      have := c.left; have := c.right; have := c.lt
      omega
    · exact h'
  refine ⟨hT, ?_⟩
  have h1 := h.predLt k hT c.rightLt
  have h2 := h.predTrack k hT c.rightLt
  rw [c.right] at h2
  rcases Nat.lt_trichotomy (pred k) l with h' | h' | h'
  · exact absurd (by rw [c.left, c.right]) (h.predLast k l hT c.rightLt h' c.lt)
  · exact h'
  · exact absurd h2 (c.none _ h' h1)

theorem consecutive_lt (h : KeyOrder lo hi real T N time pred track) {t l k : Nat} (c : Consecutive N track t l k) :
    time l < time k := by
  obtain ⟨h1, h2⟩ := consecutive_pred h c
  have := h.increasing k h1 c.rightLt
  rwa [h2] at this

theorem track_mono (h : KeyOrder lo hi real T N time pred track) {t : Nat} : ∀ m m', m < m' → m' < N → track m = t → track m' = t →
    time m < time m' := by
  intro m m'
  induction m' using Nat.strongRecOn with
  | _ m' ih =>
    intro h1 h2 h3 h4
    have hT : T ≤ m' := by
      rcases Nat.lt_or_ge m' T with h' | h'
      · have e1 := h.first m' h'
        have e2 := h.first m (by omega)
        omega
      · exact h'
    have hp1 := h.predLt m' hT h2
    have hp2 := h.predTrack m' hT h2
    rw [h4] at hp2
    have h6 := h.increasing m' hT h2
    rcases Nat.lt_trichotomy m (pred m') with h' | h' | h'
    · exact lt_trans (ih (pred m') hp1 h' (by omega) h3 hp2) h6
    · rw [h']; exact h6
    · exact absurd (by rw [h3, h4]) (h.predLast m' m hT h2 h' h1)

theorem bracket_consecutive {t l k : Nat} {r : ℝ} (b : Bracket T N time track t r l k) : Consecutive N track t l k :=
  ⟨b.leftTrack, b.rightTrack, b.lt, b.rightLt, b.consecutive⟩

theorem bracket_right (h : KeyOrder lo hi real T N time pred track) {t l k : Nat} {r : ℝ} (b : Bracket T N time track t r l k)
    (hr : r ≤ hi) : r ≤ time k := by
  rcases b.rightGt with h' | h'
  · exact le_of_lt h'
  · have c := bracket_consecutive b
    have := h.finish k (consecutive_pred h c).1 c.rightLt (fun m h1 h2 => by rw [c.right]; exact h' m h1 h2)
    exact le_trans hr this

/-- The line through the bracketing keys is the line through any neighbouring keys around the ratio. -/
theorem bracket_line (h : KeyOrder lo hi real T N time pred track) {t l k l' k' : Nat} {r : ℝ} (value : Nat → ℝ)
    (b : Bracket T N time track t r l k) (c : Consecutive N track t l' k') (h1 : time l' ≤ r) (h2 : r ≤ time k') :
    line (time l) (time k) (value l) (value k) r = line (time l') (time k') (value l') (value k') r := by
  have c0 := bracket_consecutive b
  have hkk : k' ≤ l ∨ k ≤ l' ∨ (l < k' ∧ l' < k) := by omega
  rcases hkk with h' | h' | ⟨h', h''⟩
  · -- the ratio is the key `k' = l`
    have hl : k' = l := by
      rcases Nat.lt_or_eq_of_le h' with h'' | h''
      · have := track_mono h k' l h'' (by have := c0.lt; have := c0.rightLt; omega) c.right c0.left
        have := b.leftLe
        linarith
      · exact h''
    subst hl
    have hr : r = time k' := le_antisymm h2 b.leftLe
    subst hr
    rw [line_left, line_right (consecutive_lt h c)]
  · -- past the last key
    exfalso
    have hle : time k ≤ time l' := by
      rcases Nat.lt_or_eq_of_le h' with h'' | h''
      · exact le_of_lt (track_mono h k l' h'' (by have := c.lt; have := c.rightLt; omega) c0.right c.left)
      · rw [h'']
    rcases b.rightGt with h3 | h3
    · linarith
    · exact h3 k' (by have := c.lt; omega) c.rightLt c.right
  · have hl : l = l' := by
      rcases Nat.lt_trichotomy l l' with h3 | h3 | h3
      · exact absurd c.left (c0.none l' h3 h'')
      · exact h3
      · exact absurd c0.left (c.none l h3 h')
    have hk : k = k' := by
      rcases Nat.lt_trichotomy k k' with h3 | h3 | h3
      · exact absurd c0.right (c.none k h'' h3)
      · exact h3
      · exact absurd c.right (c0.none k' h' h3)
    rw [hl, hk]

/-- A function that is, at every ratio, on the line through bracketing keys is the curve through the keys. -/
theorem curve_of_brackets (h : KeyOrder lo hi real T N time pred track) {t : Nat} (value : Nat → ℝ) (f : ℝ → ℝ)
    (hf : ∀ r, lo ≤ r → r ≤ hi → ∃ l k, Bracket T N time track t r l k ∧ f r = line (time l) (time k) (value l) (value k) r) :
    CurveThrough lo hi N time track t value f := by
  have hline : ∀ l k, Consecutive N track t l k → ∀ r, lo ≤ r → r ≤ hi → time l ≤ r → r ≤ time k →
      f r = line (time l) (time k) (value l) (value k) r := by
    intro l k c r h1 h2 h3 h4
    obtain ⟨l', k', b, hb⟩ := hf r h1 h2
    rw [hb, bracket_line h value b c h3 h4]
  refine ⟨?_, ?_, ?_, ?_⟩
  · -- finitely many closed pieces
    have hcover : Set.Icc lo hi ⊆ ⋃ k : Fin N, {r | Consecutive N track t (pred k) k ∧ lo ≤ r ∧ r ≤ hi ∧ time (pred k) ≤ r ∧ r ≤ time k} := by
      rintro r ⟨h1, h2⟩
      obtain ⟨l, k, b, -⟩ := hf r h1 h2
      have c := bracket_consecutive b
      rw [Set.mem_iUnion]
      refine ⟨⟨k, c.rightLt⟩, ?_⟩
      have := (consecutive_pred h c).2
      simp only [this, Set.mem_setOf_eq]
      exact ⟨c, h1, h2, b.leftLe, bracket_right h b h2⟩
    refine ContinuousOn.mono ?_ hcover
    refine LocallyFinite.continuousOn_iUnion (locallyFinite_of_finite _) ?_ ?_
    · intro k
      by_cases hc : Consecutive N track t (pred k) k
      · have : {r : ℝ | Consecutive N track t (pred k) k ∧ lo ≤ r ∧ r ≤ hi ∧ time (pred k) ≤ r ∧ r ≤ time k} =
            Set.Icc lo hi ∩ Set.Icc (time (pred k)) (time k) := by
          ext r; simp [hc, and_assoc]
        rw [this]
        exact isClosed_Icc.inter isClosed_Icc
      · have : {r : ℝ | Consecutive N track t (pred k) k ∧ lo ≤ r ∧ r ≤ hi ∧ time (pred k) ≤ r ∧ r ≤ time k} = ∅ := by
          ext r; simp [hc]
        rw [this]
        exact isClosed_empty
    · intro k
      have hcont : Continuous fun r => line (time (pred k)) (time k) (value (pred k)) (value k) r := by
        unfold line
        fun_prop
      refine hcont.continuousOn.congr ?_
      rintro r ⟨c, h1, h2, h3, h4⟩
      exact hline _ _ c r h1 h2 h3 h4
  · intro k hk htk h1 h2
    obtain ⟨l', k', b, hb⟩ := hf (time k) h1 h2
    have c := bracket_consecutive b
    have hlt := consecutive_lt h c
    have hkr := bracket_right h b h2
    -- `k` is one of the two keys
    have hcases : k = l' ∨ k = k' := by
      rcases Nat.lt_trichotomy k l' with h3 | h3 | h3
      · have := track_mono h k l' h3 (by have := c.lt; have := c.rightLt; omega) htk c.left
        have := b.leftLe
        linarith
      · exact .inl h3
      · rcases Nat.lt_trichotomy k k' with h4 | h4 | h4
        · exact absurd htk (c.none k h3 h4)
        · exact .inr h4
        · have := track_mono h k' k h4 hk c.right htk
          linarith
    rcases hcases with rfl | rfl
    · rw [hb, line_left]
    · rw [hb, line_right hlt]
  · intro l k c r h1 h2 h3 h4
    rw [hline l k c r h1 h2 h3 h4]
    exact line_mem (consecutive_lt h c) h3 h4
  · intro l k c r h1 h2 h3 h4
    rw [hline l k c r h1 h2 h3 h4]
    have : time k - time l ≠ 0 := by have := consecutive_lt h c; linarith [sub_pos.mpr this]
    unfold line
    field_simp
    ring

end

/-! ### Lanes -/

theorem lerp_comp {α K : Type} [RatioOps α] [Mul α] [Neg α] [NumOps α] {ch : Chan α K} {val : K → Fin 3 → α} {T i : Nat}
    {time : Nat → α} {track : Nat → Nat} {r : α} {v : Interp α (SoaVec3 α)} (h : SoaBracket T ch time track (lanes3 val) i r v) (j : Fin 4) (x : Fin 3) :
    ∃ l k, Bracket T ch.previouses.length time track (4 * i + j) r l k ∧
      comp3 (SoaVec3.lerp v.value0 v.value1 (keyFraction v r)) j x =
        line (time l) (time k) (keyValue ch val x l) (keyValue ch val x k) r := by
  obtain ⟨l, k, kl, kr, h1, h2, h3, h4, h5, h6, h7⟩ := h
  refine ⟨l j, k j, h1 j, ?_⟩
  unfold keyValue line
  rw [h2 j, h3 j, ← h4 j, ← h5 j, h6, h7]
  have hx : x = 0 ∨ x = 1 ∨ x = 2 := by fin_cases x <;> simp
  have hj : j = 0 ∨ j = 1 ∨ j = 2 ∨ j = 3 := by fin_cases j <;> simp
  rcases hx with rfl | rfl | rfl <;> rcases hj with rfl | rfl | rfl | rfl <;> rfl

/-- The quaternion before it is made unit. -/
def lerpQ {α : Type} [Add α] [Sub α] [Mul α] (a b : SoaQuat α) (f : F4 α) (j : Fin 4) : Fin 4 → α := fun x =>
  (compQ b j x - compQ a j x) * f j + compQ a j x

theorem nlerp_comp {α : Type} [Add α] [Sub α] [Mul α] [Div α] [Neg α] [NumOps α] (a b : SoaQuat α) (f : F4 α) (j : Fin 4) (x : Fin 4) :
    compQ (SoaQuat.nlerp a b f) j x = lerpQ a b f j x *
      (NumOps.one / NumOps.sqrt (lerpQ a b f j 0 * lerpQ a b f j 0 + lerpQ a b f j 1 * lerpQ a b f j 1 +
        lerpQ a b f j 2 * lerpQ a b f j 2 + lerpQ a b f j 3 * lerpQ a b f j 3)) := by
  have hx : x = 0 ∨ x = 1 ∨ x = 2 ∨ x = 3 := by fin_cases x <;> simp
  rcases hx with rfl | rfl | rfl | rfl <;> rfl

theorem lerpQ_comp {α K : Type} [RatioOps α] [Mul α] [Neg α] [NumOps α] {ch : Chan α K} {val : K → Fin 4 → α} {T i : Nat}
    {time : Nat → α} {track : Nat → Nat} {r : α} {v : Interp α (SoaQuat α)} (h : SoaBracket T ch time track (lanesQ val) i r v) (j : Fin 4) :
    ∃ l k, Bracket T ch.previouses.length time track (4 * i + j) r l k ∧ ∀ x,
      lerpQ v.value0 v.value1 (keyFraction v r) j x =
        line (time l) (time k) (keyValue ch val x l) (keyValue ch val x k) r := by
  obtain ⟨l, k, kl, kr, h1, h2, h3, h4, h5, h6, h7⟩ := h
  refine ⟨l j, k j, h1 j, fun x => ?_⟩
  unfold keyValue line lerpQ
  rw [h2 j, h3 j, ← h4 j, ← h5 j, h6, h7]
  have hx : x = 0 ∨ x = 1 ∨ x = 2 ∨ x = 3 := by fin_cases x <;> simp
  have hj : j = 0 ∨ j = 1 ∨ j = 2 ∨ j = 3 := by fin_cases j <;> simp
  rcases hx with rfl | rfl | rfl | rfl <;> rcases hj with rfl | rfl | rfl | rfl <;> rfl

end Ozz.Sampling
