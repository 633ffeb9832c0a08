import Verif.Proofs.FloatSplit

/-! Loop counters that stop counting: the triggering job that never ends. -/

namespace Ozz.Triggering

open Ieee Spec F32 Sampling

theorem eq_of_val {x y : F32} (hx : Finite32 x.bits) (hy : Finite32 y.bits) (h : val x = val y) (h0 : y.low ≠ 0) :
    x = y := by
  have h1 := (le32_iff.1 ((le32_val hx hy).2 h.le)).2.2
  have h2 := (le32_iff.1 ((le32_val hy hx).2 h.ge)).2.2
  have h3 : x.rank = y.rank := le_antisymm h1 h2
  unfold rank at h3
  have hl : x.low = y.low ∧ x.negative = y.negative := by
    cases hxn : x.negative <;> cases hyn : y.negative <;> simp only [hxn, hyn, if_true, if_false, Bool.false_eq_true] at h3
    · exact ⟨by omega, rfl⟩
    · omega
    · omega
    · exact ⟨by omega, rfl⟩
  obtain ⟨hl, hn⟩ := hl
  cases x with | mk a => cases y with | mk b =>
  congr 1
  unfold low at hl
  unfold negative at hn
  simp only [decide_eq_decide] at hl hn
  have ha := a.isLt
  have hb := b.isLt
  apply BitVec.eq_of_toNat_eq
  omega

theorem loopMax_val : Finite32 loopMax.bits ∧ val loopMax = 2 ^ 24 := by
  refine ⟨by decide +kernel, ?_⟩
  have : value32 loopMax.bits = 2 ^ 24 := by decide +kernel
  unfold val real
  rw [this]; norm_num

theorem loopMin_val : Finite32 loopMin.bits ∧ val loopMin = -2 ^ 24 := by
  refine ⟨by decide +kernel, ?_⟩
  have : value32 loopMin.bits = -2 ^ 24 := by decide +kernel
  unfold val real
  rw [this]; norm_num

theorem loopMax_stuck : loopMax + (1 : F32) = loopMax := by decide +kernel
theorem loopMin_stuck : loopMin - (1 : F32) = loopMin := by decide +kernel

theorem lt_of_le_lt32 {x y z : F32} (h1 : x ≤ y) (h2 : y < z) : x < z := by
  rw [le32_iff] at h1
  rw [lt32_iff] at h2 ⊢
  exact ⟨h1.1, h2.2.1, h1.2.2.trans_lt h2.2.2⟩

theorem lt_of_lt_le32 {x y z : F32} (h1 : x < y) (h2 : y ≤ z) : x < z := by
  rw [lt32_iff] at h1 ⊢
  rw [le32_iff] at h2
  exact ⟨h1.1, h2.2.1, h1.2.2.trans_le h2.2.2⟩

theorem not_lt_of_lt32 {x y : F32} (h : x < y) : ¬ y < x := by
  rw [lt32_iff] at h ⊢
  intro h'
  exact absurd (h.2.2.trans h'.2.2) (lt_irrefl _)

theorem feq_of_lt32 {x y : F32} (h : x < y) : feq x y = false ∧ feq y x = false := by
  rw [lt32_iff] at h
  have : ¬ y ≤ x := by
    rw [le32_iff]; intro h'; exact absurd (h.2.2.trans_le h'.2.2) (lt_irrefl _)
  unfold feq
  constructor <;> simp [this]

/-- A loop start that the counter can hold. -/
structure Counter (o : F32) : Prop where
  finite : Finite32 o.bits
  whole : ∃ k : ℤ, val o = k ∧ -2 ^ 24 ≤ k ∧ k ≤ 2 ^ 24

theorem counter_up {o : F32} (h : Counter o) : Counter (o + 1) := by
  obtain ⟨hf, k, hk, h1, h2⟩ := h
  rcases h2.lt_or_eq with h3 | h3
  · have := add_int (y := (1 : F32)) (n := 1) hf one_finite hk (by rw [val_one32]; simp)
      (by rw [abs_le]; constructor <;> omega)
    exact ⟨this.1, k + 1, this.2, by omega, by omega⟩
  · have : o = loopMax := eq_of_val hf loopMax_val.1 (by rw [hk, h3, loopMax_val.2]; norm_num) (by decide +kernel)
    rw [this, loopMax_stuck]
    exact ⟨loopMax_val.1, 2 ^ 24, by rw [loopMax_val.2]; norm_num, by norm_num, le_rfl⟩

theorem counter_down {o : F32} (h : Counter o) : Counter (o - 1) := by
  obtain ⟨hf, k, hk, h1, h2⟩ := h
  rcases h1.lt_or_eq with h3 | h3
  · have := sub_int (y := (1 : F32)) (n := 1) hf one_finite hk (by rw [val_one32]; simp)
      (by rw [abs_le]; constructor <;> omega)
    exact ⟨this.1, k - 1, this.2, by omega, by omega⟩
  · have : o = loopMin := eq_of_val hf loopMin_val.1 (by rw [hk, ← h3, loopMin_val.2]; norm_num) (by decide +kernel)
    rw [this, loopMin_stuck]
    exact ⟨loopMin_val.1, -2 ^ 24, by rw [loopMin_val.2]; norm_num, le_rfl, by norm_num⟩

theorem counter_floor {x : F32} (hf : Finite32 x.bits) (h : |val x| ≤ 2 ^ 24) : Counter (FloorOp.floor x) := by
  obtain ⟨f, v⟩ := floor_ok hf
  obtain ⟨h1, h2⟩ := abs_le.mp h
  refine ⟨f, ⌊val x⌋, v, ?_, ?_⟩
  · rw [Int.le_floor]; push_cast; norm_num at h1 ⊢; exact h1
  · have : (⌊val x⌋ : ℝ) ≤ 2 ^ 24 := (Int.floor_le _).trans h2
    exact_mod_cast this

variable {j : Job F32}

theorem never_of_inv {I : Iter F32 → Prop} (h0 : I (Iter.new j))
    (hs : ∀ s, I s → ∃ s', I s' ∧ (step j s = .ok (.cont s') ∨ ∃ e, step j s = .ok (.emit e s'))) : NeverEnds j := by
  have inv : ∀ s, Reached j s → I s := by
    intro s hr
    induction hr with
    | start => exact h0
    | cont _ he ih =>
      obtain ⟨s', hi, h1 | ⟨e, h1⟩⟩ := hs _ ih
      · rw [h1] at he; cases he; exact hi
      · rw [h1] at he; cases he
    | emit _ he ih =>
      obtain ⟨s', hi, h1 | ⟨e, h1⟩⟩ := hs _ ih
      · rw [h1] at he; cases he
      · rw [h1] at he; cases he; exact hi
  intro s hr
  obtain ⟨s', -, h⟩ := hs s (inv s hr)
  exact ⟨s', h⟩

theorem forever_fwd (h : Shape j.track) (hf : Finite32 j.from_.bits) (hb : |val j.from_| ≤ 2 ^ 24)
    (ht : loopMax < j.to_) : NeverEnds j := by
  have hle : ∀ {o : F32}, Finite32 o.bits → val o ≤ 2 ^ 24 → o < j.to_ := fun {o} ho hv =>
    lt_of_le_lt32 ((le32_val ho loopMax_val.1).2 (by rw [loopMax_val.2]; exact hv)) ht
  have hft : j.from_ < j.to_ := hle hf (abs_le.mp hb).2
  refine never_of_inv (I := fun s => s.active = true ∧ Counter s.outer ∧ ∃ i : ℕ, s.inner = i) ?_ ?_
  · refine ⟨?_, counter_floor hf hb, 0, ?_⟩
    · simp [Iter.new, (feq_of_lt32 hft).1]
    · simp [Iter.new, hft]
  rintro ⟨act, o, inn⟩ ⟨h1, h2, i, h3⟩
  simp only at h1 h2 h3
  subst h1 h3
  have ho : o < j.to_ := by
    obtain ⟨k, hk, -, hk2⟩ := h2.whole
    exact hle h2.finite (by rw [hk]; exact_mod_cast hk2)
  have hup := counter_up h2
  by_cases hi : i < j.track.keyCount
  · have hstep : step j ⟨true, o, (i : ℤ)⟩ = stepForward j ⟨true, o, (i : ℤ)⟩ := by
      simp only [step, hft, ho, if_true, if_false, Bool.true_eq_false, Nat.cast_lt]
      rw [if_pos hi]
    rw [hstep, gstepForward h hi]
    split
    · exact ⟨_, ⟨rfl, h2, _, rfl⟩, .inr ⟨_, rfl⟩⟩
    · split
      · exact ⟨_, ⟨rfl, hup, 0, rfl⟩, .inl rfl⟩
      · exact ⟨_, ⟨rfl, h2, _, rfl⟩, .inl rfl⟩
  · have hstep : step j ⟨true, o, (i : ℤ)⟩ = .ok (.cont ⟨true, o + 1, 0⟩) := by
      simp only [step, hft, ho, if_true, if_false, Bool.true_eq_false, Nat.cast_lt]
      rw [if_neg hi]
    exact ⟨_, ⟨rfl, hup, 0, rfl⟩, .inl hstep⟩

theorem forever_bwd (h : Shape j.track) (hf : Finite32 j.from_.bits) (hb : |val j.from_| ≤ 2 ^ 24)
    (ht : j.to_ ≤ loopMin) (hft : j.to_ < j.from_) : NeverEnds j := by
  have hlt : ∀ {o : F32}, Finite32 o.bits → -2 ^ 24 < val o → j.to_ < o := fun {o} ho hv =>
    lt_of_le_lt32 ht ((lt32_val loopMin_val.1 ho).2 (by rw [loopMin_val.2]; exact hv))
  have hnf : ¬ j.from_ < j.to_ := not_lt_of_lt32 hft
  refine never_of_inv (I := fun s => s.active = true ∧ Counter s.outer ∧
    ∃ i : ℕ, i ≤ j.track.keyCount ∧ s.inner = (i : ℤ) - 1) ?_ ?_
  · refine ⟨?_, counter_floor hf hb, j.track.keyCount, le_rfl, ?_⟩
    · simp [Iter.new, (feq_of_lt32 hft).2]
    · simp [Iter.new, hnf]
  rintro ⟨act, o, inn⟩ ⟨h1, h2, i, hi, h3⟩
  simp only at h1 h2 h3
  subst h1 h3
  have ho : j.to_ < o + 1 := by
    obtain ⟨hof, k, hk, hk1, hk2⟩ := h2
    rcases hk2.lt_or_eq with h3 | h3
    · have := add_int (y := (1 : F32)) (n := 1) hof one_finite hk (by rw [val_one32]; simp)
        (by rw [abs_le]; constructor <;> omega)
      refine hlt this.1 ?_
      rw [this.2]
      have : (-2 ^ 24 : ℤ) < k + 1 := by omega
      exact_mod_cast this
    · have : o = loopMax := eq_of_val hof loopMax_val.1 (by rw [hk, h3, loopMax_val.2]; norm_num) (by decide +kernel)
      rw [this, loopMax_stuck]
      exact hlt loopMax_val.1 (by rw [loopMax_val.2]; norm_num)
  have hdn := counter_down h2
  cases i with
  | zero =>
    have hstep : step j ⟨true, o, ((0 : ℕ) : ℤ) - 1⟩ = .ok (.cont ⟨true, o - 1, (j.track.keyCount : ℤ) - 1⟩) := by
      simp only [step, hnf, ho, if_true, if_false, Bool.true_eq_false]
      rw [if_neg (by simp)]
    exact ⟨_, ⟨rfl, hdn, _, le_rfl, rfl⟩, .inl hstep⟩
  | succ i =>
    have e : ((i + 1 : ℕ) : ℤ) - 1 = (i : ℤ) := by push_cast; ring
    rw [e]
    have hstep : step j ⟨true, o, (i : ℤ)⟩ = stepBackward j ⟨true, o, (i : ℤ)⟩ := by
      simp only [step, hnf, ho, if_true, if_false, Bool.true_eq_false]
      rw [if_pos (by omega)]
    rw [hstep, gstepBackward h (by omega)]
    split
    · exact ⟨_, ⟨rfl, h2, i, by omega, rfl⟩, .inr ⟨_, rfl⟩⟩
    · split
      · exact ⟨_, ⟨rfl, hdn, _, le_rfl, rfl⟩, .inl rfl⟩
      · exact ⟨_, ⟨rfl, h2, i, by omega, rfl⟩, .inl rfl⟩

end Ozz.Triggering
