import Verif.Model.Float
import Mathlib.Tactic.Linarith
import Mathlib.Tactic.Ring
import Mathlib.Tactic.Push

/-! Facts about the `f32` model: representable magnitudes are kept, rounding is to nearest and
monotone, relative error bound. -/

namespace Ozz.F32

theorem pack_low (s : Bool) {l : Nat} (h : l < 2 ^ 31) : (pack s l).low = l := by
  cases s <;> simp only [pack, low, BitVec.toNat_ofNat] <;> simp only [if_true, if_false, Bool.false_eq_true] <;> omega

theorem pack_negative (s : Bool) {l : Nat} (h : l < 2 ^ 31) : (pack s l).negative = s := by
  cases s <;> simp only [pack, negative, BitVec.toNat_ofNat] <;>
    simp only [if_true, if_false, Bool.false_eq_true, decide_eq_true_eq, decide_eq_false_iff_not] <;> omega

theorem low_lt (x : F32) : x.low < 2 ^ 31 := Nat.mod_lt _ (by norm_num)

theorem pack_self (x : F32) : pack x.negative x.low = x := by
  have h := x.bits.isLt
  have : x.bits.toNat = (pack x.negative x.low).bits.toNat := by
    simp only [pack, low, negative, BitVec.toNat_ofNat, decide_eq_true_eq]
    split <;> omega
  exact congrArg F32.mk (BitVec.eq_of_toNat_eq this).symm

theorem ext_low {x y : F32} (hs : x.negative = y.negative) (hl : x.low = y.low) : x = y := by
  rw [← pack_self x, ← pack_self y, hs, hl]

/-- Normalised form of a magnitude. -/
theorem magOf_mk {e t : Nat} (ht : t ≤ 2 ^ 24) (hn : e = 0 ∨ 2 ^ 23 ≤ t) :
    magOf (e * 2 ^ 23 + t) = t * 2 ^ e := by
  unfold magOf
  rcases Nat.lt_or_ge t (2 ^ 23) with h | h
  · have he : e = 0 := by omega
    subst he
    have : (0 * 2 ^ 23 + t) < 2 ^ 23 := by omega
    simp only [this, if_true]; omega
  · have h1 : ¬ (e * 2 ^ 23 + t < 2 ^ 23) := by omega
    simp only [h1, if_false]
    rcases Nat.lt_or_ge t (2 ^ 24) with h2 | h2
    · have h3 : (e * 2 ^ 23 + t) % 2 ^ 23 = t - 2 ^ 23 := by omega
      have h4 : (e * 2 ^ 23 + t) / 2 ^ 23 - 1 = e := by omega
      rw [h3, h4, show 2 ^ 23 + (t - 2 ^ 23) = t from by omega]
    · have h2' : t = 2 ^ 24 := by omega
      subst h2'
      have h3 : (e * 2 ^ 23 + 2 ^ 24) % 2 ^ 23 = 0 := by omega
      have h4 : (e * 2 ^ 23 + 2 ^ 24) / 2 ^ 23 - 1 = e + 1 := by omega
      rw [h3, h4, pow_succ]; ring

theorem magOf_split (c : Nat) : ∃ e t, c = e * 2 ^ 23 + t ∧ t < 2 ^ 24 ∧ (e = 0 ∨ 2 ^ 23 ≤ t) ∧
    magOf c = t * 2 ^ e := by
  rcases Nat.lt_or_ge c (2 ^ 24) with h | h
  · refine ⟨0, c, by omega, h, Or.inl rfl, ?_⟩
    have := magOf_mk (e := 0) (t := c) (by omega) (Or.inl rfl)
    simpa using this
  · refine ⟨c / 2 ^ 23 - 1, 2 ^ 23 + c % 2 ^ 23, by omega, by omega, Or.inr (by omega), ?_⟩
    have := magOf_mk (e := c / 2 ^ 23 - 1) (t := 2 ^ 23 + c % 2 ^ 23) (by omega) (Or.inr (by omega))
    rwa [show (c / 2 ^ 23 - 1) * 2 ^ 23 + (2 ^ 23 + c % 2 ^ 23) = c from by omega] at this

theorem exists_magOf (t : Nat) (ht : t < 2 ^ 24) : ∀ e : Nat, ∃ c, magOf c = t * 2 ^ e ∧ c ≤ e * 2 ^ 23 + t := by
  intro e
  induction e generalizing t with
  | zero =>
    exact ⟨t, by simpa using magOf_mk (e := 0) (t := t) (by omega) (Or.inl rfl), by omega⟩
  | succ e ih =>
    rcases Nat.lt_or_ge t (2 ^ 23) with h | h
    · obtain ⟨c, hc, hl⟩ := ih (2 * t) (by omega)
      have h1 : c ≤ (e + 1) * 2 ^ 23 + t := by
        rw [Nat.succ_mul]; linarith
      have h2 : magOf c = t * 2 ^ (e + 1) := by rw [hc, pow_succ]; ring
      exact ⟨c, h2, h1⟩
    · have := magOf_mk (e := e + 1) (t := t) (by omega) (Or.inr h)
      exact ⟨(e + 1) * 2 ^ 23 + t, this, Nat.le_refl _⟩

theorem log2_mul_pow {t e : Nat} (h1 : 2 ^ 23 ≤ t) (h2 : t < 2 ^ 24) : (t * 2 ^ e).log2 = 23 + e := by
  have hp : 0 < 2 ^ e := Nat.two_pow_pos e
  have h0 : t * 2 ^ e ≠ 0 := by positivity
  apply le_antisymm
  · have : (t * 2 ^ e).log2 < 23 + e + 1 := by
      rw [Nat.log2_lt h0]
      have : 2 ^ (23 + e + 1) = 2 ^ 24 * 2 ^ e := by rw [← pow_add]; congr 1; omega
      rw [this]; exact Nat.mul_lt_mul_of_pos_right h2 hp
    omega
  · rw [Nat.le_log2 h0, pow_add]
    exact Nat.mul_le_mul_right _ h1

theorem shiftOf_mul_pow {t e : Nat} (h2 : t < 2 ^ 24) (hn : e = 0 ∨ 2 ^ 23 ≤ t) :
    shiftOf (t * 2 ^ e) = e := by
  unfold shiftOf
  rcases hn with rfl | h
  · rcases Nat.eq_zero_or_pos t with rfl | ht
    · simp
    · have : (t * 2 ^ 0).log2 < 24 := by
        rw [Nat.log2_lt (by omega)]; simpa using h2
      omega
  · rw [log2_mul_pow h h2]; omega

theorem roundDiv_exact (t d : Nat) (hd : 0 < d) : roundDiv (t * d) d = t := by
  simp only [roundDiv, Nat.mul_mod_left, Nat.mul_div_cancel _ hd]
  split
  · omega
  · rfl

/-- A representable magnitude rounds to itself. -/
theorem roundMag_exact (c d : Nat) (hd : 0 < d) (hc : c ≤ 255 * 2 ^ 23) : roundMag (magOf c * d) d = c := by
  obtain ⟨e, t, rfl, ht, hn, hm⟩ := magOf_split c
  unfold roundMag
  rw [Nat.mul_div_cancel _ hd, hm, shiftOf_mul_pow ht hn]
  have : t * 2 ^ e * d = t * (d * 2 ^ e) := by ring
  simp only [this, roundDiv_exact _ _ (Nat.mul_pos hd (Nat.two_pow_pos e))]
  omega

theorem roundMag_le (n d : Nat) : roundMag n d ≤ 255 * 2 ^ 23 := Nat.min_le_right _ _

theorem roundMag_lt (n d : Nat) : roundMag n d < 2 ^ 31 := lt_of_le_of_lt (roundMag_le n d) (by norm_num)

theorem magOf_succ_lt (c : Nat) : magOf c < magOf (c + 1) := by
  obtain ⟨e, t, rfl, ht, hn, hm⟩ := magOf_split c
  have h := magOf_mk (e := e) (t := t + 1) (by omega) (by omega)
  rw [hm, show e * 2 ^ 23 + t + 1 = e * 2 ^ 23 + (t + 1) from by ring, h]
  exact Nat.mul_lt_mul_of_pos_right (by omega) (Nat.two_pow_pos e)

theorem magOf_strictMono : StrictMono magOf := strictMono_nat_of_lt_succ magOf_succ_lt

theorem magOf_zero : magOf 0 = 0 := rfl

theorem magOf_inf : magOf (255 * 2 ^ 23) = 2 ^ 24 * 2 ^ 253 := by
  have := magOf_mk (e := 253) (t := 2 ^ 24) (le_refl _) (Or.inr (by norm_num))
  rw [show 253 * 2 ^ 23 + 2 ^ 24 = 255 * 2 ^ 23 from by norm_num] at this
  exact this

/-! ### Rounding -/

/-- Rounding an integer quotient: half a unit off at most, ties to even. -/
theorem roundDiv_spec (n d : Nat) (hd : 0 < d) :
    2 * (roundDiv n d * d) ≤ 2 * n + d ∧ 2 * n ≤ 2 * (roundDiv n d * d) + d ∧
    ((2 * (roundDiv n d * d) = 2 * n + d ∨ 2 * n = 2 * (roundDiv n d * d) + d) →
      roundDiv n d % 2 = 0) := by
  have h := Nat.div_add_mod n d
  have hr := Nat.mod_lt n hd
  simp only [roundDiv]
  generalize n / d = t at *
  generalize n % d = r at *
  obtain ⟨a, ha⟩ : ∃ a, a = d * t := ⟨_, rfl⟩
  have h1 : t * d = a := by rw [ha, Nat.mul_comm]
  have h2 : (t + 1) * d = a + d := by rw [Nat.succ_mul, h1]
  rw [← ha] at h
  split
  · rw [h2]; omega
  · rw [h1]; omega

theorem roundDiv_mono {n d n' d' : Nat} (hd : 0 < d) (hd' : 0 < d') (h : n * d' ≤ n' * d) :
    roundDiv n d ≤ roundDiv n' d' := by
  obtain ⟨a1, a2, a3⟩ := roundDiv_spec n d hd
  obtain ⟨b1, b2, b3⟩ := roundDiv_spec n' d' hd'
  by_contra hlt
  push Not at hlt
  generalize roundDiv n d = T at *
  generalize roundDiv n' d' = T' at *
  obtain ⟨k, rfl⟩ : ∃ k, T = T' + 1 + k := ⟨T - T' - 1, by omega⟩
  -- both lie at the middle
  have e1 : 2 * ((T' + 1 + k) * d) * d' ≤ (2 * n + d) * d' := Nat.mul_le_mul_right _ a1
  have e2 : 2 * n' * d ≤ (2 * (T' * d') + d') * d := Nat.mul_le_mul_right _ b2
  have hdd : 0 < d * d' := Nat.mul_pos hd hd'
  have e3 : 2 * ((T' + 1 + k) * d) * d' = 2 * T' * (d * d') + 2 * (d * d') + 2 * (k * (d * d')) := by ring
  have e4 : (2 * n + d) * d' = 2 * (n * d') + d * d' := by ring
  have e5 : 2 * n' * d = 2 * (n' * d) := by ring
  have e6 : (2 * (T' * d') + d') * d = 2 * T' * (d * d') + d * d' := by ring
  rw [e3, e4] at e1
  rw [e5, e6] at e2
  have hk : k = 0 := by
    by_contra hk
    have : d * d' ≤ k * (d * d') := Nat.le_mul_of_pos_left _ (Nat.pos_of_ne_zero hk)
    omega
  subst hk
  have hx : 2 * (n * d') = 2 * T' * (d * d') + d * d' := by omega
  have hy : 2 * (n' * d) = 2 * T' * (d * d') + d * d' := by omega
  have c1 : 2 * ((T' + 1 + 0) * d) = 2 * n + d := by
    have : 2 * n * d' = (2 * T' * d + d) * d' := by
      rw [show 2 * n * d' = 2 * (n * d') from by ring, hx]; ring
    have := Nat.eq_of_mul_eq_mul_right hd' this
    rw [this]; ring
  have c2 : 2 * n' = 2 * (T' * d') + d' := by
    have : 2 * n' * d = (2 * (T' * d') + d') * d := by
      rw [show 2 * n' * d = 2 * (n' * d) from by ring, hy]; ring
    exact Nat.eq_of_mul_eq_mul_right hd this
  have p1 := a3 (Or.inl c1)
  have p2 := b3 (Or.inr c2)
  omega

theorem shiftOf_bounds (q : Nat) :
    q < 2 ^ 24 * 2 ^ shiftOf q ∧ (shiftOf q = 0 ∨ 2 ^ 23 * 2 ^ shiftOf q ≤ q) := by
  unfold shiftOf
  rcases Nat.eq_zero_or_pos q with rfl | hq
  · simp
  rcases Nat.lt_or_ge q.log2 23 with h | h
  · have : q.log2 - 23 = 0 := by omega
    rw [this]
    have h1 : q < 2 ^ 24 := (Nat.log2_lt hq.ne').mp (by omega)
    exact ⟨by simpa using h1, Or.inl rfl⟩
  · constructor
    · rw [← pow_add]; exact (Nat.log2_lt hq.ne').mp (by omega)
    · right; rw [← pow_add]; exact (Nat.le_log2 hq.ne').mp (by omega)

/-- What `roundMag` does before the overflow check: exponent shift and 24-bit significand. -/
theorem roundMag_parts (n d : Nat) (hd : 0 < d) : ∃ e t, e = shiftOf (n / d) ∧
    t = roundDiv n (d * 2 ^ e) ∧ roundMag n d = min (e * 2 ^ 23 + t) (255 * 2 ^ 23) ∧ t ≤ 2 ^ 24 ∧
    (e = 0 ∨ 2 ^ 23 ≤ t) ∧ (e = 0 ∨ 2 ^ 23 * (d * 2 ^ e) ≤ n) ∧ n < 2 ^ 24 * (d * 2 ^ e) := by
  obtain ⟨e, he⟩ : ∃ e, e = shiftOf (n / d) := ⟨_, rfl⟩
  obtain ⟨b1, b2⟩ := shiftOf_bounds (n / d)
  rw [← he] at b1 b2
  have hde : 0 < d * 2 ^ e := Nat.mul_pos hd (Nat.two_pow_pos e)
  have hlt : n < 2 ^ 24 * (d * 2 ^ e) := by
    have := (Nat.div_lt_iff_lt_mul hd).mp b1
    calc n < 2 ^ 24 * 2 ^ e * d := this
      _ = _ := by ring
  have hge : e = 0 ∨ 2 ^ 23 * (d * 2 ^ e) ≤ n := by
    rcases b2 with b2 | b2
    · exact Or.inl b2
    · right
      have := (Nat.le_div_iff_mul_le hd).mp b2
      calc _ = 2 ^ 23 * 2 ^ e * d := by ring
        _ ≤ n := this
  refine ⟨e, roundDiv n (d * 2 ^ e), he, rfl, ?_, ?_, ?_, hge, hlt⟩
  · unfold roundMag; rw [← he]
  · have := roundDiv_mono (n := n) (n' := 2 ^ 24 * (d * 2 ^ e)) hde hde (Nat.mul_le_mul_right _ hlt.le)
    rwa [roundDiv_exact _ _ hde] at this
  · rcases hge with h | h
    · exact Or.inl h
    · right
      have := roundDiv_mono (n := 2 ^ 23 * (d * 2 ^ e)) (n' := n) hde hde (Nat.mul_le_mul_right _ h)
      rwa [roundDiv_exact _ _ hde] at this

/-- Rounding is monotone. -/
theorem roundMag_mono {n d n' d' : Nat} (hd : 0 < d) (hd' : 0 < d') (h : n * d' ≤ n' * d) :
    roundMag n d ≤ roundMag n' d' := by
  obtain ⟨e, t, he, ht, hr, t1, t2, -, -⟩ := roundMag_parts n d hd
  obtain ⟨e', t', he', ht', hr', t1', t2', -, -⟩ := roundMag_parts n' d' hd'
  have hq : n / d ≤ n' / d' := by
    rw [Nat.le_div_iff_mul_le hd']
    have h1 : n / d * d ≤ n := Nat.div_mul_le_self n d
    have h2 : n / d * d' * d ≤ n' * d := by
      calc n / d * d' * d = n / d * d * d' := by ring
        _ ≤ n * d' := Nat.mul_le_mul_right _ h1
        _ ≤ n' * d := h
    exact Nat.le_of_mul_le_mul_right h2 hd
  have hee : e ≤ e' := by
    rw [he, he']; unfold shiftOf
    rcases Nat.eq_zero_or_pos (n / d) with h0 | h0
    · rw [h0]; simp
    · have : (n / d).log2 ≤ (n' / d').log2 := by
        rw [Nat.le_log2 (by omega)]
        exact le_trans (Nat.log2_self_le h0.ne') hq
      omega
  rw [hr, hr']
  have key : e * 2 ^ 23 + t ≤ e' * 2 ^ 23 + t' := by
    rcases Nat.lt_or_ge e e' with hlt | hge
    · have ht'' : 2 ^ 23 ≤ t' := by rcases t2' with h | h <;> omega
      have : (e + 1) * 2 ^ 23 ≤ e' * 2 ^ 23 := Nat.mul_le_mul_right _ hlt
      rw [Nat.succ_mul] at this
      linarith
    · have : e = e' := by omega
      subst this
      have : t ≤ t' := by
        rw [ht, ht']
        apply roundDiv_mono (Nat.mul_pos hd (Nat.two_pow_pos e)) (Nat.mul_pos hd' (Nat.two_pow_pos e))
        calc n * (d' * 2 ^ e) = n * d' * 2 ^ e := by ring
          _ ≤ n' * d * 2 ^ e := Nat.mul_le_mul_right _ h
          _ = _ := by ring
      exact Nat.add_le_add_left this _
  exact min_le_min_right _ key

/-- Rounding error: half of the last place kept. -/
theorem roundMag_error (n d : Nat) (hd : 0 < d) (hf : roundMag n d < 255 * 2 ^ 23) :
    ∃ e, 2 * (magOf (roundMag n d) * d) ≤ 2 * n + d * 2 ^ e ∧
      2 * n ≤ 2 * (magOf (roundMag n d) * d) + d * 2 ^ e ∧ (e = 0 ∨ 2 ^ 23 * (d * 2 ^ e) ≤ n) := by
  obtain ⟨e, t, he, ht, hr, t1, t2, t3, t4⟩ := roundMag_parts n d hd
  have hb : roundMag n d = e * 2 ^ 23 + t := by
    rw [hr] at hf ⊢
    exact min_eq_left (le_of_lt ((min_lt_iff.mp hf).resolve_right (lt_irrefl _)))
  have hde : 0 < d * 2 ^ e := Nat.mul_pos hd (Nat.two_pow_pos e)
  obtain ⟨s1, s2, -⟩ := roundDiv_spec n _ hde
  rw [hb, magOf_mk t1 t2, show t * 2 ^ e * d = t * (d * 2 ^ e) from by ring, ht]
  exact ⟨e, s1, s2, t3⟩

end Ozz.F32
