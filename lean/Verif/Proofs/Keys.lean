import Verif.Model.Keys
import Verif.Proofs.FloatValue
import Mathlib.Tactic.IntervalCases
import Mathlib.Tactic.FinCases

/-! Helper lemmas about compressed keys. -/

namespace Ozz.Keys

open Ozz F32

/-! ### Half floats -/

/-- Magnitude of a finite half float in units of 2^-24, from its bits without the sign. -/
def halfMag (e : Nat) : Nat := if e < 2 ^ 10 then e else (2 ^ 10 + e % 2 ^ 10) * 2 ^ (e / 2 ^ 10 - 1)

theorem magOf_shifted {e : Nat} (he : e < 2 ^ 15) : magOf (e * 2 ^ 13) = 2 ^ 13 * halfMag e := by
  unfold magOf halfMag
  rcases Nat.lt_or_ge e (2 ^ 10) with h | h
  · have h1 : e * 2 ^ 13 < 2 ^ 23 := by omega
    rw [if_pos h1, if_pos h]; ring
  · have h1 : ¬ e * 2 ^ 13 < 2 ^ 23 := by omega
    have h2 : ¬ e < 2 ^ 10 := by omega
    rw [if_neg h1, if_neg h2]
    have h3 : e * 2 ^ 13 % 2 ^ 23 = (e % 2 ^ 10) * 2 ^ 13 := by omega
    have h4 : e * 2 ^ 13 / 2 ^ 23 = e / 2 ^ 10 := by omega
    rw [h3, h4]; ring

theorem halfMag_split {e : Nat} (he : e < 2 ^ 15) : ∃ t j, t < 2 ^ 24 ∧ j ≤ 30 ∧ halfMag e = t * 2 ^ j := by
  unfold halfMag
  split
  · exact ⟨e, 0, by omega, by omega, by simp⟩
  · exact ⟨2 ^ 10 + e % 2 ^ 10, e / 2 ^ 10 - 1, by omega, by omega, rfl⟩

theorem magic_eq : magic = pack false (239 * 2 ^ 23) := by decide +kernel

theorem mul_pow_pack {a b : Nat} (ha : a < 255 * 2 ^ 23) (hb : b < 255 * 2 ^ 23) :
    F32.mul (pack false a) (pack false b) = pack false (roundMag (magOf a * magOf b) (2 ^ 149)) := by
  have ha' : a < 2 ^ 31 := by omega
  have hb' : b < 2 ^ 31 := by omega
  unfold F32.mul
  simp only [isNaN, isInf, mag, pack_low false ha', pack_low false hb', pack_negative false ha',
    pack_negative false hb']
  have h1 : ¬ 255 * 2 ^ 23 < a := by omega
  have h2 : ¬ 255 * 2 ^ 23 < b := by omega
  have h3 : ¬ a = 255 * 2 ^ 23 := by omega
  have h4 : ¬ b = 255 * 2 ^ 23 := by omega
  simp only [h1, h2, h3, h4, decide_false, Bool.or_self, Bool.false_eq_true, if_false, bne_self_eq_false]

/-- Multiplication by the magic constant is exact. -/
theorem mul_magic {e : Nat} (he : e < 2 ^ 15) : ∃ c, F32.mul (pack false (e * 2 ^ 13)) magic = pack false c ∧
    c < 255 * 2 ^ 23 ∧ magOf c = 2 ^ 125 * halfMag e ∧ (2 ^ 10 ≤ e → c = e * 2 ^ 13 + 112 * 2 ^ 23) := by
  obtain ⟨t, j, ht, hj, hm⟩ := halfMag_split he
  obtain ⟨c, hc, hl⟩ := exists_magOf t ht (125 + j)
  have hlt : c < 255 * 2 ^ 23 := by
    have : (125 + j) * 2 ^ 23 ≤ 155 * 2 ^ 23 := Nat.mul_le_mul_right _ (by omega)
    omega
  have hmc : magOf c = 2 ^ 125 * halfMag e := by rw [hc, hm, pow_add]; ring
  refine ⟨c, ?_, hlt, hmc, ?_⟩
  · rw [magic_eq, mul_pow_pack (by omega) (by norm_num), magOf_shifted he]
    have h1 : magOf (239 * 2 ^ 23) = 2 ^ 23 * 2 ^ 238 := by
      have := magOf_mk (e := 238) (t := 2 ^ 23) (by norm_num) (Or.inr (le_refl _))
      rwa [show 238 * 2 ^ 23 + 2 ^ 23 = 239 * 2 ^ 23 from by norm_num] at this
    have h2 : 2 ^ 13 * halfMag e * (2 ^ 23 * 2 ^ 238) = magOf c * 2 ^ 149 := by
      rw [hmc]; ring
    rw [h1, h2, roundMag_exact c _ (by positivity) (by omega)]
  · intro h
    apply magOf_strictMono.injective
    rw [hmc]
    have h1 := magOf_mk (e := e / 2 ^ 10 - 1 + 112) (t := 2 ^ 23 + (e % 2 ^ 10) * 2 ^ 13) (by omega) (Or.inr (by omega))
    have h2 : (e / 2 ^ 10 - 1 + 112) * 2 ^ 23 + (2 ^ 23 + e % 2 ^ 10 * 2 ^ 13) = e * 2 ^ 13 + 112 * 2 ^ 23 := by omega
    rw [h2] at h1
    rw [h1]
    unfold halfMag
    rw [if_neg (by omega), pow_add]
    ring

theorem toNat_expmant (n : BitVec 16) :
    ((n &&& 0x7FFF#16).setWidth 32).toNat = n.toNat % 2 ^ 15 := by
  have h := n.isLt
  simp only [BitVec.toNat_setWidth, BitVec.toNat_and, BitVec.toNat_ofNat]
  rw [show 32767 % 2 ^ 16 = 2 ^ 15 - 1 from by norm_num, Nat.and_two_pow_sub_one_eq_mod]
  omega

theorem and_ofNat_mod {w : Nat} (x : BitVec w) (k : Nat) (hk : k < w) :
    (x &&& BitVec.ofNat w (2 ^ k - 1)).toNat = x.toNat % 2 ^ k := by
  have h : 2 ^ k - 1 < 2 ^ w := lt_of_le_of_lt (Nat.sub_le _ _) (Nat.pow_lt_pow_right (by norm_num) hk)
  rw [BitVec.toNat_and, BitVec.toNat_ofNat, Nat.mod_eq_of_lt h, Nat.and_two_pow_sub_one_eq_mod]

theorem and_0x8000 (n : BitVec 16) : (n &&& 0x8000#16).toNat = n.toNat / 2 ^ 15 * 2 ^ 15 := by
  have h := n.isLt
  have e : n &&& 0x8000#16 = (n >>> 15) <<< 15 := by
    ext i hi
    simp only [BitVec.getElem_and, BitVec.getElem_shiftLeft]
    have : i < 16 := hi
    interval_cases i <;> simp [BitVec.getElem_ushiftRight] <;> rfl
  rw [e, BitVec.toNat_shiftLeft, BitVec.toNat_ushiftRight, Nat.shiftRight_eq_div_pow, Nat.shiftLeft_eq]
  omega

/-- Masking the exponent field: the low fifteen bits without the low ten. -/
theorem and_0x7C00 (n : BitVec 16) : (n &&& 0x7C00#16).toNat = n.toNat / 2 ^ 10 % 2 ^ 5 * 2 ^ 10 := by
  have h := n.isLt
  have e : n &&& 0x7C00#16 = ((n >>> 10) &&& 31#16) <<< 10 := by
    ext i hi
    simp only [BitVec.getElem_and, BitVec.getElem_shiftLeft]
    have : i < 16 := hi
    interval_cases i <;> simp [BitVec.getElem_ushiftRight] <;> rfl
  rw [e, BitVec.toNat_shiftLeft, show (31#16) = BitVec.ofNat 16 (2 ^ 5 - 1) from rfl,
    and_ofNat_mod _ _ (by norm_num), BitVec.toNat_ushiftRight, Nat.shiftRight_eq_div_pow, Nat.shiftLeft_eq]
  have : n.toNat / 2 ^ 10 % 2 ^ 5 < 2 ^ 5 := Nat.mod_lt _ (by norm_num)
  omega

theorem toNat_expo (n : BitVec 16) :
    ((n &&& 0x7C00#16).setWidth 32) = 0x7C00#32 ↔ n.toNat / 2 ^ 10 % 2 ^ 5 = 31 := by
  have h1 := and_0x7C00 n
  have h2 : n.toNat / 2 ^ 10 % 2 ^ 5 < 2 ^ 5 := Nat.mod_lt _ (by norm_num)
  constructor
  · intro h
    have := congrArg BitVec.toNat h
    rw [BitVec.toNat_setWidth, h1, BitVec.toNat_ofNat] at this
    omega
  · intro h
    apply BitVec.eq_of_toNat_eq
    rw [BitVec.toNat_setWidth, h1, BitVec.toNat_ofNat, h]; norm_num

theorem expmant_eq (n : BitVec 16) :
    (n &&& 0x7FFF#16).setWidth 32 = BitVec.ofNat 32 (n.toNat % 2 ^ 15) := by
  apply BitVec.eq_of_toNat_eq
  rw [toNat_expmant, BitVec.toNat_ofNat]; omega

theorem expmant_eq' (n : BitVec 16) :
    0x7FFF#32 &&& n.setWidth 32 = BitVec.ofNat 32 (n.toNat % 2 ^ 15) := by
  have h := n.isLt
  apply BitVec.eq_of_toNat_eq
  rw [BitVec.and_comm, show (0x7FFF#32) = BitVec.ofNat 32 (2 ^ 15 - 1) from rfl,
    and_ofNat_mod _ _ (by norm_num), BitVec.toNat_ofNat, BitVec.toNat_setWidth]
  omega

theorem shifted_eq (e : Nat) (he : e < 2 ^ 15) :
    (⟨BitVec.ofNat 32 e <<< 13⟩ : F32) = pack false (e * 2 ^ 13) := by
  unfold pack
  congr 1
  apply BitVec.eq_of_toNat_eq
  simp only [BitVec.toNat_shiftLeft, BitVec.toNat_ofNat, Nat.shiftLeft_eq, Bool.false_eq_true, if_false]
  omega

theorem sign_bits (n : BitVec 16) : (n &&& 0x8000#16).setWidth 32 <<< 16 =
    BitVec.ofNat 32 (if 2 ^ 15 ≤ n.toNat then 2 ^ 31 else 0) := by
  have h := n.isLt
  apply BitVec.eq_of_toNat_eq
  simp only [BitVec.toNat_shiftLeft, BitVec.toNat_setWidth, and_0x8000, Nat.shiftLeft_eq,
    BitVec.toNat_ofNat]
  split <;> omega

theorem sign_bits' (n : BitVec 16) : (n.setWidth 32 ^^^ (0x7FFF#32 &&& n.setWidth 32)) <<< 16 =
    BitVec.ofNat 32 (if 2 ^ 15 ≤ n.toNat then 2 ^ 31 else 0) := by
  rw [← sign_bits]
  congr 1
  ext i hi
  have : i < 32 := hi
  interval_cases i <;> simp <;> rfl

theorem or_sign (b : Bool) {c : Nat} (hc : c < 2 ^ 31) :
    (⟨BitVec.ofNat 32 (if b then 2 ^ 31 else 0) ||| (pack false c).bits⟩ : F32) = pack b c := by
  unfold pack
  congr 1
  apply BitVec.eq_of_toNat_eq
  cases b
  · simp
  · simp only [BitVec.toNat_or, BitVec.toNat_ofNat, if_true, Bool.false_eq_true, if_false, Nat.zero_add]
    have h1 : (2 : Nat) ^ 31 % 2 ^ 32 = 2 ^ 31 := by norm_num
    have h2 : c % 2 ^ 32 = c := Nat.mod_eq_of_lt (by omega)
    have h3 := Nat.two_pow_add_eq_or_of_lt hc 1
    rw [Nat.mul_one] at h3
    rw [h1, h2, ← h3]
    omega

/-- The scalar conversion of a finite half float. -/
theorem f16_finite (n : BitVec 16) (h : n.toNat / 2 ^ 10 % 2 ^ 5 ≠ 31) : ∃ c,
    f16ToF32 n = pack (decide (2 ^ 15 ≤ n.toNat)) c ∧ c < 255 * 2 ^ 23 ∧
    magOf c = 2 ^ 125 * halfMag (n.toNat % 2 ^ 15) := by
  obtain ⟨c, h1, h2, h3, -⟩ := mul_magic (e := n.toNat % 2 ^ 15) (Nat.mod_lt _ (by norm_num))
  refine ⟨c, ?_, h2, h3⟩
  unfold f16ToF32
  simp only
  rw [if_neg (fun hh => h ((toNat_expo n).mp hh)), expmant_eq, shifted_eq _ (Nat.mod_lt _ (by norm_num)),
    h1, sign_bits]
  have := or_sign (decide (2 ^ 15 ≤ n.toNat)) (c := c) (by omega)
  simpa using this

theorem f16_special (n : BitVec 16) (h : n.toNat / 2 ^ 10 % 2 ^ 5 = 31) :
    f16ToF32 n = if n.toNat % 2 ^ 10 ≠ 0 then F32.nan else F32.inf (decide (2 ^ 15 ≤ n.toNat)) := by
  have hn := n.isLt
  have hb : (n &&& 0x03FF#16).setWidth 32 = BitVec.ofNat 32 (n.toNat % 2 ^ 10) := by
    apply BitVec.eq_of_toNat_eq
    rw [BitVec.toNat_setWidth, show (0x03FF#16) = BitVec.ofNat 16 (2 ^ 10 - 1) from rfl,
      and_ofNat_mod _ _ (by norm_num), BitVec.toNat_ofNat]
  have hs : (n &&& 0x8000#16).setWidth 32 = 0x8000#32 ↔ 2 ^ 15 ≤ n.toNat := by
    rw [← BitVec.toNat_inj, BitVec.toNat_setWidth, and_0x8000, BitVec.toNat_ofNat]
    omega
  have hz : BitVec.ofNat 32 (n.toNat % 2 ^ 10) ≠ 0#32 ↔ n.toNat % 2 ^ 10 ≠ 0 := by
    rw [ne_eq, ← BitVec.toNat_inj, BitVec.toNat_ofNat, BitVec.toNat_ofNat]
    omega
  unfold f16ToF32
  simp only
  rw [if_pos ((toNat_expo n).mpr h), hb]
  by_cases h0 : n.toNat % 2 ^ 10 ≠ 0
  · rw [if_pos (hz.mpr h0), if_pos h0]
  · rw [if_neg (fun hh => h0 (hz.mp hh)), if_neg h0]
    by_cases h1 : 2 ^ 15 ≤ n.toNat
    · rw [if_pos (hs.mpr h1), decide_eq_true h1]
    · rw [if_neg (fun hh => h1 (hs.mp hh)), decide_eq_false h1]

theorem sle_eq (e : Nat) (he : e < 2 ^ 15) :
    (0x7BFF#32).sle (BitVec.ofNat 32 e) = decide (0x7BFF ≤ e) := by
  rw [BitVec.sle_eq_decide, BitVec.toInt_eq_toNat_of_msb, BitVec.toInt_eq_toNat_of_msb]
  · simp only [BitVec.toNat_ofNat]
    congr 1
    rw [Nat.mod_eq_of_lt (show e < 2 ^ 32 by omega)]
    norm_num
  · rw [BitVec.msb_eq_decide, BitVec.toNat_ofNat]; simp; omega
  · rfl

/-- One lane of the four-wide conversion, below the largest finite half float. -/
theorem lane_finite (n : BitVec 16) (h : n.toNat % 2 ^ 15 < 0x7BFF) : ∃ c,
    f16ToF32Lane n = pack (decide (2 ^ 15 ≤ n.toNat)) c ∧ c < 255 * 2 ^ 23 ∧
    magOf c = 2 ^ 125 * halfMag (n.toNat % 2 ^ 15) := by
  obtain ⟨c, h1, h2, h3, -⟩ := mul_magic (e := n.toNat % 2 ^ 15) (Nat.mod_lt _ (by norm_num))
  refine ⟨c, ?_, h2, h3⟩
  unfold f16ToF32Lane
  simp only
  rw [sign_bits', expmant_eq', shifted_eq _ (Nat.mod_lt _ (by norm_num)), h1,
    sle_eq _ (Nat.mod_lt _ (by norm_num))]
  have hn : ¬ 0x7BFF ≤ n.toNat % 2 ^ 15 := by omega
  have := or_sign (decide (2 ^ 15 ≤ n.toNat)) (c := c) (by omega)
  simp only [hn, decide_false, Bool.false_eq_true, if_false, BitVec.zero_and, BitVec.or_zero]
  rw [BitVec.or_comm]
  simpa using this

/-- A nonnegative pattern whose exponent field gets filled. -/
theorem or_inf {c : Nat} (h1 : c < 2 ^ 31) (b : Bool) :
    ∃ r, (⟨(pack false c).bits ||| (BitVec.ofNat 32 (if b then 2 ^ 31 else 0) |||
      (BitVec.allOnes 32 &&& 255#32 <<< 23))⟩ : F32) = pack b r ∧ r = 255 * 2 ^ 23 + c % 2 ^ 23 := by
  refine ⟨255 * 2 ^ 23 + c % 2 ^ 23, ?_, rfl⟩
  rw [← or_sign b (show 255 * 2 ^ 23 + c % 2 ^ 23 < 2 ^ 31 by omega)]
  congr 1
  rw [BitVec.allOnes_and, ← BitVec.or_assoc, BitVec.or_comm (pack false c).bits, BitVec.or_assoc]
  congr 1
  apply BitVec.eq_of_toNat_eq
  simp only [pack, BitVec.toNat_or, BitVec.toNat_ofNat, Bool.false_eq_true, if_false, Nat.zero_add]
  rw [show (255#32 <<< 23).toNat = 2 ^ 23 * 255 from rfl]
  have e1 : c % 2 ^ 32 = 2 ^ 23 * (c / 2 ^ 23) + c % 2 ^ 23 := by omega
  have e2 := Nat.two_pow_add_eq_or_of_lt (show c % 2 ^ 23 < 2 ^ 23 from Nat.mod_lt _ (by norm_num)) (c / 2 ^ 23)
  have e3 := Nat.two_pow_add_eq_or_of_lt (show c % 2 ^ 23 < 2 ^ 23 from Nat.mod_lt _ (by norm_num)) 255
  have e4 : 2 ^ 23 * (c / 2 ^ 23) ||| 2 ^ 23 * 255 = 2 ^ 23 * 255 := by
    have : ∀ a, a < 256 → a ||| 255 = 255 := by decide +kernel
    have h := this (c / 2 ^ 23) (by omega)
    rw [Nat.mul_comm, Nat.mul_comm _ 255, ← Nat.shiftLeft_eq, ← Nat.shiftLeft_eq,
      ← Nat.shiftLeft_or_distrib, h]
  rw [e1, e2, Nat.or_assoc, Nat.or_comm (c % 2 ^ 23), ← Nat.or_assoc, e4, ← e3]
  omega

theorem lane_special (n : BitVec 16) (h : 0x7BFF ≤ n.toNat % 2 ^ 15) :
    f16ToF32Lane n = pack (decide (2 ^ 15 ≤ n.toNat)) (255 * 2 ^ 23 + (n.toNat % 2 ^ 10) * 2 ^ 13) := by
  obtain ⟨c, h1, h2, h3, h4⟩ := mul_magic (e := n.toNat % 2 ^ 15) (Nat.mod_lt _ (by norm_num))
  have hc := h4 (by omega)
  unfold f16ToF32Lane
  simp only
  rw [sign_bits', expmant_eq', shifted_eq _ (Nat.mod_lt _ (by norm_num)), h1,
    sle_eq _ (Nat.mod_lt _ (by norm_num))]
  simp only [h, decide_true, if_true]
  obtain ⟨r, hr, hr'⟩ := or_inf (c := c) (by omega) (decide (2 ^ 15 ≤ n.toNat))
  have : r = 255 * 2 ^ 23 + (n.toNat % 2 ^ 10) * 2 ^ 13 := by omega
  rw [← this, ← hr]
  simp only [decide_eq_true_eq]

/-! ### Quaternion keys -/

/-- The 48 bits of a key as a number, first word lowest. -/
def QuatKey.num (k : QuatKey) : Nat := k.w0.toNat + 2 ^ 16 * k.w1.toNat + 2 ^ 32 * k.w2.toNat

theorem packed_toNat (k : QuatKey) :
    (((k.w0.setWidth 32) >>> 3) ||| ((k.w1.setWidth 32) <<< 13) ||| ((k.w2.setWidth 32) <<< 29)).toNat
      = k.num / 8 % 2 ^ 32 := by
  have h0 := k.w0.isLt
  have h1 := k.w1.isLt
  have h2 := k.w2.isLt
  simp only [BitVec.toNat_or, BitVec.toNat_ushiftRight, BitVec.toNat_shiftLeft, BitVec.toNat_setWidth,
    Nat.shiftRight_eq_div_pow, Nat.shiftLeft_eq, QuatKey.num]
  have e0 : k.w0.toNat % 2 ^ 32 / 2 ^ 3 = k.w0.toNat / 2 ^ 3 := by omega
  have e1 : k.w1.toNat % 2 ^ 32 * 2 ^ 13 % 2 ^ 32 = 2 ^ 13 * k.w1.toNat := by omega
  have e2 : k.w2.toNat % 2 ^ 32 * 2 ^ 29 % 2 ^ 32 = 2 ^ 29 * (k.w2.toNat % 8) := by
    rw [Nat.mod_eq_of_lt (lt_trans h2 (by norm_num)), show (2 : Nat) ^ 32 = 8 * 2 ^ 29 from by norm_num,
      Nat.mul_mod_mul_right, Nat.mul_comm]
  have a1 : k.w0.toNat / 2 ^ 3 < 2 ^ 13 := by omega
  have a2 : 2 ^ 13 * k.w1.toNat + k.w0.toNat / 2 ^ 3 < 2 ^ 29 := by omega
  have b1 := Nat.two_pow_add_eq_or_of_lt a1 k.w1.toNat
  have b2 := Nat.two_pow_add_eq_or_of_lt a2 (k.w2.toNat % 8)
  rw [e0, e1, e2, Nat.or_comm (k.w0.toNat / 2 ^ 3), ← b1, Nat.or_comm, ← b2]
  omega

theorem unpack_toNat (k : QuatKey) : k.unpack.biggest.toNat = k.num % 4 ∧
    k.unpack.sign.toNat = k.num / 4 % 2 ∧ k.unpack.v0.toNat = k.num / 2 ^ 3 % 2 ^ 15 ∧
    k.unpack.v1.toNat = k.num / 2 ^ 18 % 2 ^ 15 ∧ k.unpack.v2.toNat = k.num / 2 ^ 33 := by
  have h0 := k.w0.isLt
  have h1 := k.w1.isLt
  have h2 := k.w2.isLt
  refine ⟨?_, ?_, ?_, ?_, ?_⟩
  · show (k.w0 &&& BitVec.ofNat 16 (2 ^ 2 - 1)).toNat = _
    rw [and_ofNat_mod _ _ (by norm_num)]
    unfold QuatKey.num; omega
  · show ((k.w0 >>> 2) &&& BitVec.ofNat 16 (2 ^ 1 - 1)).toNat = _
    rw [and_ofNat_mod _ _ (by norm_num), BitVec.toNat_ushiftRight, Nat.shiftRight_eq_div_pow]
    unfold QuatKey.num; omega
  · show ((_ : BitVec 32) &&& BitVec.ofNat 32 (2 ^ 15 - 1)).toNat = _
    rw [and_ofNat_mod _ _ (by norm_num), packed_toNat]
    omega
  · show (((_ : BitVec 32) >>> 15) &&& BitVec.ofNat 32 (2 ^ 15 - 1)).toNat = _
    rw [and_ofNat_mod _ _ (by norm_num), BitVec.toNat_ushiftRight, Nat.shiftRight_eq_div_pow, packed_toNat]
    unfold QuatKey.num; omega
  · show ((k.w2.setWidth 32) >>> 1).toNat = _
    rw [BitVec.toNat_ushiftRight, Nat.shiftRight_eq_div_pow, BitVec.toNat_setWidth]
    unfold QuatKey.num; omega

theorem num_inj {k k' : QuatKey} (h : k.num = k'.num) : k = k' := by
  have h0 := k.w0.isLt
  have h1 := k.w1.isLt
  have h2 := k.w2.isLt
  have h0' := k'.w0.isLt
  have h1' := k'.w1.isLt
  have h2' := k'.w2.isLt
  unfold QuatKey.num at h
  have e0 : k.w0 = k'.w0 := BitVec.eq_of_toNat_eq (by omega)
  have e1 : k.w1 = k'.w1 := BitVec.eq_of_toNat_eq (by omega)
  have e2 : k.w2 = k'.w2 := BitVec.eq_of_toNat_eq (by omega)
  cases k; cases k'; simp only at e0 e1 e2; subst e0 e1 e2; rfl

theorem largest_eq (u : Unpacked) (h : u.biggest.toNat < 4) : (u.largest : Nat) = u.biggest.toNat := by
  simp only [Unpacked.largest, Fin.ofNat]; omega

/-! ### Four keys at once -/

theorem and_zero_lane (x : F32) : (⟨x.bits &&& 0#32⟩ : F32) = F32.zero := by
  rw [BitVec.and_zero]; rfl

theorem and_ones_lane (x : F32) : (⟨x.bits &&& BitVec.allOnes 32⟩ : F32) = x := by
  rw [BitVec.and_allOnes]

theorem zero_step (cpnt : Fin 4 → Fin 4 → F32) (l : Fin 4) (i : Fin 4) (c lane : Fin 4) :
    setAt cpnt l (andBits (cpnt l) (keepOthers i)) c lane =
      if c = l ∧ lane = i then F32.zero else cpnt c lane := by
  unfold setAt andBits keepOthers
  by_cases hc : c = l
  · subst hc
    by_cases hi : lane = i
    · simp only [hi, if_true, and_self]; exact and_zero_lane _
    · simp only [hi, if_true, if_false, and_false]; exact and_ones_lane _
  · simp only [hc, if_false, false_and]

theorem or_step (cpnt : Fin 4 → Fin 4 → F32) (restored : Fin 4 → BitVec 32) (l : Fin 4) (i : Fin 4)
    (c lane : Fin 4) :
    setAt cpnt l (orBits (cpnt l) fun j => restored j &&& keepLane i j) c lane =
      if c = l ∧ lane = i then ⟨(cpnt c lane).bits ||| restored lane⟩ else cpnt c lane := by
  unfold setAt orBits keepLane
  by_cases hc : c = l
  · subst hc
    by_cases hi : lane = i
    · simp only [hi, if_true, and_self, BitVec.and_allOnes]
    · simp only [hi, if_true, if_false, and_false, BitVec.and_zero, BitVec.or_zero]
  · simp only [hc, if_false, false_and]

theorem negative_false_of_rank {x : F32} (h : 0 < x.rank) : x.negative = false := by
  unfold rank at h
  cases hx : x.negative
  · rfl
  · rw [hx] at h; simp only [if_true] at h; omega

theorem zero_low : F32.zero.low = 0 := pack_low false (by norm_num)
theorem zero_negative : F32.zero.negative = false := pack_negative false (by norm_num)
theorem zero_isNaN : F32.zero.isNaN = false := by unfold isNaN; rw [zero_low]; rfl
theorem zero_rank : F32.zero.rank = 0 := by unfold rank; rw [zero_low, zero_negative]; rfl

theorem fmax_zero_negative (y : F32) : (fmax F32.zero y).negative = false := by
  unfold fmax
  rw [zero_isNaN, if_neg Bool.false_ne_true]
  split
  · exact zero_negative
  · split
    · next h =>
      apply negative_false_of_rank
      simp only [lt, zero_rank, Bool.and_eq_true, decide_eq_true_eq] at h
      exact h.2
    · exact zero_negative

theorem sqrt_negative {x : F32} (h : x.negative = false) : (F32.sqrt x).negative = false := by
  unfold F32.sqrt
  rw [h]
  split
  · exact pack_negative false (by norm_num)
  split
  · exact h
  split
  · next h => exact absurd h Bool.false_ne_true
  split
  · exact h
  · exact pack_negative false (roundMag_lt _ _)

theorem or_sign_bit {x : F32} (h : x.negative = false) (s : BitVec 16) (hs : s.toNat < 2) :
    (⟨x.bits ||| (s.setWidth 32) <<< 31⟩ : F32) = if s = 0#16 then x else -x := by
  have hx : x = pack false x.low := by rw [← h]; exact (pack_self x).symm
  have hsb : (s.setWidth 32) <<< 31 = BitVec.ofNat 32 (if decide (s ≠ 0#16) then 2 ^ 31 else 0) := by
    apply BitVec.eq_of_toNat_eq
    simp only [BitVec.toNat_shiftLeft, BitVec.toNat_setWidth, Nat.shiftLeft_eq, BitVec.toNat_ofNat]
    by_cases h0 : s = 0#16
    · subst h0; rfl
    · have : s.toNat = 1 := by
        have : s.toNat ≠ 0 := fun hh => h0 (BitVec.eq_of_toNat_eq (by rw [hh]; rfl))
        omega
      simp [h0, this]
  have := or_sign (decide (s ≠ 0#16)) (low_lt x)
  rw [← hsb, ← hx, BitVec.or_comm] at this
  rw [this]
  by_cases h0 : s = 0#16
  · simp only [h0, ne_eq, not_true, decide_false, if_true]; exact hx.symm
  · simp only [h0, ne_eq, not_false_iff, decide_true, if_false]
    show _ = F32.neg x
    unfold F32.neg; rw [h]; rfl

theorem zero_all (cpnt : Fin 4 → Fin 4 → F32) (L : Fin 4 → Fin 4) (c lane : Fin 4) :
    (let cpnt := setAt cpnt (L 0) (andBits (cpnt (L 0)) (keepOthers 0))
     let cpnt := setAt cpnt (L 1) (andBits (cpnt (L 1)) (keepOthers 1))
     let cpnt := setAt cpnt (L 2) (andBits (cpnt (L 2)) (keepOthers 2))
     let cpnt := setAt cpnt (L 3) (andBits (cpnt (L 3)) (keepOthers 3))
     cpnt) c lane = if c = L lane then F32.zero else cpnt c lane := by
  simp only [zero_step]
  obtain ⟨l, hl⟩ := lane
  have : l = 0 ∨ l = 1 ∨ l = 2 ∨ l = 3 := by omega
  rcases this with rfl | rfl | rfl | rfl <;> simp

theorem or_all (cpnt : Fin 4 → Fin 4 → F32) (restored : Fin 4 → BitVec 32) (L : Fin 4 → Fin 4)
    (c lane : Fin 4) :
    (let cpnt := setAt cpnt (L 0) (orBits (cpnt (L 0)) fun j => restored j &&& keepLane 0 j)
     let cpnt := setAt cpnt (L 1) (orBits (cpnt (L 1)) fun j => restored j &&& keepLane 1 j)
     let cpnt := setAt cpnt (L 2) (orBits (cpnt (L 2)) fun j => restored j &&& keepLane 2 j)
     let cpnt := setAt cpnt (L 3) (orBits (cpnt (L 3)) fun j => restored j &&& keepLane 3 j)
     cpnt) c lane = if c = L lane then ⟨(cpnt c lane).bits ||| restored lane⟩ else cpnt c lane := by
  simp only [or_step]
  obtain ⟨l, hl⟩ := lane
  have : l = 0 ∨ l = 1 ∨ l = 2 ∨ l = 3 := by omega
  rcases this with rfl | rfl | rfl | rfl <;> simp

theorem simd_lane (k : Fin 4 → QuatKey) (c lane : Fin 4) :
    QuatKey.simdDecompress k c lane = (k lane).decompress c := by
  have hs : (k lane).unpack.sign.toNat < 2 := by
    rw [(unpack_toNat (k lane)).2.1]; exact Nat.mod_lt _ (by norm_num)
  have hor : ∀ (y : F32) , (⟨F32.zero.bits ||| ((F32.sqrt (fmax F32.zero y)).bits |||
      ((k lane).unpack.sign.setWidth 32) <<< 31)⟩ : F32) =
      if (k lane).unpack.sign = 0#16 then F32.sqrt (fmax F32.zero y) else -F32.sqrt (fmax F32.zero y) := by
    intro y
    rw [show F32.zero.bits = 0#32 from rfl, BitVec.zero_or]
    exact or_sign_bit (sqrt_negative (fmax_zero_negative y)) _ hs
  unfold QuatKey.simdDecompress
  refine (or_all _ _ (fun lane => (k lane).unpack.largest) c lane).trans ?_
  simp only []
  have hz := fun c => zero_all (fun c lane => KeyOps.scale *
    F32.ofNat ((k lane).unpack.value (mapping (k lane).unpack.largest c)).toNat + KeyOps.offset)
    (fun lane => (k lane).unpack.largest) c lane
  simp only [] at hz
  rw [hz c, hz 0, hz 1, hz 2, hz 3]
  unfold QuatKey.decompress
  simp only [setAt]
  by_cases hc : c = (k lane).unpack.largest
  · simp only [hc, if_true]
    exact hor _
  · simp only [hc, if_false]
    rfl

end Ozz.Keys
