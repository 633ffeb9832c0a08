import Verif.Proofs.KeysExact
import Verif.Proofs.KeysValue

/-!
Properties C11–C13 and C22: compressed keys and the sampling ratio.
-/

namespace Ozz.Props

open Ozz Keys

/-! ### C11: bit fields of a quaternion key -/

/-- **C11.** The fields are in range, and the 48-bit little-endian number of the key is
`index + 4 sign + 8 v0 + 2¹⁸ v1 + 2³³ v2`. -/
theorem C11_fields (k : QuatKey) :
    k.unpack.biggest.toNat < 4 ∧ k.unpack.sign.toNat < 2 ∧ k.unpack.v0.toNat < 2 ^ 15 ∧
    k.unpack.v1.toNat < 2 ^ 15 ∧ k.unpack.v2.toNat < 2 ^ 15 ∧
    k.w0.toNat + 2 ^ 16 * k.w1.toNat + 2 ^ 32 * k.w2.toNat =
      k.unpack.biggest.toNat + 4 * k.unpack.sign.toNat + 2 ^ 3 * k.unpack.v0.toNat
        + 2 ^ 18 * k.unpack.v1.toNat + 2 ^ 33 * k.unpack.v2.toNat := by
  obtain ⟨a1, a2, a3, a4, a5⟩ := unpack_toNat k
  have h0 := k.w0.isLt
  have h1 := k.w1.isLt
  have h2 := k.w2.isLt
  rw [a1, a2, a3, a4, a5]
  unfold QuatKey.num
  refine ⟨?_, ?_, ?_, ?_, ?_, ?_⟩ <;> omega

/-- **C11.** Every tuple of fields in range has exactly one key. -/
theorem C11_unique_key (u : Unpacked) (hb : u.biggest.toNat < 4) (hs : u.sign.toNat < 2)
    (h0 : u.v0.toNat < 2 ^ 15) (h1 : u.v1.toNat < 2 ^ 15) (h2 : u.v2.toNat < 2 ^ 15) :
    ∃! k : QuatKey, k.unpack = u := by
  obtain ⟨k, hk⟩ := exists_key hb hs h0 h1 h2
  simp only [BitVec.ofNat_toNat, BitVec.setWidth_eq] at hk
  refine ⟨k, hk, fun k' hk' => ?_⟩
  have e : k'.unpack = k.unpack := by rw [hk']; exact hk.symm
  have f := (C11_fields k).2.2.2.2.2
  have f' := (C11_fields k').2.2.2.2.2
  rw [e] at f'
  exact num_inj (by unfold QuatKey.num; omega)

example : (QuatKey.mk 0xabcd#16 0x1234#16 0xfedc#16).unpack =
    { biggest := 1#16, sign := 1#16, v0 := 5497#32, v1 := 1165#32, v2 := 32622#32 } := by decide +kernel

/-! ### C12: decompressed quaternions -/

/-- **C12.** In exact arithmetic the three stored components come back as stored. -/
theorem C12_components (k : QuatKey) (j : Fin 3) :
    (k.decompress (k.unpack.largest.succAbove j) : ℝ) = dequantised (k.unpack.value j).toNat :=
  (decompress_exact k).1 j

/-- **C12.** The result is a unit quaternion when the stored components have squared norm at most one,
and the restored component carries the stored sign. -/
theorem C12_unit (k : QuatKey)
    (h : dequantised k.unpack.v0.toNat ^ 2 + dequantised k.unpack.v1.toNat ^ 2
      + dequantised k.unpack.v2.toNat ^ 2 ≤ 1) :
    (k.decompress 0 : ℝ) ^ 2 + k.decompress 1 ^ 2 + k.decompress 2 ^ 2 + k.decompress 3 ^ 2 = 1 ∧
    (k.unpack.sign = 0#16 → (0 : ℝ) ≤ k.decompress k.unpack.largest) ∧
    (k.unpack.sign ≠ 0#16 → (k.decompress k.unpack.largest : ℝ) ≤ 0) := by
  refine ⟨decompress_norm k h, fun hs => ?_, fun hs => ?_⟩
  · rw [(decompress_exact k).2, if_pos hs, one_mul]; exact Real.sqrt_nonneg _
  · rw [(decompress_exact k).2, if_neg hs, neg_one_mul]; exact neg_nonpos.mpr (Real.sqrt_nonneg _)

/-- **C12.** When they have squared norm above one the restored component is zero: the result is the
stored triple. -/
theorem C12_clamped (k : QuatKey)
    (h : 1 ≤ dequantised k.unpack.v0.toNat ^ 2 + dequantised k.unpack.v1.toNat ^ 2
      + dequantised k.unpack.v2.toNat ^ 2) : (k.decompress k.unpack.largest : ℝ) = 0 := by
  rw [(decompress_exact k).2, max_eq_left, Real.sqrt_zero, mul_zero]
  exact sub_nonpos.mpr h

/-- **C12.** A unit quaternion quantised to a key comes back with unit norm, its three smaller
components within half a step and the restored one within seven half steps. -/
theorem C12_quantisation_error (k : QuatKey) (q : Fin 4 → ℝ)
    (hq : q 0 ^ 2 + q 1 ^ 2 + q 2 ^ 2 + q 3 ^ 2 = 1) (he : Encodes k.unpack q) :
    (k.decompress 0 : ℝ) ^ 2 + k.decompress 1 ^ 2 + k.decompress 2 ^ 2 + k.decompress 3 ^ 2 = 1 ∧
    (∀ j, |k.decompress (k.unpack.largest.succAbove j) - q (k.unpack.largest.succAbove j)| ≤ halfStep) ∧
    ∀ i, |k.decompress i - q i| ≤ 7 * halfStep := by
  obtain ⟨h1, h2⟩ := encodes_error k q hq he
  exact ⟨decompress_norm k h1, fun j => by rw [C12_components]; exact he.rounded j, h2⟩

/-- **C12.** Every unit quaternion is quantised to some key. -/
theorem C12_every_rotation_encodable (q : Fin 4 → ℝ)
    (hq : q 0 ^ 2 + q 1 ^ 2 + q 2 ^ 2 + q 3 ^ 2 = 1) : ∃ k : QuatKey, Encodes k.unpack q :=
  exists_encoding q hq

/-- **C12.** Four keys at once give, bit for bit in `f32` arithmetic, what each key gives alone. -/
theorem C12_four_wide (k : Fin 4 → QuatKey) (component lane : Fin 4) :
    QuatKey.simdDecompress k component lane = (k lane).decompress component :=
  simd_lane k component lane

/-- The hypotheses of `C12_quantisation_error` are met by a quaternion with a negative largest
component. -/
example : ∃ (k : QuatKey) (q : Fin 4 → ℝ), q 0 ^ 2 + q 1 ^ 2 + q 2 ^ 2 + q 3 ^ 2 = 1 ∧ q 2 = -4 / 5 ∧
    Encodes k.unpack q := by
  have hq : (vec4 (3 / 5) 0 (-4 / 5) 0 : Fin 4 → ℝ) 0 ^ 2 + (vec4 (3 / 5) 0 (-4 / 5) 0 : Fin 4 → ℝ) 1 ^ 2
      + (vec4 (3 / 5) 0 (-4 / 5) 0 : Fin 4 → ℝ) 2 ^ 2 + (vec4 (3 / 5) 0 (-4 / 5) 0 : Fin 4 → ℝ) 3 ^ 2 = 1 := by
    simp only [vec4]; norm_num
  obtain ⟨k, hk⟩ := exists_encoding _ hq
  exact ⟨k, _, hq, rfl, hk⟩

/-- The keys of the crate's own test (animation.rs:1134-1163), decompressed by the model with `f32`
arithmetic: the expected bits, all sixteen of them. -/
example :
    (List.ofFn fun i => (QuatKey.decompress (α := F32) (QuatKey.mk 39974#16 18396#16 53990#16) i).bits) =
      [0xbefba364#32, 0xbf02349e#32, 0xbf09dc65#32, 0x3eea7d8a#32] ∧
    (List.ofFn fun i => (QuatKey.decompress (α := F32) (QuatKey.mk 38605#16 19300#16 55990#16) i).bits) =
      [0xbeff6abe#32, 0xbf0049a3#32, 0xbeff6abe#32, 0x3f004b49#32] ∧
    (List.ofFn fun i => (QuatKey.decompress (α := F32) (QuatKey.mk 63843#16 2329#16 31255#16) i).bits) =
      [0xbc158ec0#32, 0x3ccdf380#32, 0xbd05bc50#32, 0x3f7fc59a#32] ∧
    (List.ofFn fun i => (QuatKey.decompress (α := F32) (QuatKey.mk 1579#16 818#16 33051#16) i).bits) =
      [0x3c0ba880#32, 0x3c109b80#32, 0x3bc81e00#32, 0x3f7ff9d8#32] := by
  decide +kernel

/-! ### C13: half floats -/

/-- **C13.** The scalar conversion is exact: same sign and value for finite halves, infinities to
infinities of the same sign, NaNs to NaNs. -/
theorem C13_scalar_exact (n : BitVec 16) :
    (Ieee.IsFinite 5 10 n.toNat → Ieee.IsFinite 8 23 (f16ToF32 n).bits.toNat ∧
      Ieee.sign 8 23 (f16ToF32 n).bits.toNat = Ieee.sign 5 10 n.toNat ∧
      Ieee.value32 (f16ToF32 n).bits = Ieee.value16 n) ∧
    (Ieee.IsInf 5 10 n.toNat → Ieee.IsInf 8 23 (f16ToF32 n).bits.toNat ∧
      Ieee.sign 8 23 (f16ToF32 n).bits.toNat = Ieee.sign 5 10 n.toNat) ∧
    (Ieee.IsNaN 5 10 n.toNat → Ieee.IsNaN 8 23 (f16ToF32 n).bits.toNat) := by
  obtain ⟨s1, s2, s3⟩ := half_special_iff n
  refine ⟨fun h => ?_, fun h => ?_, fun h => ?_⟩
  · obtain ⟨c, e, hc, hm⟩ := f16_finite n (s1.mp h)
    rw [e]
    exact value_of_half n hc hm
  · obtain ⟨h1, h2⟩ := s2.mp h
    rw [f16_special n h1, if_neg (by simpa using h2)]
    obtain ⟨-, b, c⟩ := special_bits (decide (2 ^ 15 ≤ n.toNat)) (m := 0) (by norm_num)
    refine ⟨b.mpr rfl, ?_⟩
    rw [half_sign]
    simpa [F32.inf] using c
  · obtain ⟨h1, h2⟩ := s3.mp h
    rw [f16_special n h1, if_pos h2]
    exact (special_bits false (m := 2 ^ 22) (by norm_num)).1.mpr (by norm_num)

/-- **C13, partial.** The four-wide conversion is exact in the same sense for every half float except
±65504, the largest finite ones. Missing: those two, for which it is wrong (next theorem). -/
theorem C13_four_wide_partial (n : BitVec 16) (hn : n ≠ 0x7BFF#16 ∧ n ≠ 0xFBFF#16) :
    (Ieee.IsFinite 5 10 n.toNat → Ieee.IsFinite 8 23 (f16ToF32Lane n).bits.toNat ∧
      Ieee.sign 8 23 (f16ToF32Lane n).bits.toNat = Ieee.sign 5 10 n.toNat ∧
      Ieee.value32 (f16ToF32Lane n).bits = Ieee.value16 n) ∧
    (Ieee.IsInf 5 10 n.toNat → Ieee.IsInf 8 23 (f16ToF32Lane n).bits.toNat ∧
      Ieee.sign 8 23 (f16ToF32Lane n).bits.toNat = Ieee.sign 5 10 n.toNat) ∧
    (Ieee.IsNaN 5 10 n.toNat → Ieee.IsNaN 8 23 (f16ToF32Lane n).bits.toNat) := by
  obtain ⟨s1, s2, s3⟩ := half_special_iff n
  have hlt := n.isLt
  have n1 : n.toNat ≠ 0x7BFF := fun h => hn.1 (BitVec.eq_of_toNat_eq h)
  have n2 : n.toNat ≠ 0xFBFF := fun h => hn.2 (BitVec.eq_of_toNat_eq h)
  refine ⟨fun h => ?_, fun h => ?_, fun h => ?_⟩
  · have := s1.mp h
    obtain ⟨c, e, hc, hm⟩ := lane_finite n (by omega)
    rw [e]
    exact value_of_half n hc hm
  · obtain ⟨h1, h2⟩ := s2.mp h
    rw [lane_special n (by omega), h2]
    obtain ⟨-, b, c⟩ := special_bits (decide (2 ^ 15 ≤ n.toNat)) (m := 0 * 2 ^ 13) (by norm_num)
    refine ⟨b.mpr (by norm_num), ?_⟩
    rw [half_sign]
    simpa [F32.inf] using c
  · obtain ⟨h1, h2⟩ := s3.mp h
    rw [lane_special n (by omega)]
    refine (special_bits _ (m := n.toNat % 2 ^ 10 * 2 ^ 13) ?_).1.mpr ?_ <;> omega

/-- **C13.** The four-wide conversion turns the finite halves ±65504 into NaNs, the scalar one does
not: the two conversions disagree, and the property is false for the four-wide one. -/
theorem C13_largest_half_becomes_nan (n : BitVec 16) (hn : n = 0x7BFF#16 ∨ n = 0xFBFF#16) :
    Ieee.IsFinite 5 10 n.toNat ∧ |Ieee.value16 n| = 65504 ∧
    |Ieee.value32 (f16ToF32 n).bits| = 65504 ∧ Ieee.IsNaN 8 23 (f16ToF32Lane n).bits.toNat := by
  have hf : Ieee.IsFinite 5 10 n.toNat := by rcases hn with rfl | rfl <;> decide
  have hv : |Ieee.value16 n| = 65504 := by rcases hn with rfl | rfl <;> decide +kernel
  refine ⟨hf, hv, ?_, ?_⟩
  · rw [((C13_scalar_exact n).1 hf).2.2]; exact hv
  · have e : 0x7BFF ≤ n.toNat % 2 ^ 15 ∧ n.toNat % 2 ^ 10 = 1023 := by rcases hn with rfl | rfl <;> decide
    rw [lane_special n e.1, e.2]
    exact (special_bits _ (m := 1023 * 2 ^ 13) (by norm_num)).1.mpr (by norm_num)

/-- **C13.** The two conversions agree, bit for bit on everything that is not a NaN. -/
theorem C13_agree_partial (n : BitVec 16) (hn : n ≠ 0x7BFF#16 ∧ n ≠ 0xFBFF#16)
    (hnan : ¬ Ieee.IsNaN 5 10 n.toNat) : f16ToF32Lane n = f16ToF32 n := by
  obtain ⟨s1, s2, s3⟩ := half_special_iff n
  have hlt := n.isLt
  have n1 : n.toNat ≠ 0x7BFF := fun h => hn.1 (BitVec.eq_of_toNat_eq h)
  have n2 : n.toNat ≠ 0xFBFF := fun h => hn.2 (BitVec.eq_of_toNat_eq h)
  by_cases h : n.toNat / 2 ^ 10 % 2 ^ 5 = 31
  · have h0 : n.toNat % 2 ^ 10 = 0 := by
      by_contra h0; exact hnan (s3.mpr ⟨h, h0⟩)
    rw [lane_special n (by omega), f16_special n h, h0, if_neg (by simp)]
    rfl
  · obtain ⟨c, e, hc, hm⟩ := lane_finite n (by omega)
    obtain ⟨c', e', hc', hm'⟩ := f16_finite n h
    rw [e, e', F32.magOf_strictMono.injective (hm.trans hm'.symm)]

/-- **C13, partial.** Four translation or scale keys at once give what each key gives alone: the exact
values of their halves. Missing: components ±65504. -/
theorem C13_float3_keys_partial (k : Fin 4 → Float3Key) (component : Fin 3) (lane : Fin 4)
    (hf : Ieee.IsFinite 5 10 (k lane component).toNat)
    (hn : k lane component ≠ 0x7BFF#16 ∧ k lane component ≠ 0xFBFF#16) :
    Float3Key.simdDecompress k component lane = Float3Key.decompress (k lane) component ∧
    Ieee.value32 (Float3Key.decompress (k lane) component).bits = Ieee.value16 (k lane component) :=
  ⟨C13_agree_partial _ hn fun h => by
      have := (half_special_iff (k lane component)).2.2.mp h
      exact (half_special_iff (k lane component)).1.mp hf this.1,
    ((C13_scalar_exact _).1 hf).2.2⟩

example : Ieee.IsFinite 5 10 (0xC100#16).toNat ∧ Ieee.value16 0xC100#16 = -5 / 2 ∧
    f16ToF32 0xC100#16 = ⟨0xC0200000#32⟩ := by decide +kernel
example : Ieee.IsFinite 5 10 (0x0001#16).toNat ∧ Ieee.value16 0x0001#16 = 1 / 2 ^ 24 := by decide +kernel

/-! ### C22: the sampling ratio

`fmin` and `fmax` are any functions allowed by the documentation of `f32::min` and `f32::max`. -/

/-- **C22.** Whatever is passed, NaN and infinities included, the stored ratio is a finite number in
[0, 1]. -/
theorem C22_always_in_range {fmin fmax : F32 → F32 → F32} (hmin : IsMin fmin) (hmax : IsMax fmax)
    (x : F32) : Ieee.IsFinite 8 23 (setRatio fmin fmax x).bits.toNat ∧
    0 ≤ Ieee.value32 (setRatio fmin fmax x).bits ∧ Ieee.value32 (setRatio fmin fmax x).bits ≤ 1 := by
  have key : 0 ≤ (setRatio fmin fmax x).rank ∧ (setRatio fmin fmax x).rank ≤ 127 * 2 ^ 23 := by
    cases hx : x.isNaN
    · rw [(setRatio_rank hmin hmax hx).2]
      exact ⟨le_max_right _ _, max_le (min_le_right _ _) (by norm_num)⟩
    · rw [setRatio_nan hmin hmax hx, F32.one_rank]; norm_num
  refine ⟨(F32.isFinite_iff _).mp (F32.isFinite_of_rank key.1 key.2), ?_, ?_⟩
  · rw [← F32.value_zero, F32.value_le_iff, zero_rank]; exact key.1
  · rw [← F32.value_one, F32.value_le_iff, F32.one_rank]; exact key.2

/-- **C22.** A finite argument is clamped into [0, 1]. -/
theorem C22_clamps {fmin fmax : F32 → F32 → F32} (hmin : IsMin fmin) (hmax : IsMax fmax)
    (x : F32) (hx : Ieee.IsFinite 8 23 x.bits.toNat) :
    Ieee.value32 (setRatio fmin fmax x).bits = max 0 (min 1 (Ieee.value32 x.bits)) := by
  have hn := F32.isNaN_of_finite ((F32.isFinite_iff x).mpr hx)
  have hr := (setRatio_rank hmin hmax hn).2
  rcases le_total x.rank 0 with h0 | h0
  · have e : (setRatio fmin fmax x).rank = F32.zero.rank := by
      rw [hr, zero_rank, max_eq_right]; exact le_trans (min_le_left _ _) h0
    have hv : Ieee.value32 x.bits ≤ 0 := by rw [← F32.value_zero, F32.value_le_iff, zero_rank]; exact h0
    rw [F32.value_eq_of_rank e, F32.value_zero, min_eq_right (by linarith), max_eq_left hv]
  · have hv : 0 ≤ Ieee.value32 x.bits := by rw [← F32.value_zero, F32.value_le_iff, zero_rank]; exact h0
    rcases le_total x.rank F32.one.rank with h1 | h1
    · have e : (setRatio fmin fmax x).rank = x.rank := by
        rw [F32.one_rank] at h1
        rw [hr, min_eq_left h1, max_eq_left h0]
      have hv1 : Ieee.value32 x.bits ≤ 1 := by rw [← F32.value_one, F32.value_le_iff]; exact h1
      rw [F32.value_eq_of_rank e, min_eq_right hv1, max_eq_right hv]
    · have e : (setRatio fmin fmax x).rank = F32.one.rank := by
        rw [F32.one_rank] at h1 ⊢
        rw [hr, min_eq_right h1]; norm_num
      have hv1 : 1 ≤ Ieee.value32 x.bits := by rw [← F32.value_one, F32.value_le_iff]; exact h1
      rw [F32.value_eq_of_rank e, F32.value_one, min_eq_left hv1]; norm_num

/-- **C22.** NaN gives exactly 1, whatever its payload. -/
theorem C22_nan {fmin fmax : F32 → F32 → F32} (hmin : IsMin fmin) (hmax : IsMax fmax)
    (x : F32) (hx : Ieee.IsNaN 8 23 x.bits.toNat) : setRatio fmin fmax x = ⟨0x3f800000#32⟩ := by
  rw [setRatio_nan hmin hmax ((F32.isNaN_iff x).mpr hx)]; decide +kernel

/-- **C22.** Infinities give the end of their side. -/
theorem C22_infinities {fmin fmax : F32 → F32 → F32} (hmin : IsMin fmin) (hmax : IsMax fmax)
    (x : F32) (hx : Ieee.IsInf 8 23 x.bits.toNat) :
    Ieee.value32 (setRatio fmin fmax x).bits = if Ieee.sign 8 23 x.bits.toNat = 1 then 0 else 1 := by
  have hi := (F32.isInf_iff x).mpr hx
  have hl : x.low = 255 * 2 ^ 23 := by
    unfold F32.isInf at hi; rw [decide_eq_true_iff] at hi; exact hi
  have hn : x.isNaN = false := by unfold F32.isNaN; rw [decide_eq_false_iff_not, hl]; omega
  have hr := (setRatio_rank hmin hmax hn).2
  have hneg := F32.negative_iff x
  unfold F32.rank at hr
  rw [hl] at hr
  cases hx' : x.negative
  · rw [hx', if_neg Bool.false_ne_true] at hr
    have e : (setRatio fmin fmax x).rank = F32.one.rank := by
      rw [F32.one_rank]; unfold F32.rank; rw [hr]; norm_num
    rw [F32.value_eq_of_rank e, F32.value_one, if_neg]
    intro h; rw [hneg.mpr h] at hx'; cases hx'
  · rw [hx', if_pos rfl] at hr
    have e : (setRatio fmin fmax x).rank = F32.zero.rank := by
      rw [zero_rank]; unfold F32.rank; rw [hr]; norm_num
    rw [F32.value_eq_of_rank e, F32.value_zero, if_pos (hneg.mp hx')]

/-- Functions with the documented behaviour exist, and do what the theorems say on a negative number, on
an inner one and on a negative NaN. -/
example : IsMin F32.fmin ∧ IsMax F32.fmax ∧
    setRatio F32.fmin F32.fmax ⟨0xbf000000#32⟩ = ⟨0#32⟩ ∧
    setRatio F32.fmin F32.fmax ⟨0x3e800000#32⟩ = ⟨0x3e800000#32⟩ ∧
    setRatio F32.fmin F32.fmax ⟨0xffc00001#32⟩ = ⟨0x3f800000#32⟩ :=
  ⟨isMin_fmin, isMax_fmax, by decide +kernel, by decide +kernel, by decide +kernel⟩

end Ozz.Props
