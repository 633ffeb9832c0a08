import Verif.Proofs.Keys
import Verif.Spec.Keys
import Mathlib.Tactic.LinearCombination

/-! Quaternion decompression in exact arithmetic. -/

namespace Ozz.Keys

open Ozz

theorem mapping_succAbove (l : Fin 4) (j : Fin 3) : mapping l (l.succAbove j) = j := by
  revert l j; decide

theorem sum_split (f : Fin 4 → ℝ) (l : Fin 4) :
    f 0 + f 1 + f 2 + f 3 = f l + (f (l.succAbove 0) + f (l.succAbove 1) + f (l.succAbove 2)) := by
  obtain ⟨l, hl⟩ := l
  have : l = 0 ∨ l = 1 ∨ l = 2 ∨ l = 3 := by omega
  rcases this with rfl | rfl | rfl | rfl
  · show _ = f 0 + (f 1 + f 2 + f 3); ring
  · show _ = f 1 + (f 0 + f 2 + f 3); ring
  · show _ = f 2 + (f 0 + f 1 + f 3); ring
  · show _ = f 3 + (f 0 + f 1 + f 2); ring

theorem eq_or_succAbove (l i : Fin 4) : i = l ∨ ∃ j : Fin 3, i = l.succAbove j := by
  revert l i; decide

/-- Sum of the squares of the stored components. -/
noncomputable def storedNorm (u : Unpacked) : ℝ :=
  dequantised u.v0.toNat ^ 2 + dequantised u.v1.toNat ^ 2 + dequantised u.v2.toNat ^ 2

theorem decompress_exact (k : QuatKey) :
    (∀ j : Fin 3, k.decompress (k.unpack.largest.succAbove j) = dequantised (k.unpack.value j).toNat) ∧
    k.decompress k.unpack.largest =
      (if k.unpack.sign = 0#16 then 1 else -1) * √(max 0 (1 - storedNorm k.unpack)) := by
  have hd : ∀ v : BitVec 32, (KeyOps.scale : ℝ) * KeyOps.ofU32 v + KeyOps.offset = dequantised v.toNat := by
    intro v
    show √2 / 32767 * (v.toNat : ℝ) + -√2 / 2 = _
    unfold dequantised; ring
  have hne : ∀ j : Fin 3, k.unpack.largest.succAbove j ≠ k.unpack.largest :=
    fun j => Fin.succAbove_ne _ _
  constructor
  · intro j
    unfold QuatKey.decompress
    simp only [setAt, hd]
    rw [if_neg (hne j), if_neg (hne j), mapping_succAbove]
  · unfold QuatKey.decompress
    simp only [setAt, hd, if_true]
    have hz : (KeyOps.zero : ℝ) = 0 := rfl
    have ho : (KeyOps.one : ℝ) = 1 := rfl
    have hm : ∀ x y : ℝ, KeyOps.max x y = max x y := fun _ _ => rfl
    have hq : ∀ x : ℝ, KeyOps.sqrt x = √x := fun _ => rfl
    have key := sum_split (fun i => (if i = k.unpack.largest then (0:ℝ) else
      dequantised (k.unpack.value (mapping k.unpack.largest i)).toNat) *
      (if i = k.unpack.largest then (0:ℝ) else
      dequantised (k.unpack.value (mapping k.unpack.largest i)).toNat)) k.unpack.largest
    simp only [if_true, hne, if_false, mapping_succAbove] at key
    rw [hz, ho, hm, hq, key]
    have : (0:ℝ) * 0 + (dequantised (k.unpack.value 0).toNat * dequantised (k.unpack.value 0).toNat +
      dequantised (k.unpack.value 1).toNat * dequantised (k.unpack.value 1).toNat +
      dequantised (k.unpack.value 2).toNat * dequantised (k.unpack.value 2).toNat) = storedNorm k.unpack := by
      show _ = dequantised (k.unpack.value 0).toNat ^ 2 + dequantised (k.unpack.value 1).toNat ^ 2 +
        dequantised (k.unpack.value 2).toNat ^ 2
      ring
    rw [this]
    split <;> ring

theorem decompress_norm (k : QuatKey) (h : storedNorm k.unpack ≤ 1) :
    (k.decompress 0 : ℝ) ^ 2 + k.decompress 1 ^ 2 + k.decompress 2 ^ 2 + k.decompress 3 ^ 2 = 1 := by
  have key := sum_split (fun i => (k.decompress i : ℝ) ^ 2) k.unpack.largest
  obtain ⟨h1, h2⟩ := decompress_exact k
  rw [key, h1, h1, h1, h2, max_eq_right (by linarith), mul_pow, Real.sq_sqrt (by linarith)]
  have : ((if k.unpack.sign = 0#16 then (1:ℝ) else -1) ^ 2) = 1 := by split <;> norm_num
  rw [this]
  show _ + (dequantised k.unpack.v0.toNat ^ 2 + dequantised k.unpack.v1.toNat ^ 2 +
    dequantised k.unpack.v2.toNat ^ 2) = 1
  unfold storedNorm
  ring

theorem halfStep_pos : 0 < halfStep := by unfold halfStep; positivity

theorem sqrt2_lt : √2 < 1.5 := by
  rw [show (1.5:ℝ) = √(1.5 ^ 2) from (Real.sqrt_sq (by norm_num)).symm]
  exact Real.sqrt_lt_sqrt (by norm_num) (by norm_num)

theorem halfStep_lt : halfStep < 1 / 40000 := by
  unfold halfStep
  have := sqrt2_lt
  rw [div_div, div_lt_div_iff₀ (by norm_num) (by norm_num)]
  norm_num at *
  linarith

/-- Decoding the encoding of a unit quaternion: unit again, and close to it. -/
theorem encodes_error (k : QuatKey) (q : Fin 4 → ℝ) (hq : q 0 ^ 2 + q 1 ^ 2 + q 2 ^ 2 + q 3 ^ 2 = 1)
    (he : Encodes k.unpack q) : storedNorm k.unpack ≤ 1 ∧
    ∀ i, |k.decompress i - q i| ≤ 7 * halfStep := by
  obtain ⟨h1, h2⟩ := decompress_exact k
  have hsum := sum_split (fun i => q i ^ 2) k.unpack.largest
  rw [hq] at hsum
  have hl := he.largest
  have hr := he.rounded
  have hsg := he.sign
  generalize hL : k.unpack.largest = l at *
  have hpos := halfStep_pos
  have hlt := halfStep_lt
  -- names
  obtain ⟨a, ha⟩ : ∃ a, a = fun j : Fin 3 => q (l.succAbove j) := ⟨_, rfl⟩
  obtain ⟨d, hd⟩ : ∃ d, d = fun j : Fin 3 => dequantised (k.unpack.value j).toNat - q (l.succAbove j) := ⟨_, rfl⟩
  have hdj : ∀ j, dequantised (k.unpack.value j).toNat = a j + d j := by
    intro j; rw [ha, hd]; ring
  have hda : ∀ j, |d j| ≤ halfStep := by intro j; rw [hd]; exact hr j
  have hS : storedNorm k.unpack = (a 0 + d 0) ^ 2 + (a 1 + d 1) ^ 2 + (a 2 + d 2) ^ 2 := by
    rw [← hdj, ← hdj, ← hdj]; rfl
  have hA : q l ^ 2 + (a 0 ^ 2 + a 1 ^ 2 + a 2 ^ 2) = 1 := by rw [ha]; exact hsum.symm
  have hal : ∀ j, a j ^ 2 ≤ q l ^ 2 := by
    intro j; rw [ha]; exact sq_le_sq.mpr (hl _)
  have hql : 1 / 4 ≤ q l ^ 2 := by linarith [hal 0, hal 1, hal 2]
  have hA34 : a 0 ^ 2 + a 1 ^ 2 + a 2 ^ 2 ≤ 3 / 4 := by linarith
  -- the sum of the others is at most 3/2
  have habs : |a 0| + |a 1| + |a 2| ≤ 3 / 2 := by
    have e0 := sq_abs (a 0); have e1 := sq_abs (a 1); have e2 := sq_abs (a 2)
    nlinarith [sq_nonneg (|a 0| - |a 1|), sq_nonneg (|a 1| - |a 2|), sq_nonneg (|a 0| - |a 2|),
      abs_nonneg (a 0), abs_nonneg (a 1), abs_nonneg (a 2)]
  generalize halfStep = h at *
  have hh2 : h ^ 2 ≤ h / 40000 := by nlinarith
  have hterm : ∀ j, |(a j + d j) ^ 2 - a j ^ 2| ≤ 2 * |a j| * h + h ^ 2 := by
    intro j
    have e : (a j + d j) ^ 2 - a j ^ 2 = 2 * a j * d j + d j ^ 2 := by ring
    rw [e]
    have b1 : |2 * a j * d j| ≤ 2 * |a j| * h := by
      rw [abs_mul, abs_mul, abs_of_pos (by norm_num : (0:ℝ) < 2)]
      exact mul_le_mul_of_nonneg_left (hda j) (by positivity)
    have b2 : |d j ^ 2| ≤ h ^ 2 := by
      rw [abs_pow]; exact pow_le_pow_left₀ (abs_nonneg _) (hda j) 2
    exact (abs_add_le _ _).trans (add_le_add b1 b2)
  have hdiff : |storedNorm k.unpack - (1 - q l ^ 2)| ≤ 3 * h + 3 * h ^ 2 := by
    have e : storedNorm k.unpack - (1 - q l ^ 2) = ((a 0 + d 0) ^ 2 - a 0 ^ 2) + ((a 1 + d 1) ^ 2 - a 1 ^ 2)
        + ((a 2 + d 2) ^ 2 - a 2 ^ 2) := by rw [hS]; linarith
    rw [e]
    have := (abs_add_three ((a 0 + d 0) ^ 2 - a 0 ^ 2) ((a 1 + d 1) ^ 2 - a 1 ^ 2) ((a 2 + d 2) ^ 2 - a 2 ^ 2))
    have t0 := hterm 0; have t1 := hterm 1; have t2 := hterm 2
    have t3 := mul_le_mul_of_nonneg_right habs hpos.le
    linarith
  have hS1 : storedNorm k.unpack ≤ 1 := by
    have := (abs_le.mp hdiff).2
    linarith
  refine ⟨hS1, fun i => ?_⟩
  rcases eq_or_succAbove l i with rfl | ⟨j, rfl⟩
  · -- the restored component
    obtain ⟨w, hw⟩ : ∃ w, w = √(max 0 (1 - storedNorm k.unpack)) := ⟨_, rfl⟩
    rw [← hw] at h2
    have hw0 : 0 ≤ w := by rw [hw]; exact Real.sqrt_nonneg _
    have hw2 : w ^ 2 = 1 - storedNorm k.unpack := by
      rw [hw, max_eq_right (by linarith), Real.sq_sqrt (by linarith)]
    have hqa : 1 / 2 ≤ |q i| := by
      apply abs_le_of_sq_le_sq' _ (abs_nonneg _) |>.2
      rw [sq_abs]; linarith
    have hval : abs (w - |q i|) ≤ 7 * h := by
      have e : (w - |q i|) * (w + |q i|) = -(storedNorm k.unpack - (1 - q i ^ 2)) := by
        have := sq_abs (q i)
        rw [show (w - |q i|) * (w + |q i|) = w ^ 2 - |q i| ^ 2 from by ring, this, hw2]; ring
      have e2 : abs (w - |q i|) * (w + |q i|) ≤ 3 * h + 3 * h ^ 2 := by
        rw [← abs_of_nonneg (by positivity : 0 ≤ w + |q i|), ← abs_mul, e, abs_neg]; exact hdiff
      have e3 : abs (w - |q i|) * (1 / 2) ≤ abs (w - |q i|) * (w + |q i|) :=
        mul_le_mul_of_nonneg_left (by linarith) (abs_nonneg _)
      linarith
    rw [h2, hsg]
    by_cases hneg : q i < 0
    · rw [if_pos hneg, if_neg (by decide)]
      rw [abs_of_neg hneg] at hval
      have : -1 * w - q i = -(w - -q i) := by ring
      rw [this, abs_neg]; exact hval
    · rw [if_neg hneg, if_pos rfl]
      rw [abs_of_nonneg (not_lt.mp hneg)] at hval
      rw [one_mul]; exact hval
  · rw [h1 j, hdj j]
    have : a j + d j - q (l.succAbove j) = d j := by rw [ha]; ring
    rw [this]
    have := hda j
    linarith

/-! ### Every unit quaternion has an encoding -/

theorem exists_level (x : ℝ) (hx : x ^ 2 ≤ 1 / 2) :
    ∃ v : Nat, v < 2 ^ 15 ∧ |dequantised v - x| ≤ halfStep := by
  have h2 : (0:ℝ) < √2 := by positivity
  have hs : √2 ^ 2 = 2 := Real.sq_sqrt (by norm_num)
  have hb : |x| ≤ √2 / 2 := by
    apply (abs_le_of_sq_le_sq' _ (by positivity)).2
    rw [sq_abs, div_pow, hs]; linarith
  obtain ⟨lo, hi⟩ := abs_le.mp hb
  obtain ⟨y, hy⟩ : ∃ y, y = (x / √2 + 1 / 2) * 32767 := ⟨_, rfl⟩
  have hx' : x = √2 * (y / 32767 - 1 / 2) := by rw [hy]; field_simp; ring
  have y0 : 0 ≤ y := by
    have : -(1 / 2) ≤ x / √2 := by rw [le_div_iff₀ h2]; linarith
    rw [hy]; linarith
  have y1 : y ≤ 32767 := by
    have : x / √2 ≤ 1 / 2 := by rw [div_le_iff₀ h2]; linarith
    rw [hy]; linarith
  have hf := Nat.floor_le (show 0 ≤ y + 1 / 2 by linarith)
  have hf2 := Nat.lt_floor_add_one (y + 1 / 2)
  refine ⟨⌊y + 1 / 2⌋₊, ?_, ?_⟩
  · rw [Nat.floor_lt (by linarith)]; norm_num; linarith
  · show |√2 * (((⌊y + 1 / 2⌋₊ : ℕ) : ℝ) / 32767 - 1 / 2) - x| ≤ _
    generalize ((⌊y + 1 / 2⌋₊ : ℕ) : ℝ) = v at *
    have e : √2 * (v / 32767 - 1 / 2) - x = √2 / 32767 * (v - y) := by rw [hx']; ring
    rw [e, abs_mul, abs_of_pos (by positivity)]
    unfold halfStep
    have : |v - y| ≤ 1 / 2 := abs_le.mpr ⟨by linarith, by linarith⟩
    calc √2 / 32767 * |v - y| ≤ √2 / 32767 * (1 / 2) := mul_le_mul_of_nonneg_left this (by positivity)
      _ = _ := by ring

theorem exists_largest (q : Fin 4 → ℝ) : ∃ l, ∀ i, |q i| ≤ |q l| := by
  have four : ∀ p : Fin 4 → Prop, p 0 → p 1 → p 2 → p 3 → ∀ i, p i := by
    intro p h0 h1 h2 h3 ⟨i, hi⟩
    have : i = 0 ∨ i = 1 ∨ i = 2 ∨ i = 3 := by omega
    rcases this with rfl | rfl | rfl | rfl <;> assumption
  have pair : ∀ a b : Fin 4, ∃ c, |q a| ≤ |q c| ∧ |q b| ≤ |q c| := fun a b =>
    (le_total |q a| |q b|).elim (fun h => ⟨b, h, le_rfl⟩) fun h => ⟨a, le_rfl, h⟩
  obtain ⟨a, a0, a1⟩ := pair 0 1
  obtain ⟨b, b2, b3⟩ := pair 2 3
  obtain ⟨c, ca, cb⟩ := pair a b
  exact ⟨c, four _ (a0.trans ca) (a1.trans ca) (b2.trans cb) (b3.trans cb)⟩

theorem exists_key {b s v0 v1 v2 : Nat} (hb : b < 4) (hs : s < 2) (h0 : v0 < 2 ^ 15) (h1 : v1 < 2 ^ 15)
    (h2 : v2 < 2 ^ 15) : ∃ k : QuatKey, k.unpack =
      { biggest := BitVec.ofNat 16 b, sign := BitVec.ofNat 16 s, v0 := BitVec.ofNat 32 v0
        v1 := BitVec.ofNat 32 v1, v2 := BitVec.ofNat 32 v2 } := by
  obtain ⟨n, hn⟩ : ∃ n, n = b + 4 * s + 2 ^ 3 * v0 + 2 ^ 18 * v1 + 2 ^ 33 * v2 := ⟨_, rfl⟩
  refine ⟨{ w0 := BitVec.ofNat 16 n, w1 := BitVec.ofNat 16 (n / 2 ^ 16), w2 := BitVec.ofNat 16 (n / 2 ^ 32) }, ?_⟩
  generalize hk : (QuatKey.mk (BitVec.ofNat 16 n) (BitVec.ofNat 16 (n / 2 ^ 16)) (BitVec.ofNat 16 (n / 2 ^ 32))) = k
  have hnum : k.num = n := by
    rw [← hk]; unfold QuatKey.num; simp only [BitVec.toNat_ofNat]; omega
  obtain ⟨a1, a2, a3, a4, a5⟩ := unpack_toNat k
  rw [hnum] at a1 a2 a3 a4 a5
  have e1 : k.unpack.biggest = BitVec.ofNat 16 b := BitVec.eq_of_toNat_eq (by rw [a1, BitVec.toNat_ofNat]; omega)
  have e2 : k.unpack.sign = BitVec.ofNat 16 s := BitVec.eq_of_toNat_eq (by rw [a2, BitVec.toNat_ofNat]; omega)
  have e3 : k.unpack.v0 = BitVec.ofNat 32 v0 := BitVec.eq_of_toNat_eq (by rw [a3, BitVec.toNat_ofNat]; omega)
  have e4 : k.unpack.v1 = BitVec.ofNat 32 v1 := BitVec.eq_of_toNat_eq (by rw [a4, BitVec.toNat_ofNat]; omega)
  have e5 : k.unpack.v2 = BitVec.ofNat 32 v2 := BitVec.eq_of_toNat_eq (by rw [a5, BitVec.toNat_ofNat]; omega)
  rw [← e1, ← e2, ← e3, ← e4, ← e5]

theorem exists_encoding (q : Fin 4 → ℝ) (hq : q 0 ^ 2 + q 1 ^ 2 + q 2 ^ 2 + q 3 ^ 2 = 1) :
    ∃ k : QuatKey, Encodes k.unpack q := by
  obtain ⟨l, hl⟩ := exists_largest q
  have hsum := sum_split (fun i => q i ^ 2) l
  simp only [hq] at hsum
  have hhalf : ∀ j : Fin 3, q (l.succAbove j) ^ 2 ≤ 1 / 2 := by
    intro j
    have h1 : q (l.succAbove j) ^ 2 ≤ q l ^ 2 := sq_le_sq.mpr (hl _)
    have h2 : q (l.succAbove j) ^ 2 ≤ q (l.succAbove 0) ^ 2 + q (l.succAbove 1) ^ 2 + q (l.succAbove 2) ^ 2 := by
      have p0 := sq_nonneg (q (l.succAbove 0)); have p1 := sq_nonneg (q (l.succAbove 1))
      have p2 := sq_nonneg (q (l.succAbove 2))
      obtain ⟨j, hj⟩ := j
      have : j = 0 ∨ j = 1 ∨ j = 2 := by omega
      rcases this with rfl | rfl | rfl
      · show q (l.succAbove 0) ^ 2 ≤ _; linarith
      · show q (l.succAbove 1) ^ 2 ≤ _; linarith
      · show q (l.succAbove 2) ^ 2 ≤ _; linarith
    linarith
  obtain ⟨v0, a0, b0⟩ := exists_level _ (hhalf 0)
  obtain ⟨v1, a1, b1⟩ := exists_level _ (hhalf 1)
  obtain ⟨v2, a2, b2⟩ := exists_level _ (hhalf 2)
  obtain ⟨k, hk⟩ := exists_key (b := l) (s := if q l < 0 then 1 else 0) l.isLt (by split <;> norm_num) a0 a1 a2
  have hL : k.unpack.largest = l := by
    rw [hk]; apply Fin.ext
    have := l.isLt
    simp only [Unpacked.largest, Fin.ofNat, BitVec.toNat_ofNat]; omega
  refine ⟨k, ?_, ?_, ?_⟩
  · rw [hL]; exact hl
  · rw [hL, hk]; simp only; split <;> rfl
  · intro j
    rw [hL]
    have t0 : (k.unpack.value 0).toNat = v0 := by
      rw [hk]; show (BitVec.ofNat 32 v0).toNat = _; rw [BitVec.toNat_ofNat]; omega
    have t1 : (k.unpack.value 1).toNat = v1 := by
      rw [hk]; show (BitVec.ofNat 32 v1).toNat = _; rw [BitVec.toNat_ofNat]; omega
    have t2 : (k.unpack.value 2).toNat = v2 := by
      rw [hk]; show (BitVec.ofNat 32 v2).toNat = _; rw [BitVec.toNat_ofNat]; omega
    obtain ⟨j, hj⟩ := j
    have : j = 0 ∨ j = 1 ∨ j = 2 := by omega
    rcases this with rfl | rfl | rfl
    · show |dequantised (k.unpack.value 0).toNat - q (l.succAbove 0)| ≤ _; rw [t0]; exact b0
    · show |dequantised (k.unpack.value 1).toNat - q (l.succAbove 1)| ≤ _; rw [t1]; exact b1
    · show |dequantised (k.unpack.value 2).toNat - q (l.succAbove 2)| ≤ _; rw [t2]; exact b2

end Ozz.Keys
