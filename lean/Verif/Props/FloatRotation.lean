import Verif.Proofs.FloatRotation
import Verif.Proofs.Poses
import Verif.Props.FloatSampling

/-!
C63: rotations in single precision: what a compressed key decompresses to, and what the sampling job interpolates.
-/

namespace Ozz.Props

open Sampling Spec Ieee F32 Keys

/-- C63, one key: the quaternion is finite; stored components are within 3·2^-24 of what they stand for; the restored component
has the stored sign; and the norm is within 2^-20 of one if the stored components leave room for a fourth (which they do in
keys made from rotations, `C63_encoded`). -/
theorem C63_key (k : QuatKey) :
    (∀ x, Finite32 (k.decompress x : F32).bits) ∧
    (∀ j : Fin 3, |val (k.decompress (k.unpack.largest.succAbove j)) - dequantised (k.unpack.value j).toNat| ≤ 3 / 2 ^ 24) ∧
    (k.unpack.sign = 0#16 → 0 ≤ val (k.decompress k.unpack.largest)) ∧
    (k.unpack.sign ≠ 0#16 → val (k.decompress k.unpack.largest) ≤ 0) ∧
    (dequantised k.unpack.v0.toNat ^ 2 + dequantised k.unpack.v1.toNat ^ 2 + dequantised k.unpack.v2.toNat ^ 2 ≤ 1 →
      |val (k.decompress 0) ^ 2 + val (k.decompress 1) ^ 2 + val (k.decompress 2) ^ 2 + val (k.decompress 3) ^ 2 - 1| ≤ 1 / 2 ^ 20) :=
  decompress32_ok k

/-- C63, quantisation: a unit quaternion quantised to a key comes back from single precision within seven half steps and 2^-18,
with a norm within 2^-20 of one. -/
theorem C63_encoded (k : QuatKey) (q : Fin 4 → ℝ) (hq : q 0 ^ 2 + q 1 ^ 2 + q 2 ^ 2 + q 3 ^ 2 = 1) (he : Encodes k.unpack q) :
    (∀ x, |val (k.decompress x) - q x| ≤ 7 * halfStep + 1 / 2 ^ 18) ∧
    |val (k.decompress 0) ^ 2 + val (k.decompress 1) ^ 2 + val (k.decompress 2) ^ 2 + val (k.decompress 3) ^ 2 - 1| ≤ 1 / 2 ^ 20 := by
  obtain ⟨hs, hall⟩ := encodes_error k q hq he
  obtain ⟨-, c2, c3, c4, c5⟩ := decompress32_ok k
  have hn := c5 hs
  refine ⟨?_, hn⟩
  have hclose : ∀ x, |val (k.decompress x) - (k.decompress x : ℝ)| ≤ 1 / 2 ^ 18 := by
    have hJ : ∀ j : Fin 3, |val (k.decompress (k.unpack.largest.succAbove j)) - (k.decompress (k.unpack.largest.succAbove j) : ℝ)| ≤
        3 / 2 ^ 24 := fun j => by rw [C12_components]; exact c2 j
    intro x
    rcases eq_or_succAbove k.unpack.largest x with rfl | ⟨j, rfl⟩
    · -- the restored component
      have hn' := hn
      have hu := decompress_norm k hs
      have s1 := sum_split (fun i => val (k.decompress i) ^ 2) k.unpack.largest
      have s2 := sum_split (fun i => (k.decompress i : ℝ) ^ 2) k.unpack.largest
      rw [s1] at hn'
      rw [s2] at hu
      have hsq : ∀ j : Fin 3, |val (k.decompress (k.unpack.largest.succAbove j)) ^ 2 -
          (k.decompress (k.unpack.largest.succAbove j) : ℝ) ^ 2| ≤ 4.3 / 2 ^ 24 := by
        intro j
        have h1 := hJ j
        have h2 := dequantised_abs (value_le k j)
        rw [← C12_components] at h2
        generalize val (k.decompress (k.unpack.largest.succAbove j)) = u at *
        generalize (k.decompress (k.unpack.largest.succAbove j) : ℝ) = v at *
        rw [show u ^ 2 - v ^ 2 = (u - v) * ((u - v) + 2 * v) by ring, abs_mul]
        have h3 := abs_add_le (u - v) (2 * v)
        rw [abs_mul, abs_of_pos (show (0 : ℝ) < 2 by norm_num)] at h3
        refine (mul_le_mul h1 (h3.trans (show _ ≤ (1.43 : ℝ) from ?_)) (abs_nonneg _) (by norm_num)).trans (by norm_num)
        norm_num at *
        linarith
      -- the exact one is not small
      have hbig : 0.499 ≤ |(k.decompress k.unpack.largest : ℝ)| := by
        have h1 : 1 / 4 ≤ q k.unpack.largest ^ 2 := by
          have hx : ∀ x, q x ^ 2 ≤ q k.unpack.largest ^ 2 := fun x => sq_le_sq.mpr (he.largest x)
          linarith [hx 0, hx 1, hx 2, hx 3]
        have h2 : 1 / 2 ≤ |q k.unpack.largest| := by
          apply abs_le_of_sq_le_sq' _ (abs_nonneg _) |>.2
          rw [sq_abs]; linarith
        have h3 := hall k.unpack.largest
        have h4 := abs_sub_abs_le_abs_sub (q k.unpack.largest) (k.decompress k.unpack.largest : ℝ)
        rw [abs_sub_comm] at h4
        have h5 : halfStep ≤ 1 / 40000 := by
          unfold halfStep
          have := sqrt2_bounds.2
          rw [div_div, div_le_div_iff₀ (by norm_num) (by norm_num)]
          norm_num at *
          linarith
        norm_num at *
        linarith
      have hprod : 0 ≤ val (k.decompress k.unpack.largest) * (k.decompress k.unpack.largest : ℝ) := by
        have hu' := (C12_unit k hs).2
        by_cases h : k.unpack.sign = 0#16
        · exact mul_nonneg (c3 h) (hu'.1 h)
        · exact mul_nonneg_of_nonpos_of_nonpos (c4 h) (hu'.2 h)
      have d0 := abs_le.mp (hsq 0)
      have d1 := abs_le.mp (hsq 1)
      have d2 := abs_le.mp (hsq 2)
      rw [abs_le] at hn'
      generalize (k.decompress k.unpack.largest : ℝ) = v at *
      generalize val (k.decompress k.unpack.largest) = u at *
      have hdiff : |u ^ 2 - v ^ 2| ≤ 29 / 2 ^ 24 := by
        rw [abs_le]
        constructor <;> norm_num at * <;> linarith
      have hsum : 0.499 ≤ |u + v| := by
        refine hbig.trans ?_
        rw [← sq_le_sq]
        nlinarith [sq_nonneg u]
      rw [show u ^ 2 - v ^ 2 = (u - v) * (u + v) by ring, abs_mul] at hdiff
      have h6 : |u - v| * 0.499 ≤ 29 / 2 ^ 24 := (mul_le_mul_of_nonneg_left hsum (abs_nonneg _)).trans hdiff
      norm_num at *
      linarith
    · exact (hJ j).trans (by norm_num)
  intro x
  have h := abs_sub_le (val (k.decompress x)) (k.decompress x : ℝ) (q x)
  linarith [hclose x, hall x]

/-- C63, sampled rotations: if the stored components of every key leave room for a fourth and neighbouring keys of a track are
at most 120 degrees apart in the space of quaternions, the rotation sampled through any context is finite, its norm is within
2^-19 of one, and it is within 2^-17 of the exact unit quaternion on the line between the keys around the ratio. -/
theorem C63_rotation {anims : Nat → Option (Animation F32 Float3Key QuatKey)} {n : Nat}
    (hst : StoreOk F32.zero F32.one ((n + 3) / 4) anims) {addr : Nat} {a : Animation F32 Float3Key QuatKey}
    (ha : anims addr = some a) (hwf : WellFormed F32.zero F32.one a) (hn : (a.numTracks + 3) / 4 = (n + 3) / 4) {i : Nat}
    (hi' : i < (n + 3) / 4) (htp : ∀ r ∈ a.timepoints, Unit01 r)
    (hk : ∀ k ∈ a.rotations.keys, dequantised k.unpack.v0.toNat ^ 2 + dequantised k.unpack.v1.toNat ^ 2 +
      dequantised k.unpack.v2.toNat ^ 2 ≤ 1) :
    ∃ F, Poses codeNumerics F32.zero F32.one anims n addr a i F ∧
      ∀ (j : Fin 4) (time : Nat → F32) (pred track : Nat → Nat),
      ChanOk F32.zero F32.one a.numTracks (4 * ((a.numTracks + 3) / 4)) a.timepoints a.rotations time pred track →
      (∀ l k, Consecutive a.rotations.previouses.length track (4 * i + j) l k →
        (-(1 / 2) : ℝ) ≤ quatValue a.rotations l 0 * quatValue a.rotations k 0 + quatValue a.rotations l 1 * quatValue a.rotations k 1 +
          quatValue a.rotations l 2 * quatValue a.rotations k 2 + quatValue a.rotations l 3 * quatValue a.rotations k 3) →
      ∀ r, Unit01 r → (∀ x, Finite32 (compQ (F r).rotation j x).bits) ∧
        |val (compQ (F r).rotation j 0) ^ 2 + val (compQ (F r).rotation j 1) ^ 2 + val (compQ (F r).rotation j 2) ^ 2 +
          val (compQ (F r).rotation j 3) ^ 2 - 1| ≤ 1 / 2 ^ 19 ∧
        ∀ l k, Consecutive a.rotations.previouses.length track (4 * i + j) l k →
          Between a.rotations.previouses.length time track (4 * i + j) l k r →
          ∀ x, |val (compQ (F r).rotation j x) - unitLine (quatValue a.rotations l) (quatValue a.rotations k)
            ((val r - val (time l)) / (val (time k) - val (time l))) x| ≤ 1 / 2 ^ 17 := by
  obtain ⟨F, h1, h2⟩ := poses_exist (N := codeNumerics) f32Order hst ha hwf hn hi' ⟨fun _ => F32.zero, fun _ => F32.zero, fun _ => F32.zero⟩
    ⟨fun _ => F32.zero, fun _ => F32.zero, fun _ => F32.zero, fun _ => F32.zero⟩
    ⟨⟨fun _ => F32.zero, fun _ => F32.zero, fun _ => F32.zero⟩,
     ⟨fun _ => F32.zero, fun _ => F32.zero, fun _ => F32.zero, fun _ => F32.zero⟩,
     ⟨fun _ => F32.zero, fun _ => F32.zero, fun _ => F32.zero⟩⟩
  refine ⟨F, h1, fun j time pred track hch hdot r hr => ?_⟩
  set ch := a.rotations with hchd
  have ht : ∀ k, k < ch.previouses.length → Unit01 (time k) := by
    intro k hkl
    obtain ⟨r, -, h4⟩ := hch.times k hkl
    exact htp _ (List.mem_of_getElem? h4)
  have hval : ∀ k, k < ch.previouses.length → (∀ x, Finite32 (keyValue ch (fun k => k.decompress) x k : F32).bits) ∧
      quatValue ch k = (fun x => val (keyValue ch (fun k => k.decompress) x k)) ∧ |sumSq (quatValue ch k) - 1| ≤ 1 / 2 ^ 20 := by
    intro k hkl
    have hlt : k < ch.keys.length := by rw [hch.keysLen]; exact hkl
    have e : ch.keys[k]? = some ch.keys[k] := List.getElem?_eq_getElem hlt
    obtain ⟨c1, -, -, -, c5⟩ := decompress32_ok ch.keys[k]
    have c := c5 (hk _ (List.getElem_mem hlt))
    have e2 : quatValue ch k = fun x => val (ch.keys[k].decompress x) := by
      funext x
      simp only [quatValue, e]
    refine ⟨fun x => by simp only [keyValue, e]; exact c1 x, by rw [e2]; simp only [keyValue, e], ?_⟩
    rw [e2]
    exact c
  obtain ⟨hr1, hr2⟩ := (unit01_iff r).mpr hr
  obtain ⟨_, vr, _, -, ⟨_, _, _, hc', hb⟩, -, hF⟩ := h2 r hr1 hr2
  rw [code_eq] at hb
  change SoaBracket _ _ _ _ (lanesQ (fun (k : QuatKey) => (k.decompress : Fin 4 → F32))) _ _ _ at hb
  obtain ⟨l, k, hb', hv⟩ := lerpQ_comp (soaBracket_congr hc' hch hb) j
  have hbv := bracket_val hr ht hb'
  have hR := keyOrder_real hch.order ht
  have c := bracket_consecutive hbv
  have hklt := c.rightLt
  have hllt : l < ch.previouses.length := lt_trans c.lt hklt
  obtain ⟨pF, pV, pN⟩ := hval l hllt
  obtain ⟨qF, qV, qN⟩ := hval k hklt
  have hlt := consecutive_lt hR c
  have hr0 : val (time l) ≤ val r := hbv.leftLe
  have hrk : val r ≤ val (time k) := bracket_right hR hbv hr.le_one
  obtain ⟨f0, f1⟩ := fraction_mem hlt hr0 hrk
  set f := (val r - val (time l)) / (val (time k) - val (time l)) with hf
  have hcomp : ∀ m, m < ch.previouses.length → ∀ x, |quatValue ch m x| ≤ 1 + 1 / 2 ^ 20 := by
    intro m hm x
    have h3 := (hval m hm).2.2
    rw [abs_le] at h3
    refine abs_le_of_sq_le_sq ((sumSq_comp _ x).trans ?_) (by norm_num)
    norm_num at *
    linarith
  have hmod : ∀ m, m < ch.previouses.length → ∀ x, Moderate (keyValue ch (fun k => k.decompress) x m : F32) := by
    intro m hm x
    obtain ⟨m1, m2, -⟩ := hval m hm
    refine ⟨m1 x, ?_⟩
    have := hcomp m hm x
    rw [m2] at this
    exact this.trans (by norm_num)
  set g : Fin 4 → F32 := lerpQ vr.value0 vr.value1 (keyFraction vr r) j with hg
  set L : Fin 4 → ℝ := fun x => quatValue ch l x + (quatValue ch k x - quatValue ch l x) * f with hL
  have hgL : ∀ x, Finite32 (g x).bits ∧ |val (g x) - L x| ≤ 1.01 / 2 ^ 20 := by
    intro x
    rw [hv x]
    have a1 := hcomp l hllt x
    have a2 := hcomp k hklt x
    simp only [hL]
    rw [pV, qV] at *
    refine ⟨(line32_steps (ht l hllt) (ht k hklt) hr hlt hr0 hrk (hmod l hllt x) (hmod k hklt x)).1.lF, ?_⟩
    have e := line32_error (ht l hllt) (ht k hklt) hr hlt hr0 hrk (hmod l hllt x) (hmod k hklt x) a1 a2
    have e2 : line (val (time l)) (val (time k)) (val (keyValue ch (fun k => k.decompress) x l))
        (val (keyValue ch (fun k => k.decompress) x k)) (val r) = val (keyValue ch (fun k => k.decompress) x l) +
        (val (keyValue ch (fun k => k.decompress) x k) - val (keyValue ch (fun k => k.decompress) x l)) * f := by
      unfold line; rw [hf]; ring
    rw [e2] at e
    refine e.trans ?_
    have h150 : (1 : ℝ) / 2 ^ 150 ≤ 1 / 2 ^ 100 := by norm_num
    generalize (1 : ℝ) / 2 ^ 150 = η at *
    norm_num at *
    linarith
  have hchord := chord_norm (quatValue ch l) (quatValue ch k) f0 f1 pN qN (hdot l k c)
  change 1 / 4 - 1 / 2 ^ 20 ≤ sumSq L ∧ sumSq L ≤ 1 + 1 / 2 ^ 20 at hchord
  obtain ⟨o1, o2, o3⟩ := nlerp32_ok (fun x => (hgL x).1) (by refine le_trans ?_ hchord.1; norm_num)
    (hchord.2.trans (by norm_num)) (fun x => (hgL x).2)
  have ho : ∀ x, compQ (F r).rotation j x = g x * (F32.one / sqrt (g 0 * g 0 + g 1 * g 1 + g 2 * g 2 + g 3 * g 3)) := by
    intro x
    rw [hF]
    exact nlerp_comp _ _ _ j x
  refine ⟨fun x => by rw [ho]; exact o1 x, ?_, fun l' k' c' hbt x => ?_⟩
  · simp only [ho]; exact o2
  · obtain ⟨rfl, rfl⟩ : l = l' ∧ k = k' := bracket_between hR hbv c' hbt.1 (hbt.2.imp id fun h => h.2)
    rw [ho]
    exact o3 x

/-! ### Examples -/

section
open Ozz.Sampling.FloatExample Ozz.Sampling.Example

/-- `C63_encoded` on a quaternion with a negative largest component. -/
example : ∃ k : QuatKey, |val (k.decompress 2) - -4 / 5| ≤ 7 * halfStep + 1 / 2 ^ 18 := by
  have hq : (vec4 (3 / 5) 0 (-4 / 5) 0 : Fin 4 → ℝ) 0 ^ 2 + (vec4 (3 / 5) 0 (-4 / 5) 0 : Fin 4 → ℝ) 1 ^ 2
      + (vec4 (3 / 5) 0 (-4 / 5) 0 : Fin 4 → ℝ) 2 ^ 2 + (vec4 (3 / 5) 0 (-4 / 5) 0 : Fin 4 → ℝ) 3 ^ 2 = 1 := by
    simp only [vec4]; norm_num
  obtain ⟨k, hk⟩ := exists_encoding _ hq
  exact ⟨k, (C63_encoded k _ hq hk).1 2⟩

private theorem quat_mem {k : Nat} (h : k < 9) : ∃ key ∈ quatKeys, quatValue anim32.rotations k = fun x => val (key.decompress x) := by
  have hl : k < quatKeys.length := h
  refine ⟨quatKeys[k], List.getElem_mem hl, ?_⟩
  funext x
  have : anim32.rotations.keys[k]? = some quatKeys[k] := List.getElem?_eq_getElem hl
  simp only [quatValue, this]

/-- The rotation of track 0 is nearly unit a quarter of the way through. -/
example : ∃ F, Poses codeNumerics F32.zero F32.one store32 2 100 anim32 0 F ∧
    |val (compQ (F quarter).rotation 0 0) ^ 2 + val (compQ (F quarter).rotation 0 1) ^ 2 + val (compQ (F quarter).rotation 0 2) ^ 2 +
      val (compQ (F quarter).rotation 0 3) ^ 2 - 1| ≤ 1 / 2 ^ 19 := by
  obtain ⟨F, h1, h2⟩ := C63_rotation store32_ok (addr := 100) (by simp [store32]) well32 rfl (i := 0) (by decide) points32 room32
  refine ⟨F, h1, (h2 0 time32 pred' track' (chan32_ok _ rfl) ?_ quarter quarter_unit).2.1⟩
  intro l k c
  have hk : k < 9 := c.rightLt
  obtain ⟨p, hp, ep⟩ := quat_mem (lt_trans c.lt hk)
  obtain ⟨q, hq, eq⟩ := quat_mem hk
  rw [ep, eq]
  have h := (Rat.cast_le (K := ℝ)).mpr (near32 p hp q hq)
  push_cast at h
  exact h

end

end Ozz.Props
