import Verif.Spec.FloatKeys
import Verif.Proofs.FloatSampling
import Verif.Proofs.Poses
import Verif.Proofs.FloatExample
import Verif.Props.Keys

/-!
C62: the sampling job in single precision, with the crate's own key decompression, comparisons and interpolation.
-/

namespace Ozz.Props

open Sampling Spec Ieee F32 Keys

theorem code_eq : codeNumerics = jobNumerics (fun k c => f16ToF32Lane (k c)) (fun k => k.decompress) := by
  have h3 : codeDec3 = lanes3 (fun k c => f16ToF32Lane (k c)) := by
    funext a b c d
    simp only [codeDec3, lanes3, Float3Key.simdDecompress, simdF16ToF32, SoaVec3.mk.injEq]
    refine ⟨?_, ?_, ?_⟩ <;> funext j <;> fin_cases j <;> rfl
  have hq : codeDecQ = lanesQ (fun k => k.decompress) := by
    funext a b c d
    simp only [codeDecQ, lanesQ, SoaQuat.mk.injEq]
    refine ⟨?_, ?_, ?_, ?_⟩ <;> funext j <;> rw [C12_four_wide] <;> fin_cases j <;> rfl
  unfold codeNumerics jobNumerics
  rw [h3, hq]

theorem half_bound {n : BitVec 16} (h : IsFinite 5 10 n.toNat) : |value16 n| ≤ 2 ^ 16 := by
  have hm : ((mant 10 n.toNat : ℕ) : ℚ) / 2 ^ 10 ≤ 1 := by
    rw [div_le_one (by positivity)]
    have : mant 10 n.toNat < 2 ^ 10 := Nat.mod_lt _ (by norm_num)
    exact_mod_cast this.le
  have hm0 : (0 : ℚ) ≤ ((mant 10 n.toNat : ℕ) : ℚ) / 2 ^ 10 := by positivity
  have hb : bias 5 = 15 := by decide
  unfold value16 value
  rw [abs_mul, abs_pow, abs_neg, abs_one, one_pow, one_mul, hb]
  split
  · rw [abs_of_nonneg (mul_nonneg hm0 (by positivity))]
    refine (mul_le_mul_of_nonneg_right hm (by positivity)).trans ?_
    norm_num
  · rw [abs_of_nonneg (mul_nonneg (by linarith) (by positivity))]
    have he : ((expo 5 10 n.toNat : ℕ) : ℤ) - 15 ≤ 15 := by
      have : expo 5 10 n.toNat < 2 ^ 5 := Nat.mod_lt _ (by norm_num)
      have h2 : expo 5 10 n.toNat < 2 ^ 5 - 1 := h
      omega
    have h3 : (2 : ℚ) ^ (((expo 5 10 n.toNat : ℕ) : ℤ) - 15) ≤ 2 ^ (15 : ℤ) := zpow_le_zpow_right₀ (by norm_num) he
    calc (1 + ((mant 10 n.toNat : ℕ) : ℚ) / 2 ^ 10) * (2 : ℚ) ^ (((expo 5 10 n.toNat : ℕ) : ℤ) - 15)
        ≤ 2 * 2 ^ (15 : ℤ) := mul_le_mul (by linarith) h3 (by positivity) (by norm_num)
      _ = 2 ^ 16 := by norm_num

theorem goodHalf_moderate {n : BitVec 16} (h : GoodHalf n) :
    Moderate (f16ToF32Lane n) ∧ val (f16ToF32Lane n) = ((value16 n : ℚ) : ℝ) := by
  obtain ⟨h1, -, h3⟩ := (C13_four_wide_partial n h.2).1 h.1
  have hv : val (f16ToF32Lane n) = ((value16 n : ℚ) : ℝ) := by unfold val real; rw [h3]
  refine ⟨⟨h1, ?_⟩, hv⟩
  change |val _| ≤ _
  rw [hv]
  have h4 : |((value16 n : ℚ) : ℝ)| ≤ 2 ^ 16 := by
    rw [← Rat.cast_abs]
    have := half_bound h.1
    exact_mod_cast this
  exact h4.trans (by norm_num)

/-- C62, translations and scales: through any context, every component of every track follows its keys. -/
theorem C62_translation_scale {anims : Nat → Option (Animation F32 Float3Key QuatKey)} {n : Nat}
    (hst : StoreOk F32.zero F32.one ((n + 3) / 4) anims) {addr : Nat} {a : Animation F32 Float3Key QuatKey}
    (ha : anims addr = some a) (hwf : WellFormed F32.zero F32.one a) (hn : (a.numTracks + 3) / 4 = (n + 3) / 4) {i : Nat}
    (hi' : i < (n + 3) / 4) (htp : ∀ r ∈ a.timepoints, Unit01 r)
    (hkt : ∀ k ∈ a.translations.keys, ∀ x, GoodHalf (k x)) (hks : ∀ k ∈ a.scales.keys, ∀ x, GoodHalf (k x)) :
    ∃ F, Poses codeNumerics F32.zero F32.one anims n addr a i F ∧
      ∀ (j : Fin 4) (x : Fin 3) (time : Nat → F32) (pred track : Nat → Nat),
      (ChanOk F32.zero F32.one a.numTracks (4 * ((a.numTracks + 3) / 4)) a.timepoints a.translations time pred track →
        FollowsKeys a.translations.previouses.length time track (4 * i + j) (halfValue a.translations x)
          (fun r => comp3 (F r).translation j x)) ∧
      (ChanOk F32.zero F32.one a.numTracks (4 * ((a.numTracks + 3) / 4)) a.timepoints a.scales time pred track →
        FollowsKeys a.scales.previouses.length time track (4 * i + j) (halfValue a.scales x)
          (fun r => comp3 (F r).scale j x)) := by
  obtain ⟨F, h1, h2⟩ := poses_exist (N := codeNumerics) f32Order hst ha hwf hn hi' ⟨fun _ => F32.zero, fun _ => F32.zero, fun _ => F32.zero⟩
    ⟨fun _ => F32.zero, fun _ => F32.zero, fun _ => F32.zero, fun _ => F32.zero⟩
    ⟨⟨fun _ => F32.zero, fun _ => F32.zero, fun _ => F32.zero⟩,
     ⟨fun _ => F32.zero, fun _ => F32.zero, fun _ => F32.zero, fun _ => F32.zero⟩,
     ⟨fun _ => F32.zero, fun _ => F32.zero, fun _ => F32.zero⟩⟩
  have key : ∀ (ch : Chan F32 Float3Key) time pred track,
      ChanOk F32.zero F32.one a.numTracks (4 * ((a.numTracks + 3) / 4)) a.timepoints ch time pred track →
      (∀ k ∈ ch.keys, ∀ x, GoodHalf (k x)) → ∀ (j : Fin 4) (x : Fin 3) (f : F32 → F32),
      (∀ r, F32.zero ≤ r → r ≤ F32.one → ∃ v, ChanSample F32.zero F32.one a.numTracks (4 * ((a.numTracks + 3) / 4)) a.timepoints ch
        codeNumerics.dec3 i r v ∧ f r = comp3 (SoaVec3.lerp v.value0 v.value1 (keyFraction v r)) j x) →
      FollowsKeys ch.previouses.length time track (4 * i + j) (halfValue ch x) f := by
    intro ch time pred track hch hk j x f hf
    have hval : ∀ k, k < ch.previouses.length → Moderate (keyValue ch (fun k c => f16ToF32Lane (k c)) x k) ∧
        halfValue ch x k = val (keyValue ch (fun k c => f16ToF32Lane (k c)) x k) := by
      intro k hkl
      have hlt : k < ch.keys.length := by rw [hch.keysLen]; exact hkl
      have e : ch.keys[k]? = some ch.keys[k] := List.getElem?_eq_getElem hlt
      obtain ⟨m, hv⟩ := goodHalf_moderate (hk _ (List.getElem_mem hlt) x)
      simp only [keyValue, halfValue, e]
      exact ⟨m, hv.symm⟩
    have ht : ∀ k, k < ch.previouses.length → Unit01 (time k) := by
      intro k hkl
      obtain ⟨r, -, h4⟩ := hch.times k hkl
      exact htp _ (List.mem_of_getElem? h4)
    have hmain := follows_of_brackets (t := 4 * i + j) hch.order ht (keyValue ch (fun k c => f16ToF32Lane (k c)) x)
      (fun k h _ => (hval k h).1) f (by
        intro r hr
        obtain ⟨hr1, hr2⟩ := (unit01_iff r).mpr hr
        obtain ⟨v, ⟨_, _, _, hc', hb⟩, e⟩ := hf r hr1 hr2
        rw [code_eq] at hb
        change SoaBracket _ _ _ _ (lanes3 (fun (k : Float3Key) (c : Fin 3) => f16ToF32Lane (k c))) _ _ _ at hb
        obtain ⟨l, k, hb', hv⟩ := lerp_comp (soaBracket_congr hc' hch hb) j x
        exact ⟨l, k, hb', e.trans hv⟩)
    have hfun : halfValue ch x = fun k => val (keyValue ch (fun k c => f16ToF32Lane (k c)) x k) := by
      funext k
      rcases Nat.lt_or_ge k ch.previouses.length with h | h
      · exact (hval k h).2
      · have e : ch.keys[k]? = none := List.getElem?_eq_none (by rw [hch.keysLen]; exact h)
        simp only [keyValue, halfValue, e]
        exact zero_real.symm
    rw [hfun]
    exact hmain
  refine ⟨F, h1, fun j x time pred track => ⟨fun hch => ?_, fun hch => ?_⟩⟩
  · refine key _ time pred track hch hkt j x _ fun r hr1 hr2 => ?_
    obtain ⟨vt, _, _, h3, -, -, hF⟩ := h2 r hr1 hr2
    exact ⟨vt, h3, by rw [hF]; rfl⟩
  · refine key _ time pred track hch hks j x _ fun r hr1 hr2 => ?_
    obtain ⟨_, _, vs, -, -, h3, hF⟩ := h2 r hr1 hr2
    exact ⟨vs, h3, by rw [hF]; rfl⟩

/-- C62, histories: in single precision too the pose does not depend on what the context was used for before. -/
theorem C62_history_independent {anims : Nat → Option (Animation F32 Float3Key QuatKey)} {n : Nat}
    (hst : StoreOk F32.zero F32.one ((n + 3) / 4) anims) {c : Context F32 (SoaVec3 F32) (SoaQuat F32)}
    (hc : Reached codeNumerics F32.zero F32.one anims n c) {addr : Nat} {a : Animation F32 Float3Key QuatKey} (ha : anims addr = some a)
    (hwf : WellFormed F32.zero F32.one a) (hn : (a.numTracks + 3) / 4 = (n + 3) / 4) {r : F32} (hr : Unit01 r)
    {out : List (SoaTransform F32)} (hout : (n + 3) / 4 ≤ out.length) (mt : Mem F32 (SoaVec3 F32)) (mr : Mem F32 (SoaQuat F32))
    (ms : Mem F32 (SoaVec3 F32)) :
    ∃ c1 c2 pose, run codeNumerics a addr r c out = .ok (c1, pose) ∧
      run codeNumerics a addr r (Context.new n mt mr ms) out = .ok (c2, pose) :=
  C15_history_independent f32Order hst hc ha hwf hn ((unit01_iff r).mpr hr).1 ((unit01_iff r).mpr hr).2 hout mt mr ms

/-- The last key of a track is not always met exactly: from 1024 to the smallest half float the code ends at 0. -/
theorem C62_last_key_missed :
    let v : Interp F32 (SoaVec3 F32) := ⟨splat F32.zero, splat F32.one,
      codeDec3 (fun _ => 0x6400) (fun _ => 0x6400) (fun _ => 0x6400) (fun _ => 0x6400),
      codeDec3 (fun _ => 1) (fun _ => 1) (fun _ => 1) (fun _ => 1)⟩
    comp3 v.value1 0 0 = ⟨0x33800000#32⟩ ∧ comp3 (SoaVec3.lerp v.value0 v.value1 (keyFraction v F32.one)) 0 0 = F32.zero := by
  decide +kernel

/-! ### Example -/

section
open Ozz.Sampling.FloatExample Ozz.Sampling.Example

theorem floatKeys_good : ∀ k ∈ floatKeys, ∀ x, GoodHalf (k x) := by
  intro k hk x
  simp only [floatKeys, List.mem_cons, List.not_mem_nil, or_false] at hk
  rcases hk with rfl | rfl | rfl | rfl | rfl | rfl | rfl | rfl | rfl <;> (simp only [same]; exact ⟨by decide, by decide, by decide⟩)

/-- The translation of track 0 starts at 1, is at 3 at ratio 1/2, and is between them at 1/4. -/
example : ∃ F, Poses codeNumerics F32.zero F32.one store32 2 100 anim32 0 F ∧
    val (comp3 (F F32.zero).translation 0 1) = 1 ∧ val (comp3 (F half).translation 0 1) = 3 ∧
    1 ≤ val (comp3 (F quarter).translation 0 1) ∧ val (comp3 (F quarter).translation 0 1) ≤ 3 + 2 / 2 ^ 23 := by
  obtain ⟨F, h1, h2⟩ := C62_translation_scale store32_ok (addr := 100) (by simp [store32]) well32 rfl (i := 0) (by decide) points32
    floatKeys_good floatKeys_good
  have h := (h2 0 1 time32 pred' track').1 (chan32_ok _ rfl)
  have c1 : Consecutive 9 track' 0 0 4 :=
    ⟨rfl, rfl, by decide, by decide, fun m a b => (by decide : ∀ m, m < 4 → 0 < m → track' m ≠ 0) m b a⟩
  have c2 : Consecutive 9 track' 0 4 8 :=
    ⟨rfl, rfl, by decide, by decide, fun m a b => (by decide : ∀ m, m < 8 → 4 < m → track' m ≠ 0) m b a⟩
  have v0 : halfValue anim32.translations 1 0 = 1 := by
    show ((value16 0x3C00#16 : ℚ) : ℝ) = 1
    rw [show value16 0x3C00#16 = 1 by decide +kernel]; norm_num
  have v4 : halfValue anim32.translations 1 4 = 3 := by
    show ((value16 0x4200#16 : ℚ) : ℝ) = 3
    rw [show value16 0x4200#16 = 3 by decide +kernel]; norm_num
  have uz : Unit01 F32.zero := (unit01_iff _).mp (by decide +kernel)
  have uh : Unit01 half := (unit01_iff _).mp (by decide +kernel)
  refine ⟨F, h1, ?_, ?_, ?_⟩
  · have := h.meets 0 4 c1 F32.zero uz rfl
    rw [v0] at this
    exact this
  · have := h.meets 4 8 c2 half uh rfl
    rw [v4] at this
    exact this
  · have bt : Between anim32.translations.previouses.length time32 track' 0 0 4 quarter :=
      ⟨(le32_val uz.finite quarter_unit.finite).mp (by decide +kernel), .inl ((lt32_val quarter_unit.finite uh.finite).mp (by decide +kernel))⟩
    have := h.rising 0 4 c1 (by rw [v0, v4]; norm_num) quarter quarter quarter_unit quarter_unit bt bt le_rfl
    rw [v0, v4] at this
    norm_num at this ⊢
    exact ⟨this.1, this.2⟩

end

end Ozz.Props
