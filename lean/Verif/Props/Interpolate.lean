import Verif.Proofs.Interpolate
import Verif.Proofs.Poses
import Mathlib.Data.Rat.Cast.Order
import Mathlib.Tactic.LinearCombination
import Mathlib.Tactic.Linarith
import Mathlib.Tactic.FieldSimp
import Mathlib.Tactic.NormNum

/-! C23: what a sampled pose is between the keys, over the real numbers. -/

namespace Ozz.Props

open Sampling Spec

variable {K3 KQ : Type}

/-- C23, translations and scales: through any context, every component of every track follows the curve through its keys:
continuous, equal to the key values at key times, between neighbouring key values (on a straight line) elsewhere. -/
theorem C23_translation_scale (v3 : K3 → Fin 3 → ℝ) (vq : KQ → Fin 4 → ℝ) {lo hi : ℝ} {anims : Nat → Option (Animation ℝ K3 KQ)}
    {n : Nat} (hst : StoreOk lo hi ((n + 3) / 4) anims) {addr : Nat} {a : Animation ℝ K3 KQ} (ha : anims addr = some a)
    (hwf : WellFormed lo hi a) (hn : (a.numTracks + 3) / 4 = (n + 3) / 4) {i : Nat} (hi' : i < (n + 3) / 4) :
    ∃ F, Poses (jobNumerics v3 vq) lo hi anims n addr a i F ∧ ∀ (j : Fin 4) (x : Fin 3) (time : Nat → ℝ) (pred track : Nat → Nat),
      (ChanOk lo hi a.numTracks (4 * ((a.numTracks + 3) / 4)) a.timepoints a.translations time pred track →
        CurveThrough lo hi a.translations.previouses.length time track (4 * i + j) (keyValue a.translations v3 x)
          (fun r => comp3 (F r).translation j x)) ∧
      (ChanOk lo hi a.numTracks (4 * ((a.numTracks + 3) / 4)) a.timepoints a.scales time pred track →
        CurveThrough lo hi a.scales.previouses.length time track (4 * i + j) (keyValue a.scales v3 x)
          (fun r => comp3 (F r).scale j x)) := by
  obtain ⟨F, h1, h2⟩ := poses_exist (N := jobNumerics v3 vq) realOrder hst ha hwf hn hi' ⟨0, 0, 0⟩ ⟨0, 0, 0, 0⟩ ⟨⟨0, 0, 0⟩, ⟨0, 0, 0, 0⟩, ⟨0, 0, 0⟩⟩
  refine ⟨F, h1, fun j x time pred track => ⟨fun hch => ?_, fun hch => ?_⟩⟩
  · refine curve_of_brackets hch.order _ _ fun r hr1 hr2 => ?_
    obtain ⟨vt, _, _, ⟨_, _, _, hc', hb⟩, -, -, hF⟩ := h2 r hr1 hr2
    obtain ⟨l, k, hb', hv⟩ := lerp_comp (soaBracket_congr hc' hch hb) j x
    refine ⟨l, k, hb', ?_⟩
    rw [hF]
    exact hv
  · refine curve_of_brackets hch.order _ _ fun r hr1 hr2 => ?_
    obtain ⟨_, _, vs, -, -, ⟨_, _, _, hc', hb⟩, hF⟩ := h2 r hr1 hr2
    obtain ⟨l, k, hb', hv⟩ := lerp_comp (soaBracket_congr hc' hch hb) j x
    refine ⟨l, k, hb', ?_⟩
    rw [hF]
    exact hv

/-- The line between two unit quaternions that are not opposite does not meet zero. -/
private theorem line_ne_zero (p q : Fin 4 → ℝ) (f : ℝ) (hp : p 0 ^ 2 + p 1 ^ 2 + p 2 ^ 2 + p 3 ^ 2 = 1)
    (hq : q 0 ^ 2 + q 1 ^ 2 + q 2 ^ 2 + q 3 ^ 2 = 1) (hne : ∃ x, q x ≠ -p x)
    (h0 : ∀ x, (q x - p x) * f + p x = 0) : False := by
  have hx : ∀ x, f * q x = -((1 - f) * p x) := fun x => by linear_combination h0 x
  have hsq : f ^ 2 = (1 - f) ^ 2 := by
    have e : ∀ x, f ^ 2 * q x ^ 2 = (1 - f) ^ 2 * p x ^ 2 := fun x => by
      linear_combination (f * q x - (1 - f) * p x) * hx x
    linear_combination e 0 + e 1 + e 2 + e 3 - f ^ 2 * hq + (1 - f) ^ 2 * hp
  have hf : f = 1 / 2 := by linear_combination hsq / 2
  obtain ⟨x, hx'⟩ := hne
  apply hx'
  have := hx x
  rw [hf] at this
  linarith

/-- C23, rotations: if the keys are unit quaternions (C12) and no two neighbouring keys of the track are opposite, the sampled
rotation is unit, continuous in the ratio and equal to the keys at key times. Missing: opposite neighbouring keys, where it is
false (`C23_opposite_keys`). -/
theorem C23_rotation_partial (v3 : K3 → Fin 3 → ℝ) (vq : KQ → Fin 4 → ℝ) {lo hi : ℝ} {anims : Nat → Option (Animation ℝ K3 KQ)}
    {n : Nat} (hst : StoreOk lo hi ((n + 3) / 4) anims) {addr : Nat} {a : Animation ℝ K3 KQ} (ha : anims addr = some a)
    (hwf : WellFormed lo hi a) (hn : (a.numTracks + 3) / 4 = (n + 3) / 4) {i : Nat} (hi' : i < (n + 3) / 4)
    (hunit : ∀ k ∈ a.rotations.keys, vq k 0 ^ 2 + vq k 1 ^ 2 + vq k 2 ^ 2 + vq k 3 ^ 2 = 1) :
    ∃ F, Poses (jobNumerics v3 vq) lo hi anims n addr a i F ∧ ∀ (j : Fin 4) (time : Nat → ℝ) (pred track : Nat → Nat),
      ChanOk lo hi a.numTracks (4 * ((a.numTracks + 3) / 4)) a.timepoints a.rotations time pred track →
      (∀ l k, Consecutive a.rotations.previouses.length track (4 * i + j) l k →
        ∃ x, keyValue a.rotations vq x k ≠ -keyValue a.rotations vq x l) →
      (∀ r, lo ≤ r → r ≤ hi → compQ (F r).rotation j 0 ^ 2 + compQ (F r).rotation j 1 ^ 2 + compQ (F r).rotation j 2 ^ 2 +
        compQ (F r).rotation j 3 ^ 2 = 1) ∧
      ∀ x, ContinuousOn (fun r => compQ (F r).rotation j x) (Set.Icc lo hi) ∧
        ∀ k, k < a.rotations.previouses.length → track k = 4 * i + j → lo ≤ time k → time k ≤ hi →
          compQ (F (time k)).rotation j x = keyValue a.rotations vq x k := by
  classical
  obtain ⟨F, h1, h2⟩ := poses_exist (N := jobNumerics v3 vq) realOrder hst ha hwf hn hi' ⟨0, 0, 0⟩ ⟨0, 0, 0, 0⟩ ⟨⟨0, 0, 0⟩, ⟨0, 0, 0, 0⟩, ⟨0, 0, 0⟩⟩
  refine ⟨F, h1, fun j time pred track hch hopp => ?_⟩
  have hku : ∀ k, k < a.rotations.previouses.length → keyValue a.rotations vq 0 k ^ 2 + keyValue a.rotations vq 1 k ^ 2 +
      keyValue a.rotations vq 2 k ^ 2 + keyValue a.rotations vq 3 k ^ 2 = 1 := by
    intro k hk
    have hlt : k < a.rotations.keys.length := by rw [hch.keysLen]; exact hk
    have : a.rotations.keys[k]? = some a.rotations.keys[k] := List.getElem?_eq_getElem hlt
    simp only [keyValue, this]
    exact hunit _ (List.getElem_mem hlt)
  -- the quaternion before normalisation
  have hG : ∀ r, ∃ G : Fin 4 → ℝ, lo ≤ r → r ≤ hi → (∃ l k, Bracket (4 * ((a.numTracks + 3) / 4)) a.rotations.previouses.length
      time track (4 * i + j) r l k ∧ ∀ x, G x = line (time l) (time k) (keyValue a.rotations vq x l) (keyValue a.rotations vq x k) r) ∧
      ∀ x, compQ (F r).rotation j x = G x * (1 / √(G 0 * G 0 + G 1 * G 1 + G 2 * G 2 + G 3 * G 3)) := by
    intro r
    by_cases hr : lo ≤ r ∧ r ≤ hi
    · obtain ⟨_, vr, _, -, ⟨_, _, _, hc', hb⟩, -, hF⟩ := h2 r hr.1 hr.2
      obtain ⟨l, k, hb', hv⟩ := lerpQ_comp (soaBracket_congr hc' hch hb) j
      refine ⟨_, fun _ _ => ⟨⟨l, k, hb', hv⟩, fun x => ?_⟩⟩
      rw [hF]
      exact nlerp_comp _ _ _ j x
    · exact ⟨0, fun h h' => absurd ⟨h, h'⟩ hr⟩
  choose G hG using hG
  have hcurve : ∀ x, CurveThrough lo hi a.rotations.previouses.length time track (4 * i + j) (keyValue a.rotations vq x)
      (fun r => G r x) := by
    intro x
    refine curve_of_brackets hch.order _ _ fun r hr1 hr2 => ?_
    obtain ⟨⟨l, k, hb, hv⟩, -⟩ := hG r hr1 hr2
    exact ⟨l, k, hb, hv x⟩
  have hpos : ∀ r, lo ≤ r → r ≤ hi → 0 < G r 0 * G r 0 + G r 1 * G r 1 + G r 2 * G r 2 + G r 3 * G r 3 := by
    intro r hr1 hr2
    obtain ⟨⟨l, k, hb, hv⟩, -⟩ := hG r hr1 hr2
    have c := bracket_consecutive hb
    by_contra hle
    have hz : ∀ x, G r x = 0 := by
      have s := fun x => mul_self_nonneg (G r x)
      have e : ∀ x, G r x * G r x = 0 := four (by linarith [s 0, s 1, s 2, s 3]) (by linarith [s 0, s 1, s 2, s 3])
        (by linarith [s 0, s 1, s 2, s 3]) (by linarith [s 0, s 1, s 2, s 3])
      exact fun x => mul_self_eq_zero.mp (e x)
    refine line_ne_zero (fun x => keyValue a.rotations vq x l) (fun x => keyValue a.rotations vq x k)
      ((r - time l) / (time k - time l)) (hku l (by have := c.lt; have := c.rightLt; omega)) (hku k c.rightLt) (hopp l k c) ?_
    intro x
    have := hv x
    rw [hz x] at this
    exact this.symm
  refine ⟨?_, fun x => ⟨?_, ?_⟩⟩
  · intro r hr1 hr2
    have hp := hpos r hr1 hr2
    obtain ⟨-, hv⟩ := hG r hr1 hr2
    simp only [hv]
    have hs := Real.mul_self_sqrt hp.le
    have hs0 := (Real.sqrt_pos.mpr hp).ne'
    generalize √(G r 0 * G r 0 + G r 1 * G r 1 + G r 2 * G r 2 + G r 3 * G r 3) = s at hs hs0
    field_simp
    linear_combination -hs
  · have hc := fun x => (hcurve x).continuous
    have hn : ContinuousOn (fun r => G r x * (1 / √(G r 0 * G r 0 + G r 1 * G r 1 + G r 2 * G r 2 + G r 3 * G r 3)))
        (Set.Icc lo hi) := by
      refine (hc x).mul (continuousOn_const.div ?_ ?_)
      · refine Real.continuous_sqrt.comp_continuousOn ?_
        exact ((((hc 0).mul (hc 0)).add ((hc 1).mul (hc 1))).add ((hc 2).mul (hc 2))).add ((hc 3).mul (hc 3))
      · rintro r ⟨hr1, hr2⟩
        exact (Real.sqrt_pos.mpr (hpos r hr1 hr2)).ne'
    refine hn.congr ?_
    rintro r ⟨hr1, hr2⟩
    exact (hG r hr1 hr2).2 x
  · intro k hk htk hr1 hr2
    obtain ⟨-, hv⟩ := hG (time k) hr1 hr2
    have hm : ∀ x, G (time k) x = keyValue a.rotations vq x k := fun x => (hcurve x).meets k hk htk hr1 hr2
    rw [hv x]
    simp only [hm]
    have := hku k hk
    rw [show keyValue a.rotations vq 0 k * keyValue a.rotations vq 0 k + keyValue a.rotations vq 1 k * keyValue a.rotations vq 1 k +
      keyValue a.rotations vq 2 k * keyValue a.rotations vq 2 k + keyValue a.rotations vq 3 k * keyValue a.rotations vq 3 k = 1 by
        linear_combination this]
    simp

/-- C23 is false for opposite neighbouring keys: in single precision, halfway between the identity and its opposite the rotation
is not a number. -/
theorem C23_opposite_keys :
    let one : F32 := NumOps.one
    let zero : F32 := NumOps.zero
    let q : SoaQuat F32 := ⟨splat zero, splat zero, splat zero, splat one⟩
    let q' : SoaQuat F32 := ⟨splat zero, splat zero, splat zero, splat (-one)⟩
    ∀ j, (SoaQuat.nlerp q q' (splat NumOps.half)).w j = F32.nan := by
  decide +kernel

/-! ### Example -/

section
open Ozz.Sampling.Example

/-- Key `k` has the value `k`. -/
private def exV3 (k : Nat) (_ : Fin 3) : ℝ := k

/-- The keys of track 0 turn; the other keys are the identity. -/
private noncomputable def exVq (k : Nat) : Fin 4 → ℝ :=
  if k = 4 then f4 (3 / 5) 0 0 (4 / 5) else if k = 8 then f4 0 0 (4 / 5) (3 / 5) else f4 0 0 0 1

/-- `chan'` with real ratios. -/
private noncomputable def realChan : Chan ℝ Nat where
  keys := [0, 1, 2, 3, 4, 5, 6, 7, 8]
  ratios := [0, 0, 0, 0, 1, 2, 2, 2, 2]
  previouses := [0, 0, 0, 0, 4, 4, 4, 4, 4]
  iframeEntries := []
  iframeDesc := []
  iframeInterval := 1
  after := fun _ => 0

private noncomputable def realAnim : Animation ℝ Nat Nat where
  numTracks := 2
  timepoints := [0, 1 / 2, 1]
  translations := realChan
  rotations := realChan
  scales := realChan

private noncomputable def realTime (k : Nat) : ℝ := ((time' k : Rat) : ℝ)

private theorem realChanOk : ChanOk (0 : ℝ) 1 2 4 [0, 1 / 2, 1] realChan realTime pred' track' where
  order :=
    { realLe := order'.realLe
      two := order'.two
      first := order'.first
      second := order'.second
      later := order'.later
      predLt := order'.predLt
      predTrack := order'.predTrack
      predLast := order'.predLast
      start := fun i hi => by unfold realTime; exact_mod_cast (order'.start i hi : time' i ≤ 0)
      increasing := fun k h1 h2 => by unfold realTime; exact_mod_cast (order'.increasing k h1 h2 : time' (pred' k) < time' k)
      sorted := fun k k' h1 h2 h3 => by unfold realTime; exact_mod_cast (order'.sorted k k' h1 h2 h3 : time' (pred' k) ≤ time' (pred' k'))
      finish := fun k h1 h2 h3 => by unfold realTime; exact_mod_cast (order'.finish k h1 h2 h3 : (1 : Rat) ≤ time' k) }
  small := by decide
  ratiosLen := rfl
  keysLen := rfl
  times := fun k hk => by
    refine ⟨realChan.ratios.getD k 0,
      (by decide +kernel : ∀ k, k < 9 → [0, 0, 0, 0, 1, 2, 2, 2, 2][k]? = some ([0, 0, 0, 0, 1, 2, 2, 2, 2].getD k 0)) k hk, ?_⟩
    have h := (by decide +kernel : ∀ k, k < 9 → [(0 : Rat), 1/2, 1][chan'.ratios.getD k 0]? = some (time' k)) k hk
    have e : [(0 : ℝ), 1 / 2, 1] = List.map (fun x : Rat => (x : ℝ)) [(0 : Rat), 1/2, 1] := by simp
    rw [e, List.getElem?_map]
    exact congrArg (Option.map _) h
  prevs := chanOk'.prevs
  iframes := ⟨fun h => absurd rfl h, fun f hf => by simp [realChan] at hf⟩

private theorem realWell : WellFormed (0 : ℝ) 1 realAnim := ⟨⟨_, _, _, realChanOk⟩, ⟨_, _, _, realChanOk⟩, ⟨_, _, _, realChanOk⟩⟩

private noncomputable def realStore (addr : Nat) : Option (Animation ℝ Nat Nat) := if addr = 100 then some realAnim else none

private theorem realStoreOk : StoreOk (0 : ℝ) 1 ((2 + 3) / 4) realStore := by
  refine ⟨by simp [realStore], fun addr a h => Or.inr (Or.inr ?_)⟩
  simp only [realStore] at h
  split at h
  · cases h; exact ⟨rfl, realWell⟩
  · cases h

/-- A quarter of the way through, the translation of track 0 is halfway between its keys 0 and 4. -/
example : ∃ F, Poses (jobNumerics exV3 exVq) 0 1 realStore 2 100 realAnim 0 F ∧ comp3 (F (1 / 4)).translation 0 1 = 2 := by
  obtain ⟨F, h1, h2⟩ := C23_translation_scale exV3 exVq realStoreOk (addr := 100) (by simp [realStore]) realWell rfl (i := 0)
    (by decide)
  refine ⟨F, h1, ?_⟩
  have h := ((h2 0 1 realTime pred' track').1 realChanOk).straight 0 4
    ⟨rfl, rfl, by decide, by decide, fun m a b => (by decide : ∀ m, m < 4 → 0 < m → track' m ≠ 0) m b a⟩ (1 / 4) (by norm_num)
    (by norm_num) (by norm_num [realTime, time']) (by norm_num [realTime, time'])
  norm_num [realTime, time', keyValue, realAnim, realChan, exV3] at h
  linarith

private theorem keyW (k : Nat) (hk : k < 9) : 0 < keyValue realAnim.rotations exVq 3 k := by
  have : k = 0 ∨ k = 1 ∨ k = 2 ∨ k = 3 ∨ k = 4 ∨ k = 5 ∨ k = 6 ∨ k = 7 ∨ k = 8 := by omega
  rcases this with rfl | rfl | rfl | rfl | rfl | rfl | rfl | rfl | rfl <;>
    norm_num [keyValue, realAnim, realChan, exVq, f4]

/-- The rotation of track 0 is unit a third of the way through. -/
example : ∃ F, Poses (jobNumerics exV3 exVq) 0 1 realStore 2 100 realAnim 0 F ∧
    compQ (F (1 / 3)).rotation 0 0 ^ 2 + compQ (F (1 / 3)).rotation 0 1 ^ 2 + compQ (F (1 / 3)).rotation 0 2 ^ 2 +
      compQ (F (1 / 3)).rotation 0 3 ^ 2 = 1 := by
  obtain ⟨F, h1, h2⟩ := C23_rotation_partial exV3 exVq realStoreOk (addr := 100) (by simp [realStore]) realWell rfl (i := 0)
    (by decide) (by
      intro k _
      simp only [exVq]
      split
      · norm_num [f4]
      · split <;> norm_num [f4])
  refine ⟨F, h1, (h2 0 realTime pred' track' realChanOk ?_).1 (1 / 3) (by norm_num) (by norm_num)⟩
  intro l k c
  have hk : k < 9 := c.rightLt
  refine ⟨3, ?_⟩
  have := keyW k hk
  have := keyW l (by have := c.lt; omega)
  linarith

end

end Ozz.Props
