import Verif.Proofs.Frame
import Verif.Props.FloatRotation

/-! Sampled poses are close to the exact ones. -/

namespace Ozz.Frame

open Spec Sampling Ieee F32 Keys Props

variable {a : Animation F32 Float3Key QuatKey}

theorem around_of_sample {K V : Type} {ch : Chan F32 K} {dec : K → K → K → K → V} {v : Interp F32 V} {i : Nat} {r : F32}
    (htp : ∀ r ∈ a.timepoints, Unit01 r) (hr : Unit01 r)
    (h : ChanSample F32.zero F32.one a.numTracks (4 * ((a.numTracks + 3) / 4)) a.timepoints ch dec i r v) (j : Fin 4) :
    ∃ l k f, KeysAround a ch (4 * i + j) r l k f := by
  obtain ⟨time, pred, track, hch, l, k, -, -, hb, -⟩ := h
  have ht : ∀ k, k < ch.previouses.length → Unit01 (time k) := by
    intro k hkl
    obtain ⟨r, -, h4⟩ := hch.times k hkl
    exact htp _ (List.mem_of_getElem? h4)
  have b := bracket_val hr ht (hb j)
  have hR := keyOrder_real hch.order ht
  have b2 := bracket_right hR b hr.le_one
  exact ⟨l j, k j, _, time, pred, track, hch, bracket_consecutive b, ⟨b.leftLe, b.rightGt.imp id fun h => ⟨b2, h⟩⟩, rfl⟩

theorem around_fraction {K : Type} {ch : Chan F32 K} {t l k : Nat} {r : F32} {f : ℝ} (htp : ∀ r ∈ a.timepoints, Unit01 r)
    (h : KeysAround a ch t r l k f) : 0 ≤ f ∧ f ≤ 1 := by
  obtain ⟨time, pred, track, hch, c, hb, rfl⟩ := h
  have ht : ∀ k, k < ch.previouses.length → Unit01 (time k) := by
    intro k hkl
    obtain ⟨r, -, h4⟩ := hch.times k hkl
    exact htp _ (List.mem_of_getElem? h4)
  exact fraction_mem (consecutive_lt (keyOrder_real hch.order ht) c) hb.1 (hb.2.elim le_of_lt And.left)

theorem around_unique {K : Type} {ch : Chan F32 K} {t l k l' k' : Nat} {r : F32} {f f' : ℝ} (htp : ∀ r ∈ a.timepoints, Unit01 r)
    (h : KeysAround a ch t r l k f) (h' : KeysAround a ch t r l' k' f') : l = l' ∧ k = k' ∧ f = f' := by
  obtain ⟨time, pred, track, hch, c, hb, rfl⟩ := h
  obtain ⟨time', pred', track', hch', c', hb', rfl⟩ := h'
  have ht : ∀ k, k < ch.previouses.length → Unit01 (time k) := by
    intro k hkl
    obtain ⟨r, -, h4⟩ := hch.times k hkl
    exact htp _ (List.mem_of_getElem? h4)
  have hl := lt_trans c.lt c.rightLt
  have hl' := lt_trans c'.lt c'.rightLt
  have htr := chanOk_track hch hch'
  have c2 : Consecutive ch.previouses.length track t l' k' := by
    refine ⟨?_, ?_, c'.lt, c'.rightLt, fun m h1 h2 => ?_⟩
    · rw [htr _ hl']; exact c'.left
    · rw [htr _ c'.rightLt]; exact c'.right
    · rw [htr _ (lt_trans h2 c'.rightLt)]; exact c'.none m h1 h2
  rw [← chanOk_time hch hch' hl', ← chanOk_time hch hch' c'.rightLt]
  have e1 := hb'.1
  have e2 := hb'.2
  rw [← chanOk_time hch hch' hl'] at e1
  rw [← chanOk_time hch hch' c'.rightLt] at e2
  have b : Bracket (4 * ((a.numTracks + 3) / 4)) ch.previouses.length (fun k => val (time k)) track t (val r) l k :=
    ⟨c.left, c.right, c.lt, c.rightLt, c.none, hb.1, hb.2.imp id And.right⟩
  obtain ⟨rfl, rfl⟩ := bracket_between (keyOrder_real hch.order ht) b c2 e1 (e2.imp id fun h m h1 h2 => by
    rw [htr m h2]; exact h.2 m h1 h2)
  exact ⟨rfl, rfl, rfl⟩

theorem mix_bound {p q f M : ℝ} (h0 : 0 ≤ f) (h1 : f ≤ 1) (hp : |p| ≤ M) (hq : |q| ≤ M) : |mix p q f| ≤ M := by
  rw [abs_le] at *
  unfold mix
  constructor <;> nlinarith

theorem half_le {ch : Chan F32 Float3Key} {M : ℝ} (hM : 0 ≤ M) (h : ∀ k ∈ ch.keys, ∀ x, |((value16 (k x) : ℚ) : ℝ)| ≤ M) (x : Fin 3) (m : Nat) :
    |halfValue ch x m| ≤ M := by
  unfold halfValue
  split
  · next key hk => exact h key (List.mem_of_getElem? hk) x
  · simpa using hM

/-- A channel of three components around a ratio. -/
theorem three_close {ch : Chan F32 Float3Key} {t l k : Nat} {r : F32} {f M : ℝ} (htp : ∀ r ∈ a.timepoints, Unit01 r) (hr : Unit01 r)
    (h : KeysAround a ch t r l k f) (hM : ∀ x m, |halfValue ch x m| ≤ M) {g : Fin 3 → F32 → F32}
    (hg : ∀ x time pred track,
      ChanOk F32.zero F32.one a.numTracks (4 * ((a.numTracks + 3) / 4)) a.timepoints ch time pred track →
      FollowsKeys ch.previouses.length time track t (halfValue ch x) (g x)) (x : Fin 3) :
    Finite32 (g x r).bits ∧ |val (g x r) - mix (halfValue ch x l) (halfValue ch x k) f| ≤ M / 2 ^ 20 + 1 / 2 ^ 150 ∧
    |mix (halfValue ch x l) (halfValue ch x k) f| ≤ M ∧
    ∀ s, |halfValue ch x l| ≤ s → |halfValue ch x k| + |halfValue ch x k - halfValue ch x l| / 2 ^ 23 ≤ s → |val (g x r)| ≤ s := by
  have hf := around_fraction htp h
  obtain ⟨time, pred, track, hch, c, hb, rfl⟩ := h
  have F := hg x time pred track hch
  refine ⟨F.finite r hr, F.close l k c r hr hb.1 (hb.2.elim le_of_lt And.left) M (fun m _ _ => hM x m),
    mix_bound hf.1 hf.2 (hM x l) (hM x k), fun s h1 h2 => ?_⟩
  rcases le_total (halfValue ch x l) (halfValue ch x k) with hle | hle
  · obtain ⟨e1, -, e2⟩ := F.rising l k c hle r r hr hr hb hb le_rfl
    rw [abs_of_nonneg (sub_nonneg.mpr hle)] at h2
    rw [abs_le] at h1 ⊢
    have := le_abs_self (halfValue ch x k)
    constructor <;> linarith
  · obtain ⟨e1, -, e2⟩ := F.falling l k c hle r r hr hr hb hb le_rfl
    rw [abs_of_nonpos (sub_nonpos.mpr hle)] at h2
    rw [abs_le] at h1 ⊢
    have := neg_abs_le (halfValue ch x k)
    constructor <;> linarith

/-- The pose of a lane of a block of floats. -/
noncomputable def lanePose (o : SoaTransform F32) (j : Fin 4) : JointPose where
  translation := ⟨0, val (comp3 o.translation j 0), val (comp3 o.translation j 1), val (comp3 o.translation j 2)⟩
  rotation := ⟨val (compQ o.rotation j 3), val (compQ o.rotation j 0), val (compQ o.rotation j 1), val (compQ o.rotation j 2)⟩
  scale := (val (comp3 o.scale j 0), val (comp3 o.scale j 1), val (comp3 o.scale j 2))

/-- The parts of sampled pose `J` are close to those of the exact pose `P`. -/
structure LaneNear (J P : JointPose) (M s : ℝ) : Prop where
  t1 : |J.translation.imI - P.translation.imI| ≤ M / 2 ^ 19 ∧ |P.translation.imI| ≤ M ∧ |J.translation.imI| ≤ 101 / 100 * M
  t2 : |J.translation.imJ - P.translation.imJ| ≤ M / 2 ^ 19 ∧ |P.translation.imJ| ≤ M ∧ |J.translation.imJ| ≤ 101 / 100 * M
  t3 : |J.translation.imK - P.translation.imK| ≤ M / 2 ^ 19 ∧ |P.translation.imK| ≤ M ∧ |J.translation.imK| ≤ 101 / 100 * M
  r0 : |J.rotation.re - P.rotation.re| ≤ 1 / 2 ^ 17
  r1 : |J.rotation.imI - P.rotation.imI| ≤ 1 / 2 ^ 17
  r2 : |J.rotation.imJ - P.rotation.imJ| ≤ 1 / 2 ^ 17
  r3 : |J.rotation.imK - P.rotation.imK| ≤ 1 / 2 ^ 17
  s1 : |J.scale.1 - P.scale.1| ≤ s / 2 ^ 19 ∧ |P.scale.1| ≤ s
  s2 : |J.scale.2.1 - P.scale.2.1| ≤ s / 2 ^ 19 ∧ |P.scale.2.1| ≤ s
  s3 : |J.scale.2.2 - P.scale.2.2| ≤ s / 2 ^ 19 ∧ |P.scale.2.2| ≤ s

theorem unitLine_unit {p q : Fin 4 → ℝ} {f : ℝ} (h : 0 < sumSq (fun x => p x + (q x - p x) * f)) :
    Quaternion.normSq (⟨unitLine p q f 3, unitLine p q f 0, unitLine p q f 1, unitLine p q f 2⟩ : Quaternion ℝ) = 1 := by
  rw [normSq_four]
  unfold unitLine
  unfold sumSq at h
  simp only at h
  set n := (p 0 + (q 0 - p 0) * f) ^ 2 + (p 1 + (q 1 - p 1) * f) ^ 2 + (p 2 + (q 2 - p 2) * f) ^ 2 + (p 3 + (q 3 - p 3) * f) ^ 2 with hn
  simp only [div_pow, Real.sq_sqrt h.le]
  rw [← add_div, ← add_div, ← add_div, ← hn, div_self h.ne']

theorem quat_unit {ch : Chan F32 QuatKey} (hk : ∀ k ∈ ch.keys, dequantised k.unpack.v0.toNat ^ 2 + dequantised k.unpack.v1.toNat ^ 2 +
    dequantised k.unpack.v2.toNat ^ 2 ≤ 1) {m : Nat} (hm : m < ch.keys.length) : |sumSq (quatValue ch m) - 1| ≤ 1 / 2 ^ 20 := by
  have e : ch.keys[m]? = some ch.keys[m] := List.getElem?_eq_getElem hm
  have e2 : quatValue ch m = fun x => val (ch.keys[m].decompress x) := by
    funext x
    simp only [quatValue, e]
  rw [e2]
  exact (decompress32_ok ch.keys[m]).2.2.2.2 (hk _ (List.getElem_mem hm))

/-- Sampling through any context: every lane is close to the exact pose. -/
theorem sampled_lanes {anims : Nat → Option (Animation F32 Float3Key QuatKey)} {n : Nat}
    (hst : StoreOk F32.zero F32.one ((n + 3) / 4) anims) {c : Context F32 (SoaVec3 F32) (SoaQuat F32)}
    (hc : Reached codeNumerics F32.zero F32.one anims n c) {addr : Nat} (ha : anims addr = some a) {M s : ℝ} (hM : 1 / 2 ^ 60 ≤ M)
    (hs : 1 ≤ s) (hok : Animation32Ok a M s)
    (hn : (a.numTracks + 3) / 4 = (n + 3) / 4) {r : F32} (hr : Unit01 r) {out : List (SoaTransform F32)} (hout : (n + 3) / 4 ≤ out.length) :
    ∃ c' out', run codeNumerics a addr r c out = .ok (c', out') ∧ (n + 3) / 4 ≤ out'.length ∧
      ∀ i < (n + 3) / 4, ∀ j : Fin 4, ∃ o P, out'[i]? = some o ∧ ExactPose a (4 * i + j) r P ∧ Joint32Ok o j s (2 * M) (1 / 2 ^ 19) ∧
        PoseClose (lanePose o j) P s (2 * M) (19 / 2 ^ 19) ∧ Quaternion.normSq P.rotation = 1 ∧ P.translation.re = 0 ∧ LaneNear (lanePose o j) P M s := by
  obtain ⟨hr1, hr2⟩ := (unit01_iff r).mpr hr
  obtain ⟨c', out', hrun, hS⟩ := C16_sampling_brackets (N := codeNumerics) f32Order hst hc ha hok.wellFormed hn hr1 hr2 hout
  refine ⟨c', out', hrun, ?_, fun i hi j => ?_⟩
  · by_contra hlt
    obtain ⟨o, ho, -⟩ := hS out'.length (by omega)
    rw [List.getElem?_eq_none le_rfl] at ho
    cases ho
  obtain ⟨o, ho, vt, vr, vs, ht, hrr, hss, -⟩ := hS i hi
  obtain ⟨F, hF, hT⟩ := C62_translation_scale hst ha hok.wellFormed hn hi hok.ratios (fun k hk x => (hok.translations k hk x).1)
    (fun k hk x => (hok.scales k hk x).1)
  obtain ⟨G, hG, hQ⟩ := C63_rotation hst ha hok.wellFormed hn hi hok.ratios hok.rotations
  have eF : o = F r := by
    obtain ⟨c2, out2, h1, h2⟩ := hF r hr1 hr2 c hc out hout
    rw [hrun] at h1
    cases h1
    rw [ho] at h2
    exact Option.some.inj h2
  have eG : o = G r := by
    obtain ⟨c2, out2, h1, h2⟩ := hG r hr1 hr2 c hc out hout
    rw [hrun] at h1
    cases h1
    rw [ho] at h2
    exact Option.some.inj h2
  obtain ⟨lt, kt, ft, at'⟩ := around_of_sample hok.ratios hr ht j
  obtain ⟨lr, kr, fr, ar⟩ := around_of_sample hok.ratios hr hrr j
  obtain ⟨ls, ks, fs, as⟩ := around_of_sample hok.ratios hr hss j
  have M0 : 0 < M := lt_of_lt_of_le (by positivity) hM
  have s0 : 0 < s := by linarith
  have T := three_close hok.ratios hr at' (half_le M0.le fun k hk x => (hok.translations k hk x).2)
    (g := fun x r => comp3 (F r).translation j x) (fun x time pred track h => (hT j x time pred track).1 h)
  have bS := half_le (ch := a.scales) s0.le fun k hk x => (hok.scales k hk x).2
  have S := three_close hok.ratios hr as bS (g := fun x r => comp3 (F r).scale j x) (fun x time pred track h => (hT j x time pred track).2 h)
  have hpass : ∀ x, |val (comp3 (F r).scale j x)| ≤ s := by
    intro x
    refine (S x).2.2.2 s (bS x ls) ?_
    obtain ⟨time, pred, track, hch, hcons, -⟩ := as
    exact hok.scalesPass _ ls ks ⟨time, pred, track, hch, hcons⟩ x
  have fq := around_fraction hok.ratios ar
  have hQ' : (∀ x, Finite32 (compQ (G r).rotation j x).bits) ∧
      |val (compQ (G r).rotation j 0) ^ 2 + val (compQ (G r).rotation j 1) ^ 2 + val (compQ (G r).rotation j 2) ^ 2 +
        val (compQ (G r).rotation j 3) ^ 2 - 1| ≤ 1 / 2 ^ 19 ∧
      (∀ x, |val (compQ (G r).rotation j x) - unitLine (quatValue a.rotations lr) (quatValue a.rotations kr) fr x| ≤ 1 / 2 ^ 17) ∧
      0 < sumSq (fun x => quatValue a.rotations lr x + (quatValue a.rotations kr x - quatValue a.rotations lr x) * fr) := by
    obtain ⟨time, pred, track, hch, hcons, hb, rfl⟩ := ar
    obtain ⟨q1, q2, q3⟩ := hQ j time pred track hch (fun l k h => hok.near _ l k ⟨time, pred, track, hch, h⟩) r hr
    refine ⟨q1, q2, q3 lr kr hcons hb, ?_⟩
    have hk := hcons.rightLt
    have hl := lt_trans hcons.lt hk
    rw [← hch.keysLen] at hk hl
    have := (chord_norm (quatValue a.rotations lr) (quatValue a.rotations kr) fq.1 fq.2 (quat_unit hok.rotations hl)
      (quat_unit hok.rotations hk) (hok.near _ lr kr ⟨time, pred, track, hch, hcons⟩)).1
    refine lt_of_lt_of_le ?_ this
    norm_num
  rw [← eG] at hQ'
  rw [← eF] at hpass
  simp only [← eF] at T S
  obtain ⟨Q1, Q2, Q3, Q4⟩ := hQ'
  have h150 : (1 : ℝ) / 2 ^ 150 ≤ 1 / 2 ^ 60 / 2 ^ 20 := by norm_num
  have eM : M / 2 ^ 20 + 1 / 2 ^ 150 ≤ M / 2 ^ 19 := by
    have := div_le_div_of_nonneg_right hM (show (0:ℝ) ≤ 2 ^ 20 by positivity)
    have e : M / 2 ^ 19 = M / 2 ^ 20 + M / 2 ^ 20 := by ring
    linarith
  have es : s / 2 ^ 20 + 1 / 2 ^ 150 ≤ s / 2 ^ 19 := by
    have : (1:ℝ) / 2 ^ 60 / 2 ^ 20 ≤ s / 2 ^ 20 := div_le_div_of_nonneg_right (le_trans (by norm_num) hs) (by positivity)
    have e : s / 2 ^ 19 = s / 2 ^ 20 + s / 2 ^ 20 := by ring
    linarith
  have hu := unitLine_unit Q4
  have ht : ∀ x, |val (comp3 o.translation j x)| ≤ 101 / 100 * M := by
    intro x
    have h1 := (T x).2.1.trans eM
    have h2 := (T x).2.2.1
    have h3 := abs_sub_abs_le_abs_sub (val (comp3 o.translation j x)) (mix (halfValue a.translations x lt) (halfValue a.translations x kt) ft)
    norm_num at *
    linarith
  refine ⟨o, ⟨⟨0, mix (halfValue a.translations 0 lt) (halfValue a.translations 0 kt) ft,
      mix (halfValue a.translations 1 lt) (halfValue a.translations 1 kt) ft,
      mix (halfValue a.translations 2 lt) (halfValue a.translations 2 kt) ft⟩,
    ⟨unitLine (quatValue a.rotations lr) (quatValue a.rotations kr) fr 3, unitLine (quatValue a.rotations lr) (quatValue a.rotations kr) fr 0,
      unitLine (quatValue a.rotations lr) (quatValue a.rotations kr) fr 1, unitLine (quatValue a.rotations lr) (quatValue a.rotations kr) fr 2⟩,
    (mix (halfValue a.scales 0 ls) (halfValue a.scales 0 ks) fs, mix (halfValue a.scales 1 ls) (halfValue a.scales 1 ks) fs,
      mix (halfValue a.scales 2 ls) (halfValue a.scales 2 ks) fs)⟩, ho, ⟨⟨lt, kt, ft, at', rfl⟩, ⟨lr, kr, fr, ar, rfl⟩, ⟨ls, ks, fs, as, rfl⟩⟩,
    ⟨⟨(T 0).1, (T 1).1, (T 2).1⟩, ⟨Q1 0, Q1 1, Q1 2, Q1 3⟩, ⟨(S 0).1, (S 1).1, (S 2).1⟩, ?_, Q2, ⟨hpass 0, hpass 1, hpass 2⟩⟩, ?_, hu, rfl,
    ⟨⟨(T 0).2.1.trans eM, (T 0).2.2.1, ht 0⟩, ⟨(T 1).2.1.trans eM, (T 1).2.2.1, ht 1⟩, ⟨(T 2).2.1.trans eM, (T 2).2.2.1, ht 2⟩,
      Q3 3, Q3 0, Q3 1, Q3 2, ⟨(S 0).2.1.trans es, (S 0).2.2.1⟩, ⟨(S 1).2.1.trans es, (S 1).2.2.1⟩, ⟨(S 2).2.1.trans es, (S 2).2.2.1⟩⟩⟩
  · refine (len_le_three (ht 0) (ht 1) (ht 2)).trans ?_
    linarith
  · refine poseClose (M := M) hs le_rfl ?_ hu (Q3 3) (Q3 0) (Q3 1) (Q3 2) ((S 0).2.1.trans es) ((S 1).2.1.trans es) ((S 2).2.1.trans es)
      (hpass 0) (hpass 1) (hpass 2) (S 0).2.2.1 (S 1).2.2.1 (S 2).2.2.1 rfl rfl ((T 0).2.1.trans eM) ((T 1).2.1.trans eM)
      ((T 2).2.1.trans eM) (T 0).2.2.1 (T 1).2.2.1 (T 2).2.2.1
    simp only [lanePose]
    rw [normSq_four]
    exact Q2

/-- Sampling through any context: every lane is close to the exact pose. -/
theorem sampled_close {anims : Nat → Option (Animation F32 Float3Key QuatKey)} {n : Nat}
    (hst : StoreOk F32.zero F32.one ((n + 3) / 4) anims) {c : Context F32 (SoaVec3 F32) (SoaQuat F32)}
    (hc : Reached codeNumerics F32.zero F32.one anims n c) {addr : Nat} (ha : anims addr = some a) {M s : ℝ} (hM : 1 / 2 ^ 60 ≤ M)
    (hs : 1 ≤ s) (hok : Animation32Ok a M s)
    (hn : (a.numTracks + 3) / 4 = (n + 3) / 4) {r : F32} (hr : Unit01 r) {out : List (SoaTransform F32)} (hout : (n + 3) / 4 ≤ out.length) :
    ∃ c' out', run codeNumerics a addr r c out = .ok (c', out') ∧ (n + 3) / 4 ≤ out'.length ∧
      ∀ i < (n + 3) / 4, ∀ j : Fin 4, ∃ o P, out'[i]? = some o ∧ ExactPose a (4 * i + j) r P ∧ Joint32Ok o j s (2 * M) (1 / 2 ^ 19) ∧
        PoseClose (lanePose o j) P s (2 * M) (19 / 2 ^ 19) ∧ Quaternion.normSq P.rotation = 1 ∧ P.translation.re = 0 := by
  obtain ⟨c', out', h1, h2, h3⟩ := sampled_lanes hst hc ha hM hs hok hn hr hout
  refine ⟨c', out', h1, h2, fun i hi j => ?_⟩
  obtain ⟨o, P, e1, e2, e3, e4, e5, e6, -⟩ := h3 i hi j
  exact ⟨o, P, e1, e2, e3, e4, e5, e6⟩

end Ozz.Frame
