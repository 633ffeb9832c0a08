import Verif.Proofs.FloatTrackLerp

/-! Vector and quaternion tracks in single precision: C89. -/

namespace Ozz.Props

open Ozz.Spec Ozz.Ieee Ozz.F32 Ozz.TrackSampling Ozz.Blending Ozz.MotionBlending

/-- C89. Both of glam's formulas for mixing two floats are accurate; the sign test may be by comparison or by the sign bit. -/
theorem C89_glam : AccurateMix mixDiff ∧ AccurateMix mixSum ∧ TellsSign (fun x => decide (x < (0 : F32))) ∧
    TellsSign F32.negative := by
  refine ⟨mixDiff_accurate, mixSum_accurate, fun x hx => ?_, fun x hx => ?_⟩
  · have : (x < (0 : F32)) ↔ val x < 0 := by rw [Sampling.lt32_val (y := (0 : F32)) hx zero_finite, Triggering.val_zero32]
    simp only [decide_eq_false_iff_not, decide_eq_true_eq, this]
    exact ⟨fun h => not_lt.2 h.le, id⟩
  · have m : 0 ≤ (x.mag : ℝ) / 2 ^ 149 := by positivity
    rw [val_signed]
    cases x.negative <;> simp <;> linarith

/-- C89. Sampling a track of vectors in single precision, at any finite ratio: the job succeeds, every component is a number,
and it differs from that of the real track at that ratio by at most a part in 2^20 of the largest component of a key. -/
theorem C89_vectors {mix : F32 → F32 → F32 → F32} (hm : AccurateMix mix) {d : Nat} {t : Track F32 (Fin d → F32)} (h : Ratios32Ok t)
    {x : F32} (hx : Finite32 x.bits) {M : ℝ} (hM0 : 0 ≤ M) (hM : M ≤ 2 ^ 126)
    (hv : ∀ v ∈ t.values, ∀ c, Finite32 (v c).bits ∧ |val (v c)| ≤ M) :
    ∃ (v : Fin d → F32) (w : Fin d → ℝ), run (vecOps mix d) (some t) x = .ok v ∧
      IsSample 0 (fun a b s => a + s • (b - a)) (realVecs t) (val x) w ∧
      ∀ c, Finite32 (v c).bits ∧ |val (v c) - w c| ≤ M / 2 ^ 20 + 1 / 2 ^ 148 :=
  vectors_near hm h hx hM0 hM hv

/-- C89. At the ratio of a key the vector is exactly the key's. -/
theorem C89_vectors_at_key {mix : F32 → F32 → F32 → F32} (hm : AccurateMix mix) {d : Nat} {t : Track F32 (Fin d → F32)}
    (h : Ratios32Ok t) {x : F32} (hx : Finite32 x.bits) (hv : ∀ v ∈ t.values, ∀ c, Finite32 (v c).bits ∧ |val (v c)| ≤ 2 ^ 126)
    {i : Nat} {r : F32} {v : Fin d → F32} (hr : t.ratios[i]? = some r) (hvi : t.values[i]? = some v) (e : val x = val r) :
    ∃ v', run (vecOps mix d) (some t) x = .ok v' ∧ ∀ c, val (v' c) = val (v c) :=
  vectors_at_key hm h hx hv hr hvi e

/-- C89. Sampling a track of rotations in single precision, at any finite ratio: the job succeeds, the components are numbers,
the squared norm is as close to one as that of the keys or 2^-19, and the rotation is within 2^-17 of the real track's,
interpolated along the shorter way (either way if the keys are at right angles up to 2^-21). Keys may be opposite. -/
theorem C89_rotation {mix : F32 → F32 → F32 → F32} (hm : AccurateMix mix) {g : Glam F32} (hg : Accurate g) {flip : F32 → Bool}
    (hf : TellsSign flip) {t : Track F32 (F4 F32)} (h : Ratios32Ok t) {x : F32} (hx : Finite32 x.bits) {κ : ℝ} (hκ : κ ≤ 1 / 2 ^ 10)
    (hv : ∀ q ∈ t.values, (∀ c, Finite32 (q c).bits) ∧ |norm2 (fun c => val (q c)) - 1| ≤ κ) :
    ∃ (q : F4 F32) (w : F4 ℝ) (L : F4 ℝ → F4 ℝ → ℝ → F4 ℝ), run (quatOps g flip mix) (some t) x = .ok q ∧ ShortWay (1 / 2 ^ 21) L ∧
      IsSample (f4 0 0 0 1) L (realVecs t) (val x) w ∧ |norm2 (fun c => val (q c)) - 1| ≤ max κ (1 / 2 ^ 19) ∧
      ∀ c, Finite32 (q c).bits ∧ |val (q c) - w c| ≤ 1 / 2 ^ 17 :=
  rotations_near hm hg hf h hx hκ hv

/-- C89. If no two consecutive keys are nearly at right angles, the way is the one the dot product gives. -/
theorem C89_rotation_exact {mix : F32 → F32 → F32 → F32} (hm : AccurateMix mix) {g : Glam F32} (hg : Accurate g) {flip : F32 → Bool}
    (hf : TellsSign flip) {t : Track F32 (F4 F32)} (h : Ratios32Ok t) {x : F32} (hx : Finite32 x.bits)
    (hv : ∀ q ∈ t.values, (∀ c, Finite32 (q c).bits) ∧ |norm2 (fun c => val (q c)) - 1| ≤ 1 / 2 ^ 10)
    (hc : ∀ (i : Nat) (a b : F4 F32), t.values[i]? = some a → t.values[i + 1]? = some b →
      1 / 2 ^ 21 < |dot4 (fun c => val (a c)) (fun c => val (b c))|) :
    ∃ (q : F4 F32) (w : F4 ℝ), run (quatOps g flip mix) (some t) x = .ok q ∧
      IsSample (f4 0 0 0 1) nlerpShort (realVecs t) (val x) w ∧ ∀ c, Finite32 (q c).bits ∧ |val (q c) - w c| ≤ 1 / 2 ^ 17 := by
  obtain ⟨q, w, L, h1, h2, h3, -, h5⟩ := rotations_near hm hg hf h hx le_rfl hv
  refine ⟨q, w, h1, sample_clear h2 (by norm_num) ?_ h3, h5⟩
  intro i a b ha hb
  simp only [realVecs, List.getElem?_map, Option.map_eq_some_iff] at ha hb
  obtain ⟨a', ha', rfl⟩ := ha
  obtain ⟨b', hb', rfl⟩ := hb
  exact hc i a' b' ha' hb'

/-! ### Examples -/

private def g0 : F32 := ⟨0x00000000⟩
private def gh : F32 := ⟨0x3f000000⟩
private def g1 : F32 := ⟨0x3f800000⟩
private def gm : F32 := ⟨0xbf800000⟩
private def g3 : F32 := ⟨0x40400000⟩

private theorem gvals : val g0 = 0 ∧ val gh = 1 / 2 ∧ val g1 = 1 ∧ val gm = -1 ∧ val g3 = 3 := by
  have h0 : value32 0 = 0 := by decide +kernel
  have hh : value32 0x3f000000 = 1 / 2 := by decide +kernel
  have h1 : value32 0x3f800000 = 1 := by decide +kernel
  have h2 : value32 0xbf800000 = -1 := by decide +kernel
  have h3 : value32 0x40400000 = 3 := by decide +kernel
  refine ⟨?_, ?_, ?_, ?_, ?_⟩ <;> simp only [val, real, g0, gh, g1, gm, g3, h0, hh, h1, h2, h3] <;> norm_num

private theorem keys_ok {V : Type} (a b : V) (n : List UInt8) : Ratios32Ok (⟨2, [g0, g1], [a, b], [0], n⟩ : Track F32 V) := by
  obtain ⟨z, -, o, -, -⟩ := gvals
  refine ⟨rfl, rfl, by simp, ?_, ?_, ?_⟩
  · simp only [List.pairwise_cons, List.mem_singleton, forall_eq, List.not_mem_nil, false_imp_iff, implies_true, List.Pairwise.nil, and_true, z, o]
    norm_num
  · intro r hr
    simp only [List.mem_cons, List.not_mem_nil, or_false] at hr
    rcases hr with rfl | rfl
    · exact ⟨by decide +kernel, by rw [z], by rw [z]; norm_num⟩
    · exact ⟨by decide +kernel, by rw [o]; norm_num, by rw [o]⟩
  · intro r hr
    injection hr with hr
    rw [← hr, z]

/-- `C89_vectors`, `C89_vectors_at_key`: from (0, 3) to (-1, 1). -/
example : (∃ (v : Fin 2 → F32) (w : Fin 2 → ℝ), run (vecOps mixSum 2) (some ⟨2, [g0, g1], [![g0, g3], ![gm, g1]], [0], []⟩) gh = .ok v ∧
      IsSample 0 (fun a b s => a + s • (b - a)) (realVecs ⟨2, [g0, g1], [![g0, g3], ![gm, g1]], [0], []⟩) (val gh) w ∧
      ∀ c, Finite32 (v c).bits ∧ |val (v c) - w c| ≤ 3 / 2 ^ 20 + 1 / 2 ^ 148) ∧
    ∃ v, run (vecOps mixSum 2) (some ⟨2, [g0, g1], [![g0, g3], ![gm, g1]], [0], []⟩) g1 = .ok v ∧ ∀ c, val (v c) = val (![gm, g1] c) := by
  obtain ⟨z, -, o, m, t⟩ := gvals
  have b : ∀ v ∈ [![g0, g3], ![gm, g1]], ∀ c, Finite32 (v c).bits ∧ |val (v c)| ≤ 3 := by
    intro v hv c
    simp only [List.mem_cons, List.not_mem_nil, or_false] at hv
    rcases hv with rfl | rfl
    · fin_cases c
      · exact ⟨by decide +kernel, by change |val g0| ≤ 3; rw [z]; norm_num⟩
      · exact ⟨by decide +kernel, by change |val g3| ≤ 3; rw [t]; norm_num⟩
    · fin_cases c
      · exact ⟨by decide +kernel, by change |val gm| ≤ 3; rw [m]; norm_num⟩
      · exact ⟨by decide +kernel, by change |val g1| ≤ 3; rw [o]; norm_num⟩
  exact ⟨C89_vectors C89_glam.2.1 (keys_ok _ _ _) (by decide +kernel) (by norm_num) (by norm_num) b,
    C89_vectors_at_key (i := 1) C89_glam.2.1 (keys_ok _ _ _) (by decide +kernel) (fun v hv c => ⟨(b v hv c).1, (b v hv c).2.trans (by norm_num)⟩)
      rfl rfl rfl⟩

/-- `C89_rotation_exact`: between opposite keys the rotation stays the identity, within 2^-17. -/
example : ∃ q, run (quatOps inPairs F32.negative mixDiff) (some ⟨2, [g0, g1], [f4 g0 g0 g0 g1, f4 g0 g0 g0 gm], [0], []⟩) gh = .ok q ∧
    ∀ c, |val (q c) - f4 0 0 0 1 c| ≤ 1 / 2 ^ 17 := by
  obtain ⟨z, hh, o, m, -⟩ := gvals
  have e1 : (fun c => val (f4 g0 g0 g0 g1 c)) = f4 0 0 0 1 := by funext c; fin_cases c <;> first | exact z | exact o
  have e2 : (fun c => val (f4 g0 g0 g0 gm c)) = f4 0 0 0 (-1) := by funext c; fin_cases c <;> first | exact z | exact m
  have b : ∀ q ∈ [f4 g0 g0 g0 g1, f4 g0 g0 g0 gm], (∀ c, Finite32 (q c).bits) ∧ |norm2 (fun c => val (q c)) - 1| ≤ 1 / 2 ^ 10 := by
    intro q hq
    simp only [List.mem_cons, List.not_mem_nil, or_false] at hq
    rcases hq with rfl | rfl
    · exact ⟨by intro c; fin_cases c <;> decide +kernel, by rw [e1]; norm_num [norm2]⟩
    · exact ⟨by intro c; fin_cases c <;> decide +kernel, by rw [e2]; norm_num [norm2]⟩
  obtain ⟨q, w, h1, h2, h3⟩ := C89_rotation_exact C89_glam.1 inPairs_accurate C89_glam.2.2.2
    (keys_ok (f4 g0 g0 g0 g1) (f4 g0 g0 g0 gm) []) (x := gh) (by decide +kernel) b (by
      intro i a b ha hb
      match i, ha, hb with
      | 0, ha, hb =>
        injection ha with ha
        injection hb with hb
        rw [← ha, ← hb, e1, e2]
        norm_num [dot4])
  refine ⟨q, h1, fun c => ?_⟩
  have key : w = f4 0 0 0 1 := by
    have rr : (realVecs (⟨2, [g0, g1], [f4 g0 g0 g0 g1, f4 g0 g0 g0 gm], [0], []⟩ : Track F32 (F4 F32))).ratios = [0, 1] := by
      simp only [realVecs, List.map_cons, List.map_nil, z, o]
    have rv : (realVecs (⟨2, [g0, g1], [f4 g0 g0 g0 g1, f4 g0 g0 g0 gm], [0], []⟩ : Track F32 (F4 F32))).values = [f4 0 0 0 1, f4 0 0 0 (-1)] := by
      simp only [realVecs, List.map_cons, List.map_nil]
      rw [e1, e2]
    rw [hh] at h2
    cases h2 with
    | empty a => exact absurd a (by decide)
    | first a => rw [rr] at a; have := a 0 (by simp); norm_num at this
    | last a => rw [rr] at a; have := a 1 (by simp); norm_num at this
    | @step i r0 r1 a b c d e =>
      rw [rr] at a b
      match i, e, b with
      | 0, ⟨s, hs, ht⟩, _ =>
        injection hs with hs
        rw [← hs] at ht
        exact absurd ht (by decide)
      | i + 1, _, b => simp at b
    | @linear i r0 r1 s v0 v1 a b c d e f k l n =>
      rw [rr] at a b
      rw [rv] at f k
      match i, a, b, f, k with
      | 0, a, b, f, k =>
        injection f with f
        injection k with k
        injection a with a
        injection b with b
        rw [← a, ← b] at l
        have hs : s = 1 / 2 := by linarith
        rw [n, ← f, ← k, hs]
        have : nlerpShort (f4 0 0 0 1) (f4 0 0 0 (-1)) (1 / 2) = unitOf (f4 0 0 0 1) := by
          unfold nlerpShort
          congr 1
          rw [if_pos (by norm_num [dot4])]
          apply ext4 <;> norm_num
        rw [this]
        unfold unitOf
        rw [show norm2 (f4 0 0 0 1) = 1 by norm_num [norm2], Real.sqrt_one, inv_one, one_smul]
      | i + 1, _, b, _, _ => simp at b
  have := (h3 c).2
  rwa [key] at this

end Ozz.Props
