import Verif.Proofs.FloatForever
import Verif.Proofs.FloatTrackSample
import Verif.Proofs.FloatTrackCheck

/-! Properties of scalar tracks in single precision: C76 to C78. -/

namespace Ozz.Props

open Ozz.Spec Ozz.Ieee Ozz.F32 Ozz.Triggering Ozz.TrackSampling Ozz.Sampling

/-! ### Sampling -/

/-- C76. Sampling a scalar track in single precision, at any finite ratio: the job succeeds, the result is a number, and
it differs from the value of the real track at that ratio by less than a part in 2^20 of the largest key value. -/
theorem C76_close_to_real_track {t : Track F32 F32} (h : Track32Ok t)
    (hfirst : ∀ r, t.ratios.head? = some r → val r = 0) {x : F32} (hx : Finite32 x.bits) {M : ℝ} (hM0 : 0 ≤ M)
    (hM : ∀ v ∈ t.values, |val v| ≤ M) :
    ∃ v w, run scalarOps (some t) x = .ok v ∧ Finite32 v.bits ∧
      IsSample (0 : ℝ) (fun a b s => a + (b - a) * s) (realTrack t) (val x) w ∧ |val v - w| ≤ M / 2 ^ 20 + 1 / 2 ^ 150 :=
  run32_close h hfirst hx hM0 hM

/-- C76. At the ratio of a key the result is exactly that key's value. -/
theorem C76_exact_at_keys {t : Track F32 F32} (h : Track32Ok t)
    (hfirst : ∀ r, t.ratios.head? = some r → val r = 0) {x : F32} (hx : Finite32 x.bits) {i : ℕ} {r k : F32}
    (hr : t.ratios[i]? = some r) (hk : t.values[i]? = some k) (he : val x = val r) :
    ∃ v, run scalarOps (some t) x = .ok v ∧ Finite32 v.bits ∧ val v = val k := by
  have hi : i < t.keyCount := by rw [← h.ratiosLen]; exact (List.getElem?_eq_some_iff.1 hr).1
  have e1 : gr t i = r := by unfold gr; rw [List.getD_eq_getElem?_getD, hr]; rfl
  have e2 : gv t i = k := by unfold gv; rw [List.getD_eq_getElem?_getD, hk]; rfl
  rw [← e1] at he
  rw [← e2]
  exact run32_at_key h hfirst hx hi he

/-- C76. From a step key up to the next key the result is exactly the key's value. -/
theorem C76_step_holds {t : Track F32 F32} (h : Track32Ok t)
    (hfirst : ∀ r, t.ratios.head? = some r → val r = 0) {x : F32} (hx : Finite32 x.bits) {i : ℕ} {r0 r1 k : F32}
    (hr0 : t.ratios[i]? = some r0) (hr1 : t.ratios[i + 1]? = some r1) (hk : t.values[i]? = some k) (hs : IsStep t i)
    (h0 : val r0 ≤ val x) (h1 : val x < val r1) : run scalarOps (some t) x = .ok k := by
  have hi : i + 1 < t.keyCount := by rw [← h.ratiosLen]; exact (List.getElem?_eq_some_iff.1 hr1).1
  have e0 : gr t i = r0 := by unfold gr; rw [List.getD_eq_getElem?_getD, hr0]; rfl
  have e1 : gr t (i + 1) = r1 := by unfold gr; rw [List.getD_eq_getElem?_getD, hr1]; rfl
  have e2 : gv t i = k := by unfold gv; rw [List.getD_eq_getElem?_getD, hk]; rfl
  rw [run32_segment h hfirst hx hi (by rw [e0]; exact h0) (by rw [e1]; exact h1),
    if_pos ((isStep_gs h (show i < t.keyCount by omega)).1 hs), e2]

/-- C76. Between a key that is not a step and the next one, the result rises with the ratio if the values rise, and passes
the next value by at most a part in 2^23 of their difference. -/
theorem C76_rises_between_keys {t : Track F32 F32} (h : Track32Ok t)
    (hfirst : ∀ r, t.ratios.head? = some r → val r = 0) {x y : F32} (hx : Finite32 x.bits) (hy : Finite32 y.bits) {i : ℕ}
    {r0 r1 k0 k1 : F32} (hr0 : t.ratios[i]? = some r0) (hr1 : t.ratios[i + 1]? = some r1) (hk0 : t.values[i]? = some k0)
    (hk1 : t.values[i + 1]? = some k1) (hs : ¬ IsStep t i) (h0 : val r0 ≤ val x) (hxy : val x ≤ val y)
    (h1 : val y < val r1) (hk : val k0 ≤ val k1) :
    ∃ v w, run scalarOps (some t) x = .ok v ∧ run scalarOps (some t) y = .ok w ∧ val k0 ≤ val v ∧ val v ≤ val w ∧
      val w ≤ val k1 + (val k1 - val k0) / 2 ^ 23 := by
  have hi : i + 1 < t.keyCount := by rw [← h.ratiosLen]; exact (List.getElem?_eq_some_iff.1 hr1).1
  have e0 : gr t i = r0 := by unfold gr; rw [List.getD_eq_getElem?_getD, hr0]; rfl
  have e1 : gr t (i + 1) = r1 := by unfold gr; rw [List.getD_eq_getElem?_getD, hr1]; rfl
  have e2 : gv t i = k0 := by unfold gv; rw [List.getD_eq_getElem?_getD, hk0]; rfl
  have e3 : gv t (i + 1) = k1 := by unfold gv; rw [List.getD_eq_getElem?_getD, hk1]; rfl
  subst e0 e1 e2 e3
  have hs' : ¬ gs t i = true := fun hg => hs ((isStep_gs h (show i < t.keyCount by omega)).2 hg)
  have rx := run32_segment h hfirst hx hi h0 (hxy.trans_lt h1)
  have ry := run32_segment h hfirst hy hi (h0.trans hxy) h1
  rw [if_neg hs'] at rx ry
  obtain ⟨ux, sx, mx⟩ := mid_facts h hx hi h0 (hxy.trans h1.le)
  obtain ⟨uy, sy, my⟩ := mid_facts h hy hi (h0.trans hxy) h1.le
  have u0 := gr_unit h (show i < t.keyCount by omega)
  have u1 := gr_unit h hi
  have fm := fraction_mono u0.finite u1.finite hx hy u0.nonneg u1.le_one (gr_lt h (Nat.lt_succ_self i) hi) h0 hxy h1.le
  obtain ⟨a1, a2, -⟩ := lerp_up sx sy ux.nonneg fm hk
  obtain ⟨-, -, a3⟩ := lerp_up sy sy uy.nonneg le_rfl hk
  refine ⟨_, _, rx, ry, ?_⟩
  rw [mx, my]
  exact ⟨a1, a2, a3⟩

/-- C76. The same downwards. -/
theorem C76_falls_between_keys {t : Track F32 F32} (h : Track32Ok t)
    (hfirst : ∀ r, t.ratios.head? = some r → val r = 0) {x y : F32} (hx : Finite32 x.bits) (hy : Finite32 y.bits) {i : ℕ}
    {r0 r1 k0 k1 : F32} (hr0 : t.ratios[i]? = some r0) (hr1 : t.ratios[i + 1]? = some r1) (hk0 : t.values[i]? = some k0)
    (hk1 : t.values[i + 1]? = some k1) (hs : ¬ IsStep t i) (h0 : val r0 ≤ val x) (hxy : val x ≤ val y)
    (h1 : val y < val r1) (hk : val k1 ≤ val k0) :
    ∃ v w, run scalarOps (some t) x = .ok v ∧ run scalarOps (some t) y = .ok w ∧ val v ≤ val k0 ∧ val w ≤ val v ∧
      val k1 - (val k0 - val k1) / 2 ^ 23 ≤ val w := by
  have hi : i + 1 < t.keyCount := by rw [← h.ratiosLen]; exact (List.getElem?_eq_some_iff.1 hr1).1
  have e0 : gr t i = r0 := by unfold gr; rw [List.getD_eq_getElem?_getD, hr0]; rfl
  have e1 : gr t (i + 1) = r1 := by unfold gr; rw [List.getD_eq_getElem?_getD, hr1]; rfl
  have e2 : gv t i = k0 := by unfold gv; rw [List.getD_eq_getElem?_getD, hk0]; rfl
  have e3 : gv t (i + 1) = k1 := by unfold gv; rw [List.getD_eq_getElem?_getD, hk1]; rfl
  subst e0 e1 e2 e3
  have hs' : ¬ gs t i = true := fun hg => hs ((isStep_gs h (show i < t.keyCount by omega)).2 hg)
  have rx := run32_segment h hfirst hx hi h0 (hxy.trans_lt h1)
  have ry := run32_segment h hfirst hy hi (h0.trans hxy) h1
  rw [if_neg hs'] at rx ry
  obtain ⟨ux, sx, mx⟩ := mid_facts h hx hi h0 (hxy.trans h1.le)
  obtain ⟨uy, sy, my⟩ := mid_facts h hy hi (h0.trans hxy) h1.le
  have u0 := gr_unit h (show i < t.keyCount by omega)
  have u1 := gr_unit h hi
  have fm := fraction_mono u0.finite u1.finite hx hy u0.nonneg u1.le_one (gr_lt h (Nat.lt_succ_self i) hi) h0 hxy h1.le
  obtain ⟨a1, a2, -⟩ := lerp_down sx sy ux.nonneg fm hk
  obtain ⟨-, -, a3⟩ := lerp_down sy sy uy.nonneg le_rfl hk
  refine ⟨_, _, rx, ry, ?_⟩
  rw [mx, my]
  exact ⟨a1, a2, a3⟩

/-! ### Triggering -/

/-- C77, forward, within 2^24 loops. The iteration ends without a panic and reports the crossings of the real track, up to
rounding: nothing that is not a crossing near the range, every crossing well inside the range, each once and in the order of
loops and keys, with the right direction, at its time up to `slack`. -/
theorem C77_forward_near_crossings {j : Job F32} (h : Track32Ok j.track) (hthr : Small j.threshold) (hf : Time j.from_)
    (ht : Time j.to_) (hlt : val j.from_ < val j.to_) : (∃ l, Yields j l) ∧ ∀ l, Yields j l →
      IsNearCrossingList j.track (val j.threshold) (val j.from_) (val j.to_) l := by
  obtain ⟨l, hy, hn⟩ := near_fwd h hthr hf ht hlt
  exact ⟨⟨l, hy⟩, fun l' hy' => by rw [← hy.det hy']; exact hn⟩

/-- C77, backward: the same, last crossing first and with rising and falling exchanged. -/
theorem C77_backward_near_crossings {j : Job F32} (h : Track32Ok j.track) (hthr : Small j.threshold) (hf : Time j.from_)
    (ht : Time j.to_) (hlt : val j.to_ < val j.from_) : (∃ l, Yields j l) ∧ ∀ l, Yields j l →
      IsNearCrossingList j.track (val j.threshold) (val j.to_) (val j.from_)
        (l.map fun e => (⟨e.ratio, !e.rising⟩ : Edge F32)).reverse := by
  obtain ⟨l, hy, hn⟩ := near_bwd h hthr hf ht hlt
  exact ⟨⟨l, hy⟩, fun l' hy' => by rw [← hy.det hy']; exact hn⟩

/-- C77. A range without extent (zeros of either sign included) reports nothing. -/
theorem C77_empty_range {j : Job F32} (hf : Finite32 j.from_.bits) (ht : Finite32 j.to_.bits)
    (he : val j.from_ = val j.to_) {l : List (Edge F32)} : Yields j l ↔ l = [] := by
  have := yields_none (j := j) (feq_of_eq hf ht he)
  constructor
  · intro h; exact h.det this
  · rintro rfl; exact this

/-- C77, where the loop counter ends. A forward range that goes beyond 2^24 loops is iterated for ever: the counter comes to
2^24, where adding one does not change it. -/
theorem C77_forward_never_ends {j : Job F32} (h : Track32Ok j.track) (hf : Finite32 j.from_.bits)
    (hb : |val j.from_| ≤ 2 ^ 24) (ht : loopMax < j.to_) : NeverEnds j ∧ ∀ l, ¬ Yields j l :=
  have hn := forever_fwd (shape32 h) hf hb ht
  ⟨hn, fun l => not_yields_of_neverEnds hn⟩
where not_yields_of_neverEnds {j : Job F32} (hn : NeverEnds j) {l : List (Edge F32)} : ¬ Yields j l := by
        intro hy
        have : ∀ s l, Collects j s l → Reached j s → False := by
          intro s l hc
          induction hc with
          | stop hs =>
            intro hr
            obtain ⟨s', h1 | ⟨e, h1⟩⟩ := hn _ hr
            · rw [hs] at h1; cases h1
            · rw [hs] at h1; cases h1
          | cont hs _ ih => intro hr; exact ih (.cont hr hs)
          | emit hs _ ih => intro hr; exact ih (.emit hr hs)
        exact this _ _ hy .start

/-- C77. Backward the limit is -2^24, and a range that ends exactly there is too long already. -/
theorem C77_backward_never_ends {j : Job F32} (h : Track32Ok j.track) (hf : Finite32 j.from_.bits)
    (hb : |val j.from_| ≤ 2 ^ 24) (ht : j.to_ ≤ loopMin) (hlt : j.to_ < j.from_) : NeverEnds j ∧ ∀ l, ¬ Yields j l :=
  have hn := forever_bwd (shape32 h) hf hb ht hlt
  ⟨hn, fun _ => C77_forward_never_ends.not_yields_of_neverEnds hn⟩

/-! ### Splitting and mirroring -/

/-- C78. Splitting a forward range anywhere: every event of the whole range is reported by exactly one of the parts, with
the same time and direction, provided rounding takes no key to an end of a loop at which one of the ranges ends. If the
times of the whole range do not decrease, the order is the same too. -/
theorem C78_split_range {t : Track F32 F32} {thr a b c : F32} (h : Track32Ok t) (hthr : Small thr) (ha : Time a)
    (hb : Time b) (hc : Time c) (hab : val a ≤ val b) (hbc : val b ≤ val c) (heb : ClearEnd t (val b))
    (hec : ClearEnd t (val c)) {l1 l2 l3 : List (Edge F32)} (h1 : Yields ⟨t, a, b, thr⟩ l1)
    (h2 : Yields ⟨t, b, c, thr⟩ l2) (h3 : Yields ⟨t, a, c, thr⟩ l3) :
    (l3.map report).Perm ((l1 ++ l2).map report) ∧
    (l3.Pairwise (fun e e' => val e.ratio ≤ val e'.ratio) → l3.map report = (l1 ++ l2).map report) := by
  have part : ∀ {x y : F32} {l : List (Edge F32)}, Time x → Time y → val x ≤ val y → ClearEnd t (val y) →
      Yields ⟨t, x, y, thr⟩ l → ∃ n : ℕ, ⌊val x⌋ + n = ⌈val y⌉ ∧ l.map report = seen t thr (val x) (val y) ⌊val x⌋ n := by
    intro x y l hx hy hxy he hl
    rcases hxy.lt_or_eq with hlt | heq
    · obtain ⟨l', n, hy', hn, hs⟩ := seen_fwd (j := ⟨t, x, y, thr⟩) h hthr hx hy hlt he
      rw [hl.det hy']
      exact ⟨n, hn, hs⟩
    · rw [hl.det (yields_none (j := ⟨t, x, y, thr⟩) (feq_of_eq hx.finite hy.finite heq))]
      obtain ⟨-, -, lo, hi⟩ := time_floor hx
      have hfc := Int.floor_le_ceil (val x)
      have hcf := Int.ceil_le_floor_add_one (val x)
      rw [← heq]
      refine ⟨(⌈val x⌉ - ⌊val x⌋).toNat, by omega, ?_⟩
      rw [seen_nil]
      · rfl
      · intro m hm i hi'
        cases hv : vis t thr (val x) (val x) (⌊val x⌋ + m) i with
        | none => rfl
        | some z =>
          obtain ⟨e, -, -, h3, h4⟩ := vis_iff.1 hv
          exfalso
          rcases h4 with h4 | h4
          · linarith
          · have h5 : ⌊val x⌋ + (m : ℤ) + 1 ≤ ⌊val x⌋ := by rw [Int.le_floor]; push_cast at h4 ⊢; exact h4
            omega
  obtain ⟨n1, e1, s1⟩ := part ha hb hab heb h1
  obtain ⟨n2, e2, s2⟩ := part hb hc hbc hec h2
  obtain ⟨n3, e3, s3⟩ := part ha hc (hab.trans hbc) hec h3
  have hc2 : ⌈val c⌉ ≤ 2 ^ 24 := by
    have h5 := (abs_lt.mp hc.near).2
    rw [Int.ceil_le]; push_cast; norm_num at h5 ⊢; exact h5.le
  obtain ⟨p1, p2⟩ := seen_split h hthr hab hbc (time_floor ha).2.2.1 hc2 e1 e2 e3
  rw [List.map_append, s1, s2, s3]
  refine ⟨p1, fun hp => p2 ?_⟩
  rw [← s3, List.pairwise_map]
  exact hp

/-- C78. Backward playback reports what forward playback reports, in reverse and with the directions exchanged, provided
rounding neither takes a key to the end of a loop at which the range ends, nor two keys to the time at which it begins. -/
theorem C78_backward_mirrors_forward {t : Track F32 F32} {thr a c : F32} (h : Track32Ok t) (hthr : Small thr) (ha : Time a)
    (hc : Time c) (hac : val a < val c) (hsa : ClearStart t (val a)) (hec : ClearEnd t (val c)) {l l' : List (Edge F32)}
    (h1 : Yields ⟨t, a, c, thr⟩ l) (h2 : Yields ⟨t, c, a, thr⟩ l') :
    (l'.map fun e => (⟨e.ratio, !e.rising⟩ : Edge F32)).reverse.map report = l.map report := by
  obtain ⟨m, n, hy, hn, hs⟩ := seen_fwd (j := ⟨t, a, c, thr⟩) h hthr ha hc hac hec
  obtain ⟨m', n', hy', hn', hs'⟩ := seen_bwd (j := ⟨t, c, a, thr⟩) h hthr hc ha hac hsa
  rw [h1.det hy, h2.det hy', hs]
  refine Eq.trans hs' ?_
  have hfc := Int.floor_le_ceil (val c)
  have hcf := Int.ceil_le_floor_add_one (val c)
  obtain ⟨-, -, lo, -⟩ := time_floor ha
  obtain ⟨-, -, -, hi⟩ := time_floor hc
  simp only at hn hn' ⊢
  rcases (show n' = n ∨ n' = n + 1 by omega) with e | e
  · rw [e]
  · rw [e, seen_add, seen_nil (n := 1), List.append_nil]
    intro k hk i hi'
    have hk0 : k = 0 := by omega
    subst hk0
    refine vis_after h hthr (by push_cast; omega) (by push_cast; omega) ?_ hi'
    have h1 := Int.le_ceil (val c)
    have h2 : ⌊val a⌋ + (n : ℤ) + ((0 : ℕ) : ℤ) = ⌈val c⌉ := by push_cast; omega
    rw [h2]; exact h1

/-- C78, when the first proviso holds: always at times inside a loop ... -/
theorem C78_clear_end_inside {t : Track F32 F32} {x : ℝ} (hx : x ≠ ⌊x⌋) : ClearEnd t x := by
  intro n hn hw he
  exfalso
  apply hx
  rw [← he, Int.floor_add_one]
  push_cast
  rw [← hw]

/-- ... and within `N` loops if the keys before the end of the loop keep `N + 2` parts in 2^24 away from it. -/
theorem C78_clear_end_gap {t : Track F32 F32} (h : Track32Ok t) {x N : ℝ} (hN : N ≤ 2 ^ 23) (hx : |x| ≤ N)
    (hg : ∀ r ∈ t.ratios, val r < 1 → val r + (N + 2) / 2 ^ 24 < 1) : ClearEnd t x := by
  intro n hn hw he r hr h1
  obtain ⟨x1, x2⟩ := abs_le.mp hx
  have hl : LoopAt n ⌊val n⌋ := by
    have b1 : (-2 ^ 24 : ℝ) ≤ ⌊val n⌋ := by rw [← hw]; norm_num at hN ⊢; linarith
    have b2 : (⌊val n⌋ : ℝ) + 1 ≤ 2 ^ 24 := by rw [← hw]; norm_num at hN ⊢; linarith
    exact ⟨hn, hw, by exact_mod_cast b1, by exact_mod_cast b2⟩
  have := (abs_le.mp (time_ok hl (h.unit r hr)).2.2.2).2
  rw [← hw] at this
  have hn1 : |val n| ≤ N + 1 := by rw [abs_le]; constructor <;> linarith
  have h2 : (|val n| + 1) / 2 ^ 24 ≤ (N + 2) / 2 ^ 24 := div_le_div_of_nonneg_right (by linarith) (by positivity)
  have := hg r hr h1
  linarith

/-- C78, the second proviso: within `N` loops if the keys keep `N + 4` parts in 2^21 away from each other. -/
theorem C78_clear_start_gap {t : Track F32 F32} (h : Track32Ok t) {x N : ℝ} (hN : N ≤ 2 ^ 22) (hx : |x| ≤ N)
    (hg : t.ratios.Pairwise fun q r => val q + (N + 4) / 2 ^ 21 < val r) : ClearStart t x := by
  intro n hn hw r hr he q hq hlt
  -- the loop is near `x`
  have hnx : |val n| ≤ N + 2 := by
    have ur := h.unit r hr
    have hb : |val n| < 2 ^ 24 := by
      by_contra hc
      rw [not_lt] at hc
      -- far away loops do not come near `x`
      rcases le_total 0 (val n) with h0 | h0
      · rw [abs_of_nonneg h0] at hc
        have h1 : val loopMax ≤ x := by
          rw [← he]
          by_cases hf : Finite32 (r + n).bits
          · refine rounds_ge (add_roundsTo ur.finite hn) hf loopMax_val.1 ?_
            show val loopMax ≤ val r + val n
            rw [loopMax_val.2]; linarith [ur.nonneg]
          · exfalso
            exact hf (sum_finite ur hn)
        rw [loopMax_val.2] at h1
        have := (abs_le.mp hx).2
        norm_num at h1 hN; linarith
      · rw [abs_of_nonpos h0] at hc
        have h1 : x ≤ -2 ^ 24 + 1 := by
          have e := exists_int32 (n := -2 ^ 24 + 1) (by decide)
          obtain ⟨w, hwf, hwv⟩ := e
          have : x ≤ val w := by
            rw [← he]
            refine rounds_le (add_roundsTo ur.finite hn) (sum_finite ur hn) hwf ?_
            show val r + val n ≤ val w
            rw [hwv]; push_cast; linarith [ur.le_one]
          rw [hwv] at this; push_cast at this; norm_num at this ⊢; exact this
        have := (abs_le.mp hx).1
        norm_num at h1 hN; linarith
    obtain ⟨b1, b2⟩ := abs_lt.mp hb
    have hl : LoopAt n ⌊val n⌋ := by
      rw [hw] at b1 b2
      have c2 : ⌊val n⌋ < 2 ^ 24 := by exact_mod_cast b2
      exact ⟨hn, hw, by exact_mod_cast b1.le, by omega⟩
    obtain ⟨-, t1, t2, -⟩ := time_ok hl ur
    rw [← hw, he] at t1 t2
    obtain ⟨x1, x2⟩ := abs_le.mp hx
    rw [abs_le]; constructor <;> linarith
  have hp : val q + (N + 4) / 2 ^ 21 < val r := by
    obtain ⟨a, ha, rfl⟩ := List.getElem_of_mem hq
    obtain ⟨b, hb, rfl⟩ := List.getElem_of_mem hr
    rcases lt_trichotomy a b with hab | hab | hab
    · exact List.pairwise_iff_getElem.1 hg a b ha hb hab
    · subst hab; exact absurd hlt (lt_irrefl _)
    · exact absurd (List.pairwise_iff_getElem.1 h.increasing b a hb ha hab) (not_lt.2 hlt.le)
  have : (|val n| + 2) / 2 ^ 21 ≤ (N + 4) / 2 ^ 21 := div_le_div_of_nonneg_right (by linarith) (by positivity)
  linarith
where sum_finite {r n : F32} (ur : Unit01 r) (hn : Finite32 n.bits) : Finite32 (r + n).bits := by
        refine finite_of_rounds (add_roundsTo ur.finite hn) ?_
        show |val r + val n| < overflowAt
        have h1 : |val n| ≤ ((2 ^ 24 - 1) * 2 ^ 253 : ℝ) / 2 ^ 149 := by
          rw [spacing.val_mag']
          refine div_le_div_of_nonneg_right ?_ (by positivity)
          have : n.mag ≤ (2 ^ 24 - 1) * 2 ^ 253 := by
            rw [← magOf_max]
            exact magOf_strictMono.monotone (by have := (finite32_iff n).1 hn; omega)
          have h2 : (n.mag : ℝ) ≤ (((2 ^ 24 - 1) * 2 ^ 253 : ℕ) : ℝ) := Nat.cast_le.2 this
          refine h2.trans (le_of_eq ?_)
          norm_num
        have h2 := abs_add_le (val r) (val n)
        rw [abs_of_nonneg ur.nonneg] at h2
        have := ur.le_one
        unfold overflowAt
        norm_num at h1 ⊢
        linarith

/-! ### Examples -/

namespace FloatTrackExample

abbrev F (n : Nat) : F32 := ⟨BitVec.ofNat 32 n⟩

def oneF : F32 := F 0x3f800000
def half : F32 := F 0x3f000000

/-- Up over the first quarter, down over the second half. -/
def hill : Track F32 F32 :=
  { keyCount := 3, ratios := [F 0, F 0x3e800000, F 0x3f400000], values := [F 0, oneF, F 0], steps := [0], name := [] }

/-- Two keys within half a part in 1000 of each other, at the end of the loop. -/
def late : Track F32 F32 :=
  { keyCount := 3, ratios := [F 0, F 0x3f7f9db2, F 0x3f7fbe77], values := [F 0, F 0, oneF], steps := [7], name := [] }

/-- A key at 0.5 and another at 0.50001. -/
def twin : Track F32 F32 :=
  { keyCount := 3, ratios := [F 0, half, F 0x3f0000a8], values := [F 0, oneF, oneF], steps := [7], name := [] }

/-- Down to 0 at 0.4695170, and up from there. -/
def dip : Track F32 F32 :=
  { keyCount := 4, ratios := [F 0x3e4a9a8f, F 0x3ef06485, F 0x3f400000, F 0x3f600000], values := [oneF, F 0, oneF, F 0],
    steps := [0], name := [] }

theorem hill_ok : Track32Ok hill := track32Ok_of (by decide +kernel)
theorem late_ok : Track32Ok late := track32Ok_of (by decide +kernel)
theorem twin_ok : Track32Ok twin := track32Ok_of (by decide +kernel)
theorem dip_ok : Track32Ok dip := track32Ok_of (by decide +kernel)

theorem hill_first : ∀ r, hill.ratios.head? = some r → val r = 0 := by
  intro r hr
  cases hr
  show ((value32 (F 0).bits : ℚ) : ℝ) = 0
  have : value32 (F 0).bits = 0 := by decide +kernel
  rw [this]; norm_num

theorem yields_of {j : Job F32} {l : List (Edge F32)} (h : collect j 100 (Iter.new j) = some l) : Yields j l :=
  collects_of_collect h

/-- C76 on a track: the hypotheses hold, and an eighth of the way the value is a half. -/
example : (∃ v w, run scalarOps (some hill) (F 0x3dcccccd) = .ok v ∧ Finite32 v.bits ∧
    IsSample (0 : ℝ) (fun a b s => a + (b - a) * s) (realTrack hill) (val (F 0x3dcccccd)) w ∧
    |val v - w| ≤ 1 / 2 ^ 20 + 1 / 2 ^ 150) ∧ run scalarOps (some hill) (F 0x3e000000) = .ok half := by
  refine ⟨C76_close_to_real_track hill_ok hill_first (by decide +kernel) zero_le_one ?_, by decide +kernel⟩
  have : ∀ v ∈ hill.values, |value32 v.bits| ≤ 1 := by decide +kernel
  intro v hv
  have := this v hv
  unfold val real; exact_mod_cast this

/-- C76: rising and exact at the key. -/
example : (∃ v w, run scalarOps (some hill) (F 0x3dcccccd) = .ok v ∧ run scalarOps (some hill) (F 0x3e000000) = .ok w ∧
    val (F 0) ≤ val v ∧ val v ≤ val w ∧ val w ≤ val oneF + (val oneF - val (F 0)) / 2 ^ 23) ∧
    ∃ v, run scalarOps (some hill) (F 0x3e800000) = .ok v ∧ Finite32 v.bits ∧ val v = val oneF :=
  ⟨C76_rises_between_keys (i := 0) hill_ok hill_first (by decide +kernel) (by decide +kernel) rfl rfl rfl rfl (fun hc => absurd ((isStep_gs hill_ok (by decide)).1 hc) (by decide))
    (val_le_of (by decide +kernel)) (val_le_of (by decide +kernel)) (val_lt_of (by decide +kernel))
    (val_le_of (by decide +kernel)),
   C76_exact_at_keys (i := 1) hill_ok hill_first (by decide +kernel) rfl rfl rfl⟩

/-- C76: falling. -/
example : ∃ v w, run scalarOps (some hill) (F 0x3ecccccd) = .ok v ∧ run scalarOps (some hill) half = .ok w ∧
    val v ≤ val oneF ∧ val w ≤ val v ∧ val (F 0) - (val oneF - val (F 0)) / 2 ^ 23 ≤ val w :=
  C76_falls_between_keys (i := 1) hill_ok hill_first (by decide +kernel) (by decide +kernel) rfl rfl rfl rfl (fun hc => absurd ((isStep_gs hill_ok (by decide)).1 hc) (by decide))
    (val_le_of (by decide +kernel)) (val_le_of (by decide +kernel)) (val_lt_of (by decide +kernel))
    (val_le_of (by decide +kernel))

/-- C76: a step. -/
example : run scalarOps (some late) (F 0x3f7fb000) = .ok (F 0) :=
  C76_step_holds (i := 1) late_ok (by
      intro r hr
      cases hr
      show ((value32 (F 0).bits : ℚ) : ℝ) = 0
      have : value32 (F 0).bits = 0 := by decide +kernel
      rw [this]; norm_num)
    (by decide +kernel) rfl rfl rfl ((isStep_gs late_ok (by decide)).2 (by decide)) (val_le_of (by decide +kernel)) (val_lt_of (by decide +kernel))

/-- C77: two and a half loops of the hill, forward: three times up, twice down (at 0.5, 1.5; 2.5 is excluded). -/
example : IsNearCrossingList hill (val half) (val (F 0)) (val (F 0x40200000))
      [⟨F 0x3e000000, true⟩, ⟨half, false⟩, ⟨F 0x3f900000, true⟩, ⟨F 0x3fc00000, false⟩, ⟨F 0x40080000, true⟩] :=
  (C77_forward_near_crossings (j := ⟨hill, F 0, F 0x40200000, half⟩) hill_ok (small_of (by decide +kernel))
    (time_of (by decide +kernel)) (time_of (by decide +kernel)) (val_lt_of (by decide +kernel))).2 _
    (yields_of (by decide +kernel))

/-- C77, backward. -/
example : IsNearCrossingList hill (val half) (val (F 0)) (val (F 0x40200000))
      (([⟨F 0x40080000, false⟩, ⟨F 0x3fc00000, true⟩, ⟨F 0x3f900000, false⟩, ⟨half, true⟩, ⟨F 0x3e000000, false⟩] :
        List (Edge F32)).map fun e => (⟨e.ratio, !e.rising⟩ : Edge F32)).reverse :=
  (C77_backward_near_crossings (j := ⟨hill, F 0x40200000, F 0, half⟩) hill_ok (small_of (by decide +kernel))
    (time_of (by decide +kernel)) (time_of (by decide +kernel)) (val_lt_of (by decide +kernel))).2 _
    (yields_of (by decide +kernel))

/-- C77: from 0 to -0 there is nothing. -/
example : Yields ⟨hill, F 0, F 0x80000000, half⟩ [] :=
  (C77_empty_range (by decide +kernel) (by decide +kernel) (by
    show ((value32 (F 0).bits : ℚ) : ℝ) = ((value32 (F 0x80000000).bits : ℚ) : ℝ)
    have : value32 (F 0).bits = value32 (F 0x80000000).bits := by decide +kernel
    rw [this])).2 rfl

/-- C77: from 0 to 2^25, or to -2^24, the hill never ends. -/
example : NeverEnds ⟨hill, F 0, F 0x4c000000, half⟩ ∧ NeverEnds ⟨hill, F 0, F 0xcb800000, half⟩ := by
  have h0 : |val (F 0)| ≤ 2 ^ 24 := (time_of (v := F 0) (by decide +kernel)).near.le
  exact ⟨(C77_forward_never_ends (j := ⟨hill, F 0, F 0x4c000000, half⟩) hill_ok (by decide +kernel) h0 (by decide +kernel)).1,
    (C77_backward_never_ends (j := ⟨hill, F 0, F 0xcb800000, half⟩) hill_ok (by decide +kernel) h0 (by decide +kernel) (by decide +kernel)).1⟩

theorem hill_clear_end {x : ℝ} (hx : |x| ≤ 2 ^ 20) : ClearEnd hill x := by
  refine C78_clear_end_gap hill_ok (N := 2 ^ 20) (by norm_num) hx ?_
  have : ∀ r ∈ hill.ratios, value32 r.bits + (2 ^ 20 + 2) / 2 ^ 24 < 1 := by decide +kernel
  intro r hr _
  have := this r hr
  have h2 : ((value32 r.bits + (2 ^ 20 + 2) / 2 ^ 24 : ℚ) : ℝ) < ((1 : ℚ) : ℝ) := Rat.cast_lt.2 this
  push_cast at h2
  exact h2

theorem hill_clear_start {x : ℝ} (hx : |x| ≤ 2 ^ 18) : ClearStart hill x := by
  refine C78_clear_start_gap hill_ok (N := 2 ^ 18) (by norm_num) hx ?_
  have : hill.ratios.Pairwise fun q r => value32 q.bits + (2 ^ 18 + 4) / 2 ^ 21 < value32 r.bits := by decide +kernel
  refine this.imp ?_
  intro q r h
  have h2 : ((value32 q.bits + (2 ^ 18 + 4) / 2 ^ 21 : ℚ) : ℝ) < (value32 r.bits : ℝ) := Rat.cast_lt.2 h
  push_cast at h2
  exact h2

theorem bound_of {x : F32} {q : ℚ} (h : |value32 x.bits| ≤ q) : |val x| ≤ (q : ℝ) := by
  unfold val real; exact_mod_cast h

/-- C78: the hill from 0 to 2.5, split at 1. -/
example : ([⟨F 0x3e000000, true⟩, ⟨half, false⟩, ⟨F 0x3f900000, true⟩, ⟨F 0x3fc00000, false⟩, ⟨F 0x40080000, true⟩] :
      List (Edge F32)).map report = (([⟨F 0x3e000000, true⟩, ⟨half, false⟩] ++
        [⟨F 0x3f900000, true⟩, ⟨F 0x3fc00000, false⟩, ⟨F 0x40080000, true⟩] : List (Edge F32)).map report) := by
  refine (C78_split_range (t := hill) (thr := half) (a := F 0) (b := oneF) (c := F 0x40200000) hill_ok
    (small_of (by decide +kernel)) (time_of (by decide +kernel)) (time_of (by decide +kernel))
    (time_of (by decide +kernel)) (val_le_of (by decide +kernel)) (val_le_of (by decide +kernel))
    (hill_clear_end ?_) (hill_clear_end ?_) (yields_of (by decide +kernel)) (yields_of (by decide +kernel))
    (yields_of (by decide +kernel))).2 ?_
  · exact (bound_of (q := 2 ^ 20) (by decide +kernel)).trans (by norm_num)
  · exact (bound_of (q := 2 ^ 20) (by decide +kernel)).trans (by norm_num)
  · have : ([⟨F 0x3e000000, true⟩, ⟨half, false⟩, ⟨F 0x3f900000, true⟩, ⟨F 0x3fc00000, false⟩, ⟨F 0x40080000, true⟩] :
        List (Edge F32)).Pairwise (fun e e' => value32 e.ratio.bits ≤ value32 e'.ratio.bits) := by decide +kernel
    exact this.imp fun h => val_le_of h

/-- C78: the hill backward. -/
example : (([⟨F 0x40080000, false⟩, ⟨F 0x3fc00000, true⟩, ⟨F 0x3f900000, false⟩, ⟨half, true⟩, ⟨F 0x3e000000, false⟩] :
        List (Edge F32)).map fun e => (⟨e.ratio, !e.rising⟩ : Edge F32)).reverse.map report =
    ([⟨F 0x3e000000, true⟩, ⟨half, false⟩, ⟨F 0x3f900000, true⟩, ⟨F 0x3fc00000, false⟩, ⟨F 0x40080000, true⟩] :
      List (Edge F32)).map report := by
  refine C78_backward_mirrors_forward (t := hill) (thr := half) (a := F 0) (c := F 0x40200000) hill_ok
    (small_of (by decide +kernel)) (time_of (by decide +kernel)) (time_of (by decide +kernel))
    (val_lt_of (by decide +kernel)) (hill_clear_start ?_) (hill_clear_end ?_) (yields_of (by decide +kernel))
    (yields_of (by decide +kernel))
  · exact (bound_of (q := 2 ^ 18) (by decide +kernel)).trans (by norm_num)
  · exact (bound_of (q := 2 ^ 20) (by decide +kernel)).trans (by norm_num)

end FloatTrackExample

open FloatTrackExample

/-! ### Where single precision breaks it -/

/-- C78 without the first proviso. Playing the 65536th loop and then half of the next reports two events; playing both at
once reports three. The lost event is that of the key at 0.999: in that loop its time rounds to the end of the loop, which
the first range excludes, and the second starts in the next loop. -/
theorem C78_split_loses_an_event : ∃ (t : Track F32 F32) (thr a b c : F32) (l1 l2 l3 : List (Edge F32)),
    Track32Ok t ∧ Small thr ∧ Time a ∧ Time b ∧ Time c ∧ val a < val b ∧ val b < val c ∧
    Yields ⟨t, a, b, thr⟩ l1 ∧ Yields ⟨t, b, c, thr⟩ l2 ∧ Yields ⟨t, a, c, thr⟩ l3 ∧
    ∃ x, l3.map report = (l1.map report) ++ x :: l2.map report := by
  refine ⟨late, half, F 0x477fff00, F 0x47800000, F 0x47800040, [⟨F 0x477fff00, false⟩], [⟨F 0x47800000, false⟩],
    [⟨F 0x477fff00, false⟩, ⟨F 0x47800000, true⟩, ⟨F 0x47800000, false⟩], late_ok, small_of (by decide +kernel),
    time_of (by decide +kernel), time_of (by decide +kernel), time_of (by decide +kernel), val_lt_of (by decide +kernel),
    val_lt_of (by decide +kernel), yields_of (by decide +kernel), yields_of (by decide +kernel),
    yields_of (by decide +kernel), _, rfl⟩

/-- C78 without the second proviso: a range whose event is reported forward, and not backward. -/
theorem C78_backward_loses_an_event : ∃ (t : Track F32 F32) (thr a c : F32) (e : Edge F32),
    Track32Ok t ∧ Small thr ∧ Time a ∧ Time c ∧ val a < val c ∧ Yields ⟨t, a, c, thr⟩ [e] ∧ Yields ⟨t, c, a, thr⟩ [] :=
  ⟨twin, half, F 0x447a2000, F 0x447a3000, ⟨F 0x447a2000, true⟩, twin_ok, small_of (by decide +kernel),
    time_of (by decide +kernel), time_of (by decide +kernel), val_lt_of (by decide +kernel), yields_of (by decide +kernel),
    yields_of (by decide +kernel)⟩

/-- C78: the order of a split range need not be that of the whole range, because within one loop the reported times can
decrease: the crossing interpolated at the end of one segment can lie after the one at the start of the next. -/
theorem C78_times_can_decrease : ∃ (t : Track F32 F32) (thr a b c : F32) (l1 l2 l3 : List (Edge F32)),
    Track32Ok t ∧ Small thr ∧ Time a ∧ Time b ∧ Time c ∧ val a < val b ∧ val b < val c ∧
    Yields ⟨t, a, b, thr⟩ l1 ∧ Yields ⟨t, b, c, thr⟩ l2 ∧ Yields ⟨t, a, c, thr⟩ l3 ∧
    l3 ≠ l1 ++ l2 ∧ ∃ e e', [e, e'] <:+: l3 ∧ val e'.ratio < val e.ratio := by
  refine ⟨dip, F 0, F 0, F 0x3ef06486, oneF, [⟨F 0, true⟩, ⟨F 0x3ef06485, true⟩],
    [⟨F 0x3ef06486, false⟩, ⟨F 0x3f600000, false⟩],
    [⟨F 0, true⟩, ⟨F 0x3ef06486, false⟩, ⟨F 0x3ef06485, true⟩, ⟨F 0x3f600000, false⟩], dip_ok, small_of (by decide +kernel),
    time_of (by decide +kernel), time_of (by decide +kernel), time_of (by decide +kernel), val_lt_of (by decide +kernel),
    val_lt_of (by decide +kernel), yields_of (by decide +kernel), yields_of (by decide +kernel),
    yields_of (by decide +kernel), by decide +kernel, ⟨F 0x3ef06486, false⟩, ⟨F 0x3ef06485, true⟩,
    ⟨[⟨F 0, true⟩], [⟨F 0x3f600000, false⟩], rfl⟩, val_lt_of (by decide +kernel)⟩

/-- C78: events do not alternate in single precision: two falling edges in a row, with the rising one between them reported
before the start of the range. -/
theorem C78_events_need_not_alternate : ∃ (t : Track F32 F32) (thr a c : F32) (e e' : Edge F32),
    Track32Ok t ∧ Small thr ∧ Time a ∧ Time c ∧ val a < val c ∧ Yields ⟨t, a, c, thr⟩ [e, e'] ∧ e.rising = e'.rising :=
  ⟨dip, F 0, F 0x3ef06486, oneF, ⟨F 0x3ef06486, false⟩, ⟨F 0x3f600000, false⟩, dip_ok, small_of (by decide +kernel),
    time_of (by decide +kernel), time_of (by decide +kernel), val_lt_of (by decide +kernel), yields_of (by decide +kernel),
    rfl⟩

end Ozz.Props
