import Verif.Proofs.SamplingRun
import Verif.Spec.SamplingHistory

/-! Contexts stay usable through every history. -/

set_option linter.unusedSectionVars false
set_option linter.unusedVariables false

namespace Ozz.Sampling

open Spec

variable {α K V K3 KQ V3 VQ O : Type} [RatioOps α]

/-! ### The key order is determined by the arrays -/

section
variable {lo hi : α} {real T : Nat} {tps : List α} {ch : Chan α K} {time time' : Nat → α}
  {pred pred' track track' : Nat → Nat} {dec : K → K → K → K → V} {r : α}

theorem chanOk_time (h : ChanOk lo hi real T tps ch time pred track)
    (h' : ChanOk lo hi real T tps ch time' pred' track') {k : Nat} (hk : k < ch.previouses.length) :
    time k = time' k := by
  obtain ⟨x, h1, h2⟩ := h.times k hk
  obtain ⟨y, h3, h4⟩ := h'.times k hk
  rw [h1] at h3
  obtain rfl : x = y := by simpa using h3
  rw [h2] at h4
  simpa using h4

theorem chanOk_pred (h : ChanOk lo hi real T tps ch time pred track)
    (h' : ChanOk lo hi real T tps ch time' pred' track') {k : Nat} (hT : T ≤ k)
    (hk : k < ch.previouses.length) : pred k = pred' k := by
  have h1 := h.prevs k hT hk
  rw [h'.prevs k hT hk] at h1
  have := h.order.predLt k hT hk
  have := h'.order.predLt k hT hk
  simp only [Option.some.injEq] at h1
  omega

theorem chanOk_track (h : ChanOk lo hi real T tps ch time pred track)
    (h' : ChanOk lo hi real T tps ch time' pred' track') : ∀ k, k < ch.previouses.length →
    track k = track' k := by
  intro k
  induction k using Nat.strongRecOn with
  | _ k ih =>
    intro hk
    rcases Nat.lt_or_ge k T with hlt | hge
    · rw [h.order.first k hlt, h'.order.first k hlt]
    · have hp := h.order.predLt k hge hk
      rw [← h.order.predTrack k hge hk, ← h'.order.predTrack k hge hk, ← chanOk_pred h h' hge hk]
      exact ih _ hp (by omega)

theorem soaBracket_congr (h : ChanOk lo hi real T tps ch time pred track)
    (h' : ChanOk lo hi real T tps ch time' pred' track') {i : Nat} {v : Interp α V}
    (hv : SoaBracket T ch time track dec i r v) : SoaBracket T ch time' track' dec i r v := by
  obtain ⟨l, k, kl, kr, b, h1, h2, h3, h4, h5, h6⟩ := hv
  have hk : ∀ j, k j < ch.previouses.length := fun j => (b j).rightLt
  have hl : ∀ j, l j < ch.previouses.length := fun j => by have := (b j).lt; have := hk j; omega
  have ht := chanOk_track h h'
  refine ⟨l, k, kl, kr, ?_, h1, h2, ?_, ?_, h5, h6⟩
  · intro j
    refine ⟨by rw [← ht _ (hl j)]; exact (b j).leftTrack, by rw [← ht _ (hk j)]; exact (b j).rightTrack,
      (b j).lt, hk j, ?_, by rw [← chanOk_time h h' (hl j)]; exact (b j).leftLe, ?_⟩
    · intro m a1 a2
      rw [← ht m (by have := hk j; omega)]
      exact (b j).consecutive m a1 a2
    · rcases (b j).rightGt with hr | hr
      · left; rw [← chanOk_time h h' (hk j)]; exact hr
      · right
        intro m a1 a2
        rw [← ht m a2]
        exact hr m a1 a2
  · intro j; rw [h3 j]; exact chanOk_time h h' (hl j)
  · intro j; rw [h4 j]; exact chanOk_time h h' (hk j)

theorem chanSample_unique (O : RatioOrder α) {i : Nat} {v v' : Interp α V}
    (hv : ChanSample lo hi real T tps ch dec i r v) (hv' : ChanSample lo hi real T tps ch dec i r v') :
    v = v' := by
  obtain ⟨_, _, _, h1, h2⟩ := hv
  obtain ⟨_, _, _, h3, h4⟩ := hv'
  exact soaBracket_unique O h1 h2 (soaBracket_congr h3 h1 h4)

end

theorem sampled_unique {N : Numerics α K3 KQ V3 VQ O} (Ord : RatioOrder α) {lo hi r : α}
    {a : Animation α K3 KQ} {i : Nat} {o o' : O} (h : Sampled N lo hi a r i o)
    (h' : Sampled N lo hi a r i o') : o = o' := by
  obtain ⟨t, q, s, h1, h2, h3, rfl⟩ := h
  obtain ⟨t', q', s', h1', h2', h3', rfl⟩ := h'
  rw [chanSample_unique Ord h1 h1', chanSample_unique Ord h2 h2', chanSample_unique Ord h3 h3']

/-! ### The context invariant -/

/-- Buffer sizes of one channel. -/
structure Sized (soa : Nat) (c : Cache α V) : Prop where
  entries : c.entries.length = 4 * soa
  outdated : c.outdated.length = (soa + 7) / 8
  values : c.values.length = soa

/-- The cache of one channel is unused or coherent with the channel. -/
def Coherent (lo hi : α) (soa real : Nat) (tps : List α) (ch : Chan α K) (dec : K → K → K → K → V)
    (c : Cache α V) : Prop :=
  c.next = 0 ∨ ∃ time pred track, ChanOk lo hi real (4 * soa) tps ch time pred track ∧
    Good tps ch dec track (4 * soa) soa c.next c.entries c.outdated c.values

/-- The three caches are coherent with animation `a`. -/
structure CoherentWith (N : Numerics α K3 KQ V3 VQ O) (lo hi : α) (soa : Nat) (a : Animation α K3 KQ)
    (ctx : Context α V3 VQ) : Prop where
  translations : Coherent lo hi soa a.numTracks a.timepoints a.translations N.dec3 ctx.translations
  rotations : Coherent lo hi soa a.numTracks a.timepoints a.rotations N.decQ ctx.rotations
  scales : Coherent lo hi soa a.numTracks a.timepoints a.scales N.dec3 ctx.scales

/-- The context is usable: right sizes, and either it will be reset at the next sample or it is
coherent with the animation it remembers. -/
structure Usable (N : Numerics α K3 KQ V3 VQ O) (lo hi : α) (soa : Nat)
    (anims : Nat → Option (Animation α K3 KQ)) (ctx : Context α V3 VQ) : Prop where
  maxSoa : ctx.maxSoa = soa
  translations : Sized soa ctx.translations
  rotations : Sized soa ctx.rotations
  scales : Sized soa ctx.scales
  memory : ctx.animationId = 0 ∨
    (ctx.translations.next = 0 ∧ ctx.rotations.next = 0 ∧ ctx.scales.next = 0) ∨
    ∃ a, anims ctx.animationId = some a ∧ CoherentWith N lo hi soa a ctx

theorem sized_new (soa : Nat) (m : Mem α V) : Sized soa (Cache.new soa m) := by
  constructor <;> simp [Cache.new, Nat.mul_comm]

theorem usable_new (N : Numerics α K3 KQ V3 VQ O) (lo hi : α)
    (anims : Nat → Option (Animation α K3 KQ)) (n : Nat) (mt : Mem α V3) (mr : Mem α VQ)
    (ms : Mem α V3) : Usable N lo hi ((n + 3) / 4) anims (Context.new n mt mr ms) :=
  ⟨rfl, sized_new _ _, sized_new _ _, sized_new _ _, .inl rfl⟩

theorem usable_fromAnimation (N : Numerics α K3 KQ V3 VQ O) (lo hi : α)
    (anims : Nat → Option (Animation α K3 KQ)) (a : Animation α K3 KQ) (addr : Nat) (mt : Mem α V3)
    (mr : Mem α VQ) (ms : Mem α V3) :
    Usable N lo hi a.numSoa anims (Context.fromAnimation a addr mt mr ms) :=
  ⟨rfl, sized_new _ _, sized_new _ _, sized_new _ _, .inr (.inl ⟨rfl, rfl, rfl⟩)⟩

section
variable {N : Numerics α K3 KQ V3 VQ O} {lo hi : α} {soa : Nat}
  {anims : Nat → Option (Animation α K3 KQ)}

theorem usable_clear {c : Context α V3 VQ} (h : Usable N lo hi soa anims c) :
    Usable N lo hi soa anims c.clear :=
  ⟨h.maxSoa, ⟨h.translations.1, h.translations.2, h.translations.3⟩,
    ⟨h.rotations.1, h.rotations.2, h.rotations.3⟩, ⟨h.scales.1, h.scales.2, h.scales.3⟩, .inl rfl⟩

theorem copyFrom_eq {dst src : Cache α V} (hd : Sized soa dst) (hs : Sized soa src) :
    dst.copyFrom src = .ok src := by
  simp only [Cache.copyFrom, copyFromSlice, hd.values, hs.values, hd.entries, hs.entries, hd.outdated,
    hs.outdated, ↓reduceIte, bind, Except.bind, pure, Except.pure]

theorem new_soa (n : Nat) : (n * 4 + 3) / 4 = n := by omega

/-- Cloning a usable context reproduces it exactly. -/
theorem clone_eq {c : Context α V3 VQ} (h : Usable N lo hi soa anims c) (mt : Mem α V3) (mr : Mem α VQ)
    (ms : Mem α V3) : c.clone mt mr ms = .ok c := by
  have e := new_soa c.maxSoa
  have hs := h.maxSoa
  have h1 := copyFrom_eq (hd := sized_new c.maxSoa mt) (hs := by rw [hs]; exact h.translations)
  have h2 := copyFrom_eq (hd := sized_new c.maxSoa mr) (hs := by rw [hs]; exact h.rotations)
  have h3 := copyFrom_eq (hd := sized_new c.maxSoa ms) (hs := by rw [hs]; exact h.scales)
  simp only [Context.clone, Context.new, e, h1, h2, h3, bind, Except.bind, pure, Except.pure]

theorem deserialize_serialize {c : Context α V3 VQ} (h : Usable N lo hi soa anims c) (size : Nat)
    (mt : Mem α V3) (mr : Mem α VQ) (ms : Mem α V3) :
    Context.deserialize (c.serialize size) mt mr ms = some (.ok c) := by
  have e := new_soa c.maxSoa
  obtain rfl : c.maxSoa = soa := h.maxSoa
  have l1 : c.translations.entries.length = c.maxSoa * 4 := by rw [h.translations.entries, Nat.mul_comm]
  have l4 : c.rotations.entries.length = c.maxSoa * 4 := by rw [h.rotations.entries, Nat.mul_comm]
  have l7 : c.scales.entries.length = c.maxSoa * 4 := by rw [h.scales.entries, Nat.mul_comm]
  have l2 := h.translations.outdated; have l3 := h.translations.values
  have l5 := h.rotations.outdated; have l6 := h.rotations.values
  have l8 := h.scales.outdated; have l9 := h.scales.values
  simp only [Context.deserialize, Context.serialize, seekMaxTracks, Context.setFields,
    Context.setField, Context.new, Cache.new, e, bind, Except.bind, pure, Except.pure, copyFromSlice,
    List.length_map, List.length_range, l1, l2, l3, l4, l5, l6, l7, l8, l9, ↓reduceIte]

theorem coherent_reset {K V : Type} {real : Nat} {tps : List α} {ch : Chan α K}
    {dec : K → K → K → K → V} (c : Cache α V) :
    Coherent lo hi soa real tps ch dec { c with next := 0 } := .inl rfl

theorem interpolateLoop_ok (N : Numerics α K3 KQ V3 VQ O) (ctx : Context α V3 VQ) (r : α) :
    ∀ (n idx : Nat) (out : List O), n ≤ out.length → idx + n ≤ ctx.translations.values.length →
      idx + n ≤ ctx.rotations.values.length → idx + n ≤ ctx.scales.values.length →
      ∃ out', interpolateLoop N ctx r n idx out = .ok out' ∧ out'.length = out.length ∧
        (∀ i, i < n → ∃ t q s, ctx.translations.values[idx + i]? = some t ∧
          ctx.rotations.values[idx + i]? = some q ∧ ctx.scales.values[idx + i]? = some s ∧
          out'[i]? = some (N.interp t q s r)) ∧
        (∀ i, n ≤ i → out'[i]? = out[i]?) := by
  intro n
  induction n with
  | zero =>
    intro idx out _ _ _ _
    exact ⟨out, by simp [interpolateLoop, pure, Except.pure], rfl, fun i hi => by omega, fun _ _ => rfl⟩
  | succ n ih =>
    intro idx out ho ht hr hs
    cases out with
    | nil => simp at ho
    | cons o out =>
      simp only [List.length_cons] at ho
      obtain ⟨out', h1, h2, h3, h4⟩ := ih (idx + 1) out (by omega) (by omega) (by omega) (by omega)
      have g1 : idx < ctx.translations.values.length := by omega
      have g2 : idx < ctx.rotations.values.length := by omega
      have g3 : idx < ctx.scales.values.length := by omega
      refine ⟨N.interp ctx.translations.values[idx] ctx.rotations.values[idx] ctx.scales.values[idx] r
        :: out', ?_, by simp [h2], ?_, ?_⟩
      · simp only [interpolateLoop, getIdx_of_some (List.getElem?_eq_getElem g1),
          getIdx_of_some (List.getElem?_eq_getElem g2), getIdx_of_some (List.getElem?_eq_getElem g3),
          bind, Except.bind, h1, pure, Except.pure]
      · intro i hi
        cases i with
        | zero => exact ⟨_, _, _, List.getElem?_eq_getElem g1, List.getElem?_eq_getElem g2,
            List.getElem?_eq_getElem g3, rfl⟩
        | succ i =>
          obtain ⟨t, q, s, e1, e2, e3, e4⟩ := h3 i (by omega)
          rw [show idx + 1 + i = idx + (i + 1) by omega] at e1 e2 e3
          exact ⟨t, q, s, e1, e2, e3, by simpa using e4⟩
      · intro i hi
        cases i with
        | zero => omega
        | succ i => simpa using h4 i (by omega)

/-- One channel of a run. -/
theorem channel_step {K V : Type} {real : Nat} {tps : List α} {ch : Chan α K}
    {dec : K → K → K → K → V} (Ord : RatioOrder α) (hwf : WellFormedChan lo hi real (4 * soa) tps ch)
    (hsoa : 0 < soa) (hreal : 0 < real) {r : α} (hr1 : lo ≤ r) (hr2 : r ≤ hi) (prev : α)
    {c : Cache α V} (hz : Sized soa c) (hc : Coherent lo hi soa real tps ch dec c) :
    ∃ c1 c2, updateCache real soa tps ch r prev c = .ok c1 ∧ decompress tps ch dec c1 = .ok c2 ∧
      Sized soa c2 ∧ Coherent lo hi soa real tps ch dec c2 ∧
      ∀ i, i < soa → ∃ v, c2.values[i]? = some v ∧
        ChanSample lo hi real (4 * soa) tps ch dec i r v := by
  obtain ⟨time, pred, track, hok, hgood⟩ : ∃ time pred track,
      ChanOk lo hi real (4 * soa) tps ch time pred track ∧
      (c.next = 0 ∨ Good tps ch dec track (4 * soa) soa c.next c.entries c.outdated c.values) := by
    rcases hc with hc | ⟨time, pred, track, h1, h2⟩
    · obtain ⟨time, pred, track, h1⟩ := hwf
      exact ⟨time, pred, track, h1, .inl hc⟩
    · exact ⟨time, pred, track, h1, .inr h2⟩
  obtain ⟨c1, c2, h1, h2, h3, h4, h5, h6, h7⟩ := channel_ok Ord hok rfl hsoa hreal hr1 hr2 prev c
    hz.entries hz.outdated hz.values hgood
  refine ⟨c1, c2, h1, h2, ⟨h3, h4, h5⟩, .inr ⟨time, pred, track, hok, h6⟩, ?_⟩
  intro i hi
  obtain ⟨v, hv1, hv2⟩ := h7 i hi
  exact ⟨v, hv1, time, pred, track, hok, hv2⟩

/-- One run of the job on an animation of the context's capacity. -/
theorem run_ok (Ord : RatioOrder α) {a : Animation α K3 KQ} {addr : Nat} (ha : anims addr = some a)
    (h0 : addr ≠ 0) (hn : (a.numTracks + 3) / 4 = soa) (hpos : 0 < soa) (hwf : WellFormed lo hi a)
    {r : α} (hr1 : lo ≤ r) (hr2 : r ≤ hi) {c : Context α V3 VQ} (hu : Usable N lo hi soa anims c)
    {out : List O} (hout : soa ≤ out.length) :
    ∃ c' out', run N a addr r c out = .ok (c', out') ∧ Usable N lo hi soa anims c' ∧
      out'.length = out.length ∧
      (∀ i, i < soa → ∃ o, out'[i]? = some o ∧ Sampled N lo hi a r i o) ∧
      (∀ i, soa ≤ i → out'[i]? = out[i]?) := by
  -- the context after `step_context`
  have hstep : ∃ c1 prev, stepContext c addr r = (c1, prev) ∧ c1.maxSoa = soa ∧ c1.animationId = addr ∧
      Sized soa c1.translations ∧ Sized soa c1.rotations ∧ Sized soa c1.scales ∧
      CoherentWith N lo hi soa a c1 := by
    refine ⟨_, _, rfl, ?_⟩
    by_cases hid : c.animationId ≠ addr
    · simp only [if_pos hid]
      exact ⟨hu.maxSoa, trivial, ⟨hu.translations.1, hu.translations.2, hu.translations.3⟩,
        ⟨hu.rotations.1, hu.rotations.2, hu.rotations.3⟩, ⟨hu.scales.1, hu.scales.2, hu.scales.3⟩,
        ⟨.inl rfl, .inl rfl, .inl rfl⟩⟩
    · simp only [if_neg hid]
      have hid' : c.animationId = addr := Classical.byContradiction hid
      refine ⟨hu.maxSoa, hid', hu.translations, hu.rotations, hu.scales, ?_⟩
      rcases hu.memory with h | ⟨h1, h2, h3⟩ | ⟨a', h1, h2⟩
      · omega
      · exact ⟨.inl h1, .inl h2, .inl h3⟩
      · rw [hid', ha] at h1
        obtain rfl : a = a' := by simpa using h1
        exact ⟨h2.1, h2.2, h2.3⟩
  obtain ⟨c1, prev, hs, hm, hid, z1, z2, z3, hc⟩ := hstep
  have hreal : 0 < a.numTracks := by omega
  have wt := hwf.translations; have wr := hwf.rotations; have ws := hwf.scales
  rw [hn] at wt wr ws
  obtain ⟨t1, t2, ut, dt, zt, ct, vt⟩ := channel_step (dec := N.dec3) Ord wt hpos hreal hr1 hr2 prev z1 hc.1
  obtain ⟨q1, q2, uq, dq, zq, cq, vq⟩ := channel_step (dec := N.decQ) Ord wr hpos hreal hr1 hr2 prev z2 hc.2
  obtain ⟨s1, s2, us, ds, zs, cs, vs⟩ := channel_step (dec := N.dec3) Ord ws hpos hreal hr1 hr2 prev z3 hc.3
  obtain ⟨out', i1, i2, i3, i4⟩ := interpolateLoop_ok N
    { c1 with translations := t2, rotations := q2, scales := s2 } r soa 0 out hout
    (by simp [zt.values]) (by simp [zq.values]) (by simp [zs.values])
  refine ⟨{ c1 with translations := t2, rotations := q2, scales := s2 }, out', ?_,
    ⟨hm, zt, zq, zs, .inr (.inr ⟨a, by rw [hid]; exact ha, ⟨ct, cq, cs⟩⟩)⟩, i2, ?_, i4⟩
  · have hv : validate a c out = true := by
      simp [validate, Animation.numSoa, hn, hu.maxSoa, hout]
    have hns : a.numSoa = soa := hn
    simp only [run, hv, not_true_eq_false, ↓reduceIte, hns, show soa ≠ 0 by omega, runBody, hs, ut, dt,
      uq, dq, us, ds, i1, bind, Except.bind, pure, Except.pure]
  · intro i hi
    obtain ⟨t, q, s, e1, e2, e3, e4⟩ := i3 i hi
    simp only [Nat.zero_add] at e1 e2 e3
    obtain ⟨t', f1, g1⟩ := vt i hi
    obtain ⟨q', f2, g2⟩ := vq i hi
    obtain ⟨s', f3, g3⟩ := vs i hi
    rw [f1] at e1; rw [f2] at e2; rw [f3] at e3
    simp only [Option.some.injEq] at e1 e2 e3
    subst e1 e2 e3
    exact ⟨_, e4, t', q', s', by rw [hn]; exact g1, by rw [hn]; exact g2, by rw [hn]; exact g3, rfl⟩

/-- Any sampling run on a live animation keeps the context usable and does not panic. -/
theorem run_usable (Ord : RatioOrder α) (hst : StoreOk lo hi soa anims) {a : Animation α K3 KQ}
    {addr : Nat} (ha : anims addr = some a) {r : α} (hr1 : lo ≤ r) (hr2 : r ≤ hi)
    {c : Context α V3 VQ} (hu : Usable N lo hi soa anims c) (out : List O) :
    ∃ c' out', (run N a addr r c out = .ok (c', out') ∨ ∃ e, run N a addr r c out = .err e (c', out')) ∧
      Usable N lo hi soa anims c' := by
  have h0 : addr ≠ 0 := by rintro rfl; rw [hst.1] at ha; simp at ha
  by_cases hv : validate a c out = true
  · have hv' := hv
    simp only [validate, Animation.numSoa, Bool.and_eq_true, decide_eq_true_eq, hu.maxSoa] at hv'
    by_cases hz : (a.numTracks + 3) / 4 = 0
    · exact ⟨c, out, .inl (by simp [run, hv, Animation.numSoa, hz]), hu⟩
    · rcases hst.2 addr a ha with h | h | ⟨h1, h2⟩
      · exact absurd h hz
      · omega
      · obtain ⟨c', out', hr, hu', _⟩ := run_ok (N := N) Ord ha h0 h1 (by omega) h2 hr1 hr2 hu (out := out)
          (by have := of_decide_eq_true hv'.2; omega)
        exact ⟨c', out', .inl hr, hu'⟩
  · exact ⟨c, out, .inr ⟨.invalidJob, by simp [run, hv]⟩, hu⟩

/-- Usability survives every history. -/
theorem exec_usable (Ord : RatioOrder α) (hst : StoreOk lo hi soa anims) {ops : List (Op α V3 VQ O)}
    {c c' : Context α V3 VQ} (he : Exec N anims ops c c') (hops : OpsOk lo hi anims ops)
    (hu : Usable N lo hi soa anims c) : Usable N lo hi soa anims c' := by
  induction he with
  | nil => exact hu
  | @sample addr a r out ops c c1 c2 out' ha hrun _ ih =>
    have hop := hops (.sample addr r out) (by simp)
    obtain ⟨d, o, hd, hdu⟩ := run_usable (N := N) Ord hst ha hop.2.1 hop.2.2 hu out
    have hd1 : d = c1 := by
      rcases hrun with h | ⟨e, h⟩ <;> rcases hd with h' | ⟨e', h'⟩ <;> rw [h] at h' <;>
        simp at h' <;> simp [h']
    subst hd1
    exact ih (fun op hop => hops op (by simp [hop])) hdu
  | clear _ ih => exact ih (fun op hop => hops op (by simp [hop])) (usable_clear hu)
  | clone hc _ ih =>
    rw [clone_eq hu] at hc
    simp only [Except.ok.injEq] at hc
    subst hc
    exact ih (fun op hop => hops op (by simp [hop])) hu
  | cloneWithoutAnimationId hc _ ih =>
    simp only [Context.cloneWithoutAnimationId, clone_eq hu, bind, Except.bind, pure, Except.pure,
      Except.ok.injEq] at hc
    subst hc
    exact ih (fun op hop => hops op (by simp [hop]))
      ⟨hu.maxSoa, hu.translations, hu.rotations, hu.scales, .inl rfl⟩
  | saveLoad hc _ ih =>
    rw [deserialize_serialize hu] at hc
    simp only [Option.some.injEq, Except.ok.injEq] at hc
    subst hc
    exact ih (fun op hop => hops op (by simp [hop])) hu

/-- Every history can be carried out: no operation panics. -/
theorem exec_total (Ord : RatioOrder α) (hst : StoreOk lo hi soa anims) : ∀ {ops : List (Op α V3 VQ O)}
    {c : Context α V3 VQ}, OpsOk lo hi anims ops → Usable N lo hi soa anims c →
    ∃ c', Exec N anims ops c c' := by
  intro ops
  induction ops with
  | nil => intro c _ _; exact ⟨c, .nil c⟩
  | cons op ops ih =>
    intro c hops hu
    have hops' : OpsOk lo hi anims ops := fun op hop => hops op (by simp [hop])
    cases op with
    | sample addr r out =>
      obtain ⟨⟨a, ha⟩, h1, h2⟩ := hops (.sample addr r out) (by simp)
      obtain ⟨c1, out', hr, hu1⟩ := run_usable (N := N) Ord hst ha h1 h2 hu out
      obtain ⟨c2, h3⟩ := ih hops' hu1
      exact ⟨c2, .sample ha hr h3⟩
    | clear =>
      obtain ⟨c2, h3⟩ := ih hops' (usable_clear hu)
      exact ⟨c2, .clear h3⟩
    | clone mt mr ms =>
      obtain ⟨c2, h3⟩ := ih hops' hu
      exact ⟨c2, .clone (clone_eq hu mt mr ms) h3⟩
    | cloneWithoutAnimationId mt mr ms =>
      obtain ⟨c2, h3⟩ := ih (c := { c with animationId := 0 }) hops'
        ⟨hu.maxSoa, hu.translations, hu.rotations, hu.scales, .inl rfl⟩
      exact ⟨c2, .cloneWithoutAnimationId (by
        simp only [Context.cloneWithoutAnimationId, clone_eq hu, bind, Except.bind, pure, Except.pure]) h3⟩
    | saveLoad size mt mr ms =>
      obtain ⟨c2, h3⟩ := ih hops' hu
      exact ⟨c2, .saveLoad (deserialize_serialize hu size mt mr ms) h3⟩

end

end Ozz.Sampling
