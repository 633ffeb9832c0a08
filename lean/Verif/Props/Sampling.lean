import Verif.Proofs.SamplingExample

/-!
C15-C21, C55: sampling through a context, for every history of uses of the context.

`lo` and `hi` are 0 and 1, the range the ratio is clamped into (C22). Numbers are abstract: any
ratio type whose `≤` is a total preorder, any decompression and interpolation functions.
-/

set_option linter.unusedSectionVars false

namespace Ozz.Props

open Sampling Spec

variable {α K3 KQ V3 VQ O : Type} [RatioOps α] {N : Numerics α K3 KQ V3 VQ O} {lo hi : α}

/-- A context obtained from `SamplingContext::new` by some history of uses. -/
def Reached (N : Numerics α K3 KQ V3 VQ O) (lo hi : α) (anims : Nat → Option (Animation α K3 KQ))
    (maxTracks : Nat) (c : Context α V3 VQ) : Prop :=
  ∃ (mt : Mem α V3) (mr : Mem α VQ) (ms : Mem α V3) (ops : List (Op α V3 VQ O)),
    OpsOk lo hi anims ops ∧ Exec N anims ops (Context.new maxTracks mt mr ms) c

theorem reached_usable (Ord : RatioOrder α) {anims : Nat → Option (Animation α K3 KQ)} {n : Nat}
    (hst : StoreOk lo hi ((n + 3) / 4) anims) {c : Context α V3 VQ} (h : Reached N lo hi anims n c) :
    Usable N lo hi ((n + 3) / 4) anims c := by
  obtain ⟨mt, mr, ms, ops, hops, he⟩ := h
  exact exec_usable Ord hst he hops (usable_new N lo hi anims n mt mr ms)

theorem store_ne_zero {anims : Nat → Option (Animation α K3 KQ)} {soa addr : Nat}
    (hst : StoreOk lo hi soa anims) {a : Animation α K3 KQ} (ha : anims addr = some a) : addr ≠ 0 := by
  rintro rfl; rw [hst.1] at ha; simp at ha

/-- C16: after any history, sampling a live, well-formed animation of the context's capacity
succeeds, and every output element is the interpolation between the bracketing keys. -/
theorem C16_sampling_brackets (Ord : RatioOrder α) {anims : Nat → Option (Animation α K3 KQ)} {n : Nat}
    (hst : StoreOk lo hi ((n + 3) / 4) anims) {c : Context α V3 VQ} (hc : Reached N lo hi anims n c)
    {addr : Nat} {a : Animation α K3 KQ} (ha : anims addr = some a) (hwf : WellFormed lo hi a)
    (hn : (a.numTracks + 3) / 4 = (n + 3) / 4) {r : α} (hr1 : lo ≤ r) (hr2 : r ≤ hi) {out : List O}
    (hout : (n + 3) / 4 ≤ out.length) :
    ∃ c' out', run N a addr r c out = .ok (c', out') ∧
      ∀ i, i < (n + 3) / 4 → ∃ o, out'[i]? = some o ∧ Sampled N lo hi a r i o := by
  rcases Nat.eq_zero_or_pos ((n + 3) / 4) with hz | hpos
  · refine ⟨c, out, ?_, fun i hi => by omega⟩
    have hm := (reached_usable Ord hst hc).maxSoa
    simp only [run, validate, Animation.numSoa, hn, hz, hm]
    simp
  · obtain ⟨c', out', h1, _, _, h4, _⟩ := run_ok Ord ha (store_ne_zero hst ha) hn hpos hwf hr1 hr2
      (reached_usable Ord hst hc) hout
    exact ⟨c', out', h1, h4⟩

/-- C15: the pose does not depend on the history (nor on the initial memory contents): it is the one
a brand-new context produces. -/
theorem C15_history_independent (Ord : RatioOrder α) {anims : Nat → Option (Animation α K3 KQ)} {n : Nat}
    (hst : StoreOk lo hi ((n + 3) / 4) anims) {c : Context α V3 VQ} (hc : Reached N lo hi anims n c)
    {addr : Nat} {a : Animation α K3 KQ} (ha : anims addr = some a) (hwf : WellFormed lo hi a)
    (hn : (a.numTracks + 3) / 4 = (n + 3) / 4) {r : α} (hr1 : lo ≤ r) (hr2 : r ≤ hi) {out : List O}
    (hout : (n + 3) / 4 ≤ out.length) (mt : Mem α V3) (mr : Mem α VQ) (ms : Mem α V3) :
    ∃ c1 c2 pose, run N a addr r c out = .ok (c1, pose) ∧
      run N a addr r (Context.new n mt mr ms) out = .ok (c2, pose) := by
  rcases Nat.eq_zero_or_pos ((n + 3) / 4) with hz | hpos
  · refine ⟨c, Context.new n mt mr ms, out, ?_, ?_⟩
    · have hm := (reached_usable Ord hst hc).maxSoa
      simp only [run, validate, Animation.numSoa, hn, hz, hm]
      simp
    · simp only [run, validate, Animation.numSoa, hn, hz]
      simp
  · obtain ⟨c1, o1, h1, _, h3, h4, h5⟩ := run_ok Ord ha (store_ne_zero hst ha) hn hpos hwf hr1 hr2
      (reached_usable Ord hst hc) hout
    obtain ⟨c2, o2, g1, _, g3, g4, g5⟩ := run_ok Ord ha (store_ne_zero hst ha) hn hpos hwf hr1 hr2
      (usable_new N lo hi anims n mt mr ms) hout
    have : o1 = o2 := by
      apply List.ext_getElem? ; intro i
      rcases Nat.lt_or_ge i ((n + 3) / 4) with h | h
      · obtain ⟨x, hx1, hx2⟩ := h4 i h
        obtain ⟨y, hy1, hy2⟩ := g4 i h
        rw [hx1, hy1, sampled_unique Ord hx2 hy2]
      · rw [h5 i h, g5 i h]
    subst this
    exact ⟨c1, c2, o1, h1, g1⟩

/-- C17: no history panics; every operation of every history completes. -/
theorem C17_sampling_never_panics (Ord : RatioOrder α) {anims : Nat → Option (Animation α K3 KQ)}
    {n : Nat} (hst : StoreOk lo hi ((n + 3) / 4) anims) {ops : List (Op α V3 VQ O)}
    (hops : OpsOk lo hi anims ops) (mt : Mem α V3) (mr : Mem α VQ) (ms : Mem α V3) :
    ∃ c, Exec N anims ops (Context.new n mt mr ms) c :=
  exec_total Ord hst hops (usable_new N lo hi anims n mt mr ms)

/-- C17 for contexts made by `from_animation`, whose remembered address may be anything. -/
theorem C17_from_animation_never_panics (Ord : RatioOrder α)
    {anims : Nat → Option (Animation α K3 KQ)} {a : Animation α K3 KQ}
    (hst : StoreOk lo hi a.numSoa anims) {ops : List (Op α V3 VQ O)} (hops : OpsOk lo hi anims ops)
    (addr : Nat) (mt : Mem α V3) (mr : Mem α VQ) (ms : Mem α V3) :
    ∃ c, Exec N anims ops (Context.fromAnimation a addr mt mr ms) c :=
  exec_total Ord hst hops (usable_fromAnimation N lo hi anims a addr mt mr ms)

/-- The same channel without interval frames. -/
def stripChan {K : Type} (ch : Chan α K) (interval : α) : Chan α K :=
  { ch with iframeEntries := [], iframeDesc := [], iframeInterval := interval }

/-- The same animation without interval frames; the interval value left behind is arbitrary. -/
def strip (a : Animation α K3 KQ) (it ir is : α) : Animation α K3 KQ :=
  { a with translations := stripChan a.translations it, rotations := stripChan a.rotations ir
           scales := stripChan a.scales is }

theorem stripChan_ok {K : Type} {real T : Nat} {tps : List α} {ch : Chan α K} {time : Nat → α}
    {pred track : Nat → Nat} (h : ChanOk lo hi real T tps ch time pred track) (x : α) :
    ChanOk lo hi real T tps (stripChan ch x) time pred track :=
  ⟨h.order, h.small, h.ratiosLen, h.keysLen, h.times, h.prevs,
    ⟨fun hne => absurd rfl hne, fun f hf => by simp [stripChan] at hf⟩⟩

theorem strip_wellFormed {a : Animation α K3 KQ} (h : WellFormed lo hi a) (it ir is : α) :
    WellFormed lo hi (strip a it ir is) := by
  obtain ⟨⟨_, _, _, h1⟩, ⟨_, _, _, h2⟩, ⟨_, _, _, h3⟩⟩ := h
  exact ⟨⟨_, _, _, stripChan_ok h1 it⟩, ⟨_, _, _, stripChan_ok h2 ir⟩, ⟨_, _, _, stripChan_ok h3 is⟩⟩

theorem chanSample_strip {K V : Type} {real T : Nat} {tps : List α} {ch : Chan α K} {x : α}
    {dec : K → K → K → K → V} {i : Nat} {r : α} {v : Interp α V}
    (h : ChanSample lo hi real T tps ch dec i r v) :
    ChanSample lo hi real T tps (stripChan ch x) dec i r v := by
  obtain ⟨time, pred, track, h1, h2⟩ := h
  exact ⟨time, pred, track, stripChan_ok h1 x, h2⟩

theorem sampled_strip {a : Animation α K3 KQ} {it ir is r : α} {i : Nat} {o : O}
    (h : Sampled N lo hi a r i o) : Sampled N lo hi (strip a it ir is) r i o := by
  obtain ⟨vt, vr, vs, h1, h2, h3, h4⟩ := h
  exact ⟨vt, vr, vs, chanSample_strip h1, chanSample_strip h2, chanSample_strip h3, h4⟩

/-- C18: an animation with interval frames and the same animation without them give the same pose,
each through a context with any history of its own. -/
theorem C18_iframes_only_accelerate (Ord : RatioOrder α)
    {anims anims' : Nat → Option (Animation α K3 KQ)} {n : Nat}
    (hst : StoreOk lo hi ((n + 3) / 4) anims) (hst' : StoreOk lo hi ((n + 3) / 4) anims')
    {c c' : Context α V3 VQ} (hc : Reached N lo hi anims n c) (hc' : Reached N lo hi anims' n c')
    {addr addr' : Nat} {a : Animation α K3 KQ} {it ir is : α} (ha : anims addr = some a)
    (ha' : anims' addr' = some (strip a it ir is)) (hwf : WellFormed lo hi a)
    (hn : (a.numTracks + 3) / 4 = (n + 3) / 4) (hpos : 0 < a.numTracks) {r : α} (hr1 : lo ≤ r)
    (hr2 : r ≤ hi) {out : List O} (hout : (n + 3) / 4 ≤ out.length) :
    ∃ c1 c2 pose, run N a addr r c out = .ok (c1, pose) ∧
      run N (strip a it ir is) addr' r c' out = .ok (c2, pose) := by
  obtain ⟨c1, o1, h1, _, h3, h4, h5⟩ := run_ok Ord ha (store_ne_zero hst ha) hn (by omega) hwf hr1 hr2
    (reached_usable Ord hst hc) hout
  obtain ⟨c2, o2, g1, _, g3, g4, g5⟩ := run_ok Ord ha' (store_ne_zero hst' ha') hn (by omega)
    (strip_wellFormed hwf it ir is) hr1 hr2 (reached_usable Ord hst' hc') hout
  have : o1 = o2 := by
    apply List.ext_getElem? ; intro i
    rcases Nat.lt_or_ge i ((n + 3) / 4) with h | h
    · obtain ⟨x, hx1, hx2⟩ := h4 i h
      obtain ⟨y, hy1, hy2⟩ := g4 i h
      rw [hx1, hy1, sampled_unique Ord (sampled_strip hx2) hy2]
    · rw [h5 i h, g5 i h]
  subst this
  exact ⟨c1, c2, o1, h1, g1⟩

/-- C19: a context used any number of times with animation `a`, then with animation `b` alive at a
different address, gives for `b` the pose a new context gives. -/
theorem C19_context_moves_between_animations (Ord : RatioOrder α) {n addrA addrB : Nat}
    {a b : Animation α K3 KQ} (hA : addrA ≠ 0) (hB : addrB ≠ 0) (hAB : addrA ≠ addrB)
    (hwa : WellFormed lo hi a) (hwb : WellFormed lo hi b) (hna : (a.numTracks + 3) / 4 = (n + 3) / 4)
    (hnb : (b.numTracks + 3) / 4 = (n + 3) / 4) (samples : List (α × List O))
    (hs : ∀ s ∈ samples, lo ≤ s.1 ∧ s.1 ≤ hi) {r : α} (hr1 : lo ≤ r) (hr2 : r ≤ hi) {out : List O}
    (hout : (n + 3) / 4 ≤ out.length) (mt : Mem α V3) (mr : Mem α VQ) (ms : Mem α V3) :
    ∃ c, Exec N (fun x => if x = addrA then some a else if x = addrB then some b else none)
        (samples.map fun s => .sample addrA s.1 s.2) (Context.new n mt mr ms) c ∧
      ∃ c1 c2 pose, run N b addrB r c out = .ok (c1, pose) ∧
        run N b addrB r (Context.new n mt mr ms) out = .ok (c2, pose) := by
  have hst : StoreOk lo hi ((n + 3) / 4)
      (fun x => if x = addrA then some a else if x = addrB then some b else none) := by
    refine ⟨by simp [Ne.symm hA, Ne.symm hB], ?_⟩
    intro addr x hx
    simp only at hx
    split at hx
    · simp only [Option.some.injEq] at hx; subst hx; exact .inr (.inr ⟨hna, hwa⟩)
    · split at hx
      · simp only [Option.some.injEq] at hx; subst hx; exact .inr (.inr ⟨hnb, hwb⟩)
      · simp at hx
  have hops : OpsOk (V3 := V3) (VQ := VQ) lo hi
      (fun x => if x = addrA then some a else if x = addrB then some b else none)
      (samples.map fun s => .sample addrA s.1 s.2) := by
    intro op hop
    obtain ⟨s, hs1, rfl⟩ := List.mem_map.mp hop
    exact ⟨⟨a, by simp⟩, hs s hs1⟩
  obtain ⟨c, hc⟩ := C17_sampling_never_panics (N := N) Ord hst hops mt mr ms
  exact ⟨c, hc, C15_history_independent Ord hst ⟨mt, mr, ms, _, hops, hc⟩
    (by simp [Ne.symm hAB]) hwb hnb hr1 hr2 hout mt mr ms⟩

/-- C21: a successful run keeps the output length, sets the first `num_soa_tracks` elements (to
values that do not depend on what they were) and leaves the others. -/
theorem C21_writes_exactly_its_tracks (Ord : RatioOrder α) {anims : Nat → Option (Animation α K3 KQ)}
    {n : Nat} (hst : StoreOk lo hi ((n + 3) / 4) anims) {c : Context α V3 VQ}
    (hc : Reached N lo hi anims n c) {addr : Nat} {a : Animation α K3 KQ} (ha : anims addr = some a)
    (hwf : WellFormed lo hi a) (hn : (a.numTracks + 3) / 4 = (n + 3) / 4) (hpos : 0 < a.numTracks)
    {r : α} (hr1 : lo ≤ r) (hr2 : r ≤ hi) {out out2 : List O}
    (hout : (n + 3) / 4 ≤ out.length) (hout2 : (n + 3) / 4 ≤ out2.length) :
    ∃ c1 c2 pose pose2, run N a addr r c out = .ok (c1, pose) ∧
      run N a addr r c out2 = .ok (c2, pose2) ∧ pose.length = out.length ∧
      (∀ i, i < (a.numTracks + 3) / 4 → (∃ o, pose[i]? = some o) ∧ pose[i]? = pose2[i]?) ∧
      (∀ i, (a.numTracks + 3) / 4 ≤ i → pose[i]? = out[i]?) := by
  obtain ⟨c1, o1, h1, _, h3, h4, h5⟩ := run_ok Ord ha (store_ne_zero hst ha) hn (by omega) hwf hr1 hr2
    (reached_usable Ord hst hc) hout
  obtain ⟨c2, o2, g1, _, g3, g4, g5⟩ := run_ok Ord ha (store_ne_zero hst ha) hn (by omega) hwf hr1 hr2
    (reached_usable Ord hst hc) hout2
  refine ⟨c1, c2, o1, o2, h1, g1, h3, ?_, by rw [hn]; exact h5⟩
  intro i hi
  rw [hn] at hi
  obtain ⟨x, hx1, hx2⟩ := h4 i hi
  obtain ⟨y, hy1, hy2⟩ := g4 i hi
  exact ⟨⟨x, hx1⟩, by rw [hx1, hy1, sampled_unique Ord hx2 hy2]⟩

/-- C21: a run that returns an error changes neither the output nor the context (whatever the
animation and the context). It returns an error exactly when the context or the output is too
small. -/
theorem C21_error_changes_nothing (a : Animation α K3 KQ) (addr : Nat) (r : α) (c : Context α V3 VQ)
    (out : List O) :
    (∀ e c' out', run N a addr r c out = .err e (c', out') → c' = c ∧ out' = out) ∧
    (c.maxSoa < (a.numTracks + 3) / 4 ∨ out.length < (a.numTracks + 3) / 4 →
      run N a addr r c out = .err .invalidJob (c, out)) := by
  constructor
  · intro e c' out' h
    unfold run at h
    split at h
    · simp only [Outcome.err.injEq, Prod.mk.injEq] at h; exact ⟨h.2.1.symm, h.2.2.symm⟩
    · split at h
      · simp at h
      · split at h
        · simp at h
        · simp only [Outcome.err.injEq, Prod.mk.injEq] at h; exact ⟨h.2.1.symm, h.2.2.symm⟩
        · simp at h
  · intro h
    have : ¬ (validate a c out = true) := by
      simp only [validate, Animation.numSoa, Bool.and_eq_true]
      rintro ⟨h1, h2⟩
      have := of_decide_eq_true h1
      have := of_decide_eq_true h2
      omega
    unfold run
    rw [if_pos this]

/-- C55: a clone of a reachable context is equal to it; so is the result of serialising and
deserialising it. -/
theorem C55_clone_and_save_load (Ord : RatioOrder α) {anims : Nat → Option (Animation α K3 KQ)} {n : Nat}
    (hst : StoreOk lo hi ((n + 3) / 4) anims) {c : Context α V3 VQ} (hc : Reached N lo hi anims n c)
    (size : Nat) (mt : Mem α V3) (mr : Mem α VQ) (ms : Mem α V3) :
    c.clone mt mr ms = .ok c ∧
    Context.deserialize (c.serialize size) mt mr ms = some (.ok c) := by
  have hu := reached_usable Ord hst hc
  exact ⟨clone_eq hu mt mr ms, deserialize_serialize hu size mt mr ms⟩

/-- C55: a context restored elsewhere (other live animations `anims'`) behaves like a new one for any
animation whose address differs from the remembered one; a clone without animation id does so for
every animation. -/
theorem C55_restored_elsewhere (Ord : RatioOrder α) {anims anims' : Nat → Option (Animation α K3 KQ)}
    {n : Nat} (hst : StoreOk lo hi ((n + 3) / 4) anims) (hst' : StoreOk lo hi ((n + 3) / 4) anims')
    {c c1 : Context α V3 VQ} (hc : Reached N lo hi anims n c) (mt mt' : Mem α V3) (mr mr' : Mem α VQ)
    (ms ms' : Mem α V3)
    (hc1 : (∃ size, Context.deserialize (c.serialize size) mt mr ms = some (.ok c1)) ∨
      c.cloneWithoutAnimationId mt mr ms = .ok c1)
    {addr : Nat} {a : Animation α K3 KQ} (ha : anims' addr = some a) (hid : addr ≠ c1.animationId)
    (hwf : WellFormed lo hi a) (hn : (a.numTracks + 3) / 4 = (n + 3) / 4) (hpos : 0 < a.numTracks)
    {r : α} (hr1 : lo ≤ r) (hr2 : r ≤ hi) {out : List O} (hout : (n + 3) / 4 ≤ out.length) :
    ∃ d1 d2 pose, run N a addr r c1 out = .ok (d1, pose) ∧
      run N a addr r (Context.new n mt' mr' ms') out = .ok (d2, pose) := by
  have hu := reached_usable Ord hst hc
  have h0 := store_ne_zero hst' ha
  -- only the buffer sizes matter
  have hc2 : c1 = { c with animationId := c1.animationId } := by
    rcases hc1 with ⟨size, h⟩ | h
    · rw [deserialize_serialize hu] at h
      simp only [Option.some.injEq, Except.ok.injEq] at h
      subst h; rfl
    · simp only [Context.cloneWithoutAnimationId, clone_eq hu, bind, Except.bind, pure, Except.pure,
        Except.ok.injEq] at h
      subst h; rfl
  have hu0 : Usable N lo hi ((n + 3) / 4) anims' { c1 with animationId := 0 } := by
    rw [hc2]
    exact ⟨hu.maxSoa, hu.translations, hu.rotations, hu.scales, .inl rfl⟩
  obtain ⟨d1, o1, h1, _, h3, h4, h5⟩ := run_ok Ord ha h0 hn (by omega) hwf hr1 hr2 hu0 hout
  obtain ⟨d2, o2, g1, _, g3, g4, g5⟩ := run_ok Ord ha h0 hn (by omega) hwf hr1 hr2
    (usable_new N lo hi anims' n mt' mr' ms') hout
  have : o1 = o2 := by
    apply List.ext_getElem? ; intro i
    rcases Nat.lt_or_ge i ((n + 3) / 4) with h | h
    · obtain ⟨x, hx1, hx2⟩ := h4 i h
      obtain ⟨y, hy1, hy2⟩ := g4 i h
      rw [hx1, hy1, sampled_unique Ord hx2 hy2]
    · rw [h5 i h, g5 i h]
  subst this
  have hs : stepContext c1 addr r = stepContext { c1 with animationId := 0 } addr r := by
    simp [stepContext, Ne.symm hid, Ne.symm h0]
  have hrun : run N a addr r c1 out = .ok (d1, o1) := by
    have hv : validate a c1 out = validate a { c1 with animationId := 0 } out := rfl
    have hb : runBody N a addr r c1 out = runBody N a addr r { c1 with animationId := 0 } out := by
      simp only [runBody, hs]
    have hz : a.numSoa ≠ 0 := by unfold Animation.numSoa; omega
    by_cases hval : validate a { c1 with animationId := 0 } out = true
    · simp only [run, hval, hz, not_true_eq_false, ↓reduceIte] at h1
      cases hx : runBody N a addr r { c1 with animationId := 0 } out with
      | ok s =>
        rw [hx] at h1
        simp only [run, hv, hval, hz, hb, hx, not_true_eq_false, ↓reduceIte]
        exact h1
      | error f => rw [hx] at h1; cases f <;> simp at h1
    · unfold run at h1
      rw [if_pos hval] at h1
      simp at h1
  exact ⟨d1, d2, o1, hrun, g1⟩

/-! ### C20: larger contexts -/

/-- C20 does not hold: a new context with more SoA tracks than a (non-empty, iframe-less) animation
passes validation, and sampling panics whenever the translations have fewer than twice the
context's capacity of keys. -/
theorem C20_larger_context_panics (a : Animation α K3 KQ) (addr : Nat) (r : α) (n : Nat)
    (mt : Mem α V3) (mr : Mem α VQ) (ms : Mem α V3) (out : List O) (h0 : addr ≠ 0)
    (hpos : 0 < a.numTracks) (hcap : (a.numTracks + 3) / 4 ≤ (n + 3) / 4)
    (hout : (a.numTracks + 3) / 4 ≤ out.length) (hif : a.translations.iframeDesc = [])
    (hkeys : a.translations.previouses.length < 2 * (4 * ((n + 3) / 4))) :
    validate a (Context.new n mt mr ms : Context α V3 VQ) out = true ∧
    run N a addr r (Context.new n mt mr ms) out = .panic := by
  have hv : validate a (Context.new n mt mr ms : Context α V3 VQ) out = true := by
    simp only [validate, Context.new, Animation.numSoa, Bool.and_eq_true]
    exact ⟨decide_eq_true hcap, decide_eq_true hout⟩
  have hz : a.numSoa ≠ 0 := by unfold Animation.numSoa; omega
  have hb : runBody N a addr r (Context.new n mt mr ms) out = .error .panic := by
    have hstep : ∃ c1 prev, stepContext (Context.new n mt mr ms : Context α V3 VQ) addr r = (c1, prev) ∧
        c1.translations = Cache.new ((n + 3) / 4) mt := by
      refine ⟨_, _, rfl, ?_⟩
      simp [Context.new, Ne.symm h0, Cache.new]
    obtain ⟨c1, prev, hs, ht⟩ := hstep
    have hu : updateCache a.numTracks a.numSoa a.timepoints a.translations r prev c1.translations
        = .error .panic := by
      rw [ht]
      unfold updateCache
      simp only [bind, Except.bind]
      split
      · rename_i e he
        unfold assertB at he
        split at he <;> simp at he
        subst he; rfl
      · have : chooseIframe a.translations (Cache.new ((n + 3) / 4) mt : Cache α V3).next r prev = 0 := by
          simp [chooseIframe, Cache.new, hif]
        rw [this]
        have hlen : (Cache.new ((n + 3) / 4) mt : Cache α V3).entries.length = 4 * ((n + 3) / 4) := by
          simp [Cache.new, Nat.mul_comm]
        simp only [show (Cache.new ((n + 3) / 4) mt : Cache α V3).next = 0 from rfl, true_or, decide_true,
          assertB, ↓reduceIte, resetCache, ge_iff_le, Int.le_refl, Int.toNat_zero, initializeCache,
          gt_iff_lt, Nat.lt_irrefl, hlen, bind, Except.bind, pure, Except.pure]
        rw [if_neg]
        simp only [decide_eq_true_eq]
        omega
    simp only [runBody, hs, hu, bind, Except.bind]
  exact ⟨hv, by simp only [run, hv, not_true_eq_false, ↓reduceIte, hz, hb]⟩

/-- C20, the part that holds: the requested number of tracks of the context does not matter as long
as it rounds up to the same number of SoA tracks as the animation's. Missing: genuinely larger
contexts, for which the claim is false (`C20_larger_context_panics`). -/
theorem C20_same_soa_capacity_partial (Ord : RatioOrder α)
    {anims : Nat → Option (Animation α K3 KQ)} {a : Animation α K3 KQ}
    (hst : StoreOk lo hi ((a.numTracks + 3) / 4) anims) {addr : Nat} (ha : anims addr = some a)
    (hwf : WellFormed lo hi a) {n : Nat} (hn : a.numTracks ≤ n) (hn' : n ≤ 4 * ((a.numTracks + 3) / 4))
    {r : α} (hr1 : lo ≤ r) (hr2 : r ≤ hi) {out : List O} (hout : (a.numTracks + 3) / 4 ≤ out.length)
    (mt mt' : Mem α V3) (mr mr' : Mem α VQ) (ms ms' : Mem α V3) :
    ∃ c1 c2 pose, run N a addr r (Context.new n mt mr ms) out = .ok (c1, pose) ∧
      run N a addr r (Context.new a.numTracks mt' mr' ms') out = .ok (c2, pose) := by
  have hs : (n + 3) / 4 = (a.numTracks + 3) / 4 := by omega
  have h1 := C15_history_independent (N := N) (c := Context.new n mt mr ms) Ord (hs ▸ hst)
    ⟨mt, mr, ms, [], by simp [OpsOk], .nil _⟩ ha hwf hs.symm hr1 hr2 (by omega) (out := out) mt' mr' ms'
  have h2 : (Context.new n mt' mr' ms' : Context α V3 VQ) = Context.new a.numTracks mt' mr' ms' := by
    simp only [Context.new, hs]
  rw [h2] at h1
  exact h1

/-! ### The hypotheses can be met, and witnesses -/

section
open Sampling.Example

theorem example_reached : ∃ c, Reached numerics (0 : Rat) 1 store 2 c := by
  obtain ⟨c, hc⟩ := C17_sampling_never_panics (N := numerics) ratOrder (storeOk 2 rfl) historyOk mem mem mem
  exact ⟨c, mem, mem, mem, history, historyOk, hc⟩

/-- C15, C16, C21, C55 on a concrete history of two animations. -/
example : ∃ c, Reached numerics (0 : Rat) 1 store 2 c ∧
    (∃ c1 c2 pose, run numerics anim 100 (1/3) c [[], []] = .ok (c1, pose) ∧
      run numerics anim 100 (1/3) (Context.new 2 mem mem mem) [[], []] = .ok (c2, pose)) := by
  obtain ⟨c, hc⟩ := example_reached
  exact ⟨c, hc, C15_history_independent ratOrder (storeOk 2 rfl) hc rfl wellFormed rfl
    (by decide +kernel) (by decide +kernel) (by decide) mem mem mem⟩

example : ∃ c, Reached numerics (0 : Rat) 1 store 2 c ∧
    ∃ c' out', run numerics anim 100 (1/3) c [[], []] = .ok (c', out') ∧
      ∀ i, i < 1 → ∃ o, out'[i]? = some o ∧ Sampled numerics 0 1 anim (1/3) i o := by
  obtain ⟨c, hc⟩ := example_reached
  exact ⟨c, hc, C16_sampling_brackets ratOrder (storeOk 2 rfl) hc rfl wellFormed rfl
    (by decide +kernel) (by decide +kernel) (by decide)⟩

example : ∃ c, Reached numerics (0 : Rat) 1 store 2 c ∧
    ∃ c1 c2 pose pose2, run numerics anim 100 1 c [[], [5]] = .ok (c1, pose) ∧
      run numerics anim 100 1 c [[7]] = .ok (c2, pose2) ∧ pose.length = 2 ∧
      (∀ i, i < 1 → (∃ o, pose[i]? = some o) ∧ pose[i]? = pose2[i]?) ∧
      (∀ i, 1 ≤ i → pose[i]? = [[], [5]][i]?) := by
  obtain ⟨c, hc⟩ := example_reached
  exact ⟨c, hc, C21_writes_exactly_its_tracks ratOrder (storeOk 2 rfl) hc rfl wellFormed rfl (by decide)
    (by decide +kernel) (by decide +kernel) (by decide) (by decide)⟩

/-- C18: the example animation and the same without interval frames. -/
example : ∃ c1 c2 pose,
    run numerics anim 100 (2/3) (Context.new 2 mem mem mem) [[]] = .ok (c1, pose) ∧
    run numerics (strip anim 1 1 1) 100 (2/3) (Context.new 2 mem mem mem) [[]] = .ok (c2, pose) :=
  C18_iframes_only_accelerate ratOrder (storeOk 2 rfl)
    (anims' := fun x => if x = 100 then some (strip anim 1 1 1) else none)
    ⟨rfl, by
      intro addr a ha
      simp only at ha
      split at ha
      · simp only [Option.some.injEq] at ha; subst ha
        exact .inr (.inr ⟨rfl, strip_wellFormed wellFormed 1 1 1⟩)
      · simp at ha⟩
    ⟨mem, mem, mem, [], by simp [OpsOk], .nil _⟩ ⟨mem, mem, mem, [], by simp [OpsOk], .nil _⟩
    rfl rfl wellFormed rfl (by decide) (by decide +kernel) (by decide +kernel) (by decide)

/-- C19: animation `anim` at 100, then `anim'` at 200. -/
example := C19_context_moves_between_animations (N := numerics) (n := 3) (addrA := 100) (addrB := 200)
  ratOrder (by decide) (by decide) (by decide) wellFormed wellFormed' rfl rfl
  [((1 : Rat), [[]]), (1/5, [[], []])] (by decide +kernel) (r := 1/2) (by decide +kernel)
  (by decide +kernel) (out := [[]]) (by decide) mem mem mem

/-- C55: restored where only `anim'` lives, at an address other than the remembered one. -/
example (c c1 : Context Rat (Fin 4 → Rat) (Fin 4 → Rat)) (hc : Reached numerics (0 : Rat) 1 store 2 c)
    (h : c.cloneWithoutAnimationId mem mem mem = .ok c1) (h0 : c1.animationId = 0) :=
  C55_restored_elsewhere (addr := 200) ratOrder (storeOk 2 rfl) (storeOk 2 rfl) hc mem mem mem mem mem mem
    (.inr h) rfl (by rw [h0]; decide) wellFormed' rfl (by decide) (r := 1/2) (by decide +kernel)
    (by decide +kernel) (out := [[]]) (by decide)

/-- C20: the example animation with a context for 8 tracks. -/
example : run numerics (strip anim 1 1 1) 100 0 (Context.new 8 mem mem mem) [[], []] = .panic :=
  (C20_larger_context_panics (strip anim 1 1 1) 100 0 8 mem mem mem [[], []] (by decide) (by decide)
    (by decide) (by decide) rfl (by decide)).2

example := C20_same_soa_capacity_partial (N := numerics) ratOrder (storeOk 2 rfl) (addr := 100) rfl
  wellFormed (n := 4) (by decide) (by decide) (r := 1) (by decide +kernel) (by decide +kernel)
  (out := [[]]) (by decide) mem mem mem mem mem mem

/-- The pose part of an outcome. -/
def poseOf {σ : Type} : Outcome (σ × List (List Rat)) → Option (List (List Rat))
  | .ok (_, o) => some o
  | _ => none

/-- C19 needs the animations to be alive at the same time: the context identifies an animation by its
address. If `anim` is dropped and `anim'` is later placed at the same address, the context still
believes its cached keys are current and produces a pose of the dropped animation. -/
theorem C19_address_reuse_gives_stale_pose :
    ∃ c, Reached numerics (0 : Rat) 1 (fun x => if x = 100 then some anim else none) 2 c ∧
      ∃ c1 c2 pose pose', run numerics anim' 100 1 c [[]] = .ok (c1, pose) ∧
        run numerics anim' 100 1 (Context.new 2 mem mem mem) [[]] = .ok (c2, pose') ∧ pose ≠ pose' := by
  have key : ∀ o : Outcome (Context Rat (Fin 4 → Rat) (Fin 4 → Rat) × List (List Rat)), ∀ p,
      poseOf o = some p → ∃ c, o = .ok (c, p) := by
    intro o p h
    match o with
    | .ok (c, q) => exact ⟨c, by simp only [poseOf, Option.some.injEq] at h; rw [h]⟩
    | .err _ _ => simp [poseOf] at h
    | .panic => simp [poseOf] at h
  have hops : OpsOk (V3 := Fin 4 → Rat) (VQ := Fin 4 → Rat) (0 : Rat) 1
      (fun x => if x = 100 then some anim else none) [.sample 100 1 [([] : List Rat)]] := by
    intro op hop
    simp only [List.mem_cons, List.not_mem_nil, or_false] at hop
    subst hop
    exact ⟨⟨_, rfl⟩, by decide +kernel, by decide +kernel⟩
  -- the context after the first sample
  let first := run numerics anim 100 1 (Context.new 2 mem mem mem) [([] : List Rat)]
  obtain ⟨c, hrun⟩ := key first [[11, 7, 0, 0, 8, 5, 6, 7, 11, 7, 0, 0]] (by decide +kernel)
  refine ⟨c, ⟨mem, mem, mem, _, hops, .sample rfl (.inl hrun) (.nil c)⟩, ?_⟩
  let second := match first with
    | .ok (c, _) => run numerics anim' 100 1 c [([] : List Rat)]
    | _ => .panic
  have hsecond : second = run numerics anim' 100 1 c [([] : List Rat)] := by
    show (match first with
    | .ok (c, _) => run numerics anim' 100 1 c [([] : List Rat)]
    | _ => .panic) = _
    rw [hrun]
  obtain ⟨c1, h1⟩ := key second [[8, 8, 6, 7, 7, 30, 0, 0, 8, 8, 6, 7]] (by decide +kernel)
  obtain ⟨c2, h2⟩ := key (run numerics anim' 100 1 (Context.new 2 mem mem mem) [([] : List Rat)])
    [[8, 5, 6, 7, 11, 7, 0, 0, 8, 5, 6, 7]] (by decide +kernel)
  exact ⟨c1, c2, _, _, hsecond ▸ h1, h2, by decide +kernel⟩

end

end Ozz.Props
