import Verif.Spec.FrameTracks
import Verif.Props.TrackSampled
import Verif.Props.FrameLocality

/-!
C102: the same from the animations on. Two frames play animations, add additive animations, blend, and convert to model
matrices in single precision. A joint has the same model matrix in both if the tracks of the joint and of its ancestors have
the same keys, whatever the other tracks, the layout of the animations and the histories of the contexts are.
-/

namespace Ozz.Props

open Sampling Spec F32 Keys
open _root_.Ozz.LocalToModel (localMatrices)

/-- Every play gives a layer that says the same about the joint. -/
theorem layer_same {anims anims' : Nat → Option (Animation F32 Float3Key QuatKey)} {n n' : Nat}
    (hst : StoreOk F32.zero F32.one ((n + 3) / 4) anims) (hst' : StoreOk F32.zero F32.one ((n' + 3) / 4) anims')
    {p p' : Play} (hp : PlayRuns anims n p) (hp' : PlayRuns anims' n' p') {k : Nat} (h : SamePlay k p p')
    {y y' : Blending.Layer F32} (hy : LayerOf p y) (hy' : LayerOf p' y') :
    SameForJoint (k / 4) (laneIn k) (k / 4) (laneIn k) y y' := by
  obtain ⟨c, pose, e, rfl⟩ := hy
  obtain ⟨c', pose', e', rfl⟩ := hy'
  obtain ⟨d, d', q, q', o, o', g, g', h1, h2, h3⟩ := C101_f32 hst hst' hp.reached hp'.reached hp.stored hp'.stored hp.blocks hp'.blocks
    hp.ratio.1 hp.ratio.2 hp.buffer hp'.buffer k k h.inside.1 h.inside.2 h.tracks
  rw [g] at e
  rw [← h.ratio, g'] at e'
  cases e
  cases e'
  exact ⟨h.weight, h.masked, h.jointWeight, _, _, o, o', rfl, rfl, h1, h2, h3⟩

theorem layers_same {anims anims' : Nat → Option (Animation F32 Float3Key QuatKey)} {n n' : Nat}
    (hst : StoreOk F32.zero F32.one ((n + 3) / 4) anims) (hst' : StoreOk F32.zero F32.one ((n' + 3) / 4) anims') {k : Nat}
    {plays plays' : List Play} (h : List.Forall₂ (SamePlay k) plays plays') :
    ∀ {ys ys' : List (Blending.Layer F32)}, (∀ p ∈ plays, PlayRuns anims n p) → (∀ p ∈ plays', PlayRuns anims' n' p) →
      List.Forall₂ LayerOf plays ys → List.Forall₂ LayerOf plays' ys' →
      List.Forall₂ (SameForJoint (k / 4) (laneIn k) (k / 4) (laneIn k)) ys ys' := by
  induction h with
  | nil => intro ys ys' _ _ a b; cases a; cases b; exact .nil
  | cons h _ ih =>
    intro ys ys' hp hp' a b
    cases a with
    | cons a1 a2 =>
      cases b with
      | cons b1 b2 =>
        exact .cons (layer_same hst hst' (hp _ (by simp)) (hp' _ (by simp)) h a1 b1)
          (ih (fun p m => hp p (by simp [m])) (fun p m => hp' p (by simp [m])) a2 b2)

/-- C102: if the blending jobs over the sampled layers run, the model matrices of a joint are the same
in both frames whenever the frames say the same about the joint and all its ancestors. -/
theorem C102_frame {anims anims' : Nat → Option (Animation F32 Float3Key QuatKey)} {n n' : Nat}
    (hst : StoreOk F32.zero F32.one ((n + 3) / 4) anims) (hst' : StoreOk F32.zero F32.one ((n' + 3) / 4) anims')
    {plays adds plays' adds' : List Play} (hp : ∀ p ∈ plays, PlayRuns anims n p) (ha : ∀ p ∈ adds, PlayRuns anims n p)
    (hp' : ∀ p ∈ plays', PlayRuns anims' n' p) (ha' : ∀ p ∈ adds', PlayRuns anims' n' p)
    {ys zs ys' zs' : List (Blending.Layer F32)} (hy : List.Forall₂ LayerOf plays ys) (hz : List.Forall₂ LayerOf adds zs)
    (hy' : List.Forall₂ LayerOf plays' ys') (hz' : List.Forall₂ LayerOf adds' zs')
    {rest rest' : List (SoaTransform F32)} (thr : F32) (c c' d d' : Blending.Context F32) {out out' pose pose' : List (SoaTransform F32)}
    (hrun : Blending.run ⟨some rest, thr, ys, zs⟩ ⟨some c, some (.ok out)⟩ = .ok ⟨some d, some (.ok pose)⟩)
    (hrun' : Blending.run ⟨some rest', thr, ys', zs'⟩ ⟨some c', some (.ok out')⟩ = .ok ⟨some d', some (.ok pose')⟩)
    (m : LocalToModel.Job (SoaTransform F32) (Mat4 F32)) (hpar : ParentsFirst m.parents)
    (hr : numSoa m.parents.length ≤ rest.length) (hr' : numSoa m.parents.length ≤ rest'.length)
    (models models' : List (Mat4 F32)) (hm : m.parents.length ≤ models.length) (hm' : m.parents.length ≤ models'.length)
    (hf1 : -(2:Int)^31 ≤ m.from_) (hf2 : m.from_ < 0) (ht1 : (m.parents.length : Int) ≤ m.to + 1) (ht2 : m.to < 2^31 - 1) :
    ∃ ms ms', LocalToModel.run Mat4.mul localMatrices { m with input := pose } models = .ok ms ∧
      LocalToModel.run Mat4.mul localMatrices { m with input := pose' } models' = .ok ms' ∧
      ∀ i < m.parents.length, (∀ path, PathTo m.parents i path → ∀ k ∈ path, SameSources plays plays' adds adds' rest rest' k) →
        ∃ x, ms[i]? = some x ∧ ms'[i]? = some x := by
  obtain ⟨ms, ms', h1, h2, h3⟩ := C100_joint_f32 ⟨some rest, thr, ys, zs⟩ ⟨some rest', thr, ys', zs'⟩ rest rest' c c' out out' rfl rfl rfl
    d d' pose pose' hrun hrun' m hpar hr hr' models models' hm hm' hf1 hf2 ht1 ht2
  refine ⟨ms, ms', h1, h2, fun i hi hs => h3 i hi fun path hpath k hk => ?_⟩
  have s := hs path hpath k hk
  exact ⟨s.rest, layers_same hst hst' s.plays hp hp' hy hy', layers_same hst hst' s.adds ha ha' hz hz'⟩

/-- C102 without blending: two animations sampled and converted to model matrices straight away. -/
theorem C102_playback {anims anims' : Nat → Option (Animation F32 Float3Key QuatKey)} {n n' : Nat}
    (hst : StoreOk F32.zero F32.one ((n + 3) / 4) anims) (hst' : StoreOk F32.zero F32.one ((n' + 3) / 4) anims')
    {p p' : Play} (hp : PlayRuns anims n p) (hp' : PlayRuns anims' n' p') (hratio : p.ratio = p'.ratio)
    {d d' : Sampling.Context F32 (SoaVec3 F32) (SoaQuat F32)} {pose pose' : List (SoaTransform F32)}
    (hrun : Sampling.run codeNumerics p.animation p.addr p.ratio p.context p.buffer = .ok (d, pose))
    (hrun' : Sampling.run codeNumerics p'.animation p'.addr p'.ratio p'.context p'.buffer = .ok (d', pose'))
    (m : LocalToModel.Job (SoaTransform F32) (Mat4 F32)) (hpar : ParentsFirst m.parents)
    (ht : m.parents.length ≤ p.animation.numTracks) (ht' : m.parents.length ≤ p'.animation.numTracks)
    (hl : numSoa m.parents.length ≤ pose.length) (hl' : numSoa m.parents.length ≤ pose'.length)
    (models models' : List (Mat4 F32)) (hm : m.parents.length ≤ models.length) (hm' : m.parents.length ≤ models'.length)
    (hf1 : -(2:Int)^31 ≤ m.from_) (hf2 : m.from_ < 0) (ht1 : (m.parents.length : Int) ≤ m.to + 1) (ht2 : m.to < 2^31 - 1) :
    ∃ ms ms', LocalToModel.run Mat4.mul localMatrices { m with input := pose } models = .ok ms ∧
      LocalToModel.run Mat4.mul localMatrices { m with input := pose' } models' = .ok ms' ∧
      ∀ i < m.parents.length,
        (∀ path, PathTo m.parents i path → ∀ k ∈ path, SameTracks F32.zero F32.one p.animation p'.animation k k) →
        ∃ x, ms[i]? = some x ∧ ms'[i]? = some x := by
  obtain ⟨ms, ms', h1, h2, h3⟩ := C100_models m hpar hl hl' models models' hm hm' hf1 hf2 ht1 ht2
  refine ⟨ms, ms', h1, h2, fun i hi hs => h3 i hi fun path hpath k hk hlt => ?_⟩
  obtain ⟨_, _, q, q', o, o', g, g', e⟩ := C101_f32 hst hst' hp.reached hp'.reached hp.stored hp'.stored hp.blocks hp'.blocks
    hp.ratio.1 hp.ratio.2 hp.buffer hp'.buffer k k (by omega) (by omega) (hs path hpath k hk)
  rw [hrun] at g
  rw [hratio, hrun'] at g'
  cases g
  cases g'
  exact ⟨o, o', e⟩

/-- C102: the layers that `C102_frame` speaks of exist: every such play can be sampled. -/
theorem C102_layers {anims : Nat → Option (Animation F32 Float3Key QuatKey)} {n : Nat}
    (hst : StoreOk F32.zero F32.one ((n + 3) / 4) anims) {plays : List Play} (hp : ∀ p ∈ plays, PlayRuns anims n p) :
    ∃ ys, List.Forall₂ LayerOf plays ys := by
  induction plays with
  | nil => exact ⟨[], .nil⟩
  | cons p ps ih =>
    obtain ⟨ys, h⟩ := ih fun q m => hp q (by simp [m])
    have r := hp p (by simp)
    rcases Nat.eq_zero_or_pos ((n + 3) / 4) with hz | hpos
    · have hm := (reached_usable f32Order hst r.reached).maxSoa
      refine ⟨_ :: ys, .cons ⟨p.context, p.buffer, ?_, rfl⟩ h⟩
      simp only [run, validate, Animation.numSoa, r.blocks, hz, hm]
      simp
    · have wf : WellFormed F32.zero F32.one p.animation := by
        rcases hst.2 _ _ r.stored with h | h | h
        · have := r.blocks; omega
        · have := r.blocks; omega
        · exact h.2
      obtain ⟨c', out', e, -⟩ := C16_sampling_brackets (N := codeNumerics) f32Order hst r.reached r.stored wf r.blocks r.ratio.1 r.ratio.2 r.buffer
      exact ⟨_ :: ys, .cons ⟨c', out', e, rfl⟩ h⟩

/-! ### Example

Two joints, the second hangs on the first. One frame plays `anim32`, the other `animSpoiled`, whose second track is infinite,
both as a layer and as an additive layer. The first joint is the same in both. -/

section
open Ozz.Sampling.FloatExample Ozz.Sampling.Example

def trackPlay (c : Sampling.Context F32 (SoaVec3 F32) (SoaQuat F32)) (w : F32) : Play :=
  ⟨100, anim32, half, c, [lanePoseF (splat laneNan)], laneOne, [f4 laneOne w laneOne laneOne]⟩

def trackPlay' (c : Sampling.Context F32 (SoaVec3 F32) (SoaQuat F32)) (w : F32) : Play :=
  ⟨8, animSpoiled, half, c, [lanePoseF (splat laneOne)], laneOne, [f4 laneOne w laneOne laneOne]⟩

theorem trackPlay_same (c c' : Sampling.Context F32 (SoaVec3 F32) (SoaQuat F32)) (w w' : F32) :
    SamePlay 0 (trackPlay c w) (trackPlay' c' w') :=
  ⟨rfl, rfl, by simp [trackPlay, trackPlay'], rfl, ⟨Nat.zero_lt_two, Nat.zero_lt_two⟩, spoiled_same⟩

theorem trackPlay_runs {c : Sampling.Context F32 (SoaVec3 F32) (SoaQuat F32)} (w : F32)
    (hc : Reached codeNumerics F32.zero F32.one store32 2 c) : PlayRuns store32 2 (trackPlay c w) :=
  ⟨by simp [store32, trackPlay], hc, rfl, ⟨show F32.zero ≤ half by decide +kernel, show half ≤ F32.one by decide +kernel⟩, by simp [trackPlay]⟩

theorem trackPlay'_runs {c : Sampling.Context F32 (SoaVec3 F32) (SoaQuat F32)} (w : F32)
    (hc : Reached codeNumerics F32.zero F32.one storeSpoiled 2 c) : PlayRuns storeSpoiled 2 (trackPlay' c w) :=
  ⟨by simp [storeSpoiled, trackPlay'], hc, rfl, ⟨show F32.zero ≤ half by decide +kernel, show half ≤ F32.one by decide +kernel⟩, by simp [trackPlay']⟩

/-- A frame of one play and one additive play blends. -/
theorem track_blends {y z : Blending.Layer F32} {p q : List (SoaTransform F32)} {w v : F4 F32} (rest : SoaTransform F32)
    (hy : y = ⟨.ok p, laneOne, [w]⟩) (hz : z = ⟨.ok q, laneOne, [v]⟩) (hp : 1 ≤ p.length) (hq : 1 ≤ q.length) :
    ∃ d pose, Blending.run ⟨some [rest], laneOne, [y], [z]⟩ ⟨some laneCtx, some (.ok [lanePoseF (splat laneNan)])⟩ =
      .ok ⟨some d, some (.ok pose)⟩ := by
  subst hy hz
  obtain ⟨c', out', h, -⟩ := C35_valid_runs_partial ⟨some [rest], laneOne, [⟨.ok p, laneOne, [w]⟩], [⟨.ok q, laneOne, [v]⟩]⟩ [rest] laneCtx
    [lanePoseF (splat laneNan)]
    (by
      rw [Blending.validate_iff]
      refine ⟨_, _, _, rfl, rfl, rfl, show NumOps.lt NumOps.zero laneOne = true by decide +kernel, by simp, ?_, ?_⟩ <;> intro l hl <;>
        simp only [List.mem_cons, List.not_mem_nil, or_false] at hl <;> subst hl <;> rw [Blending.Layer.ok_iff]
      · exact ⟨_, rfl, by simpa using hp, by simp⟩
      · exact ⟨_, rfl, by simpa using hq, by simp⟩) rfl (.inr rfl)
  exact ⟨_, _, h⟩

def trackTree : LocalToModel.Job (SoaTransform F32) (Mat4 F32) :=
  ⟨[-1, 0], [], fun c r => if c = r then F32.one else F32.zero, -1, 1024, false⟩

example (c c2 c' c2' : Sampling.Context F32 (SoaVec3 F32) (SoaQuat F32)) (hc : Reached codeNumerics F32.zero F32.one store32 2 c)
    (hc2 : Reached codeNumerics F32.zero F32.one store32 2 c2) (hc' : Reached codeNumerics F32.zero F32.one storeSpoiled 2 c')
    (hc2' : Reached codeNumerics F32.zero F32.one storeSpoiled 2 c2') :
    ∃ pose pose' ms ms' x, LocalToModel.run Mat4.mul localMatrices { trackTree with input := pose }
        (List.replicate 2 trackTree.root) = .ok ms ∧
      LocalToModel.run Mat4.mul localMatrices { trackTree with input := pose' } (List.replicate 2 trackTree.root) = .ok ms' ∧
      ms[0]? = some x ∧ ms'[0]? = some x := by
  obtain ⟨d1, d1', p1, p1', o1, o1', e1, e1', f1, f1', -⟩ := C101_f32 store32_ok storeSpoiled_ok hc hc'
    (trackPlay_runs laneOne hc).stored (trackPlay'_runs laneNan hc').stored rfl rfl (r := half) (by decide +kernel) (by decide +kernel)
    (trackPlay_runs laneOne hc).buffer (trackPlay'_runs laneNan hc').buffer 0 0 Nat.zero_lt_two Nat.zero_lt_two spoiled_same
  obtain ⟨d2, d2', p2, p2', o2, o2', e2, e2', f2, f2', -⟩ := C101_f32 store32_ok storeSpoiled_ok hc2 hc2'
    (trackPlay_runs laneOne hc2).stored (trackPlay'_runs laneNan hc2').stored rfl rfl (r := half) (by decide +kernel) (by decide +kernel)
    (trackPlay_runs laneOne hc2).buffer (trackPlay'_runs laneNan hc2').buffer 0 0 Nat.zero_lt_two Nat.zero_lt_two spoiled_same
  have long : ∀ {l : List (SoaTransform F32)} {o : SoaTransform F32}, l[0 / 4]? = some o → 1 ≤ l.length := fun h =>
    (List.getElem?_eq_some_iff.mp h).1
  obtain ⟨d, pose, g⟩ := track_blends (lanePoseF (f4 laneOne laneOne laneOne laneOne)) rfl rfl (long f1) (long f2)
    (w := f4 laneOne laneOne laneOne laneOne) (v := f4 laneOne laneOne laneOne laneOne)
  obtain ⟨d', pose', g'⟩ := track_blends (lanePoseF (f4 laneOne laneNan laneOne laneOne)) rfl rfl (long f1') (long f2')
    (w := f4 laneOne laneNan laneOne laneOne) (v := f4 laneOne laneNan laneOne laneOne)
  obtain ⟨ms, ms', h1, h2, h3⟩ := C102_frame store32_ok storeSpoiled_ok (plays := [trackPlay c laneOne]) (adds := [trackPlay c2 laneOne])
    (plays' := [trackPlay' c' laneNan]) (adds' := [trackPlay' c2' laneNan])
    (by simpa using trackPlay_runs laneOne hc) (by simpa using trackPlay_runs laneOne hc2)
    (by simpa using trackPlay'_runs laneNan hc') (by simpa using trackPlay'_runs laneNan hc2')
    (.cons ⟨d1, p1, e1, rfl⟩ .nil) (.cons ⟨d2, p2, e2, rfl⟩ .nil) (.cons ⟨d1', p1', e1', rfl⟩ .nil) (.cons ⟨d2', p2', e2', rfl⟩ .nil)
    laneOne laneCtx laneCtx d d' g g' trackTree (by unfold ParentsFirst trackTree; decide) (by decide) (by decide)
    (List.replicate 2 trackTree.root) (List.replicate 2 trackTree.root) (by decide) (by decide) (by decide) (by decide) (by decide) (by decide)
  obtain ⟨x, x1, x2⟩ := h3 0 (by decide) (by
    intro path hpath k hk
    cases LocalToModel.pathTo_unique (PathTo.root (ps := trackTree.parents) (i := 0) rfl) hpath
    obtain rfl : k = 0 := by simpa using hk
    exact ⟨⟨_, _, rfl, rfl, by constructor <;> rfl⟩, .cons (trackPlay_same _ _ _ _) .nil, .cons (trackPlay_same _ _ _ _) .nil⟩)
  exact ⟨pose, pose', ms, ms', x, h1, h2, x1, x2⟩

example (c c' : Sampling.Context F32 (SoaVec3 F32) (SoaQuat F32)) (hc : Reached codeNumerics F32.zero F32.one store32 2 c)
    (hc' : Reached codeNumerics F32.zero F32.one storeSpoiled 2 c') :
    ∃ pose pose' ms ms' x, LocalToModel.run Mat4.mul localMatrices { trackTree with input := pose }
        (List.replicate 2 trackTree.root) = .ok ms ∧
      LocalToModel.run Mat4.mul localMatrices { trackTree with input := pose' } (List.replicate 2 trackTree.root) = .ok ms' ∧
      ms[0]? = some x ∧ ms'[0]? = some x := by
  obtain ⟨d1, d1', p1, p1', o1, o1', e1, e1', f1, f1', -⟩ := C101_f32 store32_ok storeSpoiled_ok hc hc'
    (trackPlay_runs laneOne hc).stored (trackPlay'_runs laneNan hc').stored rfl rfl (r := half) (by decide +kernel) (by decide +kernel)
    (trackPlay_runs laneOne hc).buffer (trackPlay'_runs laneNan hc').buffer 0 0 Nat.zero_lt_two Nat.zero_lt_two spoiled_same
  obtain ⟨ms, ms', h1, h2, h3⟩ := C102_playback store32_ok storeSpoiled_ok (trackPlay_runs laneOne hc) (trackPlay'_runs laneNan hc') rfl
    e1 e1' trackTree (by unfold ParentsFirst trackTree; decide) (Nat.le_refl 2) (Nat.le_refl 2)
    (List.getElem?_eq_some_iff.mp f1).1 (List.getElem?_eq_some_iff.mp f1').1
    (List.replicate 2 trackTree.root) (List.replicate 2 trackTree.root) (by decide) (by decide) (by decide) (by decide) (by decide) (by decide)
  obtain ⟨x, x1, x2⟩ := h3 0 (by decide) (by
    intro path hpath k hk
    cases LocalToModel.pathTo_unique (PathTo.root (ps := trackTree.parents) (i := 0) rfl) hpath
    obtain rfl : k = 0 := by simpa using hk
    exact spoiled_same)
  exact ⟨p1, p1', ms, ms', x, h1, h2, x1, x2⟩

end

end Ozz.Props
