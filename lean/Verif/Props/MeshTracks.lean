import Verif.Props.FrameTracks
import Verif.Props.Skinning

/-!
C102 up to the mesh: two animations are sampled, converted to model matrices and skin the same mesh. A vertex goes to the same
place if the tracks of its joints and of their ancestors have the same keys.
-/

namespace Ozz.Props

open Sampling Spec F32 Keys
open _root_.Ozz.LocalToModel (localMatrices)

/-- The model matrices fill the buffer they are written to. -/
theorem models_length {α : Type} [Add α] [Sub α] [Mul α] [Div α] [Neg α] [NumOps α] (m : LocalToModel.Job (SoaTransform α) (Mat4 α))
    (hp : ParentsFirst m.parents) {pose : List (SoaTransform α)} (hl : numSoa m.parents.length ≤ pose.length) {models ms : List (Mat4 α)}
    (hm : m.parents.length ≤ models.length) (hf1 : -(2:Int)^31 ≤ m.from_) (hf2 : m.from_ < 0)
    (ht1 : (m.parents.length : Int) ≤ m.to + 1) (ht2 : m.to < 2^31 - 1)
    (h : LocalToModel.run Mat4.mul localMatrices { m with input := pose } models = .ok ms) : ms.length = models.length := by
  have hloc : ∀ k, ∃ x, k < m.parents.length → LocalMatrix localMatrices pose k x := by
    intro k
    by_cases hk : k < m.parents.length
    · have hk4 : k / 4 < pose.length := by unfold numSoa at hl; omega
      exact ⟨_, fun _ => ⟨pose[k / 4], List.getElem?_eq_getElem hk4, rfl⟩⟩
    · exact ⟨fun _ _ => NumOps.zero, fun h => absurd h hk⟩
  choose loc hloc using hloc
  obtain ⟨ms', e1, e2, -⟩ := C28_full_run Mat4.mul localMatrices { m with input := pose } models hp (by simp [LocalToModel.validate, hl, hm]) loc
    (fun k hk => hloc k hk) hf1 hf2 ht1 ht2
  rw [h] at e1
  cases e1
  exact e2

/-- C102: the vertices of a mesh skinned with matrices made joint by joint from the model matrices of two animations. Both runs
succeed, and a vertex goes to the same place in both, and so do its normal and tangent, if the animations have the same keys in the
tracks of its joints and of all their ancestors. -/
theorem C102_mesh {anims anims' : Nat → Option (Animation F32 Float3Key QuatKey)} {n n' : Nat}
    (hst : StoreOk F32.zero F32.one ((n + 3) / 4) anims) (hst' : StoreOk F32.zero F32.one ((n' + 3) / 4) anims')
    {p p' : Play} (hp : PlayRuns anims n p) (hp' : PlayRuns anims' n' p') (hratio : p.ratio = p'.ratio)
    {d d' : Sampling.Context F32 (SoaVec3 F32) (SoaQuat F32)} {pose pose' : List (SoaTransform F32)}
    (hrun : Sampling.run codeNumerics p.animation p.addr p.ratio p.context p.buffer = .ok (d, pose))
    (hrun' : Sampling.run codeNumerics p'.animation p'.addr p'.ratio p'.context p'.buffer = .ok (d', pose'))
    (m : LocalToModel.Job (SoaTransform F32) (Mat4 F32)) (hpar : ParentsFirst m.parents)
    (ht : m.parents.length ≤ p.animation.numTracks) (ht' : m.parents.length ≤ p'.animation.numTracks)
    (hl : numSoa m.parents.length ≤ pose.length) (hl' : numSoa m.parents.length ≤ pose'.length)
    {models models' ms ms' : List (Mat4 F32)} (hm : m.parents.length ≤ models.length) (hm' : m.parents.length ≤ models'.length)
    (hf1 : -(2:Int)^31 ≤ m.from_) (hf2 : m.from_ < 0) (ht1 : (m.parents.length : Int) ≤ m.to + 1) (ht2 : m.to < 2^31 - 1)
    (hms : LocalToModel.run Mat4.mul localMatrices { m with input := pose } models = .ok ms)
    (hms' : LocalToModel.run Mat4.mul localMatrices { m with input := pose' } models' = .ok ms')
    (f : Nat → Mat4 F32 → Mat4 F32) (ck : Bool) (j : Skinning.Job F32) (s s' : Skinning.State F32) (ix : List Nat)
    (hv : Skinning.validate ck { j with matrices := some (.ok (ms.mapIdx f)) } s = .ok true)
    (hv' : Skinning.validate ck { j with matrices := some (.ok (ms'.mapIdx f)) } s' = .ok true)
    (hb : j.vertexCount * j.influences < 2 ^ 64) (hit : j.itMatrices = none) (hix : j.indices = some (.ok ix))
    (hin : ∀ k i, k < j.vertexCount * j.influences → ix[k]? = some i → i < m.parents.length) :
    ∃ t t', Skinning.run ck { j with matrices := some (.ok (ms.mapIdx f)) } s = .ok t ∧
      Skinning.run ck { j with matrices := some (.ok (ms'.mapIdx f)) } s' = .ok t' ∧
      ∀ v < j.vertexCount, (∀ k < j.influences, ∀ i, ix[v * j.influences + k]? = some i → ∀ path, PathTo m.parents i path →
          ∀ k ∈ path, SameTracks F32.zero F32.one p.animation p'.animation k k) →
        SameElem t.positions v t'.positions v ∧ (j.inNormals ≠ none → SameElem t.normals v t'.normals v) ∧
        (j.inTangents ≠ none → SameElem t.tangents v t'.tangents v) := by
  have len := models_length m hpar hl hm hf1 hf2 ht1 ht2 hms
  have len' := models_length m hpar hl' hm' hf1 hf2 ht1 ht2 hms'
  obtain ⟨_, _, h1, h2, h3⟩ := C102_playback hst hst' hp hp' hratio hrun hrun' m hpar ht ht' hl hl' models models' hm hm' hf1 hf2 ht1 ht2
  rw [hms] at h1
  rw [hms'] at h2
  cases h1
  cases h2
  have bound : ∀ k i, k < j.vertexCount * j.influences → ix[k]? = some i → i < (ms.mapIdx f).length ∧ i < (ms'.mapIdx f).length := by
    intro k i hk hi
    have := hin k i hk hi
    rw [List.length_mapIdx, List.length_mapIdx]
    omega
  have vertex := fun v hlt hsame => C100_vertex ck j s s' f ms ms' (ms.mapIdx f) (ms'.mapIdx f) ix
    (fun i x h => by rw [List.getElem?_mapIdx, h]; rfl) (fun i x h => by rw [List.getElem?_mapIdx, h]; rfl) hv hv' hb hit hix bound
    v hlt hsame
  have range : Skinning.InRange { j with matrices := some (.ok (ms.mapIdx f)) } (ms.mapIdx f) ix :=
    ⟨fun k i hk hi => (bound k i hk hi).1, fun _ h => absurd hit h⟩
  have range' : Skinning.InRange { j with matrices := some (.ok (ms'.mapIdx f)) } (ms'.mapIdx f) ix :=
    ⟨fun k i hk hi => (bound k i hk hi).2, fun _ h => absurd hit h⟩
  obtain ⟨t, r, -⟩ := C48_runs ck _ s _ ix hv hb rfl hix range
  obtain ⟨t', r', -⟩ := C48_runs ck _ s' _ ix hv' hb rfl hix range'
  refine ⟨t, t', r, r', fun v hlt hsame => ?_⟩
  obtain ⟨t2, t2', g, g', h⟩ := vertex v hlt fun k hk i hi => h3 i (by
    have : (v + 1) * j.influences ≤ j.vertexCount * j.influences := Nat.mul_le_mul_right _ hlt
    rw [Nat.succ_mul] at this
    exact hin _ i (by omega) hi) (hsame k hk i hi)
  rw [r] at g
  rw [r'] at g'
  cases g
  cases g'
  exact h

/-! ### Example

Two vertices, the first bound to the sound joint and the second to the spoiled one. The first goes to the same place in both. -/

section
open Ozz.Sampling.FloatExample Ozz.Sampling.Example

def trackMesh : Skinning.Job F32 where
  vertexCount := 2
  influences := 1
  matrices := none
  itMatrices := none
  indices := some (.ok [0, 1])
  weights := none
  inPositions := some (.ok [vtxPoint F32.one, vtxPoint F32.one])
  inNormals := some (.ok [vtxPoint F32.one, vtxPoint F32.one])
  inTangents := none

theorem trackMesh_valid {ms : List (Mat4 F32)} (h : ms.length = 2) :
    Skinning.validate true { trackMesh with matrices := some (.ok ms) } vtxOut' = .ok true := by
  match ms, h with
  | [_, _], _ => rfl

example (c c' : Sampling.Context F32 (SoaVec3 F32) (SoaQuat F32)) (hc : Reached codeNumerics F32.zero F32.one store32 2 c)
    (hc' : Reached codeNumerics F32.zero F32.one storeSpoiled 2 c') :
    ∃ ms ms' t t', Skinning.run true { trackMesh with matrices := some (.ok ms) } vtxOut' = .ok t ∧
      Skinning.run true { trackMesh with matrices := some (.ok ms') } vtxOut' = .ok t' ∧
      SameElem t.positions 0 t'.positions 0 ∧ SameElem t.normals 0 t'.normals 0 := by
  obtain ⟨d1, d1', p1, p1', o1, o1', e1, e1', f1, f1', -⟩ := C101_f32 store32_ok storeSpoiled_ok hc hc'
    (trackPlay_runs laneOne hc).stored (trackPlay'_runs laneNan hc').stored rfl rfl (r := half) (by decide +kernel) (by decide +kernel)
    (trackPlay_runs laneOne hc).buffer (trackPlay'_runs laneNan hc').buffer 0 0 Nat.zero_lt_two Nat.zero_lt_two spoiled_same
  have hpar : ParentsFirst trackTree.parents := by unfold ParentsFirst trackTree; decide
  have l1 : 1 ≤ p1.length := (List.getElem?_eq_some_iff.mp f1).1
  have l1' : 1 ≤ p1'.length := (List.getElem?_eq_some_iff.mp f1').1
  obtain ⟨ms, ms', h1, h2, -⟩ := C102_playback store32_ok storeSpoiled_ok (trackPlay_runs laneOne hc) (trackPlay'_runs laneNan hc') rfl
    e1 e1' trackTree hpar (Nat.le_refl 2) (Nat.le_refl 2) l1 l1'
    (List.replicate 2 trackTree.root) (List.replicate 2 trackTree.root) (by decide) (by decide) (by decide) (by decide) (by decide) (by decide)
  have len : ms.length = 2 := models_length trackTree hpar l1 (models := List.replicate 2 trackTree.root)
    (by decide) (by decide) (by decide) (by decide) (by decide) h1
  have len' : ms'.length = 2 := models_length trackTree hpar l1' (models := List.replicate 2 trackTree.root)
    (by decide) (by decide) (by decide) (by decide) (by decide) h2
  obtain ⟨t, t', r, r', h⟩ := C102_mesh store32_ok storeSpoiled_ok (trackPlay_runs laneOne hc) (trackPlay'_runs laneNan hc') rfl
    e1 e1' trackTree hpar (Nat.le_refl 2) (Nat.le_refl 2) l1 l1' (by decide) (by decide) (by decide) (by decide) (by decide) (by decide)
    h1 h2 (fun _ => (Mat4.mul · (vtxMat (F32.ofNat 7)))) true trackMesh vtxOut' vtxOut' [0, 1]
    (trackMesh_valid (by rw [List.length_mapIdx, len])) (trackMesh_valid (by rw [List.length_mapIdx, len'])) (by decide) rfl rfl
    (by
      intro k i hk hi
      have hk : k < 2 * 1 := hk
      obtain rfl | rfl : k = 0 ∨ k = 1 := by omega
      all_goals cases hi; decide)
  obtain ⟨a, b, -⟩ := h 0 (by decide) (by
    intro k hk i hi path hpath q hq
    have hk : k < 1 := hk
    obtain rfl : k = 0 := by omega
    cases hi
    cases LocalToModel.pathTo_unique (PathTo.root (ps := trackTree.parents) (i := 0) rfl) hpath
    obtain rfl : q = 0 := by simpa using hq
    exact spoiled_same)
  exact ⟨_, _, t, t', r, r', a, b (by simp [trackMesh])⟩

end

end Ozz.Props
