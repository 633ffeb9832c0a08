import Verif.Spec.FrameLocality
import Verif.Props.JointBlending
import Verif.Props.VertexSkinning
import Verif.Props.LocalToModel
import Verif.Props.Lanes
import Verif.Model.LocalToModelCode

/-!
C100: what is wrong with a joint stays with the joint, what hangs on it and the vertices bound to these. Two frames
(blending, local-to-model, skinning) whose inputs agree about a joint and its ancestors give it the same model matrix,
and the vertices bound to such joints the same place, bit for bit. The theorems hold for every arithmetic, in
particular for `f32` with NaN and infinity.
-/

namespace Ozz.Props

open Ozz Blending Spec
open _root_.Ozz.LocalToModel (localMatrices)

section
variable {α : Type} [Add α] [Sub α] [Mul α] [Div α] [Neg α] [NumOps α]

/-- The local matrix of a joint is made of the ten numbers of its lane. -/
theorem localMatrices_same {s s' : SoaTransform α} {l l' : Fin 4} (h : SameLane s l s' l') :
    localMatrices s l = localMatrices s' l' :=
  Lanes.localMatrices_lane (fun v => v.x) ⟨⟨h.tx, h.ty, h.tz⟩, ⟨h.rx, h.ry, h.rz, h.rw⟩, ⟨h.sx, h.sy, h.sz⟩⟩

/-- C100: two local poses of the same hierarchy. A joint that has the same pose in both, as do all its ancestors, has the same
model matrix. -/
theorem C100_models (m : LocalToModel.Job (SoaTransform α) (Mat4 α)) (hp : ParentsFirst m.parents)
    {pose pose' : List (SoaTransform α)} (hl : numSoa m.parents.length ≤ pose.length) (hl' : numSoa m.parents.length ≤ pose'.length)
    (models models' : List (Mat4 α)) (hm : m.parents.length ≤ models.length) (hm' : m.parents.length ≤ models'.length)
    (hf1 : -(2:Int)^31 ≤ m.from_) (hf2 : m.from_ < 0)
    (ht1 : (m.parents.length : Int) ≤ m.to + 1) (ht2 : m.to < 2^31 - 1) :
    ∃ ms ms', LocalToModel.run Mat4.mul localMatrices { m with input := pose } models = .ok ms ∧
      LocalToModel.run Mat4.mul localMatrices { m with input := pose' } models' = .ok ms' ∧
      ∀ i < m.parents.length, (∀ path, PathTo m.parents i path → ∀ k ∈ path, k < m.parents.length →
        ∃ o o', pose[k / 4]? = some o ∧ pose'[k / 4]? = some o' ∧ SameLane o (laneIn k) o' (laneIn k)) →
        ∃ x, ms[i]? = some x ∧ ms'[i]? = some x := by
  have full : ∀ {pose : List (SoaTransform α)} {models : List (Mat4 α)}, numSoa m.parents.length ≤ pose.length →
      m.parents.length ≤ models.length → ∃ (loc : Nat → Mat4 α) (ms : List (Mat4 α)),
      (∀ k, k < m.parents.length → LocalMatrix localMatrices pose k (loc k)) ∧
      LocalToModel.run Mat4.mul localMatrices { m with input := pose } models = .ok ms ∧
      ∀ i, i < m.parents.length → ∃ x, ms[i]? = some x ∧ IsModelMatrix Mat4.mul m.root loc m.parents i x := by
    intro pose models h1 h2
    have hloc : ∀ k, ∃ x, k < m.parents.length → LocalMatrix localMatrices pose k x := by
      intro k
      by_cases hk : k < m.parents.length
      · have hk4 : k / 4 < pose.length := by unfold numSoa at h1; omega
        exact ⟨_, fun _ => ⟨pose[k / 4], List.getElem?_eq_getElem hk4, rfl⟩⟩
      · exact ⟨fun _ _ => NumOps.zero, fun h => absurd h hk⟩
    choose loc hloc using hloc
    obtain ⟨ms, e1, -, -, e2⟩ := C28_full_run Mat4.mul localMatrices { m with input := pose } models hp
      (by simp [LocalToModel.validate, h1, h2]) loc (fun k hk => hloc k hk) hf1 hf2 ht1 ht2
    exact ⟨loc, ms, hloc, e1, e2⟩
  obtain ⟨loc, ms, a1, a2, a3⟩ := full hl hm
  obtain ⟨loc', ms', b1, b2, b3⟩ := full hl' hm'
  refine ⟨ms, ms', a2, b2, fun i hi hsame => ?_⟩
  obtain ⟨x, x1, path, x2, x3⟩ := a3 i hi
  obtain ⟨x', x1', path', x2', x3'⟩ := b3 i hi
  cases LocalToModel.pathTo_unique x2 x2'
  have hin : ∀ {i : Nat} {path : List Nat}, PathTo m.parents i path → ∀ k ∈ path, k < m.parents.length := by
    intro i path h
    induction h with
    | root h => intro k hk; rw [List.mem_singleton] at hk; subst hk; exact (List.getElem?_eq_some_iff.mp h).1
    | child h _ ih =>
      intro k hk
      rw [List.mem_append, List.mem_singleton] at hk
      rcases hk with hk | rfl
      · exact ih k hk
      · exact (List.getElem?_eq_some_iff.mp h).1
  have key : ∀ k ∈ path, loc k = loc' k := by
    intro k hk
    have hk' := hin x2 k hk
    obtain ⟨o, o', e3, e4, e5⟩ := hsame path x2 k hk hk'
    obtain ⟨y, y1, y2⟩ := a1 k hk'
    obtain ⟨y', y1', y2'⟩ := b1 k hk'
    rw [e3] at y1; rw [e4] at y1'
    cases y1; cases y1'
    rw [y2, y2']
    exact localMatrices_same e5
  refine ⟨x, x1, ?_⟩
  rw [x1', x3, x3']
  congr 1
  have fold : ∀ (l : List Nat) (root : Mat4 α), (∀ k ∈ l, loc k = loc' k) →
      l.foldl (fun acc k => Mat4.mul acc (loc' k)) root = l.foldl (fun acc k => Mat4.mul acc (loc k)) root := by
    intro l
    induction l with
    | nil => intro _ _; rfl
    | cons k l ih =>
      intro root h
      rw [List.foldl_cons, List.foldl_cons, h k (by simp)]
      exact ih _ fun n hn => h n (by simp [hn])
  exact fold path _ key

/-- C100: two characters with the same hierarchy and root matrix, blended and converted to model matrices. A joint such
that the jobs say the same about it and its ancestors has the same model matrix in both, whatever they say about the
other joints, in any arithmetic where subtracting zero keeps positive thresholds positive. -/
theorem C100_joint (j j' : Blending.Job α) (rest rest' : List (SoaTransform α)) (c c' : Context α)
    (out out' : List (SoaTransform α)) (hs : j.skeleton = some rest) (hs' : j'.skeleton = some rest')
    (h0 : NumOps.lt NumOps.zero j.threshold = true → NumOps.lt NumOps.zero (j.threshold - NumOps.zero) = true)
    (hthr : j.threshold = j'.threshold) (d d' : Context α) (pose pose' : List (SoaTransform α))
    (hrun : run j ⟨some c, some (.ok out)⟩ = .ok ⟨some d, some (.ok pose)⟩)
    (hrun' : run j' ⟨some c', some (.ok out')⟩ = .ok ⟨some d', some (.ok pose')⟩)
    (m : LocalToModel.Job (SoaTransform α) (Mat4 α)) (hp : ParentsFirst m.parents)
    (hr : numSoa m.parents.length ≤ rest.length) (hr' : numSoa m.parents.length ≤ rest'.length)
    (models models' : List (Mat4 α)) (hm : m.parents.length ≤ models.length) (hm' : m.parents.length ≤ models'.length)
    (hf1 : -(2:Int)^31 ≤ m.from_) (hf2 : m.from_ < 0)
    (ht1 : (m.parents.length : Int) ≤ m.to + 1) (ht2 : m.to < 2^31 - 1) :
    ∃ ms ms', LocalToModel.run Mat4.mul localMatrices { m with input := pose } models = .ok ms ∧
      LocalToModel.run Mat4.mul localMatrices { m with input := pose' } models' = .ok ms' ∧
      ∀ i < m.parents.length, SameUpwards m.parents j j' rest rest' i → ∃ x, ms[i]? = some x ∧ ms'[i]? = some x := by
  have len : ∀ {j : Blending.Job α} {rest : List (SoaTransform α)} {c d : Context α} {out pose : List (SoaTransform α)},
      j.skeleton = some rest → run j ⟨some c, some (.ok out)⟩ = .ok ⟨some d, some (.ok pose)⟩ → rest.length ≤ pose.length := by
    intro j rest c d out pose hs h
    obtain ⟨rest2, _, out2, e1, -, e3, -, e5, -⟩ := (validate_iff _ _).mp (run_ok_validate _ _ _ h)
    rw [hs] at e1
    cases e1; cases e3
    obtain ⟨_, os, e, hl, -⟩ := blended hs h
    cases e
    omega
  obtain ⟨ms, ms', h1, h2, h3⟩ := C100_models m hp (Nat.le_trans hr (len hs hrun)) (Nat.le_trans hr' (len hs' hrun')) models models'
    hm hm' hf1 hf2 ht1 ht2
  refine ⟨ms, ms', h1, h2, fun i hi hsame => h3 i hi fun path hpath k hk _ => ?_⟩
  obtain ⟨⟨r, r', r1, r2, r3⟩, hl, ha⟩ := hsame path hpath k hk
  obtain ⟨_, _, os, os', o, o', e1, e2, e3, e4, e5⟩ := C98_joint_alone j j' rest rest' c c' out out' hs hs' h0
    (k / 4) (k / 4) (laneIn k) (laneIn k) r r' r1 r2 r3 hthr hl ha _ _ hrun hrun'
  cases e1; cases e2
  exact ⟨o, o', e3, e4, e5⟩

end

/-- C100 for single precision, where nothing has to be assumed of the arithmetic. -/
theorem C100_joint_f32 (j j' : Blending.Job F32) (rest rest' : List (SoaTransform F32)) (c c' : Context F32)
    (out out' : List (SoaTransform F32)) (hs : j.skeleton = some rest) (hs' : j'.skeleton = some rest')
    (hthr : j.threshold = j'.threshold) (d d' : Context F32) (pose pose' : List (SoaTransform F32))
    (hrun : run j ⟨some c, some (.ok out)⟩ = .ok ⟨some d, some (.ok pose)⟩)
    (hrun' : run j' ⟨some c', some (.ok out')⟩ = .ok ⟨some d', some (.ok pose')⟩)
    (m : LocalToModel.Job (SoaTransform F32) (Mat4 F32)) (hp : ParentsFirst m.parents)
    (hr : numSoa m.parents.length ≤ rest.length) (hr' : numSoa m.parents.length ≤ rest'.length)
    (models models' : List (Mat4 F32)) (hm : m.parents.length ≤ models.length) (hm' : m.parents.length ≤ models'.length)
    (hf1 : -(2:Int)^31 ≤ m.from_) (hf2 : m.from_ < 0)
    (ht1 : (m.parents.length : Int) ≤ m.to + 1) (ht2 : m.to < 2^31 - 1) :
    ∃ ms ms', LocalToModel.run Mat4.mul localMatrices { m with input := pose } models = .ok ms ∧
      LocalToModel.run Mat4.mul localMatrices { m with input := pose' } models' = .ok ms' ∧
      ∀ i < m.parents.length, SameUpwards m.parents j j' rest rest' i → ∃ x, ms[i]? = some x ∧ ms'[i]? = some x :=
  C100_joint j j' rest rest' c c' out out' hs hs' (fun h => by rw [C57_f32 _ h]; exact h) hthr d d' pose pose' hrun hrun' m hp
    hr hr' models models' hm hm' hf1 hf2 ht1 ht2

/-- C100: a mesh skinned with matrices made joint by joint from the model matrices (`f` multiplies, say, with the inverse
bind matrix of the joint). A vertex all of whose joints have the same model matrices in both frames goes to the same
place, and so do its normal and tangent, whatever the other joints are. -/
theorem C100_vertex {α : Type} [Add α] [Sub α] [Mul α] [NumOps α] (ck : Bool) (j : Skinning.Job α) (s s' : Skinning.State α)
    (f : Nat → Mat4 α → Mat4 α) (models models' mats mats' : List (Mat4 α)) (ix : List Nat)
    (hmat : ∀ i x, models[i]? = some x → mats[i]? = some (f i x))
    (hmat' : ∀ i x, models'[i]? = some x → mats'[i]? = some (f i x))
    (hv : Skinning.validate ck { j with matrices := some (.ok mats) } s = .ok true)
    (hv' : Skinning.validate ck { j with matrices := some (.ok mats') } s' = .ok true)
    (hb : j.vertexCount * j.influences < 2 ^ 64) (hit : j.itMatrices = none) (hix : j.indices = some (.ok ix))
    (hin : ∀ k i, k < j.vertexCount * j.influences → ix[k]? = some i → i < mats.length ∧ i < mats'.length)
    (v : Nat) (hlt : v < j.vertexCount)
    (hsame : ∀ k < j.influences, ∀ i, ix[v * j.influences + k]? = some i → ∃ x, models[i]? = some x ∧ models'[i]? = some x) :
    ∃ t t', Skinning.run ck { j with matrices := some (.ok mats) } s = .ok t ∧
      Skinning.run ck { j with matrices := some (.ok mats') } s' = .ok t' ∧
      SameElem t.positions v t'.positions v ∧ (j.inNormals ≠ none → SameElem t.normals v t'.normals v) ∧
      (j.inTangents ≠ none → SameElem t.tangents v t'.tangents v) := by
  obtain ⟨b, e1, e2⟩ := Skinning.validate_iff ck { j with matrices := some (.ok mats) } s hb
  rw [e1] at hv
  have hvalid : Skinning.Valid { j with matrices := some (.ok mats) } s := by cases hv; exact e2.mp rfl
  have hv : Skinning.validate ck { j with matrices := some (.ok mats) } s = .ok true := by rw [e1]; exact hv
  obtain ⟨v1, -, v3, v4, v5, -, v7, v8⟩ := hvalid
  simp only at v1 v3 v4 v5 v7 v8
  have hsm : SameMatrices j.influences mats ix v mats' ix v := by
    intro k hk
    obtain ⟨xs, e, hl⟩ := v3
    rw [hix] at e; cases e
    have hlt2 : v * j.influences + k < ix.length := by
      have : (v + 1) * j.influences ≤ j.vertexCount * j.influences := Nat.mul_le_mul_right _ hlt
      rw [Nat.succ_mul] at this; omega
    have hget : ix[v * j.influences + k]? = some ix[v * j.influences + k] := List.getElem?_eq_getElem hlt2
    obtain ⟨x, x1, x2⟩ := hsame k hk _ hget
    exact ⟨_, _, f _ x, hget, hget, hmat _ _ x1, hmat' _ _ x2⟩
  obtain ⟨ws, hw⟩ : ∃ ws, 1 < j.influences → j.weights = some (.ok ws) := by
    by_cases h : 1 < j.influences
    · obtain ⟨ws, e, -⟩ := v4 h; exact ⟨ws, fun _ => e⟩
    · exact ⟨[], fun h' => absurd h' h⟩
  obtain ⟨t, t', h1, h2, h3, h4⟩ := C99_vertex_alone ck ck { j with matrices := some (.ok mats) }
    { j with matrices := some (.ok mats') } s s' mats mats mats' mats' ix ix ws ws hv hb rfl (.inr ⟨hit, rfl⟩) hix
    ⟨fun k i hk hi => (hin k i hk hi).1, fun _ h => absurd hit h⟩ hw hv' hb rfl (.inr ⟨hit, rfl⟩) hix
    ⟨fun k i hk hi => (hin k i hk hi).2, fun _ h => absurd hit h⟩ hw rfl v v hlt hlt hsm (fun _ _ _ => rfl)
  have elem : ∀ {A : Type} {b : Skinning.Buf A}, Skinning.Has b j.vertexCount → SameElem b v b v := by
    rintro A b ⟨xs, rfl, hl⟩
    exact ⟨xs, xs, xs[v], rfl, rfl, List.getElem?_eq_getElem (by omega), List.getElem?_eq_getElem (by omega)⟩
  refine ⟨t, t', h1, h2, h3 (elem v5), fun hn => (h4 hsm).1 (elem (v8 hn).1), fun ht => ?_⟩
  have hn : j.inNormals ≠ none := fun h => ht (v7 h)
  exact (h4 hsm).2 (elem ((v8 hn).2.2 ht).1)

/-! ### Examples

Four joints, the second and third hang on the first, the fourth on the second. The second joint is NaN everywhere in
one frame and sound in the other: the third joint is the same in both. -/

def spoilJob (x : F32) : Blending.Job F32 :=
  ⟨some [lanePoseF (f4 laneOne x laneOne laneOne)], laneOne,
    [⟨.ok [lanePoseF (f4 laneOne x laneOne laneOne)], laneOne, [f4 laneOne x laneOne laneOne]⟩],
    [⟨.ok [lanePoseF (f4 laneOne x laneOne laneOne)], laneOne, []⟩]⟩

theorem spoilJob_runs (x : F32) : ∃ d pose, run (spoilJob x) ⟨some laneCtx, some (.ok [lanePoseF (splat laneNan)])⟩ =
    .ok ⟨some d, some (.ok pose)⟩ := by
  obtain ⟨c', out', h, -⟩ := C35_valid_runs_partial (spoilJob x) [lanePoseF (f4 laneOne x laneOne laneOne)] laneCtx
    [lanePoseF (splat laneNan)]
    (by
      rw [validate_iff]
      refine ⟨_, _, _, rfl, rfl, rfl, show NumOps.lt NumOps.zero laneOne = true by decide +kernel, by simp, ?_, ?_⟩ <;> intro l hl <;>
        simp only [spoilJob, List.mem_cons, List.not_mem_nil, or_false] at hl <;> subst hl <;> rw [Layer.ok_iff]
      · exact ⟨_, rfl, by simp, by simp⟩
      · exact ⟨_, rfl, by simp, by simp⟩) rfl (.inr rfl)
  exact ⟨_, _, h⟩

def spoilTree : LocalToModel.Job (SoaTransform F32) (Mat4 F32) :=
  ⟨[-1, 0, 0, 1], [], fun c r => if c = r then F32.one else F32.zero, -1, 1024, false⟩

theorem spoil_path : PathTo spoilTree.parents 2 [0, 2] :=
  PathTo.child (ps := spoilTree.parents) (i := 2) (p := 0) (l := [0]) rfl (PathTo.root rfl)

theorem spoil_same (x x' : F32) : SameUpwards spoilTree.parents (spoilJob x) (spoilJob x')
    [lanePoseF (f4 laneOne x laneOne laneOne)] [lanePoseF (f4 laneOne x' laneOne laneOne)] 2 := by
  intro path h k hk
  cases LocalToModel.pathTo_unique spoil_path h
  obtain rfl | rfl : k = 0 ∨ k = 2 := by simpa using hk
  all_goals
    exact ⟨⟨_, _, rfl, rfl, by constructor <;> rfl⟩,
      .cons ⟨rfl, by simp, rfl, _, _, _, _, rfl, rfl, rfl, rfl, by constructor <;> rfl⟩ .nil,
      .cons ⟨rfl, by simp, rfl, _, _, _, _, rfl, rfl, rfl, rfl, by constructor <;> rfl⟩ .nil⟩

example : ∃ pose pose' ms ms' x, LocalToModel.run Mat4.mul localMatrices { spoilTree with input := pose }
      (List.replicate 4 spoilTree.root) = .ok ms ∧
    LocalToModel.run Mat4.mul localMatrices { spoilTree with input := pose' } (List.replicate 4 spoilTree.root) = .ok ms' ∧
    ms[2]? = some x ∧ ms'[2]? = some x := by
  obtain ⟨d, pose, h⟩ := spoilJob_runs laneNan
  obtain ⟨d', pose', h'⟩ := spoilJob_runs laneOne
  obtain ⟨ms, ms', h1, h2, h3⟩ := C100_joint_f32 (spoilJob laneNan) (spoilJob laneOne) _ _ laneCtx laneCtx _ _ rfl rfl rfl
    d d' pose pose' h h' spoilTree (by unfold ParentsFirst spoilTree; decide) (by decide) (by decide) (List.replicate 4 spoilTree.root)
    (List.replicate 4 spoilTree.root) (by decide) (by decide) (by decide) (by decide) (by decide) (by decide)
  obtain ⟨x, x1, x2⟩ := h3 2 (by decide) (spoil_same _ _)
  exact ⟨pose, pose', ms, ms', x, h1, h2, x1, x2⟩

/-- Two vertices, the first bound to joints 0 and 2, the second to joint 1, which is spoiled. -/
def spoilMesh : Skinning.Job F32 where
  vertexCount := 2
  influences := 2
  matrices := none
  itMatrices := none
  indices := some (.ok [0, 2, 1, 1])
  weights := some (.ok [F32.ofNat 5, F32.one])
  inPositions := some (.ok [vtxPoint F32.one, vtxPoint F32.one])
  inNormals := some (.ok [vtxPoint F32.one, vtxPoint F32.one])
  inTangents := none

/-- The model matrices, the second of which is made from `x`. -/
def spoilModels (x : F32) : List (Mat4 F32) := [vtxMat F32.one, vtxMat x, vtxMat (F32.ofNat 3)]

example : ∃ t t', Skinning.run true { spoilMesh with matrices := some (.ok ((spoilModels vtxNan).map (Mat4.mul · (vtxMat (F32.ofNat 7))))) } vtxOut' = .ok t ∧
    Skinning.run true { spoilMesh with matrices := some (.ok ((spoilModels F32.one).map (Mat4.mul · (vtxMat (F32.ofNat 7))))) } vtxOut' = .ok t' ∧
    SameElem t.positions 0 t'.positions 0 ∧ SameElem t.normals 0 t'.normals 0 := by
  obtain ⟨t, t', h1, h2, h3, h4, -⟩ := C100_vertex true spoilMesh vtxOut' vtxOut' (fun _ => (Mat4.mul · (vtxMat (F32.ofNat 7))))
    (spoilModels vtxNan) (spoilModels F32.one) _ _ [0, 2, 1, 1]
    (fun i x h => by rw [List.getElem?_map, h]; rfl) (fun i x h => by rw [List.getElem?_map, h]; rfl) rfl rfl (by decide) rfl rfl
    (by
      intro k i hk hi
      have hk : k < 2 * 2 := hk
      obtain rfl | rfl | rfl | rfl : k = 0 ∨ k = 1 ∨ k = 2 ∨ k = 3 := by omega
      all_goals cases hi; decide) 0 (by decide)
    (by
      intro k hk i hi
      have hk : k < 2 := hk
      obtain rfl | rfl : k = 0 ∨ k = 1 := by omega
      all_goals cases hi; exact ⟨_, rfl, rfl⟩)
  exact ⟨t, t', h1, h2, h3, h4 (by simp [spoilMesh])⟩

end Ozz.Props
