import Verif.Props.AddedFrame
import Verif.Props.SkinnedFrame
import Verif.Props.SkinnedNormals

/-!
Property theorems about meshes animated by blended animations with additive layers in single precision: C95.
-/

namespace Ozz.Props

open Ozz.Skinning
open Ieee Spec F32 Sampling Keys Frame BlendedFrame
open LocalToModel (localMatrices)

/-- C95: sample animations, blend them, put additive layers on top, compute the model matrices, multiply them by inverse bind
matrices and skin a mesh. All jobs succeed; positions are near the averages of where the exact blends with the exact layers
take them, and normals and tangents near the arrows between such averages. -/
theorem C95_mesh {anims : Nat → Option (Animation F32 Float3Key QuatKey)} {n : Nat}
    (hst : StoreOk F32.zero F32.one ((n + 3) / 4) anims) {plays : List Play} {adds : List (Blending.Layer F32)} {M N s S g G ρ T : ℝ}
    (hM : 1 / 2 ^ 50 ≤ M) (hM2 : M ≤ 2 ^ 50) (hN0 : 0 ≤ N) (hN : N ≤ 2 ^ 50) (hs : 1 ≤ s) (hs2 : s ≤ 2 ^ 50)
    (hS : s * (1 + (plays.length + 1) / 2 ^ 20) ≤ S) (hg1 : 1 ≤ g) (hSg : S * g ≤ 2 ^ 59) (hG : S * g * (1 + adds.length / 2 ^ 17) ≤ G)
    (j : LocalToModel.Job (SoaTransform F32) (Mat4 F32)) (hplays : ∀ p ∈ plays, PlayOk anims n j.parents.length M s p)
    (hkeys : ∀ p ∈ plays, ∀ k ∈ p.animation.scales.keys, ∀ x, (plays.length + 4) * s / 2 ^ 19 ≤ ((value16 (k x) : ℚ) : ℝ))
    (hcount : plays.length < 512) {thr : F32} (hthr : Finite32 thr.bits) (hthr1 : 1 / 2 ^ 40 ≤ val thr) (hthr2 : val thr ≤ 2 ^ 40)
    (hweight : ∀ i < j.parents.length, (plays.map fun p => p.jointWeight i).sum ≤ 2 ^ 40)
    {rest : List (SoaTransform F32)} (hrl : rest.length = (j.parents.length + 3) / 4)
    (hrest : ∀ i < j.parents.length, ∀ r, rest[i / 4]? = some r → Blending.Pose32Ok r (laneOf i) s M)
    (hrestScale : ∀ i < j.parents.length, ∀ P, jointPose (rest.map valTransform) i = some P → ∀ c, c ≠ 3 →
      (plays.length + 4) * s / 2 ^ 19 ≤ P.s4 c)
    (hadds : ∀ y ∈ adds, ∃ t, y.transform = .ok t ∧ rest.length ≤ t.length ∧ (y.jointWeights = [] ∨ rest.length ≤ y.jointWeights.length))
    (hlayers : ∀ i < j.parents.length, LayersOk adds i (M + N) N g) (hk : adds.length ≤ 48)
    (ctx : Blending.Context F32) {buf : List (SoaTransform F32)} (hbuf : rest.length ≤ buf.length)
    (hsome : (∃ p ∈ plays, 0 < val p.weight) ∨ buf.length = rest.length)
    (models : List (Mat4 F32)) (hp : ParentsFirst j.parents) (hmodels : j.parents.length ≤ models.length)
    (hρ : 1 ≤ ρ) (hroot : Root32Ok j.root ρ T) (hf1 : -(2:Int)^31 ≤ j.from_) (hf2 : j.from_ < 0)
    (ht1 : (j.parents.length : Int) ≤ j.to + 1) (ht2 : j.to < 2^31 - 1)
    {D : ℕ} (hD1 : 1 ≤ D) (hD : ∀ i path, PathTo j.parents i path → path.length ≤ D)
    (hg : (1 + addedError (plays.length + 1) adds.length) ^ D ≤ 2)
    {binds : List (Mat4 F32)} (hb : binds.length = j.parents.length) {β γ : ℝ} (hβ : 1 ≤ β) (hγ : 0 ≤ γ)
    (hbinds : ∀ b ∈ binds, Bind32Ok b β γ) :
    ∃ (sampled : Play → List (SoaTransform F32)) (ctx' : Blending.Context F32) (pose : List (SoaTransform F32)) (models' : List (Mat4 F32)),
      (∀ p ∈ plays, ∃ c', Sampling.run codeNumerics p.animation p.addr p.ratio p.context p.buffer = .ok (c', sampled p)) ∧
      Blending.run ⟨some rest, thr, plays.map fun p => p.layer (sampled p), adds⟩ ⟨some ctx, some (.ok buf)⟩ =
        .ok ⟨some ctx', some (.ok pose)⟩ ∧
      LocalToModel.run Mat4.mul localMatrices { j with input := pose } models = .ok models' ∧ models'.length = models.length ∧
      ∃ (exact : Play → Nat → JointPose) (restPose blend : Nat → JointPose) (path : Nat → List Nat),
        (∀ p ∈ plays, ∀ i < j.parents.length, ExactPose p.animation i p.ratio (exact p i)) ∧
        (∀ i < j.parents.length, jointPose (rest.map valTransform) i = some (restPose i) ∧
          ExactBlend ((12 * (plays.length + 1) + 640) / 2 ^ 24 * max (val thr) (plays.map fun p => p.jointWeight i).sum)
            (blendParts (val thr) plays exact (restPose i) i) (blend i) ∧ PathTo j.parents i (path i)) ∧
        ∀ {ck : Bool} {job : Skinning.Job F32} {state : Skinning.State F32} {ix : List Nat} {ws : List F32} {Ω limit : ℝ} (foot : Nat → P3 ℝ),
          MeshOk ck job state (List.zipWith Mat4.mul models' binds) j.parents.length ix ws Ω → 1 ≤ Ω → 1 ≤ limit →
          Ω * (2 * (ρ * G ^ D) * (3 * (β * limit + γ)) + 2 * reach G (2 * (M + N)) ρ T D) ≤ 2 ^ 99 →
          ∃ s', Skinning.run ck job state = .ok s' ∧
            MappedNear job.vertexCount
              (fun i p => averaged (carried j.root (fun i => (blend i).withLayers adds i) path binds) ix (ws.map val) job.influences i p)
              (fun p => Ω * (ρ * G ^ D * bound3 β γ p + reach G (2 * (M + N)) ρ T D) *
                (3 * ((1 + addedError (plays.length + 1) adds.length) ^ D - 1) + (12 * job.influences + 76) / 2 ^ 24))
              limit job.inPositions s'.positions ∧
            (job.inNormals ≠ none → MappedNear job.vertexCount
              (fun i v => arrow (carried j.root (fun i => (blend i).withLayers adds i) path binds) ix (ws.map val) job.influences i (foot i) v)
              (fun v => Ω * (ρ * G ^ D * (3 * (β * norm1 v))) *
                (3 * ((1 + addedError (plays.length + 1) adds.length) ^ D - 1) + (12 * job.influences + 76) / 2 ^ 24) + 1 / 2 ^ 147)
              limit job.inNormals s'.normals) ∧
            (job.inTangents ≠ none → MappedNear job.vertexCount
              (fun i v => arrow (carried j.root (fun i => (blend i).withLayers adds i) path binds) ix (ws.map val) job.influences i (foot i) v)
              (fun v => Ω * (ρ * G ^ D * (3 * (β * norm1 v))) *
                (3 * ((1 + addedError (plays.length + 1) adds.length) ^ D - 1) + (12 * job.influences + 76) / 2 ^ 24) + 1 / 2 ^ 147)
              limit job.inTangents s'.tangents) := by
  obtain ⟨sampled, ctx', pose, h1, h2, exact, restPose, blend, h5, h6, h7⟩ := C94_frame hst hM hM2 hN hs hs2 hS hSg hG j hplays hcount
    hthr hthr1 hthr2 hweight hrl hrest hadds hlayers hk ctx hbuf hsome models hp hmodels hρ hroot hf1 hf2 ht1 ht2
  obtain ⟨models', h3, h4, h7⟩ := h7 (by
    intro i hi c hc
    refine le_trans ?_ (le_abs_self _)
    exact C94_scale (lt_of_lt_of_le (by positivity) hthr1) (fun p hp => (hplays p hp).animation.ratios) (fun p hp => h5 p hp i hi) hkeys
      (hrestScale i hi _ (h6 i hi).1) (h6 i hi).2 hc)
  have hex : ∀ i, ∃ path, i < j.parents.length → PathTo j.parents i path := by
    intro i
    by_cases hi : i < j.parents.length
    · obtain ⟨m, path, -, h, -⟩ := h7 i hi
      exact ⟨path, fun _ => h⟩
    · exact ⟨[], fun h => absurd h hi⟩
  choose path hpath using hex
  refine ⟨sampled, ctx', pose, models', h1, h2, h3, h4, exact, restPose, blend, path, h5,
    fun i hi => ⟨(h6 i hi).1, (h6 i hi).2, hpath i hi⟩, ?_⟩
  intro ck job state ix ws Ω limit foot hmesh hΩ hlim0 hlim
  rw [← hb] at hmesh
  have hS1 : 1 ≤ S := by
    refine le_trans ?_ hS
    have : (0:ℝ) ≤ (plays.length + 1) / 2 ^ 20 := by positivity
    nlinarith
  have hG1 : 1 ≤ G := by
    refine le_trans ?_ hG
    have e : 0 ≤ (adds.length : ℝ) / 2 ^ 17 := by positivity
    have e' : 1 ≤ S * g := by nlinarith
    nlinarith
  have hB : (1:ℝ) / 2 ^ 100 ≤ 2 * (M + N) :=
    le_trans (by norm_num) (hM.trans (by linarith [(show (0:ℝ) < 1 / 2 ^ 50 by positivity)]))
  have hθ : 0 ≤ addedError (plays.length + 1) adds.length := by unfold addedError blendError; positivity
  have hm : ∀ i < binds.length, ∃ m, models'[i]? = some m ∧ _ := fun i hi => by
    obtain ⟨m, path', e1, e2, e3⟩ := h7 i (hb ▸ hi)
    cases LocalToModel.pathTo_unique e2 (hpath i (hb ▸ hi))
    exact ⟨m, e1, e3⟩
  obtain ⟨s', a1, a2⟩ := frame_mesh hmesh hG1 hB hρ hroot hθ hD1 hΩ hβ hγ hlim0 hbinds hg hlim (fun i hi => hD i _ (hpath i (hb ▸ hi))) hm
  obtain ⟨s'', b1, b2, b3⟩ := frame_arrows hmesh hG1 hB hρ hroot hθ hD1 hΩ hβ hγ hlim0 hbinds hg hlim
    (fun i hi => hD i _ (hpath i (hb ▸ hi))) hm foot
  cases a1.symm.trans b1
  exact ⟨s', a1, a2, b2, b3⟩

/-! ### Example -/

section
open Ozz.Sampling.FloatExample Ozz.Sampling.Example

/-- One vertex a metre from the origin, on two joints of a skeleton blended from two times of an animation, with half of a turn on
top: it is within 23 m of where it should be if translations go up to a kilometre. -/
example (ck : Bool) (mt ms : Mem F32 (SoaVec3 F32)) (mr : Mem F32 (SoaQuat F32)) (o : SoaTransform F32) (m0 : Mat4 F32) (ctx : Blending.Context F32) :
    let plays := [play94 mt ms mr o quarter, play94 mt ms mr o F32.one]
    ∃ (sampled : Play → List (SoaTransform F32)) (ctx' : Blending.Context F32) (pose : List (SoaTransform F32)) (models' : List (Mat4 F32)),
      (∀ p ∈ plays, ∃ c', Sampling.run codeNumerics p.animation p.addr p.ratio p.context p.buffer = .ok (c', sampled p)) ∧
      Blending.run ⟨some [rest94], F32.one, plays.map fun p => p.layer (sampled p), [layer94]⟩ ⟨some ctx, some (.ok [o])⟩ =
        .ok ⟨some ctx', some (.ok pose)⟩ ∧
      LocalToModel.run Mat4.mul localMatrices ⟨[-1, 0], pose, eye33, -1, 1023, false⟩ [m0, m0] = .ok models' ∧
      ∃ (blend : Nat → JointPose) (path : Nat → List Nat) (s' : Skinning.State F32) (ys : List (P3 F32)) (q : P3 F32),
        path 0 = [0] ∧ path 1 = [0, 1] ∧
        Skinning.run ck (job33 (List.zipWith Mat4.mul models' [eye33, eye33])) state33 = .ok s' ∧ s'.positions = some (.ok ys) ∧
        ys[0]? = some q ∧ ∀ r, |val (q r) - averaged (carried eye33 (fun i => (blend i).withLayers [layer94] i) path [eye33, eye33])
          [0, 1] [val quarter] 2 0 (valP vert33) r| ≤ 23 := by
  intro plays
  have hp : ParentsFirst [-1, 0] := by
    intro i h
    have h : i < 2 := h
    obtain rfl | rfl : i = 0 ∨ i = 1 := by omega
    · exact ⟨by show (-1 : Int) ≤ -1; norm_num, by show (-1 : Int) < 0; norm_num⟩
    · exact ⟨by show (-1 : Int) ≤ 0; norm_num, by show (0 : Int) < 1; norm_num⟩
  have p0 : PathTo [-1, 0] 0 [0] := .root rfl
  have p1 : PathTo [-1, 0] 1 [0, 1] := .child (p := 0) rfl p0
  have hlt : ∀ i path, PathTo [-1, 0] i path → i < 2 := by
    intro i path h
    cases h with
    | root h => exact (List.getElem?_eq_some_iff.mp h).1
    | child h _ => exact (List.getElem?_eq_some_iff.mp h).1
  have hD : ∀ i path, PathTo [-1, 0] i path → path.length ≤ 2 := by
    intro i path h
    obtain rfl | rfl : i = 0 ∨ i = 1 := by have := hlt i path h; omega
    · cases LocalToModel.pathTo_unique h p0; decide
    · cases LocalToModel.pathTo_unique h p1; decide
  have hone : Unit01 F32.one := (unit01_iff F32.one).mp (by constructor <;> decide +kernel)
  have hb : addedError ([play94 mt ms mr o quarter, play94 mt ms mr o F32.one].length + 1) [layer94].length ≤ 605 / 1000000 := by
    have h6 : √(2 * ((3 : ℕ) : ℝ)) ≤ 245 / 100 := by
      rw [Real.sqrt_le_iff]; norm_num
    unfold addedError blendError
    change √(2 * ((3 : ℕ) : ℝ)) * (((3 : ℕ) : ℝ) + 16) / 2 ^ 17 + (((1 : ℕ) : ℝ) + 1) / 2 ^ 13 ≤ _
    have := mul_le_mul_of_nonneg_right h6 (show (0:ℝ) ≤ ((3:ℕ):ℝ) + 16 by positivity)
    have h7 := div_le_div_of_nonneg_right this (show (0:ℝ) ≤ 2 ^ 17 by positivity)
    refine (add_le_add h7 le_rfl).trans ?_
    norm_num
  have hb0 : 0 ≤ addedError ([play94 mt ms mr o quarter, play94 mt ms mr o F32.one].length + 1) [layer94].length := by
    unfold addedError blendError; positivity
  have hpow : (1 + addedError ([play94 mt ms mr o quarter, play94 mt ms mr o F32.one].length + 1) [layer94].length) ^ 2 - 1 ≤ 1211 / 1000000 := by
    nlinarith
  have hpow0 : 0 ≤ (1 + addedError ([play94 mt ms mr o quarter, play94 mt ms mr o F32.one].length + 1) [layer94].length) ^ 2 - 1 := by
    nlinarith
  have hreach : reach (2001 / 1000) (2 * (1024 + 2)) 1 0 2 ≤ 6159 := by
    unfold reach; rw [Finset.sum_range_succ, Finset.sum_range_one]; norm_num
  obtain ⟨sampled, ctx', pose, models', r1, r2, r3, h3, exact, restPose, blend, path, -, x2, h⟩ := C95_mesh (M := 1024) (N := 2) (s := 1)
    (S := 1 + 3 / 2 ^ 20) (g := 2) (G := 2001 / 1000) (ρ := 1) (T := 0) store33_ok
    (plays := [play94 mt ms mr o quarter, play94 mt ms mr o F32.one]) (adds := [layer94]) (by norm_num) (by norm_num) (by norm_num) (by norm_num)
    le_rfl (by norm_num) (by norm_num) (by norm_num) (by norm_num) (by norm_num) ⟨[-1, 0], [], eye33, -1, 1023, false⟩
    (by
      intro p hp
      simp only [List.mem_cons, List.not_mem_nil, or_false] at hp
      rcases hp with rfl | rfl
      · exact play94_ok mt ms mr o quarter_unit
      · exact play94_ok mt ms mr o hone)
    (by
      intro p hp k hk x
      have hk : k ∈ List.replicate 9 (same 0x3C00) := by
        simp only [List.mem_cons, List.not_mem_nil, or_false] at hp
        rcases hp with rfl | rfl <;> exact hk
      rw [List.eq_of_mem_replicate hk]
      have h1 : value16 (0x3C00 : BitVec 16) = 1 := by decide +kernel
      simp only [same, h1]
      norm_num)
    (by simp) (thr := F32.one) one_finite (by rw [valOne]; norm_num) (by rw [valOne]; norm_num)
    (by
      intro i _
      simp only [List.map_cons, List.map_nil, List.sum_cons, List.sum_nil, one_weight94]
      norm_num)
    (rest := [rest94]) rfl
    (by
      intro i hi r hr
      have := List.mem_of_getElem? hr
      rw [List.mem_singleton] at this
      rw [this]
      exact rest94_ok _)
    (by
      intro i hi P e1 c hc
      have hi : i < 2 := hi
      have h0 : i / 4 = 0 := by omega
      unfold jointPose at e1
      rw [h0] at e1
      rw [← Option.some.inj e1]
      have h1 : ((([play94 mt ms mr o quarter, play94 mt ms mr o F32.one].length : ℕ) : ℝ) + 4) * 1 / 2 ^ 19 ≤ val F32.one := by
        rw [valOne]; norm_num
      fin_cases c
      · exact h1
      · exact h1
      · exact h1
      · exact absurd rfl hc)
    (by
      intro y hy
      rw [List.mem_singleton.mp hy]
      exact ⟨_, rfl, le_rfl, .inl rfl⟩)
    layers94 (by simp)
    ctx (buf := [o]) (by simp) (.inr rfl) [m0, m0] hp (by simp) le_rfl (eye_root eye33_ok) (by norm_num) (by norm_num) (by norm_num) (by norm_num)
    (D := 2) (by norm_num) hD (by linarith) (binds := [eye33, eye33]) rfl (β := 1) (γ := 0) le_rfl le_rfl (fun b hb => by
      have : b = eye33 := by simpa using hb
      rw [this]; exact eye_bind)
  obtain ⟨s', e1, ⟨xs, ys, e2, e3, e4⟩, -⟩ := h (fun _ _ => 0) (mesh33 ck (List.zipWith Mat4.mul models' [eye33, eye33]) (by
    rw [List.length_zipWith, h3]; simp)) le_rfl (limit := 1) le_rfl (by norm_num; linarith)
  cases e2
  have hn : norm1 (valP vert33) = 1 := by simp [norm1, valP, vert33, valZero, valOne]
  have hfin : ∀ c, Finite32 (vert33 c).bits := by
    intro c
    unfold vert33
    split
    · exact one_finite
    · exact zero_finite
  obtain ⟨q, e5, e6⟩ := e4 0 vert33 Nat.zero_lt_one rfl hfin hn.le
  refine ⟨sampled, ctx', pose, models', r1, r2, r3, blend, path, s', ys, q, LocalToModel.pathTo_unique (x2 0 (by decide)).2.2 p0,
    LocalToModel.pathTo_unique (x2 1 (by decide)).2.2 p1, e1, e3, e5, fun r => ?_⟩
  have h7 := (e6 r).2
  beta_reduce at h7
  have h9 : (job33 (List.zipWith Mat4.mul models' [eye33, eye33])).influences = 2 := rfl
  rw [h9] at h7
  refine h7.trans ?_
  unfold bound3
  rw [hn]
  generalize (1 + addedError ([play94 mt ms mr o quarter, play94 mt ms mr o F32.one].length + 1) [layer94].length) ^ 2 - 1 = θ at *
  generalize reach (2001 / 1000) (2 * (1024 + 2)) 1 0 2 = R at *
  have h10 : 3 * θ + (12 * ((2 : ℕ) : ℝ) + 76) / 2 ^ 24 ≤ 364 / 100000 := by norm_num; linarith
  have h11 : (0:ℝ) ≤ 3 * θ + (12 * ((2 : ℕ) : ℝ) + 76) / 2 ^ 24 := by positivity
  refine (mul_le_mul_of_nonneg_right (show _ ≤ (6172:ℝ) by norm_num; linarith) h11).trans ?_
  refine (mul_le_mul_of_nonneg_left h10 (by norm_num)).trans ?_
  norm_num

end

end Ozz.Props
