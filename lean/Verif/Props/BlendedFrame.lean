import Verif.Proofs.BlendedPoses

/-!
Property theorems about whole blended frames in single precision: several animations sampled, blended and taken to model
space: C90.
-/

namespace Ozz.Props

open Spec Ieee Sampling Keys Frame F32 BlendedFrame
open LocalToModel (localMatrices)

/-- C90: sample any number of animations (fewer than 512) through contexts with any history, blend the poses with any weights
and compute the model matrices. All jobs succeed, and the matrix of a joint `d` joints from its root takes a point, up to a
relative error of `(1 + blendError)^d - 1`, where the exact blends of the exact poses of the joints on the path take it one
after the other, and then where the root matrix takes it. -/
theorem C90_frame {anims : Nat → Option (Animation F32 Float3Key QuatKey)} {n : Nat}
    (hst : StoreOk F32.zero F32.one ((n + 3) / 4) anims) {plays : List Play} {M s S ρ T : ℝ}
    (hM : 1 / 2 ^ 50 ≤ M) (hM2 : M ≤ 2 ^ 50) (hs : 1 ≤ s) (hs2 : s ≤ 2 ^ 50) (hS : s * (1 + (plays.length + 1) / 2 ^ 20) ≤ S)
    (j : LocalToModel.Job (SoaTransform F32) (Mat4 F32)) (hplays : ∀ p ∈ plays, PlayOk anims n j.parents.length M s p)
    (hcount : plays.length < 512) {thr : F32} (hthr : Finite32 thr.bits) (hthr1 : 1 / 2 ^ 40 ≤ val thr) (hthr2 : val thr ≤ 2 ^ 40)
    (hweight : ∀ i < j.parents.length, (plays.map fun p => p.jointWeight i).sum ≤ 2 ^ 40)
    {rest : List (SoaTransform F32)} (hrl : rest.length = (j.parents.length + 3) / 4)
    (hrest : ∀ i < j.parents.length, ∀ r, rest[i / 4]? = some r → Blending.Pose32Ok r (laneOf i) s M)
    (ctx : Blending.Context F32) {buf : List (SoaTransform F32)} (hbuf : rest.length ≤ buf.length)
    (hsome : (∃ p ∈ plays, 0 < val p.weight) ∨ buf.length = rest.length)
    (models : List (Mat4 F32)) (hp : ParentsFirst j.parents) (hmodels : j.parents.length ≤ models.length)
    (hρ : 1 ≤ ρ) (hroot : Root32Ok j.root ρ T) (hf1 : -(2:Int)^31 ≤ j.from_) (hf2 : j.from_ < 0)
    (ht1 : (j.parents.length : Int) ≤ j.to + 1) (ht2 : j.to < 2^31 - 1) :
    ∃ (sampled : Play → List (SoaTransform F32)) (ctx' : Blending.Context F32) (pose : List (SoaTransform F32)) (models' : List (Mat4 F32)),
      (∀ p ∈ plays, ∃ c', Sampling.run codeNumerics p.animation p.addr p.ratio p.context p.buffer = .ok (c', sampled p)) ∧
      Blending.run ⟨some rest, thr, plays.map fun p => p.layer (sampled p), []⟩ ⟨some ctx, some (.ok buf)⟩ =
        .ok ⟨some ctx', some (.ok pose)⟩ ∧
      LocalToModel.run Mat4.mul localMatrices { j with input := pose } models = .ok models' ∧ models'.length = models.length ∧
      ∃ (exact : Play → Nat → JointPose) (restPose blend : Nat → JointPose),
        (∀ p ∈ plays, ∀ i < j.parents.length, ExactPose p.animation i p.ratio (exact p i)) ∧
        (∀ i < j.parents.length, jointPose (rest.map valTransform) i = some (restPose i) ∧
          ExactBlend ((12 * (plays.length + 1) + 640) / 2 ^ 24 * max (val thr) (plays.map fun p => p.jointWeight i).sum)
            (blendParts (val thr) plays exact (restPose i) i) (blend i)) ∧
        ∀ i < j.parents.length, ∃ m path, models'[i]? = some m ∧ PathTo j.parents i path ∧
          ((1 + blendError (plays.length + 1)) ^ path.length ≤ 2 → S ≤ 2 ^ 100 → ρ * S ^ path.length ≤ 2 ^ 100 →
            reach S (2 * M) ρ T path.length ≤ 2 ^ 100 →
            Matrix32Ok m (2 * (ρ * S ^ path.length)) (2 * reach S (2 * M) ρ T path.length) ∧
            ∀ p : F4 ℝ, ∃ x : F4 ℝ, pureQuat x = moveAlong blend path (pureQuat p) ∧ ∀ r, r ≠ 3 →
              |(valMat m).transformPoint p r - (valMat j.root).transformPoint x r| ≤
                (ρ * S ^ path.length * len (p 0) (p 1) (p 2) + reach S (2 * M) ρ T path.length) *
                  ((1 + blendError (plays.length + 1)) ^ path.length - 1)) := by
  obtain ⟨sampled, ctx', pose, h1, -, -, h2, h3, exact, restPose, blend, h4, h5⟩ := blended_poses hst hM hM2 hs hs2 hS hplays hcount hthr hthr1
    hthr2 hweight hrl hrest ctx hbuf hsome
  have M0 : 0 < M := lt_of_lt_of_le (by positivity) hM
  have s0 : 0 ≤ s := by linarith
  have herr := error_sum (m := plays.length + 1) (by omega)
  have sS : 1 ≤ S := by
    have : 0 ≤ s * (((plays.length : ℝ) + 1) / 2 ^ 20) := by positivity
    linarith
  obtain ⟨models', e1, e2, e3⟩ := models_close { j with input := pose } models hp
    (by
      simp only [LocalToModel.validate, Bool.and_eq_true, decide_eq_true_eq]
      refine ⟨?_, hmodels⟩
      unfold numSoa
      omega)
    sS (show 1 / 2 ^ 100 ≤ 2 * M from le_trans (by norm_num) (hM.trans (by linarith))) (by norm_num : (0:ℝ) ≤ 1 / 2 ^ 19) (by norm_num)
    (by have := herr.1; positivity) herr.2 hρ hroot (pose := blend)
    (fun i hi => by
      obtain ⟨o, g1, -, -, g4, g5, g6, g7, -⟩ := h5 i hi
      exact ⟨o, g1, g4, g5, g6, g7⟩) hf1 hf2 ht1 ht2
  refine ⟨sampled, ctx', pose, models', h1, h2, e1, e2, exact, restPose, blend, h4, fun i hi => ?_, e3⟩
  obtain ⟨o, -, g2, g3, -⟩ := h5 i hi
  exact ⟨g2, g3⟩

/-- C90: where no rotation is nearly orthogonal to the sum before it, all blends take points to the same places. -/
theorem C90_exact_unique {δ : ℝ} (hδ : 0 ≤ δ) {cs : List (ℝ × JointPose)} {B B' : JointPose} (h : ExactBlend δ cs B) (h' : ExactBlend δ cs B')
    (hc : Blending.ClearSigns δ 0 (cs.map fun c => (c.1, c.2.r4))) (v : Quaternion ℝ) : B.move v = B'.move v := by
  have quat : ∀ {P Q : JointPose}, P.r4 = Q.r4 → P.rotation = Q.rotation := by
    intro P Q e
    ext
    · exact congrFun e 3
    · exact congrFun e 0
    · exact congrFun e 1
    · exact congrFun e 2
  have et : B.translation = B'.translation := by
    have e := h.translation.2.trans h'.translation.2.symm
    ext
    · rw [h.translation.1, h'.translation.1]
    · exact congrFun e 0
    · exact congrFun e 1
    · exact congrFun e 2
  have es : B.scale = B'.scale := by
    have e := h.scale.trans h'.scale.symm
    exact Prod.ext (congrFun e 0) (Prod.ext (congrFun e 1) (congrFun e 2))
  obtain ⟨R, a1, a2⟩ := h.rotation
  obtain ⟨R', b1, b2⟩ := h'.rotation
  have hneg : ∀ q : F4 ℝ, Blending.unitOf (-q) = -Blending.unitOf q := by
    intro q
    have : norm2 (-q) = norm2 q := by simp [norm2]
    unfold Blending.unitOf
    rw [this, smul_neg]
  have er : B.rotation = B'.rotation ∨ B.rotation = -B'.rotation := by
    have key : B.r4 = B'.r4 ∨ B.r4 = -B'.r4 := by
      rw [a2, b2]
      rcases C81_clear_signs δ hδ _ hc R a1 with rfl | rfl <;> rcases C81_clear_signs δ hδ _ hc R' b1 with rfl | rfl
      · exact .inl rfl
      · right; rw [hneg, neg_neg]
      · right; rw [hneg]
      · exact .inl rfl
    rcases key with e | e
    · exact .inl (quat e)
    · right
      ext
      · exact congrFun e 3
      · exact congrFun e 0
      · exact congrFun e 1
      · exact congrFun e 2
  unfold JointPose.move
  rw [et, es]
  rcases er with e | e
  · rw [e]
  · rw [e, inv_neg]
    have g : ∀ x : Quaternion ℝ, -B'.rotation * x * -B'.rotation⁻¹ = B'.rotation * x * B'.rotation⁻¹ := fun x => by
      rw [neg_mul, neg_mul, mul_neg, neg_neg]
    exact congrArg (· + B'.translation) (g _)

/-! ### Example -/

section
open Ozz.Sampling.FloatExample Ozz.Sampling.Example

private def rest33 : SoaTransform F32 := ⟨⟨splat F32.zero, splat F32.zero, splat F32.zero⟩,
  ⟨splat F32.zero, splat F32.zero, splat F32.zero, splat F32.one⟩, ⟨splat F32.one, splat F32.one, splat F32.one⟩⟩

private theorem rest33_ok (l : Fin 4) : Blending.Pose32Ok rest33 l 1 1024 := by
  have f0 : Finite32 F32.zero.bits := zero_finite
  have f1 : Finite32 F32.one.bits := one_finite
  have z : |val F32.zero| ≤ 1024 := by rw [valZero]; norm_num
  have z1 : |val F32.zero| ≤ 1 := by rw [valZero]; norm_num
  have o : |val F32.one| ≤ 1 := by rw [valOne]; norm_num
  refine ⟨fun c => ?_, fun c => ?_, fun c => ?_, fun c => ?_, ?_, fun c => ?_⟩
  · fin_cases c <;> exact f0
  · fin_cases c
    · exact f0
    · exact f0
    · exact f0
    · exact f1
  · fin_cases c
    · exact f1
    · exact f1
    · exact f1
    · exact f0
  · fin_cases c <;> exact z
  · have : norm2 ((valTransform rest33).rotation.lane l) = val F32.zero ^ 2 + val F32.zero ^ 2 + val F32.zero ^ 2 + val F32.one ^ 2 := rfl
    rw [this, valZero, valOne]; norm_num
  · fin_cases c
    · exact o
    · exact o
    · exact o
    · exact z1

private def play33 (mt ms : Mem F32 (SoaVec3 F32)) (mr : Mem F32 (SoaQuat F32)) (o : SoaTransform F32) (r : F32) : Play :=
  ⟨100, anim33, r, Context.new 2 mt mr ms, [o], F32.one, []⟩

private theorem play33_ok (mt ms : Mem F32 (SoaVec3 F32)) (mr : Mem F32 (SoaQuat F32)) (o : SoaTransform F32) {r : F32} (hr : Unit01 r) :
    PlayOk store33 2 2 1024 1 (play33 mt ms mr o r) where
  stored := by simp [store33, play33]
  reached := ⟨mt, mr, ms, [], by simp [OpsOk], .nil _⟩
  animation := anim33_ok
  blocks := rfl
  enough := (by decide : 2 ≤ anim33.numTracks)
  ratio := hr
  buffer := by simp [play33]
  weight := one_finite
  jointWeights := .inl rfl
  jointWeightsFinite := by simp [play33]

private theorem one_weight (mt ms : Mem F32 (SoaVec3 F32)) (mr : Mem F32 (SoaQuat F32)) (o : SoaTransform F32) (r : F32) (i : Nat) :
    (play33 mt ms mr o r).jointWeight i = 1 := by
  have : (play33 mt ms mr o r).jointWeight i = max 0 (val F32.one) * 1 := rfl
  rw [this, valOne]; norm_num

/-- A moving skeleton of two joints, blended from a quarter of the way through and from the end in equal parts: the second
joint is within 3 m of where it should be if translations go up to a kilometre. -/
example (mt ms : Mem F32 (SoaVec3 F32)) (mr : Mem F32 (SoaQuat F32)) (o : SoaTransform F32) (m0 : Mat4 F32) (ctx : Blending.Context F32) :
    let plays := [play33 mt ms mr o quarter, play33 mt ms mr o F32.one]
    ∃ (sampled : Play → List (SoaTransform F32)) (ctx' : Blending.Context F32) (pose : List (SoaTransform F32)) (models' : List (Mat4 F32)),
      (∀ p ∈ plays, ∃ c', Sampling.run codeNumerics p.animation p.addr p.ratio p.context p.buffer = .ok (c', sampled p)) ∧
      Blending.run ⟨some [rest33], F32.one, plays.map fun p => p.layer (sampled p), []⟩ ⟨some ctx, some (.ok [o])⟩ =
        .ok ⟨some ctx', some (.ok pose)⟩ ∧
      LocalToModel.run Mat4.mul localMatrices ⟨[-1, 0], pose, eye33, -1, 1023, false⟩ [m0, m0] = .ok models' ∧
      ∃ (exact : Play → Nat → JointPose) (restPose blend : Nat → JointPose),
        (∀ p ∈ plays, ∀ i < 2, ExactPose p.animation i p.ratio (exact p i)) ∧
        (∀ i < 2, ExactBlend (676 / 2 ^ 23) (blendParts 1 plays exact (restPose i) i) (blend i)) ∧
        ∃ m x, models'[1]? = some m ∧ pureQuat x = moveAlong blend [0, 1] 0 ∧ ∀ r, r ≠ 3 → |val (m 3 r) - x r| ≤ 3 := by
  intro plays
  have hp : ParentsFirst [-1, 0] := by
    intro i h
    have h : i < 2 := h
    obtain rfl | rfl : i = 0 ∨ i = 1 := by omega
    · exact ⟨by show (-1 : Int) ≤ -1; norm_num, by show (-1 : Int) < 0; norm_num⟩
    · exact ⟨by show (-1 : Int) ≤ 0; norm_num, by show (0 : Int) < 1; norm_num⟩
  have hone : Unit01 F32.one := (unit01_iff F32.one).mp (by constructor <;> decide +kernel)
  obtain ⟨sampled, ctx', pose, models', r1, r2, r3, -, exact, restPose, blend, x1, x2, h⟩ := C90_frame (M := 1024) (s := 1) (S := 1 + 3 / 2 ^ 20)
    (ρ := 1) (T := 0) store33_ok
    (plays := [play33 mt ms mr o quarter, play33 mt ms mr o F32.one]) (by norm_num) (by norm_num) le_rfl (by norm_num)
    (by norm_num) ⟨[-1, 0], [], eye33, -1, 1023, false⟩
    (by
      intro p hp
      simp only [List.mem_cons, List.not_mem_nil, or_false] at hp
      rcases hp with rfl | rfl
      · exact play33_ok mt ms mr o quarter_unit
      · exact play33_ok mt ms mr o hone)
    (by simp) (thr := F32.one) one_finite (by rw [valOne]; norm_num) (by rw [valOne]; norm_num)
    (by
      intro i _
      simp only [List.map_cons, List.map_nil, List.sum_cons, List.sum_nil, one_weight]
      norm_num)
    (rest := [rest33]) rfl
    (by
      intro i hi r hr
      have := List.mem_of_getElem? hr
      rw [List.mem_singleton] at this
      rw [this]
      exact rest33_ok _)
    ctx (buf := [o]) (by simp) (.inr rfl) [m0, m0] hp (by simp) le_rfl (eye_root eye33_ok) (by norm_num) (by norm_num) (by norm_num) (by norm_num)
  obtain ⟨m, path, e1, e2, e3⟩ := h 1 (by decide)
  have hpath : PathTo [-1, 0] 1 [0, 1] := .child (p := 0) rfl (.root rfl)
  cases LocalToModel.pathTo_unique e2 hpath
  have hb : blendError ([play33 mt ms mr o quarter, play33 mt ms mr o F32.one].length + 1) ≤ 36 / 100000 := by
    have h6 : √(2 * ((3 : ℕ) : ℝ)) ≤ 245 / 100 := by
      rw [Real.sqrt_le_iff]; norm_num
    unfold blendError
    change √(2 * ((3 : ℕ) : ℝ)) * (((3 : ℕ) : ℝ) + 16) / 2 ^ 17 ≤ _
    have := mul_le_mul_of_nonneg_right h6 (show (0:ℝ) ≤ ((3:ℕ):ℝ) + 16 by positivity)
    rw [div_le_iff₀ (by positivity)]
    refine this.trans ?_
    norm_num
  have hb0 : 0 ≤ blendError ([play33 mt ms mr o quarter, play33 mt ms mr o F32.one].length + 1) := by unfold blendError; positivity
  generalize blendError ([play33 mt ms mr o quarter, play33 mt ms mr o F32.one].length + 1) = θ at *
  have hpow : (1 + θ) ^ 2 - 1 ≤ 721 / 1000000 := by nlinarith
  have hreach : reach (1 + 3 / 2 ^ 20) (2 * 1024) 1 0 2 ≤ 4097 := by
    unfold reach; rw [Finset.sum_range_succ, Finset.sum_range_one]; norm_num
  obtain ⟨-, e4⟩ := e3 (by change (1 + θ) ^ 2 ≤ 2; linarith) (by norm_num) (by norm_num) (by
    change reach (1 + 3 / 2 ^ 20) (2 * 1024) 1 0 2 ≤ 2 ^ 100
    exact hreach.trans (by norm_num))
  obtain ⟨x, hx, hb⟩ := e4 (splat 0)
  have hz : pureQuat (splat 0) = 0 := by ext <;> rfl
  rw [hz] at hx
  refine ⟨sampled, ctx', pose, models', r1, r2, r3, exact, restPose, blend, x1, fun i hi => ?_, m, x, e1, hx, fun r hr => ?_⟩
  · have h8 := (x2 i hi).2
    have h9 : ([play33 mt ms mr o quarter, play33 mt ms mr o F32.one].map fun p => p.jointWeight i).sum = 2 := by
      simp only [List.map_cons, List.map_nil, List.sum_cons, List.sum_nil, one_weight]
      norm_num
    rw [h9, valOne] at h8
    have h10 : (12 * (([play33 mt ms mr o quarter, play33 mt ms mr o F32.one].length : ℝ) + 1) + 640) / 2 ^ 24 * max 1 2 = 676 / 2 ^ 23 := by
      norm_num
    rw [h10] at h8
    exact h8
  have h5 := hb r hr
  rw [tp_origin, eye_point32 eye33_ok x r hr] at h5
  refine h5.trans ?_
  have hl : len (splat (0:ℝ) 0) (splat (0:ℝ) 1) (splat (0:ℝ) 2) = 0 := by simp [splat, len]
  rw [hl, mul_zero, zero_add]
  change reach (1 + 3 / 2 ^ 20) (2 * 1024) 1 0 2 * ((1 + θ) ^ 2 - 1) ≤ 3
  have h7 : 0 ≤ (1 + θ) ^ 2 - 1 := by nlinarith
  have := mul_le_mul hreach hpow h7 (by norm_num)
  refine this.trans ?_
  norm_num

end

end Ozz.Props
