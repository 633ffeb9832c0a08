import Verif.Proofs.AddedFrame
import Verif.Proofs.BlendedPoses
import Verif.Props.Additive

/-!
Property theorems about whole frames with additive layers in single precision: several animations sampled and blended, additive
layers put on top, and the result taken to model space: C94.
-/

namespace Ozz.Props

open Spec Ieee Sampling Keys Frame F32 BlendedFrame
open LocalToModel (localMatrices)

/-- C94: sample any number of animations (fewer than 512) through contexts with any history, blend the poses with any weights,
put up to 48 additive layers on top and compute the model matrices. All jobs succeed; and if the scales of the exact blends do
not vanish, the matrix of a joint `d` joints from its root takes a point, up to a relative error of `(1 + addedError)^d - 1`,
where the exact blends of the exact poses with the exact layers on top take it one after the other. -/
theorem C94_frame {anims : Nat → Option (Animation F32 Float3Key QuatKey)} {n : Nat}
    (hst : StoreOk F32.zero F32.one ((n + 3) / 4) anims) {plays : List Play} {adds : List (Blending.Layer F32)} {M N s S g G ρ T : ℝ}
    (hM : 1 / 2 ^ 50 ≤ M) (hM2 : M ≤ 2 ^ 50) (hN : N ≤ 2 ^ 50) (hs : 1 ≤ s) (hs2 : s ≤ 2 ^ 50)
    (hS : s * (1 + (plays.length + 1) / 2 ^ 20) ≤ S) (hSg : S * g ≤ 2 ^ 59) (hG : S * g * (1 + adds.length / 2 ^ 17) ≤ G)
    (j : LocalToModel.Job (SoaTransform F32) (Mat4 F32)) (hplays : ∀ p ∈ plays, PlayOk anims n j.parents.length M s p)
    (hcount : plays.length < 512) {thr : F32} (hthr : Finite32 thr.bits) (hthr1 : 1 / 2 ^ 40 ≤ val thr) (hthr2 : val thr ≤ 2 ^ 40)
    (hweight : ∀ i < j.parents.length, (plays.map fun p => p.jointWeight i).sum ≤ 2 ^ 40)
    {rest : List (SoaTransform F32)} (hrl : rest.length = (j.parents.length + 3) / 4)
    (hrest : ∀ i < j.parents.length, ∀ r, rest[i / 4]? = some r → Blending.Pose32Ok r (laneOf i) s M)
    (hadds : ∀ y ∈ adds, ∃ t, y.transform = .ok t ∧ rest.length ≤ t.length ∧ (y.jointWeights = [] ∨ rest.length ≤ y.jointWeights.length))
    (hlayers : ∀ i < j.parents.length, LayersOk adds i (M + N) N g) (hk : adds.length ≤ 48)
    (ctx : Blending.Context F32) {buf : List (SoaTransform F32)} (hbuf : rest.length ≤ buf.length)
    (hsome : (∃ p ∈ plays, 0 < val p.weight) ∨ buf.length = rest.length)
    (models : List (Mat4 F32)) (hp : ParentsFirst j.parents) (hmodels : j.parents.length ≤ models.length)
    (hρ : 1 ≤ ρ) (hroot : Root32Ok j.root ρ T) (hf1 : -(2:Int)^31 ≤ j.from_) (hf2 : j.from_ < 0)
    (ht1 : (j.parents.length : Int) ≤ j.to + 1) (ht2 : j.to < 2^31 - 1) :
    ∃ (sampled : Play → List (SoaTransform F32)) (ctx' : Blending.Context F32) (pose : List (SoaTransform F32)),
      (∀ p ∈ plays, ∃ c', Sampling.run codeNumerics p.animation p.addr p.ratio p.context p.buffer = .ok (c', sampled p)) ∧
      Blending.run ⟨some rest, thr, plays.map fun p => p.layer (sampled p), adds⟩ ⟨some ctx, some (.ok buf)⟩ =
        .ok ⟨some ctx', some (.ok pose)⟩ ∧
      ∃ (exact : Play → Nat → JointPose) (restPose blend : Nat → JointPose),
        (∀ p ∈ plays, ∀ i < j.parents.length, ExactPose p.animation i p.ratio (exact p i)) ∧
        (∀ i < j.parents.length, jointPose (rest.map valTransform) i = some (restPose i) ∧
          ExactBlend ((12 * (plays.length + 1) + 640) / 2 ^ 24 * max (val thr) (plays.map fun p => p.jointWeight i).sum)
            (blendParts (val thr) plays exact (restPose i) i) (blend i)) ∧
        ((∀ i < j.parents.length, ∀ c, c ≠ 3 → (plays.length + 4) * s / 2 ^ 19 ≤ |(blend i).s4 c|) →
          ∃ models', LocalToModel.run Mat4.mul localMatrices { j with input := pose } models = .ok models' ∧ models'.length = models.length ∧
          ∀ i < j.parents.length, ∃ m path, models'[i]? = some m ∧ PathTo j.parents i path ∧
            ((1 + addedError (plays.length + 1) adds.length) ^ path.length ≤ 2 → G ≤ 2 ^ 100 → ρ * G ^ path.length ≤ 2 ^ 100 →
              reach G (2 * (M + N)) ρ T path.length ≤ 2 ^ 100 →
              Matrix32Ok m (2 * (ρ * G ^ path.length)) (2 * reach G (2 * (M + N)) ρ T path.length) ∧
              ∀ p : F4 ℝ, ∃ x : F4 ℝ, pureQuat x = moveAlong (fun i => (blend i).withLayers adds i) path (pureQuat p) ∧ ∀ r, r ≠ 3 →
                |(valMat m).transformPoint p r - (valMat j.root).transformPoint x r| ≤
                  (ρ * G ^ path.length * len (p 0) (p 1) (p 2) + reach G (2 * (M + N)) ρ T path.length) *
                    ((1 + addedError (plays.length + 1) adds.length) ^ path.length - 1))) := by
  obtain ⟨sampled, ctx', base, h1, hval, husable, h2, h3, exact, restPose, blend, h4, h5⟩ := blended_poses hst hM hM2 hs hs2 hS hplays hcount
    hthr hthr1 hthr2 hweight hrl hrest ctx hbuf hsome
  have M0 : 0 < M := lt_of_lt_of_le (by positivity) hM
  have n0 : (plays.length : ℝ) < 512 := by exact_mod_cast hcount
  have k0 : (0:ℝ) ≤ adds.length := Nat.cast_nonneg _
  have k1 : (adds.length : ℝ) ≤ 48 := by exact_mod_cast hk
  have sS : s ≤ S := by
    have : 0 ≤ s * (((plays.length : ℝ) + 1) / 2 ^ 20) := by positivity
    linarith
  -- the job with the layers
  have hval' : Blending.validate ⟨some rest, thr, plays.map fun p => p.layer (sampled p), adds⟩ ⟨some ctx, some (.ok buf)⟩ = true := by
    rw [Blending.validate_iff] at hval ⊢
    obtain ⟨r, c, b, e1, e2, e3, e4, e5, e6, -⟩ := hval
    cases e1; cases e2; cases e3
    exact ⟨_, _, _, rfl, rfl, rfl, e4, e5, e6, fun y hy => (Blending.Layer.ok_iff _ _).mpr (hadds y hy)⟩
  obtain ⟨c2, pose, hrun, hlen, -⟩ := C35_valid_runs_partial _ rest ctx buf hval' rfl husable
  obtain ⟨c₀, base', c3, pose', e1, e2, hjoint⟩ := C82_single_precision _ rest ctx buf _ rfl (show adds.length ≤ 512 by omega) hrun
  simp only [Blending.State.mk.injEq, Option.some.injEq, Except.ok.injEq] at e2
  obtain ⟨rfl, rfl⟩ := e2
  have e1 := h2.symm.trans e1
  simp only [Outcome.ok.injEq, Blending.State.mk.injEq, Option.some.injEq, Except.ok.injEq] at e1
  obtain ⟨-, rfl⟩ := e1
  refine ⟨sampled, c2, pose, h1, hrun, exact, restPose, blend, h4, fun i hi => ?_, fun hlow => ?_⟩
  · obtain ⟨o, -, g2, g3, -⟩ := h5 i hi
    exact ⟨g2, g3⟩
  have herr := error_sum (m := plays.length + 1) (by omega)
  have hG1 : j.parents.length ≠ 0 → 1 ≤ G ∧ 0 ≤ N := by
    intro hne
    have hl := hlayers 0 (by omega)
    have g1 : 1 ≤ g := by
      have := (hl.scale 0 (Nat.zero_le _) 0 (by decide)).2
      simpa [still] using this
    refine ⟨?_, (abs_nonneg _).trans (hl.translation 0 (Nat.zero_le _) 0)⟩
    refine le_trans ?_ hG
    have e : 0 ≤ (adds.length : ℝ) / 2 ^ 17 := by positivity
    have e' : 1 ≤ S * g := by nlinarith
    nlinarith
  by_cases hne : j.parents.length = 0
  · -- no joints
    obtain ⟨models', e1, e2, -⟩ := models_close (s := 1) (B := 1) (δ := 0) (η := 0) (θ := perJoint 0) { j with input := pose } models hp
      (by
        simp only [LocalToModel.validate, Bool.and_eq_true, decide_eq_true_eq]
        refine ⟨?_, hmodels⟩
        unfold numSoa
        omega)
      le_rfl (by norm_num) le_rfl (by norm_num) le_rfl (by rw [add_zero]) hρ hroot (pose := blend)
      (fun i hi => absurd hi (by show ¬ i < j.parents.length; omega)) hf1 hf2 ht1 ht2
    exact ⟨models', e1, e2, fun i hi => absurd hi (by omega)⟩
  obtain ⟨G1, N0⟩ := hG1 hne
  refine models_close { j with input := pose } models hp
    (by
      simp only [LocalToModel.validate, Bool.and_eq_true, decide_eq_true_eq]
      refine ⟨?_, hmodels⟩
      unfold numSoa
      omega)
    G1 (show 1 / 2 ^ 100 ≤ 2 * (M + N) from le_trans (by norm_num) (hM.trans (by linarith)))
    (show (0:ℝ) ≤ (201 * adds.length + 65) / 2 ^ 24 by positivity) (by norm_num; linarith)
    (η := 2 * ((2 * (√(2 * (plays.length + 1 : ℕ)) * (25 * (plays.length + 1 : ℕ) + 384) / 2 ^ 24 + 1 / 2 ^ 20) + 100 * adds.length / 2 ^ 24) +
      (100 * adds.length / 2 ^ 24 + 1 / 2 ^ 19)) + ((14 * (plays.length + 1 : ℕ) + 32) / 2 ^ 24 + 70 * adds.length / 2 ^ 24))
    (by have := herr.1; positivity)
    (by
      have h6 := herr.2
      unfold addedError
      unfold perJoint at h6 ⊢
      generalize √(2 * ((plays.length + 1 : ℕ) : ℝ)) * (25 * ((plays.length + 1 : ℕ) : ℝ) + 384) / 2 ^ 24 = q at *
      generalize blendError (plays.length + 1) = b at *
      norm_num at h6 ⊢
      linarith) hρ hroot
    (fun i hi => ?_) hf1 hf2 ht1 ht2
  have hi : i < j.parents.length := hi
  obtain ⟨o, g1, -, -, g4, -, g6, -, g8⟩ := h5 i hi
  obtain ⟨b, o', b1, b2, b3⟩ := hjoint (i / 4) (by rw [hrl]; omega)
  rw [g1] at b1
  cases b1
  obtain ⟨a1, a2, a3, a4⟩ := added_close (o := o') hk hM (by norm_num at hM2 hN ⊢; linarith) hs sS hSg hG (by positivity)
    (by push_cast; norm_num; linarith) g4 g8 g6
    (fun c hc => by
      have h7 := hlow i hi c hc
      have p0 : (0:ℝ) ≤ plays.length := Nat.cast_nonneg _
      have ps : 0 ≤ (plays.length : ℝ) * s := by positivity
      push_cast
      constructor
      · refine le_trans ?_ h7
        rw [show 2 * ((14 * ((plays.length : ℝ) + 1) + 32) / 2 ^ 24 * s) = (28 * (plays.length * s) + 92 * s) / 2 ^ 24 by ring,
          show ((plays.length : ℝ) + 4) * s / 2 ^ 19 = (32 * (plays.length * s) + 128 * s) / 2 ^ 24 by ring]
        apply div_le_div_of_nonneg_right _ (by positivity)
        linarith
      · refine le_trans ?_ h7
        rw [show ((plays.length : ℝ) + 4) * s / 2 ^ 19 = (plays.length * s + 4 * s) / 2 ^ 19 by ring, div_le_div_iff₀ (by positivity) (by positivity)]
        norm_num
        linarith)
    (hlayers i hi) (b3 (laneOf i))
  exact ⟨o', b2, a1, a2, a3, a4⟩

/-- C94: exact layers do not depend on what is below them: they add a translation, turn by a rotation and multiply by a scale. -/
theorem C94_layers (P : JointPose) (adds : List (Blending.Layer F32)) (i : Nat) :
    ∃ A, A = (adds.map Blending.valLayer).foldl (Blending.addOne (i / 4) (laneOf i)) still ∧
      (P.withLayers adds i).rotation = P.rotation * A.rotation ∧
      (∀ c, c ≠ 3 → (P.withLayers adds i).t4 c = P.t4 c + A.translation c ∧ (P.withLayers adds i).s4 c = P.s4 c * A.scale c) := by
  refine ⟨_, rfl, ?_, fun c hc => ?_⟩
  · unfold JointPose.withLayers
    rw [layers_onTop]
    rfl
  · unfold JointPose.withLayers
    rw [layers_onTop]
    fin_cases c
    · exact ⟨rfl, rfl⟩
    · exact ⟨rfl, rfl⟩
    · exact ⟨rfl, rfl⟩
    · exact absurd rfl hc

/-- C94: the scales of exact blends are at least `a` if the scales of all keys and of the rest pose are. -/
theorem C94_scale {plays : List Play} {exact : Play → Nat → JointPose} {R B : JointPose} {i : Nat} {δ thr a : ℝ} (hthr : 0 < thr)
    (ht : ∀ p ∈ plays, ∀ r ∈ p.animation.timepoints, Unit01 r)
    (hx : ∀ p ∈ plays, ExactPose p.animation i p.ratio (exact p i))
    (hkeys : ∀ p ∈ plays, ∀ k ∈ p.animation.scales.keys, ∀ x, a ≤ ((value16 (k x) : ℚ) : ℝ)) (hR : ∀ c, c ≠ 3 → a ≤ R.s4 c)
    (hB : ExactBlend δ (blendParts thr plays exact R i) B) {c : Fin 4} (hc : c ≠ 3) : a ≤ B.s4 c := by
  have hw : ∀ p : Play, 0 ≤ p.jointWeight i := fun p => jointWeight_nonneg p i
  rw [hB.scale]
  apply average_ge
  · intro e he
    obtain ⟨q, hq, rfl⟩ := List.mem_map.mp he
    unfold blendParts at hq
    rcases List.mem_append.mp hq with h | h
    · obtain ⟨p, hp, rfl⟩ := List.mem_map.mp h
      exact ⟨hw p, exact_scale_ge (ht p hp) (hx p hp) (hkeys p hp) hc⟩
    · rw [List.mem_singleton.mp h]
      exact ⟨le_max_left _ _, hR c hc⟩
  · unfold blendParts
    rw [List.map_map, List.map_append, List.sum_append]
    simp only [List.map_map, Function.comp_def, List.map_cons, List.map_nil, List.sum_cons, List.sum_nil, add_zero]
    have h1 : 0 ≤ (plays.map fun p => p.jointWeight i).sum := List.sum_nonneg (by
      intro x hx
      obtain ⟨p, -, rfl⟩ := List.mem_map.mp hx
      exact hw p)
    rcases le_or_gt thr (plays.map fun p => p.jointWeight i).sum with h | h
    · have := le_max_left 0 (thr - (plays.map fun p => p.jointWeight i).sum)
      linarith
    · have := le_max_right 0 (thr - (plays.map fun p => p.jointWeight i).sum)
      linarith

/-! ### Example -/

section
open Ozz.Sampling.FloatExample Ozz.Sampling.Example

def rest94 : SoaTransform F32 := ⟨⟨splat F32.zero, splat F32.zero, splat F32.zero⟩,
  ⟨splat F32.zero, splat F32.zero, splat F32.zero, splat F32.one⟩, ⟨splat F32.one, splat F32.one, splat F32.one⟩⟩

theorem rest94_ok (l : Fin 4) : Blending.Pose32Ok rest94 l 1 1024 := by
  have f0 : Finite32 F32.zero.bits := zero_finite
  have f1 : Finite32 F32.one.bits := one_finite
  have z : |val F32.zero| ≤ 1024 := by rw [valZero]; norm_num
  have z1 : |val F32.zero| ≤ 1 := by rw [valZero]; norm_num
  have o : |val F32.one| ≤ 1 := by rw [valOne]; norm_num
  refine ⟨fun c => ?_, fun c => ?_, fun c => ?_, fun c => ?_, ?_, fun c => ?_⟩
  · fin_cases c <;> exact f0
  · fin_cases c
    · exact f0
    · exact f0
    · exact f0
    · exact f1
  · fin_cases c
    · exact f1
    · exact f1
    · exact f1
    · exact f0
  · fin_cases c <;> exact z
  · have : norm2 ((valTransform rest94).rotation.lane l) = val F32.zero ^ 2 + val F32.zero ^ 2 + val F32.zero ^ 2 + val F32.one ^ 2 := rfl
    rw [this, valZero, valOne]; norm_num
  · fin_cases c
    · exact o
    · exact o
    · exact o
    · exact z1

def play94 (mt ms : Mem F32 (SoaVec3 F32)) (mr : Mem F32 (SoaQuat F32)) (o : SoaTransform F32) (r : F32) : Play :=
  ⟨100, anim33, r, Context.new 2 mt mr ms, [o], F32.one, []⟩

theorem play94_ok (mt ms : Mem F32 (SoaVec3 F32)) (mr : Mem F32 (SoaQuat F32)) (o : SoaTransform F32) {r : F32} (hr : Unit01 r) :
    PlayOk store33 2 2 1024 1 (play94 mt ms mr o r) where
  stored := by simp [store33, play94]
  reached := ⟨mt, mr, ms, [], by simp [OpsOk], .nil _⟩
  animation := anim33_ok
  blocks := rfl
  enough := (by decide : 2 ≤ anim33.numTracks)
  ratio := hr
  buffer := by simp [play94]
  weight := one_finite
  jointWeights := .inl rfl
  jointWeightsFinite := by simp [play94]

theorem one_weight94 (mt ms : Mem F32 (SoaVec3 F32)) (mr : Mem F32 (SoaQuat F32)) (o : SoaTransform F32) (r : F32) (i : Nat) :
    (play94 mt ms mr o r).jointWeight i = 1 := by
  have : (play94 mt ms mr o r).jointWeight i = max 0 (val F32.one) * 1 := rfl
  rw [this, valOne]; norm_num

def half94 : F32 := ⟨0x3f000000#32⟩
def three94 : F32 := ⟨0x40400000#32⟩
def four94 : F32 := ⟨0x40800000#32⟩

theorem v_half94 : val half94 = 1 / 2 := by
  have : value32 0x3f000000#32 = 1 / 2 := by decide +kernel
  simp only [val, half94, real, this]; norm_num
theorem v_three94 : val three94 = 3 := by
  have : value32 0x40400000#32 = 3 := by decide +kernel
  simp only [val, three94, real, this]; norm_num
theorem v_four94 : val four94 = 4 := by
  have : value32 0x40800000#32 = 4 := by decide +kernel
  simp only [val, four94, real, this]; norm_num

/-- Four units further, half a turn around z, three times as wide: half of it. -/
def turn94 : SoaTransform F32 := ⟨⟨splat four94, splat F32.zero, splat F32.zero⟩,
  ⟨splat F32.zero, splat F32.zero, splat F32.one, splat F32.zero⟩, ⟨splat three94, splat F32.one, splat F32.one⟩⟩
def layer94 : Blending.Layer F32 := ⟨.ok [turn94], half94, []⟩

theorem weight94 (l : Fin 4) : Blending.addWeight (Blending.valLayer layer94) 0 l = 1 / 2 := by
  have : Blending.addWeight (Blending.valLayer layer94) 0 l = val half94 * 1 := rfl
  rw [this, v_half94, mul_one]

theorem all94 {P : Fin 4 → Prop} (h0 : P 0) (h1 : P 1) (h2 : P 2) (h3 : P 3) : ∀ c, P c := by
  intro c
  fin_cases c
  · exact h0
  · exact h1
  · exact h2
  · exact h3

theorem turn94_ok (l : Fin 4) : Blending.Additive32Ok layer94 0 l (1024 + 2) := by
  have f0 : Finite32 F32.zero.bits := zero_finite
  have f1 : Finite32 F32.one.bits := one_finite
  have f3 : Finite32 three94.bits := by decide +kernel
  have f4 : Finite32 four94.bits := by decide +kernel
  have b0 : |val F32.zero| ≤ 1024 + 2 := by rw [valZero]; norm_num
  have b4 : |val four94| ≤ 1024 + 2 := by rw [v_four94]; norm_num
  have c0 : |val F32.zero| ≤ 4 := by rw [valZero]; norm_num
  have c1 : |val F32.one| ≤ 4 := by rw [valOne]; norm_num
  have c3 : |val three94| ≤ 4 := by rw [v_three94]; norm_num
  refine ⟨by decide +kernel, fun w hw => by simp [layer94] at hw, by rw [weight94]; norm_num, fun _ => ⟨[turn94], turn94, rfl, rfl, ?_, ?_⟩⟩
  · refine ⟨all94 f4 f0 f0 f0, all94 f0 f0 f1 f0, all94 f3 f1 f1 f0, all94 b4 b0 b0 b0, ?_, all94 c3 c1 c1 c0⟩
    have : norm2 ((valTransform turn94).rotation.lane l) = val F32.zero ^ 2 + val F32.zero ^ 2 + val F32.one ^ 2 + val F32.zero ^ 2 := rfl
    rw [this, valZero, valOne]; norm_num
  · apply all94
    · intro _; change _ ≤ val three94; rw [v_three94]; norm_num
    · intro _; change _ ≤ val F32.one; rw [valOne]; norm_num
    · intro _; change _ ≤ val F32.one; rw [valOne]; norm_num
    · intro h; exact absurd rfl h

theorem onStill94 (l : Fin 4) : (Blending.addOne 0 l still (Blending.valLayer layer94)).translation = f4 2 0 0 0 ∧
    (Blending.addOne 0 l still (Blending.valLayer layer94)).scale = f4 2 1 1 (1 / 2) := by
  have h3 : (Blending.poseOf (Blending.valLayer layer94) 0).translation.lane l = f4 4 0 0 0 := by
    have : (Blending.poseOf (Blending.valLayer layer94) 0).translation.lane l = f4 (val four94) (val F32.zero) (val F32.zero) 0 := rfl
    rw [this, valZero, v_four94]
  have h4 : (Blending.poseOf (Blending.valLayer layer94) 0).scale.lane l = f4 3 1 1 0 := by
    have : (Blending.poseOf (Blending.valLayer layer94) 0).scale.lane l = f4 (val three94) (val F32.one) (val F32.one) 0 := rfl
    rw [this, valOne, v_three94]
  rw [Blending.addOne_add (by rw [weight94]; norm_num), weight94]
  constructor
  · rw [h3]
    unfold still
    apply ext4 <;> norm_num
  · rw [h4]
    unfold still
    apply ext4 <;> norm_num

theorem layers94 (i : Nat) (hi : i < 2) : LayersOk [layer94] i (1024 + 2) 2 2 := by
  have h0 : i / 4 = 0 := by omega
  obtain ⟨e1, e2⟩ := onStill94 (laneOf i)
  have hm : ∀ m ≤ [layer94].length, m = 0 ∨ m = 1 := by
    intro m hm
    have : [layer94].length = 1 := rfl
    omega
  refine ⟨fun y hy => ?_, fun m h => ?_, fun m h => ?_⟩
  · rw [List.mem_singleton.mp hy, h0]; exact turn94_ok _
  · rw [h0]
    rcases hm m h with rfl | rfl
    · intro c
      change |(0:ℝ)| ≤ 2
      norm_num
    · change ∀ c, |(Blending.addOne 0 (laneOf i) still (Blending.valLayer layer94)).translation c| ≤ 2
      rw [e1]
      apply all94 <;> norm_num
  · rw [h0]
    rcases hm m h with rfl | rfl
    · intro c _
      change 1 / 2 ^ 20 ≤ |(1:ℝ)| ∧ |(1:ℝ)| ≤ 2
      norm_num
    · change ∀ c, c ≠ 3 → 1 / 2 ^ 20 ≤ |(Blending.addOne 0 (laneOf i) still (Blending.valLayer layer94)).scale c| ∧
        |(Blending.addOne 0 (laneOf i) still (Blending.valLayer layer94)).scale c| ≤ 2
      rw [e2]
      apply all94
      · norm_num
      · norm_num
      · norm_num
      · intro h; exact absurd rfl h

/-- The skeleton of two joints of C90, blended from two times of an animation, with half of a turn on top: the second joint is
within 8 m of where it should be if translations go up to a kilometre. -/
example (mt ms : Mem F32 (SoaVec3 F32)) (mr : Mem F32 (SoaQuat F32)) (o : SoaTransform F32) (m0 : Mat4 F32) (ctx : Blending.Context F32) :
    let plays := [play94 mt ms mr o quarter, play94 mt ms mr o F32.one]
    ∃ (sampled : Play → List (SoaTransform F32)) (ctx' : Blending.Context F32) (pose : List (SoaTransform F32)) (models' : List (Mat4 F32)),
      (∀ p ∈ plays, ∃ c', Sampling.run codeNumerics p.animation p.addr p.ratio p.context p.buffer = .ok (c', sampled p)) ∧
      Blending.run ⟨some [rest94], F32.one, plays.map fun p => p.layer (sampled p), [layer94]⟩ ⟨some ctx, some (.ok [o])⟩ =
        .ok ⟨some ctx', some (.ok pose)⟩ ∧
      LocalToModel.run Mat4.mul localMatrices ⟨[-1, 0], pose, eye33, -1, 1023, false⟩ [m0, m0] = .ok models' ∧
      ∃ (exact : Play → Nat → JointPose) (restPose blend : Nat → JointPose),
        (∀ p ∈ plays, ∀ i < 2, ExactPose p.animation i p.ratio (exact p i)) ∧
        (∀ i < 2, ∃ δ, ExactBlend δ (blendParts 1 plays exact (restPose i) i) (blend i)) ∧
        ∃ m x, models'[1]? = some m ∧ pureQuat x = moveAlong (fun i => (blend i).withLayers [layer94] i) [0, 1] 0 ∧
          ∀ r, r ≠ 3 → |val (m 3 r) - x r| ≤ 8 := by
  intro plays
  have hp : ParentsFirst [-1, 0] := by
    intro i h
    have h : i < 2 := h
    obtain rfl | rfl : i = 0 ∨ i = 1 := by omega
    · exact ⟨by show (-1 : Int) ≤ -1; norm_num, by show (-1 : Int) < 0; norm_num⟩
    · exact ⟨by show (-1 : Int) ≤ 0; norm_num, by show (0 : Int) < 1; norm_num⟩
  have hone : Unit01 F32.one := (unit01_iff F32.one).mp (by constructor <;> decide +kernel)
  obtain ⟨sampled, ctx', pose, r1, r2, exact, restPose, blend, x1, x2, h⟩ := C94_frame (M := 1024) (N := 2) (s := 1) (S := 1 + 3 / 2 ^ 20)
    (g := 2) (G := 2001 / 1000) (ρ := 1) (T := 0) store33_ok
    (plays := [play94 mt ms mr o quarter, play94 mt ms mr o F32.one]) (adds := [layer94]) (by norm_num) (by norm_num) (by norm_num) le_rfl
    (by norm_num) (by norm_num) (by norm_num) (by norm_num) ⟨[-1, 0], [], eye33, -1, 1023, false⟩
    (by
      intro p hp
      simp only [List.mem_cons, List.not_mem_nil, or_false] at hp
      rcases hp with rfl | rfl
      · exact play94_ok mt ms mr o quarter_unit
      · exact play94_ok mt ms mr o hone)
    (by simp) (thr := F32.one) one_finite (by rw [valOne]; norm_num) (by rw [valOne]; norm_num)
    (by
      intro i _
      simp only [List.map_cons, List.map_nil, List.sum_cons, List.sum_nil, one_weight94]
      norm_num)
    (rest := [rest94]) rfl
    (by
      intro i hi r hr
      have := List.mem_of_getElem? hr
      rw [List.mem_singleton] at this
      rw [this]
      exact rest94_ok _)
    (by
      intro y hy
      rw [List.mem_singleton.mp hy]
      exact ⟨_, rfl, le_rfl, .inl rfl⟩)
    layers94 (by simp)
    ctx (buf := [o]) (by simp) (.inr rfl) [m0, m0] hp (by simp) le_rfl (eye_root eye33_ok) (by norm_num) (by norm_num) (by norm_num) (by norm_num)
  have hscale : ∀ i < 2, ∀ c, c ≠ 3 → 1 ≤ (blend i).s4 c := by
    intro i hi c hc
    obtain ⟨e1, e2⟩ := x2 i hi
    refine C94_scale (a := 1) (by rw [valOne]; norm_num) (fun p hp => ?_) (fun p hp => x1 p hp i hi) (fun p hp k hk x => ?_) (fun c hc => ?_) e2 hc
    · simp only [List.mem_cons, List.not_mem_nil, or_false] at hp
      rcases hp with rfl | rfl <;> exact anim33_ok.ratios
    · have hk : k ∈ List.replicate 9 (same 0x3C00) := by
        simp only [List.mem_cons, List.not_mem_nil, or_false] at hp
        rcases hp with rfl | rfl <;> exact hk
      rw [List.eq_of_mem_replicate hk]
      have h1 : value16 (0x3C00 : BitVec 16) = 1 := by decide +kernel
      simp only [same, h1]
      norm_num
    · have h0 : i / 4 = 0 := by omega
      unfold jointPose at e1
      rw [h0] at e1
      have e1 := Option.some.inj e1
      rw [← e1]
      have h1 : (1:ℝ) ≤ val F32.one := by rw [valOne]
      fin_cases c
      · exact h1
      · exact h1
      · exact h1
      · exact absurd rfl hc
  obtain ⟨models', r3, -, h⟩ := h (by
    intro i hi c hc
    have := hscale i hi c hc
    refine le_trans ?_ (this.trans (le_abs_self _))
    norm_num)
  obtain ⟨m, path, e1, e2, e3⟩ := h 1 (by decide)
  have hpath : PathTo [-1, 0] 1 [0, 1] := .child (p := 0) rfl (.root rfl)
  cases LocalToModel.pathTo_unique e2 hpath
  have hb : addedError ([play94 mt ms mr o quarter, play94 mt ms mr o F32.one].length + 1) [layer94].length ≤ 605 / 1000000 := by
    have h6 : √(2 * ((3 : ℕ) : ℝ)) ≤ 245 / 100 := by
      rw [Real.sqrt_le_iff]; norm_num
    unfold addedError blendError
    change √(2 * ((3 : ℕ) : ℝ)) * (((3 : ℕ) : ℝ) + 16) / 2 ^ 17 + (((1 : ℕ) : ℝ) + 1) / 2 ^ 13 ≤ _
    have := mul_le_mul_of_nonneg_right h6 (show (0:ℝ) ≤ ((3:ℕ):ℝ) + 16 by positivity)
    have h7 := div_le_div_of_nonneg_right this (show (0:ℝ) ≤ 2 ^ 17 by positivity)
    refine (add_le_add h7 le_rfl).trans ?_
    norm_num
  have hb0 : 0 ≤ addedError ([play94 mt ms mr o quarter, play94 mt ms mr o F32.one].length + 1) [layer94].length := by
    unfold addedError blendError; positivity
  generalize addedError ([play94 mt ms mr o quarter, play94 mt ms mr o F32.one].length + 1) [layer94].length = θ at *
  have hpow : (1 + θ) ^ 2 - 1 ≤ 1211 / 1000000 := by nlinarith
  have hreach : reach (2001 / 1000) (2 * (1024 + 2)) 1 0 2 ≤ 6159 := by
    unfold reach; rw [Finset.sum_range_succ, Finset.sum_range_one]; norm_num
  obtain ⟨-, e4⟩ := e3 (by change (1 + θ) ^ 2 ≤ 2; linarith) (by norm_num) (by norm_num) (by
    change reach (2001 / 1000) (2 * (1024 + 2)) 1 0 2 ≤ 2 ^ 100
    exact hreach.trans (by norm_num))
  obtain ⟨x, hx, hb⟩ := e4 (splat 0)
  have hz : pureQuat (splat 0) = 0 := by ext <;> rfl
  rw [hz] at hx
  refine ⟨sampled, ctx', pose, models', r1, r2, r3, exact, restPose, blend, x1, fun i hi => ?_, m, x, e1, hx, fun r hr => ?_⟩
  · have h8 := (x2 i hi).2
    rw [valOne] at h8
    exact ⟨_, h8⟩
  have h5 := hb r hr
  rw [tp_origin, eye_point32 eye33_ok x r hr] at h5
  refine h5.trans ?_
  have hl : len (splat (0:ℝ) 0) (splat (0:ℝ) 1) (splat (0:ℝ) 2) = 0 := by simp [splat, len]
  rw [hl, mul_zero, zero_add]
  change reach (2001 / 1000) (2 * (1024 + 2)) 1 0 2 * ((1 + θ) ^ 2 - 1) ≤ 8
  have h7 : 0 ≤ (1 + θ) ^ 2 - 1 := by nlinarith
  have := mul_le_mul hreach hpow h7 (by norm_num)
  refine this.trans ?_
  norm_num

end

end Ozz.Props
