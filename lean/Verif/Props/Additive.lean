import Verif.Props.FloatBlend
import Verif.Proofs.FloatAdditive

/-!
Property theorems about additive layers: C82.
-/

namespace Ozz.Props

open Ozz Blending Ieee Spec F32

/-! ### C82 -/

/-- C82: in exact arithmetic, running with additive layers is running without them, and then moving, turning and scaling every
joint by the weighted part of each layer's pose, in the order of the layers. -/
theorem C82_exact (j : Job ℝ) (rest : List (SoaTransform ℝ)) (c : Context ℝ) (out : List (SoaTransform ℝ)) (s' : State ℝ)
    (hs : j.skeleton = some rest) (hrun : run j ⟨some c, some (.ok out)⟩ = .ok s') :
    ∃ c₀ base c' out', run { j with additiveLayers := [] } ⟨some c, some (.ok out)⟩ = .ok ⟨some c₀, some (.ok base)⟩ ∧
      s' = ⟨some c', some (.ok out')⟩ ∧
      ∀ i < rest.length, ∃ b o, base[i]? = some b ∧ out'[i]? = some o ∧
        ∀ l, lanePose o l = j.additiveLayers.foldl (addOne i l) (lanePose b l) := by
  obtain ⟨c₀, base, c', out', h1, h2, h3⟩ := run_additive hs hrun
  refine ⟨c₀, base, c', out', h1, h2, fun i hi => ?_⟩
  obtain ⟨b, h4, h5⟩ := h3 i hi
  exact ⟨b, _, h4, h5, fun l => additiveFold_lane i l _ b⟩

/-- C82: adding a layer and taking it away again gives the pose back. -/
theorem C82_inverse (i : Nat) (l : Fin 4) (p : LanePose) (y z : Layer ℝ) (hz : addWeight z i l = -addWeight y i l)
    (hp : poseOf z i = poseOf y i) (h0 : 0 ≤ addWeight y i l) (h1 : addWeight y i l ≤ 1)
    (hq : norm2 ((poseOf y i).rotation.lane l) = 1) (hsc : ∀ c, 1 + addWeight y i l * ((poseOf y i).scale.lane l c - 1) ≠ 0) :
    addOne i l (addOne i l p y) z = p := by
  have hle : addWeight z i l ≤ 0 := by rw [hz]; linarith
  rw [addOne_sub hle, addOne_add h0, hz, hp, neg_neg]
  have hu : ‖partly (addWeight y i l) ((poseOf y i).rotation.lane l)‖ = 1 := by
    unfold partly
    obtain ⟨b1, b2⟩ := between_norm (p := shortWay ((poseOf y i).rotation.lane l)) (by rw [shortWay_norm, hq]; norm_num) (shortWay_w _) h0 h1
    rw [norm_toQuat, norm2_unitOf _ (fun hc => by rw [hc] at b1; norm_num [norm2] at b1), Real.sqrt_one]
  apply LanePose.ext
  · exact add_sub_cancel_right _ _
  · change p.rotation * partly _ _ * star (partly _ _) = p.rotation
    rw [mul_assoc, Quaternion.self_mul_star, Quaternion.normSq_eq_norm_mul_self, hu]
    simp
  · funext c
    exact mul_div_cancel_right₀ _ (hsc c)

/-- C82: with floats, every joint ends up near what the exact additive layers make of the floats the job gives without them,
and its rotation is as long as before, up to `100 n / 2^24` for `n` additive layers. -/
theorem C82_single_precision (j : Job F32) (rest : List (SoaTransform F32)) (c : Context F32) (out : List (SoaTransform F32))
    (s' : State F32) (hs : j.skeleton = some rest) (hn : j.additiveLayers.length ≤ 512)
    (hrun : run j ⟨some c, some (.ok out)⟩ = .ok s') :
    ∃ c₀ base c' out', run { j with additiveLayers := [] } ⟨some c, some (.ok out)⟩ = .ok ⟨some c₀, some (.ok base)⟩ ∧
      s' = ⟨some c', some (.ok out')⟩ ∧
      ∀ i < rest.length, ∃ b o, base[i]? = some b ∧ out'[i]? = some o ∧
        ∀ l B, 1 / 2 ^ 60 ≤ B → B ≤ 2 ^ 60 → Pose32Ok b l (2 ^ 60) B → (∀ y ∈ j.additiveLayers, Additive32Ok y i l B) →
          (∀ m ≤ j.additiveLayers.length,
            PoseWithin B (((j.additiveLayers.take m).map valLayer).foldl (addOne i l) (lanePose (valTransform b) l))) →
          NearPose l B j.additiveLayers.length
            ((j.additiveLayers.map valLayer).foldl (addOne i l) (lanePose (valTransform b) l)) o ∧
          |‖(lanePose (valTransform o) l).rotation‖ - ‖(lanePose (valTransform b) l).rotation‖| ≤
            100 * j.additiveLayers.length / 2 ^ 24 := by
  obtain ⟨c₀, base, c', out', h1, h2, h3⟩ := run_additive hs hrun
  refine ⟨c₀, base, c', out', h1, h2, fun i hi => ?_⟩
  obtain ⟨b, h4, h5⟩ := h3 i hi
  refine ⟨b, _, h4, h5, fun l B hB hB2 hb hy hw => ?_⟩
  have start : NearPose l B 0 (lanePose (valTransform b) l) b := by
    refine ⟨hb.translationFinite, fun c => ?_, hb.rotationFinite, ?_, hb.scaleFinite, fun c => ?_⟩
    · rw [show (lanePose (valTransform b) l).translation c = _ from (lane_val b l c).1, sub_self]; simp
    · simp
    · rw [show (lanePose (valTransform b) l).scale c = _ from (lane_val b l c).2.2, sub_self]; simp
  have hR : ‖(lanePose (valTransform b) l).rotation‖ ≤ 1001 / 1000 := by
    change ‖toQuat ((valTransform b).rotation.lane l)‖ ≤ _
    rw [norm_toQuat, Real.sqrt_le_left (by norm_num)]
    have := (abs_le.mp hb.rotation).2
    norm_num at this ⊢
    linarith
  obtain ⟨f1, f2⟩ := near_fold hB hB2 j.additiveLayers 0 _ b (by omega) start hw hy hR
  rw [Nat.zero_add] at f1
  refine ⟨f1, ?_⟩
  rw [← f2]
  exact (abs_norm_sub_norm_le _ _).trans f1.rotation

/-! ### Examples -/

private def a0 : F32 := ⟨0x00000000#32⟩
private def ah : F32 := ⟨0x3f000000#32⟩
private def a1 : F32 := ⟨0x3f800000#32⟩
private def a3 : F32 := ⟨0x40400000#32⟩
private def a4 : F32 := ⟨0x40800000#32⟩
private def at0 : F32 := ⟨0x3dcccccd#32⟩

private theorem va0 : val a0 = 0 := by
  have : value32 0x00000000#32 = 0 := by decide +kernel
  simp only [val, a0, real, this]; norm_num
private theorem vah : val ah = 1 / 2 := by
  have : value32 0x3f000000#32 = 1 / 2 := by decide +kernel
  simp only [val, ah, real, this]; norm_num
private theorem va1 : val a1 = 1 := by
  have : value32 0x3f800000#32 = 1 := by decide +kernel
  simp only [val, a1, real, this]; norm_num
private theorem va3 : val a3 = 3 := by
  have : value32 0x40400000#32 = 3 := by decide +kernel
  simp only [val, a3, real, this]; norm_num
private theorem va4 : val a4 = 4 := by
  have : value32 0x40800000#32 = 4 := by decide +kernel
  simp only [val, a4, real, this]; norm_num

private def rest1 : SoaTransform F32 :=
  ⟨⟨splat a1, splat a0, splat a0⟩, ⟨splat a0, splat a0, splat a0, splat a1⟩, ⟨splat a1, splat a1, splat a1⟩⟩
/-- Four units further, half a turn around z, three times as wide. -/
private def turn1 : SoaTransform F32 :=
  ⟨⟨splat a4, splat a0, splat a0⟩, ⟨splat a0, splat a0, splat a1, splat a0⟩, ⟨splat a3, splat a1, splat a1⟩⟩
private def turnLayer : Layer F32 := ⟨.ok [turn1], ah, []⟩
/-- The rest pose and half of the turn. -/
private def turnJob : Job F32 := ⟨some [rest1], at0, [], [turnLayer]⟩
private def turnState : State F32 := ⟨some ⟨0, 0, a0, []⟩, some (.ok [rest1])⟩

private def resultOf : Outcome (State F32) → List (SoaTransform F32)
  | .ok ⟨_, some (.ok out)⟩ => out
  | _ => []

private theorem bits_lane (t u : SoaTransform F32) (h : ∀ l : Fin 4,
    (t.translation.x l).bits = (u.translation.x l).bits ∧ (t.translation.y l).bits = (u.translation.y l).bits ∧
    (t.translation.z l).bits = (u.translation.z l).bits ∧ (t.rotation.x l).bits = (u.rotation.x l).bits ∧
    (t.rotation.y l).bits = (u.rotation.y l).bits ∧ (t.rotation.z l).bits = (u.rotation.z l).bits ∧
    (t.rotation.w l).bits = (u.rotation.w l).bits ∧ (t.scale.x l).bits = (u.scale.x l).bits ∧
    (t.scale.y l).bits = (u.scale.y l).bits ∧ (t.scale.z l).bits = (u.scale.z l).bits) : t = u := by
  have e : ∀ {x y : F32}, x.bits = y.bits → x = y := by
    intro x y hxy
    cases x; cases y; simpa using hxy
  obtain ⟨⟨a, b, c⟩, ⟨d, f, g, i⟩, ⟨j, k, m⟩⟩ := t
  obtain ⟨⟨a', b', c'⟩, ⟨d', f', g', i'⟩, ⟨j', k', m'⟩⟩ := u
  obtain rfl : a = a' := funext fun l => e (h l).1
  obtain rfl : b = b' := funext fun l => e (h l).2.1
  obtain rfl : c = c' := funext fun l => e (h l).2.2.1
  obtain rfl : d = d' := funext fun l => e (h l).2.2.2.1
  obtain rfl : f = f' := funext fun l => e (h l).2.2.2.2.1
  obtain rfl : g = g' := funext fun l => e (h l).2.2.2.2.2.1
  obtain rfl : i = i' := funext fun l => e (h l).2.2.2.2.2.2.1
  obtain rfl : j = j' := funext fun l => e (h l).2.2.2.2.2.2.2.1
  obtain rfl : k = k' := funext fun l => e (h l).2.2.2.2.2.2.2.2.1
  obtain rfl : m = m' := funext fun l => e (h l).2.2.2.2.2.2.2.2.2
  rfl

private theorem base1 {b : SoaTransform F32} (h : (resultOf (run { turnJob with additiveLayers := [] } turnState))[0]? = some b) : b = rest1 := by
  have e : some ((resultOf (run { turnJob with additiveLayers := [] } turnState))[0]'(by decide +kernel)) = some b := by
    rw [← h]; exact (List.getElem?_eq_getElem _).symm
  rw [← Option.some.inj e]
  apply bits_lane
  decide +kernel

private theorem rest1_ok (l : Fin 4) : Pose32Ok rest1 l (2 ^ 60) 8 := by
  have f0 : Finite32 a0.bits := by decide +kernel
  have f1 : Finite32 a1.bits := by decide +kernel
  refine ⟨fun c => ?_, fun c => ?_, fun c => ?_, fun c => ?_, ?_, fun c => ?_⟩
  · fin_cases c
    · exact f1
    · exact f0
    · exact f0
    · exact zero_finite
  · fin_cases c
    · exact f0
    · exact f0
    · exact f0
    · exact f1
  · fin_cases c
    · exact f1
    · exact f1
    · exact f1
    · exact zero_finite
  · fin_cases c
    · change |val a1| ≤ 8; rw [va1]; norm_num
    · change |val a0| ≤ 8; rw [va0]; norm_num
    · change |val a0| ≤ 8; rw [va0]; norm_num
    · change |val F32.zero| ≤ 8; rw [valZero]; norm_num
  · have : norm2 ((valTransform rest1).rotation.lane l) = val a0 ^ 2 + val a0 ^ 2 + val a0 ^ 2 + val a1 ^ 2 := rfl
    rw [this, va0, va1]; norm_num
  · fin_cases c
    · change |val a1| ≤ _; rw [va1]; norm_num
    · change |val a1| ≤ _; rw [va1]; norm_num
    · change |val a1| ≤ _; rw [va1]; norm_num
    · change |val F32.zero| ≤ _; rw [valZero]; norm_num

private theorem turnWeight (l : Fin 4) : addWeight (valLayer turnLayer) 0 l = 1 / 2 := by
  have : addWeight (valLayer turnLayer) 0 l = val ah * 1 := rfl
  rw [this, vah, mul_one]

private theorem turn_ok (l : Fin 4) : Additive32Ok turnLayer 0 l 8 := by
  have f0 : Finite32 a0.bits := by decide +kernel
  have f1 : Finite32 a1.bits := by decide +kernel
  have f3 : Finite32 a3.bits := by decide +kernel
  have f4 : Finite32 a4.bits := by decide +kernel
  refine ⟨by decide +kernel, fun w hw => by simp [turnLayer] at hw, by rw [turnWeight]; norm_num, fun _ => ⟨[turn1], turn1, rfl, rfl, ?_, ?_⟩⟩
  · refine ⟨fun c => ?_, fun c => ?_, fun c => ?_, fun c => ?_, ?_, fun c => ?_⟩
    · fin_cases c
      · exact f4
      · exact f0
      · exact f0
      · exact zero_finite
    · fin_cases c
      · exact f0
      · exact f0
      · exact f1
      · exact f0
    · fin_cases c
      · exact f3
      · exact f1
      · exact f1
      · exact zero_finite
    · fin_cases c
      · change |val a4| ≤ 8; rw [va4]; norm_num
      · change |val a0| ≤ 8; rw [va0]; norm_num
      · change |val a0| ≤ 8; rw [va0]; norm_num
      · change |val F32.zero| ≤ 8; rw [valZero]; norm_num
    · have : norm2 ((valTransform turn1).rotation.lane l) = val a0 ^ 2 + val a0 ^ 2 + val a1 ^ 2 + val a0 ^ 2 := rfl
      rw [this, va0, va1]; norm_num
    · fin_cases c
      · change |val a3| ≤ _; rw [va3]; norm_num
      · change |val a1| ≤ _; rw [va1]; norm_num
      · change |val a1| ≤ _; rw [va1]; norm_num
      · change |val F32.zero| ≤ _; rw [valZero]; norm_num
  · intro c hc
    fin_cases c
    · change _ ≤ val a3; rw [va3]; norm_num
    · change _ ≤ val a1; rw [va1]; norm_num
    · change _ ≤ val a1; rw [va1]; norm_num
    · exact absurd rfl hc

/-- The values the pose passes through: x moves from 1 to 3, and becomes twice as wide. -/
private theorem turn_pose (l : Fin 4) :
    (addOne 0 l (lanePose (valTransform rest1) l) (valLayer turnLayer)).translation = f4 3 0 0 0 ∧
    (addOne 0 l (lanePose (valTransform rest1) l) (valLayer turnLayer)).scale = f4 2 1 1 0 ∧
    (lanePose (valTransform rest1) l).translation = f4 1 0 0 0 ∧ (lanePose (valTransform rest1) l).scale = f4 1 1 1 0 := by
  have z := valZero
  have h1 : (lanePose (valTransform rest1) l).translation = f4 1 0 0 0 := by
    have : (lanePose (valTransform rest1) l).translation = f4 (val a1) (val a0) (val a0) 0 := rfl
    rw [this, va0, va1]
  have h2 : (lanePose (valTransform rest1) l).scale = f4 1 1 1 0 := by
    have : (lanePose (valTransform rest1) l).scale = f4 (val a1) (val a1) (val a1) 0 := rfl
    rw [this, va1]
  have h3 : (poseOf (valLayer turnLayer) 0).translation.lane l = f4 4 0 0 0 := by
    have : (poseOf (valLayer turnLayer) 0).translation.lane l = f4 (val a4) (val a0) (val a0) 0 := rfl
    rw [this, va0, va4]
  have h4 : (poseOf (valLayer turnLayer) 0).scale.lane l = f4 3 1 1 0 := by
    have : (poseOf (valLayer turnLayer) 0).scale.lane l = f4 (val a3) (val a1) (val a1) 0 := rfl
    rw [this, va1, va3]
  rw [addOne_add (by rw [turnWeight]; norm_num), turnWeight]
  refine ⟨?_, ?_, h1, h2⟩
  · rw [h1, h3]
    apply ext4 <;> norm_num
  · rw [h2, h4]
    apply ext4 <;> norm_num

private theorem all4 {P : Fin 4 → Prop} (h0 : P 0) (h1 : P 1) (h2 : P 2) (h3 : P 3) : ∀ c, P c := by
  intro c
  fin_cases c
  · exact h0
  · exact h1
  · exact h2
  · exact h3

private theorem turn_within (l : Fin 4) (m : Nat) (hm : m ≤ turnJob.additiveLayers.length) :
    PoseWithin 8 (((turnJob.additiveLayers.take m).map valLayer).foldl (addOne 0 l) (lanePose (valTransform rest1) l)) := by
  obtain ⟨h1, h2, h3, h4⟩ := turn_pose l
  have : m = 0 ∨ m = 1 := by
    have : turnJob.additiveLayers.length = 1 := rfl
    omega
  rcases this with rfl | rfl
  · change PoseWithin 8 (lanePose (valTransform rest1) l)
    refine ⟨?_, ?_, ?_⟩ <;> apply all4 <;> first | (intro hc; exact absurd rfl hc) | (rw [h3]; norm_num) | (rw [h4]; norm_num)
  · change PoseWithin 8 (addOne 0 l (lanePose (valTransform rest1) l) (valLayer turnLayer))
    refine ⟨?_, ?_, ?_⟩ <;> apply all4 <;> first | (intro hc; exact absurd rfl hc) | (rw [h1]; norm_num) | (rw [h2]; norm_num)

/-- The hypotheses of `C82_single_precision`: the x coordinate ends up near 1 + 4/2, the width near 2. -/
example : ∃ c' out' o, run turnJob turnState = .ok ⟨some c', some (.ok out')⟩ ∧ out'[0]? = some o ∧
    |val (o.translation.lane 2 0) - 3| ≤ 1 / 2 ^ 18 ∧ |val (o.scale.lane 2 0) - 2| ≤ 1 / 2 ^ 16 := by
  obtain ⟨c', out', hrun, -⟩ := C35_valid_runs_partial turnJob [rest1] ⟨0, 0, a0, []⟩ [rest1] (by decide +kernel) rfl (.inr rfl)
  obtain ⟨c₀, base, c'', out'', h1, h2, h3⟩ := C82_single_precision turnJob _ _ _ _ rfl (by decide) hrun
  simp only [State.mk.injEq, Option.some.injEq, Except.ok.injEq] at h2
  obtain ⟨rfl, rfl⟩ := h2
  obtain ⟨b, o, h4, h5, h6⟩ := h3 0 (by decide)
  obtain rfl := base1 (b := b) (by
    have : run { turnJob with additiveLayers := [] } turnState = _ := h1
    rw [this]; exact h4)
  obtain ⟨h7, -⟩ := h6 2 8 (by norm_num) (by norm_num) (rest1_ok 2)
    (by intro y hy; rw [List.mem_singleton.mp hy]; exact turn_ok 2) (turn_within 2)
  obtain ⟨t1, t2, -⟩ := turn_pose 2
  refine ⟨_, _, o, hrun, h5, ?_, ?_⟩
  · have := h7.translation 0
    change |_ - (addOne 0 2 (lanePose (valTransform rest1) 2) (valLayer turnLayer)).translation 0| ≤ 7 * ((1 : Nat) : ℝ) * 8 / 2 ^ 24 at this
    rw [t1] at this
    exact this.trans (by norm_num)
  · have := h7.scale 0
    change |_ - (addOne 0 2 (lanePose (valTransform rest1) 2) (valLayer turnLayer)).scale 0| ≤
      70 * ((1 : Nat) : ℝ) * |(addOne 0 2 (lanePose (valTransform rest1) 2) (valLayer turnLayer)).scale 0| / 2 ^ 24 at this
    rw [t2] at this
    exact this.trans (by norm_num)

/-- The hypotheses of `C82_inverse`: half of the turn, taken away again. -/
example (l : Fin 4) (p : LanePose) :
    addOne 0 l (addOne 0 l p (valLayer turnLayer)) { valLayer turnLayer with weight := -(valLayer turnLayer).weight } = p := by
  have hsc : (poseOf (valLayer turnLayer) 0).scale.lane l = f4 3 1 1 0 := by
    have : (poseOf (valLayer turnLayer) 0).scale.lane l = f4 (val a3) (val a1) (val a1) 0 := rfl
    rw [this, va1, va3]
  apply C82_inverse 0 l p
  · change -val ah * 1 = -(val ah * 1); ring
  · rfl
  · rw [turnWeight]; norm_num
  · rw [turnWeight]; norm_num
  · have : norm2 ((poseOf (valLayer turnLayer) 0).rotation.lane l) = val a0 ^ 2 + val a0 ^ 2 + val a1 ^ 2 + val a0 ^ 2 := rfl
    rw [this, va0, va1]; norm_num
  · rw [turnWeight, hsc]
    apply all4 <;> norm_num

end Ozz.Props
