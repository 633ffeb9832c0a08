import Verif.Proofs.BlendedFrame
import Verif.Props.Frame

/-! Animations sampled and blended: every joint is close to the exact blend. -/

namespace Ozz.BlendedFrame

open Spec Ieee Sampling Keys Frame F32 Props

theorem blended_poses {anims : Nat → Option (Animation F32 Float3Key QuatKey)} {n : Nat}
    (hst : StoreOk F32.zero F32.one ((n + 3) / 4) anims) {plays : List Play} {M s S : ℝ}
    (hM : 1 / 2 ^ 50 ≤ M) (hM2 : M ≤ 2 ^ 50) (hs : 1 ≤ s) (hs2 : s ≤ 2 ^ 50) (hS : s * (1 + (plays.length + 1) / 2 ^ 20) ≤ S)
    {J : Nat} (hplays : ∀ p ∈ plays, PlayOk anims n J M s p)
    (hcount : plays.length < 512) {thr : F32} (hthr : Finite32 thr.bits) (hthr1 : 1 / 2 ^ 40 ≤ val thr) (hthr2 : val thr ≤ 2 ^ 40)
    (hweight : ∀ i < J, (plays.map fun p => p.jointWeight i).sum ≤ 2 ^ 40)
    {rest : List (SoaTransform F32)} (hrl : rest.length = (J + 3) / 4)
    (hrest : ∀ i < J, ∀ r, rest[i / 4]? = some r → Blending.Pose32Ok r (laneOf i) s M)
    (ctx : Blending.Context F32) {buf : List (SoaTransform F32)} (hbuf : rest.length ≤ buf.length)
    (hsome : (∃ p ∈ plays, 0 < val p.weight) ∨ buf.length = rest.length) :
    ∃ (sampled : Play → List (SoaTransform F32)) (ctx' : Blending.Context F32) (pose : List (SoaTransform F32)),
      (∀ p ∈ plays, ∃ c', Sampling.run codeNumerics p.animation p.addr p.ratio p.context p.buffer = .ok (c', sampled p)) ∧
      Blending.validate ⟨some rest, thr, plays.map fun p => p.layer (sampled p), []⟩ ⟨some ctx, some (.ok buf)⟩ = true ∧
      ((∃ y ∈ plays.map fun p => p.layer (sampled p), NumOps.le y.weight F32.zero = false) ∨ buf.length = rest.length) ∧
      Blending.run ⟨some rest, thr, plays.map fun p => p.layer (sampled p), []⟩ ⟨some ctx, some (.ok buf)⟩ =
        .ok ⟨some ctx', some (.ok pose)⟩ ∧ pose.length = buf.length ∧
      ∃ (exact : Play → Nat → JointPose) (restPose blend : Nat → JointPose),
        (∀ p ∈ plays, ∀ i < J, ExactPose p.animation i p.ratio (exact p i)) ∧
        ∀ i < J, ∃ o, pose[i / 4]? = some o ∧ jointPose (rest.map valTransform) i = some (restPose i) ∧
          ExactBlend ((12 * (plays.length + 1) + 640) / 2 ^ 24 * max (val thr) (plays.map fun p => p.jointWeight i).sum)
            (blendParts (val thr) plays exact (restPose i) i) (blend i) ∧ Joint32Ok o (laneOf i) S (2 * M) (1 / 2 ^ 19) ∧
          PoseClose (lanePose o (laneOf i)) (blend i) S (2 * M)
            (4 * (√(2 * (plays.length + 1 : ℕ)) * (25 * (plays.length + 1 : ℕ) + 384) / 2 ^ 24 + 1 / 2 ^ 20) +
              2 / 2 ^ 19 + (14 * (plays.length + 1 : ℕ) + 32) / 2 ^ 24) ∧
          Quaternion.normSq (blend i).rotation = 1 ∧ (blend i).translation.re = 0 ∧
          PartsNear (lanePose o (laneOf i)) (blend i) M s ((14 * (plays.length + 1 : ℕ) + 32) / 2 ^ 24)
            (√(2 * (plays.length + 1 : ℕ)) * (25 * (plays.length + 1 : ℕ) + 384) / 2 ^ 24 + 1 / 2 ^ 20) := by
  have M0 : 0 < M := lt_of_lt_of_le (by positivity) hM
  have s0 : 0 ≤ s := by linarith
  have hM60 : 1 / 2 ^ 60 ≤ M := le_trans (by norm_num) hM
  -- sampling
  have hsamp : ∀ p : Play, ∃ ts, p ∈ plays → ∃ c', Sampling.run codeNumerics p.animation p.addr p.ratio p.context p.buffer = .ok (c', ts) ∧
      (n + 3) / 4 ≤ ts.length ∧ ∀ i < (n + 3) / 4, ∀ l : Fin 4, ∃ o P, ts[i]? = some o ∧ ExactPose p.animation (4 * i + l) p.ratio P ∧
        Joint32Ok o l s (2 * M) (1 / 2 ^ 19) ∧ PoseClose (lanePose o l) P s (2 * M) (19 / 2 ^ 19) ∧
        Quaternion.normSq P.rotation = 1 ∧ P.translation.re = 0 ∧ LaneNear (lanePose o l) P M s := by
    intro p
    by_cases hp : p ∈ plays
    · have h := hplays p hp
      obtain ⟨c', ts, h1, h2, h3⟩ := sampled_lanes hst h.reached h.stored hM60 hs h.animation h.blocks h.ratio h.buffer
      exact ⟨ts, fun _ => ⟨c', h1, h2, h3⟩⟩
    · exact ⟨[], fun h => absurd h hp⟩
  choose sampled hsampled using hsamp
  have hJ : plays ≠ [] → (J + 3) / 4 ≤ (n + 3) / 4 := by
    intro hne
    obtain ⟨p, hp⟩ := List.exists_mem_of_ne_nil plays hne
    have h1 := (hplays p hp).enough
    have h2 := (hplays p hp).blocks
    omega
  have hnum : ∀ i, 4 * (i / 4) + ((laneOf i : Fin 4) : Nat) = i := fun i => Nat.div_add_mod i 4
  have hlane : ∀ (p : Play) (i : Nat), ∃ (o : SoaTransform F32) (P : JointPose), p ∈ plays → i < J →
      (sampled p)[i / 4]? = some o ∧ ExactPose p.animation i p.ratio P ∧ Joint32Ok o (laneOf i) s (2 * M) (1 / 2 ^ 19) ∧
      Quaternion.normSq P.rotation = 1 ∧ LaneNear (lanePose o (laneOf i)) P M s := by
    intro p i
    by_cases hp : p ∈ plays
    · by_cases hi : i < J
      · obtain ⟨c', -, -, h⟩ := hsampled p hp
        have := hJ (List.ne_nil_of_mem hp)
        obtain ⟨o, P, e1, e2, e3, -, e5, -, e7⟩ := h (i / 4) (by omega) (laneOf i)
        rw [hnum i] at e2
        exact ⟨o, P, fun _ _ => ⟨e1, e2, e3, e5, e7⟩⟩
      · exact ⟨⟨⟨splat F32.zero, splat F32.zero, splat F32.zero⟩, ⟨splat F32.zero, splat F32.zero, splat F32.zero, splat F32.zero⟩,
          ⟨splat F32.zero, splat F32.zero, splat F32.zero⟩⟩, ⟨0, 0, 0⟩, fun _ h => absurd h hi⟩
    · exact ⟨⟨⟨splat F32.zero, splat F32.zero, splat F32.zero⟩, ⟨splat F32.zero, splat F32.zero, splat F32.zero, splat F32.zero⟩,
          ⟨splat F32.zero, splat F32.zero, splat F32.zero⟩⟩, ⟨0, 0, 0⟩, fun h => absurd h hp⟩
  choose oOf exact hlane using hlane
  -- blending
  set job : Blending.Job F32 := ⟨some rest, thr, plays.map fun p => p.layer (sampled p), []⟩ with hjob
  have hll : job.layers.length = plays.length := List.length_map _
  have hval : Blending.validate job ⟨some ctx, some (.ok buf)⟩ = true := by
    rw [Blending.validate_iff]
    refine ⟨rest, ctx, buf, rfl, rfl, rfl, ?_, hbuf, ?_, by simp [hjob]⟩
    · refine (Blending.lt_val32 zero_finite hthr).mpr ?_
      rw [valZero]
      exact lt_of_lt_of_le (by positivity) hthr1
    · intro y hy
      obtain ⟨p, hp, rfl⟩ := List.mem_map.mp hy
      rw [Blending.Layer.ok_iff]
      obtain ⟨c', -, hlen, -⟩ := hsampled p hp
      refine ⟨sampled p, rfl, ?_, ?_⟩
      · rw [hrl]; exact (hJ (List.ne_nil_of_mem hp)).trans hlen
      · rw [hrl]; exact (hplays p hp).jointWeights
  have husable : (∃ y ∈ plays.map fun p => p.layer (sampled p), NumOps.le y.weight F32.zero = false) ∨ buf.length = rest.length := by
    rcases hsome with ⟨p, hp, hw⟩ | h
    · left
      refine ⟨p.layer (sampled p), List.mem_map.mpr ⟨p, hp, rfl⟩, ?_⟩
      have hle := Blending.le_val32 (hplays p hp).weight zero_finite
      rw [valZero] at hle
      by_contra hc
      rw [Bool.not_eq_false] at hc
      exact absurd (hle.mp hc) (not_le.mpr hw)
    · exact .inr h
  obtain ⟨ctx', pose, hrun, hpl, -⟩ := C35_valid_runs_partial job rest ctx buf hval rfl husable
  obtain ⟨c1, o1, hs1, A⟩ := C81_average job rest ctx buf _ rfl rfl (by rw [hll]; omega) hthr hrun
  obtain ⟨c2, o2, hs2', Q⟩ := C81_rotation job rest ctx buf _ rfl rfl (by rw [hll]; omega) hthr hrun
  cases hs1
  cases hs2'
  -- every joint
  have hblend : ∀ i, ∃ (R B : JointPose), i < J → ∃ o, pose[i / 4]? = some o ∧
      jointPose (rest.map valTransform) i = some R ∧
      ExactBlend ((12 * (plays.length + 1) + 640) / 2 ^ 24 * max (val thr) (plays.map fun p => p.jointWeight i).sum)
        (blendParts (val thr) plays exact R i) B ∧ Joint32Ok o (laneOf i) S (2 * M) (1 / 2 ^ 19) ∧
      PoseClose (lanePose o (laneOf i)) B S (2 * M) (4 * (√(2 * (plays.length + 1 : ℕ)) * (25 * (plays.length + 1 : ℕ) + 384) / 2 ^ 24 + 1 / 2 ^ 20) +
        2 / 2 ^ 19 + (14 * (plays.length + 1 : ℕ) + 32) / 2 ^ 24) ∧ Quaternion.normSq B.rotation = 1 ∧ B.translation.re = 0 ∧
      PartsNear (lanePose o (laneOf i)) B M s ((14 * (plays.length + 1 : ℕ) + 32) / 2 ^ 24)
        (√(2 * (plays.length + 1 : ℕ)) * (25 * (plays.length + 1 : ℕ) + 384) / 2 ^ 24 + 1 / 2 ^ 20) := by
    intro i
    by_cases hi : i < J
    swap
    · exact ⟨⟨0, 0, 0⟩, ⟨0, 0, 0⟩, fun h => absurd h hi⟩
    have hri : i / 4 < rest.length := by omega
    obtain ⟨r, hr⟩ : ∃ r, rest[i / 4]? = some r := ⟨_, List.getElem?_eq_getElem hri⟩
    have hrok := hrest i hi r hr
    obtain ⟨o, ho, hA⟩ := A (i / 4) r hr
    obtain ⟨o', ho', hQ⟩ := Q (i / 4) r hr
    rw [ho] at ho'
    cases ho'
    have hcp := fun f => contributions_plays (plays := plays) hi (fun p hp => (hplays p hp).jointWeights) (sampled := sampled) (oOf := fun p => oOf p i)
      (fun p hp => (hlane p i hp hi).1) (val thr) (valTransform r) f
    have htot := (hcp fun t => t.translation.lane (laneOf i)).2
    obtain ⟨W, hW⟩ : ∃ W, W = max (val thr) (plays.map fun p => p.jointWeight i).sum := ⟨_, rfl⟩
    have W1 : 1 / 2 ^ 40 ≤ W := by rw [hW]; exact hthr1.trans (le_max_left _ _)
    have W2 : W ≤ 2 ^ 40 := by rw [hW]; exact max_le hthr2 (hweight i hi)
    have hz : Blending.Sizes W s (101 / 100 * M) :=
      ⟨le_trans (by norm_num) W1, W2.trans (by norm_num), le_trans (by norm_num) hs, hs2.trans (by norm_num),
        le_trans hM60 (by linarith), by norm_num at hM2 ⊢; linarith⟩
    have hrok' : Blending.Pose32Ok r (laneOf i) s (101 / 100 * M) :=
      ⟨hrok.translationFinite, hrok.rotationFinite, hrok.scaleFinite, fun c => (hrok.translation c).trans (by linarith), hrok.rotation, hrok.scale⟩
    have hlay : ∀ y ∈ job.layers, Blending.Layer32Ok y (i / 4) (laneOf i) s (101 / 100 * M) := by
      intro y hy
      obtain ⟨p, hp, rfl⟩ := List.mem_map.mp hy
      refine ⟨(hplays p hp).weight, fun w hw => (hplays p hp).jointWeightsFinite w (List.mem_of_getElem? hw) _, fun _ => ?_⟩
      obtain ⟨e1, -, e3, -, e5⟩ := hlane p i hp hi
      exact ⟨sampled p, oOf p i, rfl, e1, lane_pose32 M0.le s0 e5 e3⟩
    have hA := hA (laneOf i) s (101 / 100 * M) (by rw [htot, ← hW]; exact hz) hlay hrok'
    obtain ⟨R, q1, q2, q3⟩ := hQ (laneOf i) s (101 / 100 * M) W (by rw [htot, ← hW]) hz W1 W2 hlay hrok'
    rw [(hcp _).1, (hcp _).1, hll] at hA
    rw [(hcp _).1, hll] at q1
    rw [hll] at q2 q3
    simp only [lane_t, lane_s, lane_r] at hA q1
    obtain ⟨B, b1, b2, b3, b4, b5⟩ := joint_close (oOf := fun p => oOf p i) (exact := exact) M0 hs hS hcount hW (lt_of_lt_of_le (by positivity) W1)
      (fun p hp => (hlane p i hp hi).2.2.2.2) (fun p hp => (hlane p i hp hi).2.2.2.1) (fun p hp => (hlane p i hp hi).2.2.1) hrok hA q1 q2 q3
    refine ⟨lanePose r (laneOf i), B, fun _ => ⟨o, ho, ?_, by rw [← hW]; exact b1, b2, b3, b4, b5⟩⟩
    simp only [jointPose, List.getElem?_map, hr]
    rfl
  choose restPose blend hblend using hblend
  refine ⟨sampled, ctx', pose, fun p hp => ?_, hval, husable, hrun, hpl, exact, restPose, blend, fun p hp i hi => (hlane p i hp hi).2.1, hblend⟩
  obtain ⟨c', h, -⟩ := hsampled p hp
  exact ⟨c', h⟩

end Ozz.BlendedFrame
