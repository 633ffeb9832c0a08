import Verif.Proofs.FloatAdditive
import Verif.Proofs.BlendedFrame
import Verif.Proofs.Additive
import Verif.Spec.AddedFrame

/-! Additive layers on top of a blend: errors of the blend pass through, those of the layers are added. -/

namespace Ozz.BlendedFrame

open Spec Ieee Keys Frame F32 Blending

/-- One pose on top of another. -/
noncomputable def onTop (p a : LanePose) : LanePose := ⟨p.translation + a.translation, p.rotation * a.rotation, fun c => p.scale c * a.scale c⟩

theorem onTop_still (p : LanePose) : onTop p still = p := by
  unfold onTop still
  simp

theorem addOne_onTop (i : Nat) (l : Fin 4) (p a : LanePose) (y : Layer ℝ) : addOne i l (onTop p a) y = onTop p (addOne i l a y) := by
  rcases le_total 0 (addWeight y i l) with h | h
  · rw [addOne_add h, addOne_add h]
    apply LanePose.ext
    · exact add_assoc _ _ _
    · exact mul_assoc _ _ _
    · funext c; exact mul_assoc _ _ _
  · rw [addOne_sub h, addOne_sub h]
    apply LanePose.ext
    · exact add_sub_assoc _ _ _
    · exact mul_assoc _ _ _
    · funext c; exact mul_div_assoc _ _ _

/-- Additive layers do the same to every pose. -/
theorem layers_onTop (i : Nat) (l : Fin 4) (ys : List (Layer ℝ)) (p : LanePose) :
    ys.foldl (addOne i l) p = onTop p (ys.foldl (addOne i l) still) := by
  have key : ∀ (ys : List (Layer ℝ)) (a : LanePose), ys.foldl (addOne i l) (onTop p a) = onTop p (ys.foldl (addOne i l) a) := by
    intro ys
    induction ys with
    | nil => intro a; rfl
    | cons y ys ih =>
      intro a
      rw [List.foldl_cons, List.foldl_cons, addOne_onTop, ih]
  have h := key ys still
  rw [onTop_still] at h
  exact h

theorem partly_unit {w : ℝ} {q : F4 ℝ} (h0 : 0 ≤ w) (h1 : w ≤ 1) (hq : |norm2 q - 1| ≤ 1 / 2 ^ 10) : ‖partly w q‖ = 1 := by
  unfold partly
  obtain ⟨b1, -⟩ := between_norm (p := shortWay q) (by rw [shortWay_norm]; exact hq) (shortWay_w _) h0 h1
  rw [norm_toQuat, norm2_unitOf _ (fun hc => by rw [hc] at b1; norm_num [norm2] at b1), Real.sqrt_one]

/-- A layer turns by a unit quaternion. -/
theorem addOne_norm {y : Layer F32} {i : Nat} {l : Fin 4} {B : ℝ} (h : Additive32Ok y i l B) (a : LanePose) :
    ‖(addOne i l a (valLayer y)).rotation‖ = ‖a.rotation‖ := by
  by_cases hw : val y.weight = 0
  · have e : addWeight (valLayer y) i l = 0 := by
      have : (valLayer y).weight = 0 := hw
      unfold addWeight
      rw [this, zero_mul]
    rw [addOne_add e.ge, e, partly_zero]
    exact congrArg norm (mul_one _)
  · obtain ⟨ts, t, h1, h2, h3, -⟩ := h.pose hw
    have e : poseOf (valLayer y) i = valTransform t := by
      have e : (valLayer y).transform = .ok (ts.map valTransform) := by
        unfold valLayer
        rw [h1]
        rfl
      unfold poseOf
      rw [e]
      simp only [List.getElem?_map, h2, Option.map_some, Option.getD_some]
    have hr := abs_le.mp h.range
    rcases le_total 0 (addWeight (valLayer y) i l) with hs | hs
    · rw [addOne_add hs, e]
      show ‖a.rotation * _‖ = _
      rw [norm_mul, partly_unit hs hr.2 h3.rotation, mul_one]
    · rw [addOne_sub hs, e]
      show ‖a.rotation * star _‖ = _
      rw [norm_mul, norm_star, partly_unit (by linarith) (by linarith) h3.rotation, mul_one]

theorem layers_norm {adds : List (Layer F32)} {i : Nat} {l : Fin 4} {B : ℝ} (h : ∀ y ∈ adds, Additive32Ok y i l B) (a : LanePose) :
    ‖((adds.map valLayer).foldl (addOne i l) a).rotation‖ = ‖a.rotation‖ := by
  induction adds generalizing a with
  | nil => rfl
  | cons y ys ih =>
    rw [List.map_cons, List.foldl_cons, ih (fun z hz => h z (List.mem_cons_of_mem _ hz)), addOne_norm (h y List.mem_cons_self)]

theorem parts_lane (o : SoaTransform F32) (l : Fin 4) : Blending.lanePose (valTransform o) l = (Frame.lanePose o l).parts := by
  unfold Blending.lanePose JointPose.parts
  rw [lane_t, lane_s, lane_r]
  rfl

theorem additive_mono {y : Layer F32} {i : Nat} {l : Fin 4} {B B' : ℝ} (h : Additive32Ok y i l B) (hB : B ≤ B') : Additive32Ok y i l B' := by
  refine ⟨h.weight, h.jointWeight, h.range, fun hw => ?_⟩
  obtain ⟨ts, t, h1, h2, h3, h4⟩ := h.pose hw
  exact ⟨ts, t, h1, h2, ⟨h3.translationFinite, h3.rotationFinite, h3.scaleFinite, fun c => (h3.translation c).trans hB, h3.rotation, h3.scale⟩, h4⟩

theorem joint_pose32 {b : SoaTransform F32} {l : Fin 4} {S B S' B' : ℝ} (hS : 0 ≤ S) (hj : Joint32Ok b l S B (1 / 2 ^ 19)) (hS' : S ≤ S')
    (hB : B ≤ B') : Pose32Ok b l S' B' := by
  have hB0 : 0 ≤ B := len_nonneg.trans hj.translation
  have c1 := abs_le_len1 (a := val (b.translation.x l)) (b := val (b.translation.y l)) (c := val (b.translation.z l))
  have c2 := abs_le_len2 (a := val (b.translation.x l)) (b := val (b.translation.y l)) (c := val (b.translation.z l))
  have c3 := abs_le_len3 (a := val (b.translation.x l)) (b := val (b.translation.y l)) (c := val (b.translation.z l))
  have ht := hj.translation.trans hB
  refine ⟨fun c => ?_, fun c => ?_, fun c => ?_, fun c => ?_, ?_, fun c => ?_⟩
  · fin_cases c
    · exact hj.translationFinite.1
    · exact hj.translationFinite.2.1
    · exact hj.translationFinite.2.2
    · exact zero_finite
  · fin_cases c
    · exact hj.rotationFinite.1
    · exact hj.rotationFinite.2.1
    · exact hj.rotationFinite.2.2.1
    · exact hj.rotationFinite.2.2.2
  · fin_cases c
    · exact hj.scaleFinite.1
    · exact hj.scaleFinite.2.1
    · exact hj.scaleFinite.2.2
    · exact zero_finite
  · fin_cases c
    · exact c1.trans ht
    · exact c2.trans ht
    · exact c3.trans ht
    · change |val F32.zero| ≤ _; rw [valZero, abs_zero]; linarith
  · exact hj.rotation.trans (by norm_num)
  · fin_cases c
    · exact hj.scale.1.trans hS'
    · exact hj.scale.2.1.trans hS'
    · exact hj.scale.2.2.trans hS'
    · change |val F32.zero| ≤ _; rw [valZero, abs_zero]; linarith

theorem quat_near {p q : JointPose} {e : ℝ} (h : ∀ x, |p.r4 x - q.r4 x| ≤ e) : ‖p.rotation - q.rotation‖ ≤ 2 * e := by
  have e0 : 0 ≤ e := (abs_nonneg _).trans (h 0)
  apply abs_le_of_sq_le_sq' _ (by positivity) |>.2
  rw [quat_norm_sq]
  simp only [Quaternion.re_sub, Quaternion.imI_sub, Quaternion.imJ_sub, Quaternion.imK_sub]
  have g : ∀ z : ℝ, |z| ≤ e → z ^ 2 ≤ e ^ 2 := fun z hz => sq_le_sq.mpr (hz.trans (le_abs_self _))
  have h0 : |p.rotation.imI - q.rotation.imI| ≤ e := h 0
  have h1 : |p.rotation.imJ - q.rotation.imJ| ≤ e := h 1
  have h2 : |p.rotation.imK - q.rotation.imK| ≤ e := h 2
  have h3 : |p.rotation.re - q.rotation.re| ≤ e := h 3
  linarith [g _ h0, g _ h1, g _ h2, g _ h3]

theorem added_close {b o : SoaTransform F32} {P : JointPose} {adds : List (Layer F32)} {i : Nat} {M N s S g G κ ε : ℝ}
    (hk : adds.length ≤ 48) (hM : 1 / 2 ^ 50 ≤ M) (hMN : M + N ≤ 2 ^ 59) (hs : 1 ≤ s) (hsS : s ≤ S) (hSg : S * g ≤ 2 ^ 59)
    (hG : S * g * (1 + adds.length / 2 ^ 17) ≤ G) (hκ0 : 0 ≤ κ) (hκ : κ ≤ 1 / 1000)
    (hb : Joint32Ok b (laneOf i) S (2 * M) (1 / 2 ^ 19)) (hnear : PartsNear (Frame.lanePose b (laneOf i)) P M s κ ε)
    (hu : Quaternion.normSq P.rotation = 1) (hlow : ∀ c, c ≠ 3 → 2 * (κ * s) ≤ |P.s4 c| ∧ 1 / 2 ^ 30 ≤ |P.s4 c|)
    (hl : LayersOk adds i (M + N) N g)
    (hrun : ∀ B, 1 / 2 ^ 60 ≤ B → B ≤ 2 ^ 60 → Pose32Ok b (laneOf i) (2 ^ 60) B → (∀ y ∈ adds, Additive32Ok y (i / 4) (laneOf i) B) →
      (∀ m ≤ adds.length, PoseWithin B (((adds.take m).map valLayer).foldl (addOne (i / 4) (laneOf i))
        (Blending.lanePose (valTransform b) (laneOf i)))) →
      NearPose (laneOf i) B adds.length ((adds.map valLayer).foldl (addOne (i / 4) (laneOf i)) (Blending.lanePose (valTransform b) (laneOf i))) o ∧
      |‖(Blending.lanePose (valTransform o) (laneOf i)).rotation‖ - ‖(Blending.lanePose (valTransform b) (laneOf i)).rotation‖| ≤
        100 * adds.length / 2 ^ 24) :
    Joint32Ok o (laneOf i) G (2 * (M + N)) ((201 * adds.length + 65) / 2 ^ 24) ∧
    PoseClose (Frame.lanePose o (laneOf i)) (P.withLayers adds i) G (2 * (M + N))
      (2 * ((2 * ε + 100 * adds.length / 2 ^ 24) + (100 * adds.length / 2 ^ 24 + 1 / 2 ^ 19)) + (κ + 70 * adds.length / 2 ^ 24)) ∧
    Quaternion.normSq (P.withLayers adds i).rotation = 1 ∧ (P.withLayers adds i).translation.re = 0 := by
  set l := laneOf i with hll
  have M0 : 0 < M := lt_of_lt_of_le (by positivity) hM
  have N0 : 0 ≤ N := (abs_nonneg _).trans (hl.translation 0 (Nat.zero_le _) 0)
  have g1 : 1 ≤ g := by
    have := (hl.scale 0 (Nat.zero_le _) 0 (by decide)).2
    simpa [still] using this
  have k0 : (0:ℝ) ≤ adds.length := Nat.cast_nonneg _
  have k1 : (adds.length : ℝ) ≤ 48 := by exact_mod_cast hk
  have S1 : 1 ≤ S := hs.trans hsS
  have Sg1 : 1 ≤ S * g := by nlinarith
  have SgG : S * g ≤ G := by
    refine le_trans ?_ hG
    have : 0 ≤ S * g * (adds.length / 2 ^ 17) := by positivity
    linarith
  have sSg : s * g ≤ S * g := mul_le_mul_of_nonneg_right hsS (by linarith)
  have S0 : S ≤ 2 ^ 59 := by
    refine le_trans ?_ hSg
    nlinarith
  have hlp := parts_lane b l
  -- the scale of the blend
  have bs : ∀ c, |(Frame.lanePose b l).s4 c| ≤ S := by
    intro c
    rw [← val_s]
    exact (joint_pose32 (by linarith) hb le_rfl le_rfl).scale c
  have bt : ∀ c, |(Frame.lanePose b l).t4 c| ≤ 11 / 10 * M := by
    intro c
    have h1 := hnear.translation c
    have h2 := hnear.translationLe c
    have h3 := abs_sub_abs_le_abs_sub ((Frame.lanePose b l).t4 c) (P.t4 c)
    have h4 : κ * M ≤ 1 / 1000 * M := mul_le_mul_of_nonneg_right hκ M0.le
    linarith
  have blow : ∀ c, c ≠ 3 → 1 / 2 ^ 31 ≤ |(Frame.lanePose b l).s4 c| := by
    intro c hc
    have h1 := hnear.scale c
    obtain ⟨h2, h3⟩ := hlow c hc
    have h4 := abs_sub_abs_le_abs_sub (P.s4 c) ((Frame.lanePose b l).s4 c)
    rw [abs_sub_comm] at h4
    norm_num at h3 ⊢
    linarith
  obtain ⟨hN, hnorm⟩ := hrun (2 * (M + N)) (by norm_num at hM ⊢; linarith) (by norm_num at hMN ⊢; linarith)
    (joint_pose32 (by linarith) hb (S0.trans (by norm_num)) (by linarith))
    (fun y hy => additive_mono (hl.each y hy) (by linarith))
    (fun m hm => by
      rw [hlp, layers_onTop]
      refine ⟨fun c => ?_, fun c hc => ?_, fun c hc => ?_⟩
      · refine (abs_add_le _ _).trans ?_
        have h1 : |(Frame.lanePose b l).parts.translation c| ≤ 11 / 10 * M := bt c
        have h2 := hl.translation m hm c
        linarith
      · show _ ≤ |(Frame.lanePose b l).s4 c * _|
        rw [abs_mul]
        calc (1:ℝ) / 2 ^ 60 ≤ 1 / 2 ^ 31 * (1 / 2 ^ 20) := by norm_num
          _ ≤ _ := mul_le_mul (blow c hc) (hl.scale m hm c hc).1 (by positivity) (abs_nonneg _)
      · show |(Frame.lanePose b l).s4 c * _| ≤ _
        rw [abs_mul]
        refine (mul_le_mul (bs c) (hl.scale m hm c hc).2 (abs_nonneg _) (by linarith)).trans (hSg.trans (by norm_num)))
  -- what the layers do on their own
  have hA : (P.withLayers adds i) = fromParts (onTop P.parts ((adds.map valLayer).foldl (addOne (i / 4) l) still)) := by
    unfold JointPose.withLayers
    rw [layers_onTop]
  have hbase : (adds.map valLayer).foldl (addOne (i / 4) l) (Blending.lanePose (valTransform b) l) =
      onTop (Frame.lanePose b l).parts ((adds.map valLayer).foldl (addOne (i / 4) l) still) := by
    rw [hlp, layers_onTop]
  rw [hbase] at hN
  have hAt := hl.translation adds.length le_rfl
  have hAs := hl.scale adds.length le_rfl
  rw [List.take_length] at hAt hAs
  have hAn : ‖((adds.map valLayer).foldl (addOne (i / 4) l) still).rotation‖ = 1 := by
    rw [layers_norm hl.each]
    exact norm_one
  generalize (adds.map valLayer).foldl (addOne (i / 4) l) still = A at *
  set k : ℝ := (adds.length : ℝ) with hkdef
  have Au : Quaternion.normSq (P.withLayers adds i).rotation = 1 := by
    rw [hA]
    show Quaternion.normSq (P.rotation * A.rotation) = 1
    rw [map_mul, hu, one_mul, Quaternion.normSq_eq_norm_mul_self, hAn, mul_one]
  have A0 : (P.withLayers adds i).translation.re = 0 := by rw [hA]; rfl
  -- distances
  have dt : ∀ c, |(Frame.lanePose o l).t4 c - (P.t4 c + A.translation c)| ≤ (κ + 70 * k / 2 ^ 24) * (M + N) := by
    intro c
    have h1 := hN.translation c
    rw [val_t] at h1
    have h1 : |(Frame.lanePose o l).t4 c - ((Frame.lanePose b l).t4 c + A.translation c)| ≤ 7 * k * (2 * (M + N)) / 2 ^ 24 := h1
    have h2 := hnear.translation c
    have h3 := abs_add_le ((Frame.lanePose o l).t4 c - ((Frame.lanePose b l).t4 c + A.translation c)) ((Frame.lanePose b l).t4 c - P.t4 c)
    rw [show (Frame.lanePose o l).t4 c - ((Frame.lanePose b l).t4 c + A.translation c) + ((Frame.lanePose b l).t4 c - P.t4 c) =
      (Frame.lanePose o l).t4 c - (P.t4 c + A.translation c) by ring] at h3
    have h4 : 0 ≤ k * (M + N) := by positivity
    have h5 : 0 ≤ κ * N := by positivity
    linarith
  have dt' : ∀ c, |P.t4 c + A.translation c| ≤ M + N := fun c => (abs_add_le _ _).trans (add_le_add (hnear.translationLe c) (hAt c))
  have ot : ∀ c, |(Frame.lanePose o l).t4 c| ≤ 11 / 10 * (M + N) := by
    intro c
    have h1 := dt c
    have h2 := dt' c
    have h3 := abs_sub_abs_le_abs_sub ((Frame.lanePose o l).t4 c) (P.t4 c + A.translation c)
    have h4 : (κ + 70 * k / 2 ^ 24) * (M + N) ≤ 1 / 100 * (M + N) := by
      refine mul_le_mul_of_nonneg_right ?_ (by linarith)
      linarith
    linarith
  have bA : ∀ c, c ≠ 3 → |(Frame.lanePose b l).s4 c * A.scale c| ≤ S * g := fun c hc => by
    rw [abs_mul]
    exact mul_le_mul (bs c) (hAs c hc).2 (abs_nonneg _) (by linarith)
  have os1 : ∀ c, c ≠ 3 → |(Frame.lanePose o l).s4 c - (Frame.lanePose b l).s4 c * A.scale c| ≤ 70 * k / 2 ^ 24 * (S * g) := by
    intro c hc
    have h1 := hN.scale c
    rw [val_s] at h1
    have h1 : |(Frame.lanePose o l).s4 c - (Frame.lanePose b l).s4 c * A.scale c| ≤
      70 * k * |(Frame.lanePose b l).s4 c * A.scale c| / 2 ^ 24 := h1
    refine h1.trans ?_
    rw [show 70 * k * |(Frame.lanePose b l).s4 c * A.scale c| / 2 ^ 24 = 70 * k / 2 ^ 24 * |(Frame.lanePose b l).s4 c * A.scale c| by ring]
    exact mul_le_mul_of_nonneg_left (bA c hc) (by positivity)
  have os2 : ∀ c, c ≠ 3 → |(Frame.lanePose o l).s4 c| ≤ G := by
    intro c hc
    have h1 := os1 c hc
    have h2 := bA c hc
    have h3 := abs_sub_abs_le_abs_sub ((Frame.lanePose o l).s4 c) ((Frame.lanePose b l).s4 c * A.scale c)
    have h4 : 0 ≤ k * (S * g) := by positivity
    have h5 : S * g * (1 + k / 2 ^ 17) = S * g + 128 * (k * (S * g)) / 2 ^ 24 := by ring
    rw [h5] at hG
    linarith
  have ds : ∀ c, c ≠ 3 → |(Frame.lanePose o l).s4 c - P.s4 c * A.scale c| ≤ (κ + 70 * k / 2 ^ 24) * G := by
    intro c hc
    have h1 := os1 c hc
    have h2 : |(Frame.lanePose b l).s4 c * A.scale c - P.s4 c * A.scale c| ≤ κ * (S * g) := by
      rw [← sub_mul, abs_mul]
      refine (mul_le_mul (hnear.scale c) (hAs c hc).2 (abs_nonneg _) (by positivity)).trans ?_
      rw [mul_assoc]
      exact mul_le_mul_of_nonneg_left sSg hκ0
    have h3 := abs_sub_le ((Frame.lanePose o l).s4 c) ((Frame.lanePose b l).s4 c * A.scale c) (P.s4 c * A.scale c)
    refine h3.trans ((add_le_add h1 h2).trans ?_)
    rw [← add_mul, add_comm (70 * k / 2 ^ 24)]
    exact mul_le_mul_of_nonneg_left SgG (by positivity)
  have ps : ∀ c, c ≠ 3 → |P.s4 c * A.scale c| ≤ G := fun c hc => by
    rw [abs_mul]
    exact (mul_le_mul (hnear.scaleLe c) (hAs c hc).2 (abs_nonneg _) (by linarith)).trans (sSg.trans SgG)
  have hor : (Blending.lanePose (valTransform o) l).rotation = (Frame.lanePose o l).rotation := by rw [parts_lane]; rfl
  have hbr : (Blending.lanePose (valTransform b) l).rotation = (Frame.lanePose b l).rotation := by rw [hlp]; rfl
  have dr : ‖(Frame.lanePose o l).rotation - P.rotation * A.rotation‖ ≤ 2 * ε + 100 * k / 2 ^ 24 := by
    have h1 := hN.rotation
    rw [hor] at h1
    have h1 : ‖(Frame.lanePose o l).rotation - (Frame.lanePose b l).rotation * A.rotation‖ ≤ 100 * k / 2 ^ 24 := h1
    have h2 : ‖(Frame.lanePose b l).rotation * A.rotation - P.rotation * A.rotation‖ ≤ 2 * ε := by
      rw [← sub_mul, norm_mul, hAn, mul_one]
      exact quat_near hnear.rotation
    have h3 := norm_sub_le_norm_sub_add_norm_sub ((Frame.lanePose o l).rotation) ((Frame.lanePose b l).rotation * A.rotation) (P.rotation * A.rotation)
    linarith
  have hbn : |‖(Frame.lanePose b l).rotation‖ - 1| ≤ 1 / 2 ^ 19 := by
    have h1 : |Quaternion.normSq (Frame.lanePose b l).rotation - 1| ≤ 1 / 2 ^ 19 := by
      rw [← r4_norm2]
      exact hb.rotation
    rw [Quaternion.normSq_eq_norm_mul_self] at h1
    have hp := norm_nonneg (Frame.lanePose b l).rotation
    rw [abs_le] at h1 ⊢
    constructor <;> nlinarith [h1.1, h1.2]
  have hon : |‖(Frame.lanePose o l).rotation‖ - 1| ≤ 100 * k / 2 ^ 24 + 1 / 2 ^ 19 := by
    rw [hor, hbr] at hnorm
    have h1 := abs_sub_le ‖(Frame.lanePose o l).rotation‖ ‖(Frame.lanePose b l).rotation‖ 1
    linarith
  have hon2 : |norm2 (Frame.lanePose o l).r4 - 1| ≤ (201 * k + 65) / 2 ^ 24 := by
    rw [r4_norm2, Quaternion.normSq_eq_norm_mul_self]
    have e1 : ‖(Frame.lanePose o l).rotation‖ * ‖(Frame.lanePose o l).rotation‖ - 1 =
      (‖(Frame.lanePose o l).rotation‖ - 1) * (2 + (‖(Frame.lanePose o l).rotation‖ - 1)) := by ring
    rw [e1, abs_mul]
    have h1 := abs_add_le 2 (‖(Frame.lanePose o l).rotation‖ - 1)
    rw [abs_two] at h1
    have h2 : 100 * k / 2 ^ 24 + 1 / 2 ^ 19 ≤ 1 / 1000 := by norm_num; linarith
    have h3 : |2 + (‖(Frame.lanePose o l).rotation‖ - 1)| ≤ 2001 / 1000 := by linarith
    refine (mul_le_mul hon h3 (abs_nonneg _) (by positivity)).trans ?_
    norm_num
    linarith
  refine ⟨⟨⟨hN.translationFinite 0, hN.translationFinite 1, hN.translationFinite 2⟩,
    ⟨hN.rotationFinite 0, hN.rotationFinite 1, hN.rotationFinite 2, hN.rotationFinite 3⟩,
    ⟨hN.scaleFinite 0, hN.scaleFinite 1, hN.scaleFinite 2⟩, ?_, hon2, os2 0 (by decide), os2 1 (by decide), os2 2 (by decide)⟩, ?_, Au, A0⟩
  · refine (len_le_three (ot 0) (ot 1) (ot 2)).trans ?_
    linarith
  · rw [hA] at Au ⊢
    exact poseNear_norm (M := M + N) (Sg1.trans SgG) (by positivity) le_rfl hon (by norm_num; linarith) Au dr
      (ds 0 (by decide)) (ds 1 (by decide)) (ds 2 (by decide)) (os2 0 (by decide)) (os2 1 (by decide)) (os2 2 (by decide))
      (ps 0 (by decide)) (ps 1 (by decide)) (ps 2 (by decide)) rfl rfl (dt 0) (dt 1) (dt 2) (dt' 0) (dt' 1) (dt' 2)

theorem average_ge {a : ℝ} {cs : List (ℝ × F4 ℝ)} {x : Fin 4} (h : ∀ c ∈ cs, 0 ≤ c.1 ∧ a ≤ c.2 x) (hpos : 0 < (cs.map fun c => c.1).sum) :
    a ≤ average cs x := by
  have key : ∀ cs : List (ℝ × F4 ℝ), (∀ c ∈ cs, 0 ≤ c.1 ∧ a ≤ c.2 x) → (cs.map fun c => c.1).sum * a ≤ (cs.map fun c => c.1 • c.2).sum x := by
    intro cs
    induction cs with
    | nil => intro _; simp
    | cons c cs ih =>
      intro h
      rw [List.forall_mem_cons] at h
      simp only [List.map_cons, List.sum_cons, Pi.add_apply, Pi.smul_apply, smul_eq_mul, add_mul]
      exact add_le_add (mul_le_mul_of_nonneg_left h.1.2 h.1.1) (ih h.2)
  unfold average
  simp only [Pi.smul_apply, smul_eq_mul]
  rw [inv_mul_eq_div, le_div_iff₀ hpos, mul_comm]
  exact key cs h

theorem exact_scale_ge {an : Sampling.Animation F32 Float3Key QuatKey} {i : Nat} {r : F32} {P : JointPose} {a : ℝ}
    (ht : ∀ r ∈ an.timepoints, Unit01 r) (hx : ExactPose an i r P) (hkeys : ∀ k ∈ an.scales.keys, ∀ x, a ≤ ((value16 (k x) : ℚ) : ℝ))
    {c : Fin 4} (hc : c ≠ 3) : a ≤ P.s4 c := by
  obtain ⟨l, k, f, ha, hP⟩ := hx.scale
  obtain ⟨f0, f1⟩ := around_fraction ht ha
  obtain ⟨time, pred, track, hch, hcon, -⟩ := ha
  have hv : ∀ m, m < an.scales.previouses.length → ∀ x, a ≤ halfValue an.scales x m := by
    intro m hm x
    have hm' : m < an.scales.keys.length := by rw [hch.keysLen]; exact hm
    unfold halfValue
    rw [List.getElem?_eq_getElem hm']
    exact hkeys _ (List.getElem_mem hm') x
  have hmix : ∀ x, a ≤ mix (halfValue an.scales x l) (halfValue an.scales x k) f := by
    intro x
    have h1 := hv l (lt_trans hcon.lt hcon.rightLt) x
    have h2 := hv k hcon.rightLt x
    unfold mix
    nlinarith
  have e : P.scale = (mix (halfValue an.scales 0 l) (halfValue an.scales 0 k) f, mix (halfValue an.scales 1 l) (halfValue an.scales 1 k) f,
    mix (halfValue an.scales 2 l) (halfValue an.scales 2 k) f) := hP
  fin_cases c
  · show a ≤ P.scale.1; rw [e]; exact hmix 0
  · show a ≤ P.scale.2.1; rw [e]; exact hmix 1
  · show a ≤ P.scale.2.2; rw [e]; exact hmix 2
  · exact absurd rfl hc

end Ozz.BlendedFrame
