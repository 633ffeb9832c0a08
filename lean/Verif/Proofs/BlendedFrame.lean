import Verif.Proofs.FrameLane
import Verif.Proofs.Entries
import Verif.Proofs.FloatTrackLerp
import Verif.Props.FloatBlend
import Verif.Props.FloatModel
import Verif.Spec.BlendedFrame

/-! Blends of nearby poses are near each other. -/

namespace Ozz.BlendedFrame

open Spec Blending F32 Frame Ieee Sampling Keys

/-- The same weight, and values at most `ε` apart. -/
def Near (ε : ℝ) (c c' : ℝ × F4 ℝ) : Prop := c.1 = c'.1 ∧ 0 ≤ c.1 ∧ ∀ x, |c.2 x - c'.2 x| ≤ ε

theorem near_weights {ε : ℝ} {cs cs' : List (ℝ × F4 ℝ)} (h : List.Forall₂ (Near ε) cs cs') :
    (cs.map fun c => c.1) = cs'.map fun c => c.1 := by
  induction h with
  | nil => rfl
  | cons h _ ih => rw [List.map_cons, List.map_cons, ih, h.1]

theorem near_sum {ε : ℝ} {cs cs' : List (ℝ × F4 ℝ)} (h : List.Forall₂ (Near ε) cs cs') (x : Fin 4) :
    |(cs.map fun c => c.1 • c.2).sum x - (cs'.map fun c => c.1 • c.2).sum x| ≤ (cs.map fun c => c.1).sum * ε := by
  induction h with
  | nil => simp
  | @cons c c' cs cs' h _ ih =>
    obtain ⟨h1, h2, h3⟩ := h
    simp only [List.map_cons, List.sum_cons, Pi.add_apply, Pi.smul_apply, smul_eq_mul]
    rw [← h1, show c.1 * c.2 x + (cs.map fun c => c.1 • c.2).sum x - (c.1 * c'.2 x + (cs'.map fun c => c.1 • c.2).sum x) =
      c.1 * (c.2 x - c'.2 x) + ((cs.map fun c => c.1 • c.2).sum x - (cs'.map fun c => c.1 • c.2).sum x) by ring, add_mul]
    refine (abs_add_le _ _).trans (add_le_add ?_ ih)
    rw [abs_mul, abs_of_nonneg h2]
    exact mul_le_mul_of_nonneg_left (h3 x) h2

theorem near_average {ε : ℝ} {cs cs' : List (ℝ × F4 ℝ)} (h : List.Forall₂ (Near ε) cs cs') (hpos : 0 < (cs.map fun c => c.1).sum) (x : Fin 4) :
    |average cs x - average cs' x| ≤ ε := by
  have h1 := near_sum h x
  unfold average
  rw [← near_weights h]
  simp only [Pi.smul_apply, smul_eq_mul]
  rw [← mul_sub, abs_mul, abs_of_pos (inv_pos.mpr hpos), inv_mul_le_iff₀ hpos]
  exact h1

theorem sum_bound {B : ℝ} {cs : List (ℝ × F4 ℝ)} {x : Fin 4} (h : ∀ c ∈ cs, 0 ≤ c.1 ∧ |c.2 x| ≤ B) :
    |(cs.map fun c => c.1 • c.2).sum x| ≤ (cs.map fun c => c.1).sum * B := by
  induction cs with
  | nil => simp
  | cons c cs ih =>
    rw [List.forall_mem_cons] at h
    simp only [List.map_cons, List.sum_cons, Pi.add_apply, Pi.smul_apply, smul_eq_mul, add_mul]
    refine (abs_add_le _ _).trans (add_le_add ?_ (ih h.2))
    rw [abs_mul, abs_of_nonneg h.1.1]
    exact mul_le_mul_of_nonneg_left h.1.2 h.1.1

theorem average_bound {B : ℝ} {cs : List (ℝ × F4 ℝ)} {x : Fin 4} (h : ∀ c ∈ cs, 0 ≤ c.1 ∧ |c.2 x| ≤ B) (hpos : 0 < (cs.map fun c => c.1).sum) :
    |average cs x| ≤ B := by
  unfold average
  simp only [Pi.smul_apply, smul_eq_mul]
  rw [abs_mul, abs_of_pos (inv_pos.mpr hpos), inv_mul_le_iff₀ hpos]
  exact sum_bound h

/-- Sum of the absolute values of the coordinates. -/
def abs4 (q : F4 ℝ) : ℝ := |q 0| + |q 1| + |q 2| + |q 3|

theorem dot_near {a a' q q' : F4 ℝ} {D ε A Q : ℝ} (ha : ∀ x, |a x - a' x| ≤ D) (hq : ∀ x, |q x - q' x| ≤ ε) (hA : abs4 a' ≤ A) (hQ : abs4 q ≤ Q)
    : |dot4 a q - dot4 a' q'| ≤ D * Q + A * ε := by
  have D0 : 0 ≤ D := (abs_nonneg _).trans (ha 0)
  have ε0 : 0 ≤ ε := (abs_nonneg _).trans (hq 0)
  have g : ∀ x, |a x * q x - a' x * q' x| ≤ D * |q x| + |a' x| * ε := by
    intro x
    rw [show a x * q x - a' x * q' x = (a x - a' x) * q x + a' x * (q x - q' x) by ring]
    refine (abs_add_le _ _).trans (add_le_add ?_ ?_)
    · rw [abs_mul]; exact mul_le_mul_of_nonneg_right (ha x) (abs_nonneg _)
    · rw [abs_mul]; exact mul_le_mul_of_nonneg_left (hq x) (abs_nonneg _)
  have e : dot4 a q - dot4 a' q' = (a 0 * q 0 - a' 0 * q' 0) + (a 1 * q 1 - a' 1 * q' 1) + (a 2 * q 2 - a' 2 * q' 2) +
      (a 3 * q 3 - a' 3 * q' 3) := by unfold dot4; ring
  have t := abs_add_le ((a 0 * q 0 - a' 0 * q' 0) + (a 1 * q 1 - a' 1 * q' 1) + (a 2 * q 2 - a' 2 * q' 2)) (a 3 * q 3 - a' 3 * q' 3)
  have t2 := abs_add_three (a 0 * q 0 - a' 0 * q' 0) (a 1 * q 1 - a' 1 * q' 1) (a 2 * q 2 - a' 2 * q' 2)
  rw [e]
  have k1 := mul_le_mul_of_nonneg_left hQ D0
  have k2 := mul_le_mul_of_nonneg_right hA ε0
  unfold abs4 at k1 k2
  linarith [g 0, g 1, g 2, g 3]

theorem abs4_add (a q : F4 ℝ) {w : ℝ} (hw : 0 ≤ w) : abs4 (a + w • q) ≤ abs4 a + w * abs4 q ∧ abs4 (a - w • q) ≤ abs4 a + w * abs4 q := by
  have g : ∀ x, |(a + w • q) x| ≤ |a x| + w * |q x| ∧ |(a - w • q) x| ≤ |a x| + w * |q x| := by
    intro x
    simp only [Pi.add_apply, Pi.sub_apply, Pi.smul_apply, smul_eq_mul]
    have e : |w * q x| = w * |q x| := by rw [abs_mul, abs_of_nonneg hw]
    exact ⟨(abs_add_le _ _).trans (by rw [e]), (abs_sub _ _).trans (by rw [e])⟩
  unfold abs4
  constructor
  · linarith [(g 0).1, (g 1).1, (g 2).1, (g 3).1]
  · linarith [(g 0).2, (g 1).2, (g 2).2, (g 3).2]

/-- The signs chosen for rotations can be chosen for nearby ones as well. -/
theorem aligned_near {ε δ δ' M : ℝ} {cs cs' : List (ℝ × F4 ℝ)} (h : List.Forall₂ (Near ε) cs cs') (hε : 0 ≤ ε)
    (hq : ∀ c ∈ cs, abs4 c.2 ≤ 5 / 2) (hq' : ∀ c ∈ cs', abs4 c.2 ≤ 5 / 2) (hδ : δ + 5 * M * ε ≤ δ') :
    ∀ {a a' R : F4 ℝ} {W : ℝ}, AlignedUpTo δ a cs R → 0 ≤ W → W + (cs.map fun c => c.1).sum ≤ M → (∀ x, |a x - a' x| ≤ W * ε) →
      abs4 a' ≤ 5 / 2 * W →
      ∃ R', AlignedUpTo δ' a' cs' R' ∧ ∀ x, |R x - R' x| ≤ (W + (cs.map fun c => c.1).sum) * ε := by
  induction h with
  | nil =>
    intro a a' R W hR hW hM ha hA
    cases hR
    exact ⟨a', .nil _, by simpa using ha⟩
  | @cons c c' cs cs' h hcs ih =>
    intro a a' R W hR hW hM ha hA
    obtain ⟨w, q⟩ := c
    obtain ⟨w', q'⟩ := c'
    obtain ⟨h1, h2, h3⟩ := h
    simp only at h1 h2 h3
    subst h1
    rw [List.forall_mem_cons] at hq hq'
    have hs0 : 0 ≤ (cs.map fun c => c.1).sum := by
      clear ih hR hM hq hq'
      induction hcs with
      | nil => simp
      | cons h _ ih => rw [List.map_cons, List.sum_cons]; exact add_nonneg h.2.1 ih
    simp only [List.map_cons, List.sum_cons] at hM ⊢
    have hd := dot_near ha h3 hA hq.1
    have hd2 : |dot4 a q - dot4 a' q'| ≤ δ' - δ := by
      refine hd.trans ?_
      have := mul_le_mul_of_nonneg_right (show W ≤ M by linarith) hε
      linarith
    rw [abs_le] at hd2
    have step := abs4_add a' q' h2
    have hqw := mul_le_mul_of_nonneg_left hq'.1 h2
    simp only at hqw
    have e : W + (w + (cs.map fun c => c.1).sum) = (W + w) + (cs.map fun c => c.1).sum := by ring
    rw [e] at hM ⊢
    have hx : ∀ x, |w * (q x - q' x)| ≤ w * ε := fun x => by
      rw [abs_mul, abs_of_nonneg h2]; exact mul_le_mul_of_nonneg_left (h3 x) h2
    cases hR with
    | keep k hR =>
      obtain ⟨R', i1, i2⟩ := ih hq.2 hq'.2 hR (a' := a' + w • q') (W := W + w) (by linarith) hM (fun x => by
        simp only [Pi.add_apply, Pi.smul_apply, smul_eq_mul]
        rw [show a x + w * q x - (a' x + w * q' x) = (a x - a' x) + w * (q x - q' x) by ring, add_mul]
        exact (abs_add_le _ _).trans (add_le_add (ha x) (hx x))) (by linarith [step.1])
      exact ⟨R', .keep (by linarith [hd2.1, hd2.2]) i1, i2⟩
    | turn k hR =>
      obtain ⟨R', i1, i2⟩ := ih hq.2 hq'.2 hR (a' := a' - w • q') (W := W + w) (by linarith) hM (fun x => by
        simp only [Pi.sub_apply, Pi.smul_apply, smul_eq_mul]
        rw [show a x - w * q x - (a' x - w * q' x) = (a x - a' x) - w * (q x - q' x) by ring, add_mul]
        exact (abs_sub _ _).trans (add_le_add (ha x) (hx x))) (by linarith [step.2])
      exact ⟨R', .turn (by linarith [hd2.1, hd2.2]) i1, i2⟩

/-- Long sums of nearby rotations have nearby directions. -/
theorem direction_near {R R' : F4 ℝ} {M : ℝ} {m : ℕ} (hm0 : 1 ≤ m) (hm : m ≤ 512) (hM : 0 < M) (hlong : M ^ 2 ≤ 2 * m * norm2 R)
    (h : ∀ x, |R x - R' x| ≤ M * (1 / 2 ^ 17)) :
    0 < norm2 R ∧ M / √(norm2 R) ≤ √(2 * m) ∧ 0 < norm2 R' ∧ ∀ x, |unitOf R' x - unitOf R x| ≤ 384 * √(2 * m) / 2 ^ 24 := by
  have m0 : (1:ℝ) ≤ m := by exact_mod_cast hm0
  have m1 : (m:ℝ) ≤ 512 := by exact_mod_cast hm
  have hR : 0 < norm2 R := by
    by_contra hc
    have : 2 * m * norm2 R ≤ 0 := mul_nonpos_of_nonneg_of_nonpos (by linarith) (not_lt.mp hc)
    have : 0 < M ^ 2 := by positivity
    linarith
  have hρ : 0 < √(norm2 R) := Real.sqrt_pos.mpr hR
  have hq : M / √(norm2 R) ≤ √(2 * m) := by
    rw [div_le_iff₀ hρ, ← Real.sqrt_mul (by positivity)]
    exact Real.le_sqrt_of_sq_le hlong
  have h32 : √(2 * (m:ℝ)) ≤ 32 := by
    rw [Real.sqrt_le_iff]
    constructor
    · norm_num
    · linarith
  have hMρ : M ≤ 32 * √(norm2 R) := by
    rw [div_le_iff₀ hρ] at hq
    exact hq.trans (mul_le_mul_of_nonneg_right h32 hρ.le)
  have hdiff : √(norm2 (R - R')) ≤ 2 * (M * (1 / 2 ^ 17)) := by
    rw [Real.sqrt_le_iff]
    refine ⟨by positivity, ?_⟩
    have g : ∀ x, (R x - R' x) ^ 2 ≤ (M * (1 / 2 ^ 17)) ^ 2 := fun x => by
      rw [← sq_abs]; exact pow_le_pow_left₀ (abs_nonneg _) (h x) 2
    have e : norm2 (R - R') = (R 0 - R' 0) ^ 2 + (R 1 - R' 1) ^ 2 + (R 2 - R' 2) ^ 2 + (R 3 - R' 3) ^ 2 := rfl
    rw [e]
    linarith [g 0, g 1, g 2, g 3]
  have hs := (abs_le.mp ((sqrt_norm2_sub R R').trans hdiff)).2
  have hR' : 0 < norm2 R' := by
    rw [← Real.sqrt_pos]
    linarith
  refine ⟨hR, hq, hR', fun x => ?_⟩
  have hn := unit_near (a := R') (b := R) hR hR' (fun c => by rw [abs_sub_comm]; exact h c) x
  have e1 : unitOf R' x = R' x / √(norm2 R') := by
    simp only [unitOf, Pi.smul_apply, smul_eq_mul]; rw [div_eq_inv_mul]
  rw [e1]
  refine hn.trans ?_
  have e2 : 3 * (M * (1 / 2 ^ 17)) / √(norm2 R) = 3 / 2 ^ 17 * (M / √(norm2 R)) := by ring
  rw [e2]
  have := mul_le_mul_of_nonneg_left hq (show (0:ℝ) ≤ 3 / 2 ^ 17 by norm_num)
  linarith

/-! ### One joint -/

theorem lane_t (o : SoaTransform F32) (l : Fin 4) : (valTransform o).translation.lane l = (lanePose o l).t4 := by
  funext c; fin_cases c <;> rfl

theorem lane_r (o : SoaTransform F32) (l : Fin 4) : (valTransform o).rotation.lane l = (lanePose o l).r4 := by
  funext c; fin_cases c <;> rfl

theorem lane_s (o : SoaTransform F32) (l : Fin 4) : (valTransform o).scale.lane l = (lanePose o l).s4 := by
  funext c; fin_cases c <;> rfl

theorem val_t (o : SoaTransform F32) (l c : Fin 4) : val (o.translation.lane l c) = (lanePose o l).t4 c := by
  fin_cases c
  · rfl
  · rfl
  · rfl
  · exact valZero

theorem val_r (o : SoaTransform F32) (l c : Fin 4) : val (o.rotation.lane l c) = (lanePose o l).r4 c := by
  fin_cases c <;> rfl

theorem val_s (o : SoaTransform F32) (l c : Fin 4) : val (o.scale.lane l c) = (lanePose o l).s4 c := by
  fin_cases c
  · rfl
  · rfl
  · rfl
  · exact valZero

theorem jointWeight_nonneg (p : Play) (i : Nat) : 0 ≤ p.jointWeight i := by
  unfold Play.jointWeight
  refine mul_nonneg (le_max_left _ _) ?_
  split
  · exact le_max_left _ _
  · norm_num

theorem wOf_layer {p : Play} {i J : Nat} (hi : i < J) (h : p.jointWeights = [] ∨ (J + 3) / 4 ≤ p.jointWeights.length)
    (ts : List (SoaTransform F32)) : wOf (i / 4) (laneOf i) (p.layer ts) = p.jointWeight i := by
  unfold wOf laneWeight Play.jointWeight
  have e : (valLayer (p.layer ts)).weight = val p.weight := rfl
  have e2 : (valLayer (p.layer ts)).jointWeights = p.jointWeights.map fun w l => val (w l) := rfl
  rw [e, e2]
  by_cases hw : val p.weight ≤ 0
  · rw [if_pos hw, max_eq_left hw, zero_mul]
  rw [if_neg hw, max_eq_right (not_le.mp hw).le]
  congr 1
  rcases h with h | h
  · rw [h]; rfl
  · have hlt : i / 4 < p.jointWeights.length := by omega
    rw [List.getElem?_map, List.getElem?_eq_getElem hlt]
    generalize p.jointWeights[i / 4] = x
    cases hj : p.jointWeights with
    | nil => rw [hj] at hlt; exact absurd hlt (by simp)
    | cons a b => rfl

theorem poseOf_layer {p : Play} {i : Nat} {ts : List (SoaTransform F32)} {o : SoaTransform F32} (h : ts[i]? = some o) :
    poseOf (valLayer (p.layer ts)) i = valTransform o := by
  have e : (valLayer (p.layer ts)).transform = .ok (ts.map valTransform) := rfl
  unfold poseOf
  rw [e]
  simp only [List.getElem?_map, h, Option.map_some, Option.getD_some]

/-- What the job blends, in terms of the plays. -/
theorem contributions_plays {plays : List Play} {i J : Nat} (hi : i < J)
    (hw : ∀ p ∈ plays, p.jointWeights = [] ∨ (J + 3) / 4 ≤ p.jointWeights.length) {sampled : Play → List (SoaTransform F32)}
    {oOf : Play → SoaTransform F32} (ho : ∀ p ∈ plays, (sampled p)[i / 4]? = some (oOf p)) (thr : ℝ) (r : SoaTransform ℝ)
    (f : SoaTransform ℝ → F4 ℝ) :
    contributions thr ((plays.map fun p => p.layer (sampled p)).map valLayer) r (i / 4) (laneOf i) f =
      (plays.map fun p => (p.jointWeight i, f (valTransform (oOf p)))) ++
        [(max 0 (thr - (plays.map fun p => p.jointWeight i).sum), f r)] ∧
    totalWeight ((plays.map fun p => p.layer (sampled p)).map valLayer) (i / 4) (laneOf i) = (plays.map fun p => p.jointWeight i).sum := by
  have e1 : (plays.map fun p => p.layer (sampled p)).map (wOf (i / 4) (laneOf i)) = plays.map fun p => p.jointWeight i := by
    rw [List.map_map]
    exact List.map_congr_left fun p hp => wOf_layer hi (hw p hp) _
  have e2 : ((plays.map fun p => p.layer (sampled p)).map fun y => (wOf (i / 4) (laneOf i) y, f (poseOf (valLayer y) (i / 4)))) =
      plays.map fun p => (p.jointWeight i, f (valTransform (oOf p))) := by
    rw [List.map_map]
    refine List.map_congr_left fun p hp => ?_
    simp only [Function.comp_apply]
    rw [wOf_layer hi (hw p hp), poseOf_layer (ho p hp)]
  constructor
  · rw [contributions_val, e1, e2]
  · rw [totalWeight_val, e1]

theorem parts_map (thr : ℝ) (plays : List Play) (exact : Play → Nat → JointPose) (rest : JointPose) (i : Nat) (f : JointPose → F4 ℝ) :
    (blendParts thr plays exact rest i).map (fun c => (c.1, f c.2)) =
      (plays.map fun p => (p.jointWeight i, f (exact p i))) ++ [(max 0 (thr - (plays.map fun p => p.jointWeight i).sum), f rest)] := by
  unfold blendParts
  rw [List.map_append, List.map_map]
  rfl

theorem parts_total {thr : ℝ} {plays : List Play} {i : Nat} {g : Play → F4 ℝ} {r : F4 ℝ} :
    (((plays.map fun p => (p.jointWeight i, g p)) ++ [(max 0 (thr - (plays.map fun p => p.jointWeight i).sum), r)]).map fun c => c.1).sum =
      max thr (plays.map fun p => p.jointWeight i).sum := by
  rw [List.map_append, List.sum_append, List.map_map]
  have : (plays.map ((fun c => c.1) ∘ fun p => (p.jointWeight i, g p))).sum = (plays.map fun p => p.jointWeight i).sum := rfl
  rw [this]
  simp only [List.map_cons, List.map_nil, List.sum_cons, List.sum_nil, add_zero]
  generalize (plays.map fun p => p.jointWeight i).sum = t
  rcases le_total thr t with h | h
  · rw [max_eq_right h, max_eq_left (by linarith)]; ring
  · rw [max_eq_left h, max_eq_right (by linarith)]; ring

theorem parts_near {plays : List Play} {i : Nat} {g g' : Play → F4 ℝ} {r : F4 ℝ} {ε v : ℝ} (hε : 0 ≤ ε) (hv : 0 ≤ v)
    (h : ∀ p ∈ plays, ∀ x, |g p x - g' p x| ≤ ε) :
    List.Forall₂ (Near ε) ((plays.map fun p => (p.jointWeight i, g p)) ++ [(v, r)])
      ((plays.map fun p => (p.jointWeight i, g' p)) ++ [(v, r)]) := by
  refine List.rel_append ?_ (.cons ⟨rfl, hv, fun x => by simpa using hε⟩ .nil)
  rw [List.forall₂_map_left_iff, List.forall₂_map_right_iff, List.forall₂_same]
  exact fun p hp => ⟨rfl, jointWeight_nonneg p i, h p hp⟩

theorem parts_forall {plays : List Play} {i : Nat} {g : Play → F4 ℝ} {r : F4 ℝ} {v : ℝ} {P : ℝ × F4 ℝ → Prop}
    (h : ∀ p ∈ plays, P (p.jointWeight i, g p)) (hr : P (v, r)) : ∀ c ∈ (plays.map fun p => (p.jointWeight i, g p)) ++ [(v, r)], P c := by
  intro c hc
  rw [List.mem_append, List.mem_singleton] at hc
  rcases hc with hc | rfl
  · obtain ⟨p, hp, rfl⟩ := List.mem_map.mp hc
    exact h p hp
  · exact hr

theorem lane_pose32 {o : SoaTransform F32} {l : Fin 4} {P : JointPose} {M s : ℝ} (hM : 0 ≤ M) (hs : 0 ≤ s) (h : LaneNear (lanePose o l) P M s)
    (hj : Joint32Ok o l s (2 * M) (1 / 2 ^ 19)) : Pose32Ok o l s (101 / 100 * M) := by
  refine ⟨fun c => ?_, fun c => ?_, fun c => ?_, fun c => ?_, ?_, fun c => ?_⟩
  · fin_cases c
    · exact hj.translationFinite.1
    · exact hj.translationFinite.2.1
    · exact hj.translationFinite.2.2
    · exact zero_finite
  · fin_cases c
    · exact hj.rotationFinite.1
    · exact hj.rotationFinite.2.1
    · exact hj.rotationFinite.2.2.1
    · exact hj.rotationFinite.2.2.2
  · fin_cases c
    · exact hj.scaleFinite.1
    · exact hj.scaleFinite.2.1
    · exact hj.scaleFinite.2.2
    · exact zero_finite
  · fin_cases c
    · exact h.t1.2.2
    · exact h.t2.2.2
    · exact h.t3.2.2
    · change |val F32.zero| ≤ _; rw [valZero, abs_zero]; positivity
  · exact hj.rotation.trans (by norm_num)
  · fin_cases c
    · exact hj.scale.1
    · exact hj.scale.2.1
    · exact hj.scale.2.2
    · change |val F32.zero| ≤ _; rw [valZero, abs_zero]; exact hs

theorem near4 {J P : JointPose} {M s : ℝ} (hM : 0 ≤ M) (hs : 0 ≤ s) (h : LaneNear J P M s) :
    (∀ x, |J.t4 x - P.t4 x| ≤ M / 2 ^ 19) ∧ (∀ x, |J.r4 x - P.r4 x| ≤ 1 / 2 ^ 17) ∧ (∀ x, |J.s4 x - P.s4 x| ≤ s / 2 ^ 19) ∧
    (∀ x, |P.t4 x| ≤ M) ∧ ∀ x, |P.s4 x| ≤ s := by
  refine ⟨fun x => ?_, fun x => ?_, fun x => ?_, fun x => ?_, fun x => ?_⟩
  · fin_cases x
    · exact h.t1.1
    · exact h.t2.1
    · exact h.t3.1
    · change |(0:ℝ) - 0| ≤ _; rw [sub_zero, abs_zero]; positivity
  · fin_cases x
    · exact h.r1
    · exact h.r2
    · exact h.r3
    · exact h.r0
  · fin_cases x
    · exact h.s1.1
    · exact h.s2.1
    · exact h.s3.1
    · change |(0:ℝ) - 0| ≤ _; rw [sub_zero, abs_zero]; positivity
  · fin_cases x
    · exact h.t1.2.1
    · exact h.t2.2.1
    · exact h.t3.2.1
    · change |(0:ℝ)| ≤ _; rw [abs_zero]; exact hM
  · fin_cases x
    · exact h.s1.2
    · exact h.s2.2
    · exact h.s3.2
    · change |(0:ℝ)| ≤ _; rw [abs_zero]; exact hs

theorem r4_norm2 (P : JointPose) : norm2 P.r4 = Quaternion.normSq P.rotation := by
  rw [Quaternion.normSq_def']
  have e : norm2 P.r4 = P.rotation.imI ^ 2 + P.rotation.imJ ^ 2 + P.rotation.imK ^ 2 + P.rotation.re ^ 2 := rfl
  rw [e]; ring

theorem abs4_unit {q : F4 ℝ} (h : |norm2 q - 1| ≤ 1 / 2 ^ 10) : abs4 q ≤ 5 / 2 := by
  have := (coords_of_unit h).2
  unfold abs4
  linarith

/-- What is left of the rotation's error after the sum, in terms of the number of layers. -/
theorem error_sum {m : ℕ} (hm : 1 ≤ m) : (0 : ℝ) ≤ √(2 * m) * (25 * m + 384) / 2 ^ 24 + 1 / 2 ^ 20 ∧
    perJoint (1 / 2 ^ 19) + (4 * (√(2 * m) * (25 * m + 384) / 2 ^ 24 + 1 / 2 ^ 20) + 2 / 2 ^ 19 + (14 * m + 32) / 2 ^ 24) ≤ blendError m := by
  have m0 : (1:ℝ) ≤ m := by exact_mod_cast hm
  have hr : (7:ℝ) / 5 ≤ √(2 * m) := Real.le_sqrt_of_sq_le (by linarith)
  constructor
  · positivity
  · unfold perJoint blendError
    have h1 := mul_le_mul_of_nonneg_right hr (show (0:ℝ) ≤ 28 * m + 512 by positivity)
    generalize √(2 * (m:ℝ)) = q at *
    have e : q * (m + 16) / 2 ^ 17 = (q * (100 * m + 1536) + q * (28 * m + 512)) / 2 ^ 24 := by ring
    have e2 : 4 * (q * (25 * m + 384) / 2 ^ 24 + 1 / 2 ^ 20) = (q * (100 * m + 1536) + 64) / 2 ^ 24 := by ring
    rw [e, e2, add_div, add_div, add_div]
    have h2 : (14 * (m:ℝ) + 480) / 2 ^ 24 ≤ q * (28 * m + 512) / 2 ^ 24 := by
      apply div_le_div_of_nonneg_right _ (by positivity)
      linarith
    linarith

/-- The exact blend as a pose. -/
noncomputable def poseFrom (t r s : F4 ℝ) : JointPose := ⟨⟨0, t 0, t 1, t 2⟩, ⟨r 3, r 0, r 1, r 2⟩, (s 0, s 1, s 2)⟩

theorem average_last {cs : List (ℝ × F4 ℝ)} (h : ∀ c ∈ cs, c.2 3 = 0) : average cs 3 = 0 := by
  unfold average
  have : (cs.map fun c => c.1 • c.2).sum 3 = 0 := by
    induction cs with
    | nil => rfl
    | cons c cs ih =>
      rw [List.forall_mem_cons] at h
      simp only [List.map_cons, List.sum_cons, Pi.add_apply, Pi.smul_apply, smul_eq_mul]
      rw [h.1, ih h.2]; ring
  simp only [Pi.smul_apply, smul_eq_mul]
  rw [this, mul_zero]

/-- The parts of pose `J` are close to those of pose `P`, which are bounded. -/
structure PartsNear (J P : JointPose) (M s κ ε : ℝ) : Prop where
  translation : ∀ x, |J.t4 x - P.t4 x| ≤ κ * M
  rotation : ∀ x, |J.r4 x - P.r4 x| ≤ ε
  scale : ∀ x, |J.s4 x - P.s4 x| ≤ κ * s
  translationLe : ∀ x, |P.t4 x| ≤ M
  scaleLe : ∀ x, |P.s4 x| ≤ s

/-- The blend of sampled poses is close to the exact blend of the exact poses. -/
theorem joint_close {plays : List Play} {i : Nat} {oOf : Play → SoaTransform F32} {exact : Play → Nat → JointPose} {r o : SoaTransform F32}
    {thr M s S W : ℝ} (hM : 0 < M) (hs : 1 ≤ s) (hS : s * (1 + (plays.length + 1) / 2 ^ 20) ≤ S) (hm : plays.length < 512)
    (hW : W = max thr (plays.map fun p => p.jointWeight i).sum) (hW0 : 0 < W)
    (hnear : ∀ p ∈ plays, LaneNear (lanePose (oOf p) (laneOf i)) (exact p i) M s)
    (hunit : ∀ p ∈ plays, Quaternion.normSq (exact p i).rotation = 1)
    (hjoint : ∀ p ∈ plays, Joint32Ok (oOf p) (laneOf i) s (2 * M) (1 / 2 ^ 19)) (hr : Pose32Ok r (laneOf i) s M)
    (havg : NearAverage (laneOf i) s (101 / 100 * M) plays.length
      (average ((plays.map fun p => (p.jointWeight i, (lanePose (oOf p) (laneOf i)).t4)) ++
        [(max 0 (thr - (plays.map fun p => p.jointWeight i).sum), (lanePose r (laneOf i)).t4)]))
      (average ((plays.map fun p => (p.jointWeight i, (lanePose (oOf p) (laneOf i)).s4)) ++
        [(max 0 (thr - (plays.map fun p => p.jointWeight i).sum), (lanePose r (laneOf i)).s4)])) o)
    {R : F4 ℝ} (hR : AlignedUpTo (12 * (plays.length + 1) * W / 2 ^ 24) 0
      ((plays.map fun p => (p.jointWeight i, (lanePose (oOf p) (laneOf i)).r4)) ++
        [(max 0 (thr - (plays.map fun p => p.jointWeight i).sum), (lanePose r (laneOf i)).r4)]) R)
    (hlong : W ^ 2 ≤ 2 * (plays.length + 1) * norm2 R)
    (hrot : NearUnit (laneOf i) (25 * (plays.length + 1) * W / 2 ^ 24 / √(norm2 R) + 1 / 2 ^ 20) R o) :
    ∃ B, ExactBlend ((12 * (plays.length + 1) + 640) / 2 ^ 24 * W) (blendParts thr plays exact (lanePose r (laneOf i)) i) B ∧
      Joint32Ok o (laneOf i) S (2 * M) (1 / 2 ^ 19) ∧
      PoseClose (lanePose o (laneOf i)) B S (2 * M) (4 * (√(2 * (plays.length + 1 : ℕ)) * (25 * (plays.length + 1 : ℕ) + 384) / 2 ^ 24 + 1 / 2 ^ 20) +
        2 / 2 ^ 19 + (14 * (plays.length + 1 : ℕ) + 32) / 2 ^ 24) ∧
      Quaternion.normSq B.rotation = 1 ∧ B.translation.re = 0 ∧
      PartsNear (lanePose o (laneOf i)) B M s ((14 * (plays.length + 1 : ℕ) + 32) / 2 ^ 24)
        (√(2 * (plays.length + 1 : ℕ)) * (25 * (plays.length + 1 : ℕ) + 384) / 2 ^ 24 + 1 / 2 ^ 20) := by
  set l := laneOf i with hl
  set v := max 0 (thr - (plays.map fun p => p.jointWeight i).sum) with hv
  have v0 : 0 ≤ v := le_max_left _ _
  set m : ℝ := ((plays.length + 1 : ℕ) : ℝ) with hmdef
  have em : (plays.length : ℝ) + 1 = m := by rw [hmdef]; push_cast; ring
  have m0 : 1 ≤ m := by rw [hmdef]; exact_mod_cast (by omega : 1 ≤ plays.length + 1)
  have m1 : m ≤ 512 := by rw [hmdef]; exact_mod_cast (by omega : plays.length + 1 ≤ 512)
  rw [em] at hS hR hlong hrot ⊢
  have s0 : 0 ≤ s := by linarith
  have N := fun p hp => near4 hM.le s0 (hnear p hp)
  have total : ∀ (g : Play → F4 ℝ) (z : F4 ℝ), (((plays.map fun p => (p.jointWeight i, g p)) ++ [(v, z)]).map fun c => c.1).sum = W := by
    intro g z
    rw [hW, hv]
    exact parts_total
  -- translations
  have rt : ∀ x, |(lanePose r l).t4 x| ≤ M := fun x => by rw [← val_t]; exact hr.translation x
  have rs : ∀ x, |(lanePose r l).s4 x| ≤ s := fun x => by rw [← val_s]; exact hr.scale x
  have at1 := near_average (parts_near (i := i) (r := (lanePose r l).t4) (g := fun p => (lanePose (oOf p) l).t4) (g' := fun p => (exact p i).t4)
    (show 0 ≤ M / 2 ^ 19 by positivity) v0 fun p hp => (N p hp).1) (by rw [total]; exact hW0)
  have at2 : ∀ x, |average ((plays.map fun p => (p.jointWeight i, (exact p i).t4)) ++ [(v, (lanePose r l).t4)]) x| ≤ M := fun x =>
    average_bound (parts_forall (fun p hp => ⟨jointWeight_nonneg p i, (N p hp).2.2.2.1 x⟩) ⟨v0, rt x⟩) (by rw [total]; exact hW0)
  have as1 := near_average (parts_near (i := i) (r := (lanePose r l).s4) (g := fun p => (lanePose (oOf p) l).s4) (g' := fun p => (exact p i).s4)
    (show 0 ≤ s / 2 ^ 19 by positivity) v0 fun p hp => (N p hp).2.2.1) (by rw [total]; exact hW0)
  have as2 : ∀ x, |average ((plays.map fun p => (p.jointWeight i, (exact p i).s4)) ++ [(v, (lanePose r l).s4)]) x| ≤ s := fun x =>
    average_bound (parts_forall (fun p hp => ⟨jointWeight_nonneg p i, (N p hp).2.2.2.2 x⟩) ⟨v0, rs x⟩) (by rw [total]; exact hW0)
  have as3 : ∀ x, |average ((plays.map fun p => (p.jointWeight i, (lanePose (oOf p) l).s4)) ++ [(v, (lanePose r l).s4)]) x| ≤ s := fun x =>
    average_bound (parts_forall (fun p hp => ⟨jointWeight_nonneg p i, by
      simp only; rw [← val_s]; exact (lane_pose32 hM.le s0 (hnear p hp) (hjoint p hp)).scale x⟩) ⟨v0, rs x⟩) (by rw [total]; exact hW0)
  -- the sum of the rotations
  have hrr : |norm2 ((lanePose r l).r4) - 1| ≤ 1 / 2 ^ 10 := by
    rw [← lane_r]; exact hr.rotation
  obtain ⟨R', hR', hRR⟩ := aligned_near (parts_near (i := i) (r := (lanePose r l).r4) (g := fun p => (lanePose (oOf p) l).r4)
      (g' := fun p => (exact p i).r4) (show (0:ℝ) ≤ 1 / 2 ^ 17 by norm_num) v0 fun p hp => (N p hp).2.1) (by norm_num)
    (parts_forall (fun p hp => abs4_unit (by rw [← lane_r]; exact (lane_pose32 hM.le s0 (hnear p hp) (hjoint p hp)).rotation)) (abs4_unit hrr))
    (parts_forall (fun p hp => abs4_unit (by rw [r4_norm2, hunit p hp]; norm_num)) (abs4_unit hrr))
    (M := W) (δ' := (12 * m + 640) / 2 ^ 24 * W) (by linarith) hR (a' := 0) (W := 0) le_rfl (by rw [total, zero_add])
    (fun x => by simp) (by simp [abs4])
  rw [total, zero_add] at hRR
  obtain ⟨d1, d2, d3, d4⟩ := direction_near (m := plays.length + 1) (by omega) (by omega) hW0 hlong hRR
  rw [← hmdef] at d2 d4
  set T := average ((plays.map fun p => (p.jointWeight i, (exact p i).t4)) ++ [(v, (lanePose r l).t4)]) with hT
  set Sc := average ((plays.map fun p => (p.jointWeight i, (exact p i).s4)) ++ [(v, (lanePose r l).s4)]) with hSc
  have T3 : T 3 = 0 := average_last (parts_forall (fun p _ => rfl) rfl)
  have S3 : Sc 3 = 0 := average_last (parts_forall (fun p _ => rfl) rfl)
  obtain ⟨B, hB⟩ : ∃ B, B = poseFrom T (unitOf R') Sc := ⟨_, rfl⟩
  have Bt : B.t4 = T := by
    rw [hB]; funext c; fin_cases c
    · rfl
    · rfl
    · rfl
    · exact T3.symm
  have Br : B.r4 = unitOf R' := by rw [hB]; funext c; fin_cases c <;> rfl
  have Bs : B.s4 = Sc := by
    rw [hB]; funext c; fin_cases c
    · rfl
    · rfl
    · rfl
    · exact S3.symm
  have Bu : Quaternion.normSq B.rotation = 1 := by rw [← r4_norm2, Br]; exact TrackSampling.unitOf_norm2 d3
  have B0 : B.translation.re = 0 := by rw [hB]; rfl
  -- distances
  have κ0 : 0 ≤ (14 * m + 32) / 2 ^ 24 := by positivity
  have ct : ∀ x, |(lanePose o l).t4 x - B.t4 x| ≤ (14 * m + 32) / 2 ^ 24 * M := by
    intro x
    rw [Bt, ← val_t]
    have h1 := havg.translation x
    have h2 := at1 x
    rw [em] at h1
    have h3 := abs_sub_le (val (o.translation.lane l x)) _ (T x) |>.trans (add_le_add h1 h2)
    refine h3.trans ?_
    have : 0 ≤ m * M := by positivity
    have e1 : 13 * m / 2 ^ 24 * (101 / 100 * M) = 1313 / 100 * (m * M) / 2 ^ 24 := by ring
    have e2 : (14 * m + 32) / 2 ^ 24 * M = (14 * (m * M) + 32 * M) / 2 ^ 24 := by ring
    rw [e1, e2]
    linarith
  have cs1 : ∀ x, |(lanePose o l).s4 x - B.s4 x| ≤ (14 * m + 32) / 2 ^ 24 * s := by
    intro x
    rw [Bs, ← val_s]
    have h1 := havg.scale x
    have h2 := as1 x
    rw [em] at h1
    have h3 := abs_sub_le (val (o.scale.lane l x)) _ (Sc x) |>.trans (add_le_add h1 h2)
    refine h3.trans ?_
    have : 0 ≤ m * s := by positivity
    have e1 : 13 * m / 2 ^ 24 * s = 13 * (m * s) / 2 ^ 24 := by ring
    have e2 : (14 * m + 32) / 2 ^ 24 * s = (14 * (m * s) + 32 * s) / 2 ^ 24 := by ring
    rw [e1, e2]
    linarith
  have cr : ∀ x, |(lanePose o l).r4 x - B.r4 x| ≤ √(2 * m) * (25 * m + 384) / 2 ^ 24 + 1 / 2 ^ 20 := by
    intro x
    rw [Br, ← val_r]
    have h1 := hrot.near x
    have h2 := d4 x
    rw [abs_sub_comm] at h2
    refine (abs_sub_le _ (unitOf R x) _).trans ((add_le_add h1 h2).trans ?_)
    have h3 := mul_le_mul_of_nonneg_left d2 (show 0 ≤ 25 * m / 2 ^ 24 by positivity)
    have e1 : 25 * m * W / 2 ^ 24 / √(norm2 R) = 25 * m / 2 ^ 24 * (W / √(norm2 R)) := by ring
    rw [e1]
    linarith
  have os : ∀ x, |(lanePose o l).s4 x| ≤ S := by
    intro x
    rw [← val_s]
    have h1 := havg.scale x
    rw [em] at h1
    have h2 := as3 x
    have h3 := abs_sub_abs_le_abs_sub (val (o.scale.lane l x))
      (average ((plays.map fun p => (p.jointWeight i, (lanePose (oOf p) l).s4)) ++ [(v, (lanePose r l).s4)]) x)
    have : 0 ≤ m * s := by positivity
    have e1 : 13 * m / 2 ^ 24 * s = 13 * (m * s) / 2 ^ 24 := by ring
    have e2 : s * (1 + m / 2 ^ 20) = s + (m * s) / 2 ^ 20 := by ring
    rw [e1] at h1
    rw [e2] at hS
    linarith
  have ot : ∀ x, |(lanePose o l).t4 x| ≤ 11 / 10 * M := by
    intro x
    have h1 := ct x
    have h2 := at2 x
    rw [← Bt] at h2
    have h3 := abs_sub_abs_le_abs_sub ((lanePose o l).t4 x) (B.t4 x)
    have h4 : (14 * m + 32) / 2 ^ 24 * M ≤ 1 / 10 * M := by
      apply mul_le_mul_of_nonneg_right _ hM.le
      rw [div_le_iff₀ (by positivity)]
      linarith
    linarith
  have sS : s ≤ S := by
    have : 0 ≤ s * (m / 2 ^ 20) := by positivity
    linarith
  have hκS : (14 * m + 32) / 2 ^ 24 * s ≤ (14 * m + 32) / 2 ^ 24 * S := mul_le_mul_of_nonneg_left sS κ0
  have bs : ∀ x, |B.s4 x| ≤ S := fun x => by rw [Bs]; exact (as2 x).trans sS
  have bt : ∀ x, |B.t4 x| ≤ M := fun x => by rw [Bt]; exact at2 x
  refine ⟨B, ⟨⟨B0, ?_⟩, ⟨R', ?_, Br⟩, ?_⟩, ⟨⟨havg.translationFinite 0, havg.translationFinite 1, havg.translationFinite 2⟩,
    ⟨hrot.finite 0, hrot.finite 1, hrot.finite 2, hrot.finite 3⟩, ⟨havg.scaleFinite 0, havg.scaleFinite 1, havg.scaleFinite 2⟩, ?_, hrot.unit,
    os 0, os 1, os 2⟩, ?_, Bu, B0, ⟨ct, cr, cs1, bt, fun x => by rw [Bs]; exact as2 x⟩⟩
  · rw [Bt, parts_map thr plays exact (lanePose r l) i JointPose.t4]
  · rw [parts_map thr plays exact (lanePose r l) i JointPose.r4]; exact hR'
  · rw [Bs, parts_map thr plays exact (lanePose r l) i JointPose.s4]
  · refine (len_le_three (ot 0) (ot 1) (ot 2)).trans ?_
    linarith
  · refine poseNear (M := M) (hs.trans sS) κ0 le_rfl ?_ Bu (cr 3) (cr 0) (cr 1) (cr 2) ((cs1 0).trans hκS) ((cs1 1).trans hκS) ((cs1 2).trans hκS)
      (os 0) (os 1) (os 2) (bs 0) (bs 1) (bs 2) rfl B0 (ct 0) (ct 1) (ct 2) (bt 0) (bt 1) (bt 2)
    rw [← r4_norm2]
    have e : (lanePose o l).r4 = fun c => val (o.rotation.lane l c) := by funext c; rw [val_r]
    rw [e]
    exact hrot.unit

open LocalToModel (localMatrices) in
/-- Model matrices of poses of floats that are close to exact poses. -/
theorem models_close (j : LocalToModel.Job (SoaTransform F32) (Mat4 F32)) (models : List (Mat4 F32)) (hp : ParentsFirst j.parents)
    (hv : LocalToModel.validate j models = true) {s B δ η θ ρ T : ℝ} (hs : 1 ≤ s) (hB : 1 / 2 ^ 100 ≤ B) (hδ0 : 0 ≤ δ) (hδ : δ ≤ 1 / 1000)
    (hη : 0 ≤ η) (hθ : perJoint δ + η ≤ θ) (hρ : 1 ≤ ρ) (hroot : Root32Ok j.root ρ T) {pose : Nat → JointPose}
    (hpose : ∀ i < j.parents.length, ∃ o, j.input[i / 4]? = some o ∧ Joint32Ok o (laneOf i) s B δ ∧
      PoseClose (lanePose o (laneOf i)) (pose i) s B η ∧ Quaternion.normSq (pose i).rotation = 1 ∧ (pose i).translation.re = 0)
    (hf1 : -(2:Int)^31 ≤ j.from_) (hf2 : j.from_ < 0) (ht1 : (j.parents.length : Int) ≤ j.to + 1) (ht2 : j.to < 2^31 - 1) :
    ∃ models', LocalToModel.run Mat4.mul localMatrices j models = .ok models' ∧ models'.length = models.length ∧
      ∀ i < j.parents.length, ∃ m path, models'[i]? = some m ∧ PathTo j.parents i path ∧
        ((1 + θ) ^ path.length ≤ 2 → s ≤ 2 ^ 100 → ρ * s ^ path.length ≤ 2 ^ 100 → reach s B ρ T path.length ≤ 2 ^ 100 →
          Matrix32Ok m (2 * (ρ * s ^ path.length)) (2 * reach s B ρ T path.length) ∧
          ∀ p : F4 ℝ, ∃ x : F4 ℝ, pureQuat x = moveAlong pose path (pureQuat p) ∧ ∀ r, r ≠ 3 →
            |(valMat m).transformPoint p r - (valMat j.root).transformPoint x r| ≤
              (ρ * s ^ path.length * len (p 0) (p 1) (p 2) + reach s B ρ T path.length) * ((1 + θ) ^ path.length - 1)) := by
  have hB0 : 0 ≤ B := le_trans (by positivity) hB
  obtain ⟨sp, hsp⟩ : ∃ sp : Nat → JointPose, ∀ i < j.parents.length, ∀ o, j.input[i / 4]? = some o → sp i = lanePose o (laneOf i) := by
    refine ⟨fun i => match j.input[i / 4]? with | some o => lanePose o (laneOf i) | none => ⟨0, 0, 0⟩, ?_⟩
    intro i _ o ho
    simp only [ho]
  obtain ⟨models', e1, e2, e3⟩ := Props.C79_model_space j models hp hv hs hB hδ0 hδ hρ
    (fun i hi t ht => by
      obtain ⟨o, h1, h3, -⟩ := hpose i hi
      rw [h1] at ht
      cases ht
      exact h3)
    hroot sp
    (fun i hi => by
      obtain ⟨o, h1, -⟩ := hpose i hi
      rw [hsp i hi o h1]
      simp only [jointPose, List.getElem?_map, h1]
      rfl)
    hf1 hf2 ht1 ht2
  refine ⟨models', e1, e2, fun i hi => ?_⟩
  obtain ⟨m, path, hm, hpath, h⟩ := e3 i hi
  refine ⟨m, path, hm, hpath, fun hg hs2 hov1 hov2 => ?_⟩
  have hadd := compound_add (a := perJoint δ) (b := η) (c := θ) (by unfold perJoint; positivity) hη hθ path.length
  have hlt := Pipeline.path_lt hpath
  have gb : (1:ℝ) ≤ (1 + η) ^ path.length := one_le_pow₀ (by linarith)
  obtain ⟨f1, f2⟩ := h (by linarith) hs2 hov1 hov2
  have hall := along_close (p := sp) (e := pose) (s := s) (B := B) (η := η) (by linarith) hη hB0 path
    (fun k hk => by
      obtain ⟨o, h1, -, h4, -⟩ := hpose k (hlt k hk)
      rw [hsp k (hlt k hk) o h1]
      exact h4)
  have hθ0 : 0 ≤ θ := by
    have : 0 ≤ perJoint δ := by unfold perJoint; positivity
    linarith
  refine bounded_entries hρ hroot f1 (one_le_pow₀ (by linarith)) hg hs hB0 (fun v => (hall v).1) (fun p => ?_)
  obtain ⟨y, hy, hyb⟩ := f2 p
  have hclose := hall (pureQuat p)
  have hre : ∀ (q : List Nat), (∀ k ∈ q, k ∈ path) → (moveAlong pose q (pureQuat p)).re = 0 := by
    intro q
    induction q with
    | nil => intro _; rfl
    | cons k l ih =>
      intro h
      obtain ⟨o, -, -, -, h5, h6⟩ := hpose k (hlt k (h k (by simp)))
      exact Pipeline.move_re h5 h6 _
  obtain ⟨x, hx⟩ := Pipeline.pure_exists (hre path (fun _ h => h))
  refine ⟨x, hx, fun r hr => ?_⟩
  have h1 := hyb r hr
  have h2 := hclose.2
  rw [← hy, ← hx, pure_norm (show (pureQuat y - pureQuat x).re = 0 by rw [Quaternion.re_sub]; exact sub_self _),
    pure_norm (show (pureQuat p).re = 0 from rfl)] at h2
  simp only [Quaternion.imI_sub, Quaternion.imJ_sub, Quaternion.imK_sub] at h2
  have h3 : |(valMat j.root).transformPoint y r - (valMat j.root).transformPoint x r| ≤ ρ * len (y 0 - x 0) (y 1 - x 1) (y 2 - x 2) := by
    rw [tp_row, tp_row, show ∀ a b c d y0 y1 y2 x0 x1 x2 : ℝ, a * y0 + b * y1 + c * y2 + d - (a * x0 + b * x1 + c * x2 + d) =
      a * (y0 - x0) + b * (y1 - x1) + c * (y2 - x2) from fun a b c d y0 y1 y2 x0 x1 x2 => by ring]
    exact dot_le_len.trans (mul_le_mul_of_nonneg_right (hroot.linear r hr) len_nonneg)
  have h4 := mul_le_mul_of_nonneg_left h2 (show 0 ≤ ρ by linarith)
  have T0 : 0 ≤ T := (abs_nonneg _).trans (hroot.translation r hr)
  have h5 : ρ * far s B (len (p 0) (p 1) (p 2)) path.length ≤
      ρ * s ^ path.length * len (p 0) (p 1) (p 2) + reach s B ρ T path.length := by
    unfold far reach
    have e : ρ * (s ^ path.length * len (p 0) (p 1) (p 2) + B * ∑ k ∈ Finset.range path.length, s ^ k) + T =
      ρ * s ^ path.length * len (p 0) (p 1) (p 2) + (T + B * ρ * ∑ k ∈ Finset.range path.length, s ^ k) := by ring
    linarith
  have h6 := mul_le_mul_of_nonneg_right h5 (show 0 ≤ (1 + η) ^ path.length - 1 by linarith)
  set R := ρ * s ^ path.length * len (p 0) (p 1) (p 2) + reach s B ρ T path.length with hR
  have R0 : 0 ≤ R := by
    refine le_trans ?_ h5
    unfold far
    have := len_nonneg (a := p 0) (b := p 1) (c := p 2)
    positivity
  have h7 := mul_le_mul_of_nonneg_left hadd R0
  have h8 := abs_sub_le ((valMat m).transformPoint p r) ((valMat j.root).transformPoint y r) ((valMat j.root).transformPoint x r)
  have h9 : len ((pureQuat y).imI - (pureQuat x).imI) ((pureQuat y).imJ - (pureQuat x).imJ) ((pureQuat y).imK - (pureQuat x).imK) =
    len (y 0 - x 0) (y 1 - x 1) (y 2 - x 2) := rfl
  have h10 : len (pureQuat p).imI (pureQuat p).imJ (pureQuat p).imK = len (p 0) (p 1) (p 2) := rfl
  rw [h9, h10] at h4
  have h11 : ρ * (far s B (len (p 0) (p 1) (p 2)) path.length * ((1 + η) ^ path.length - 1)) =
    ρ * far s B (len (p 0) (p 1) (p 2)) path.length * ((1 + η) ^ path.length - 1) := by ring
  rw [h11] at h4
  linarith

end Ozz.BlendedFrame
