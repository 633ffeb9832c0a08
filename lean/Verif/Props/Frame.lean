import Verif.Proofs.FrameLane
import Verif.Proofs.Entries
import Verif.Props.FloatModel

/-!
Property theorems about whole frames in single precision, from compressed keys to model matrices: C83.
-/

namespace Ozz.Props

open Spec Ieee Sampling Keys Frame F32
open LocalToModel (localMatrices)

/-- C83: sample an animation at any ratio through a context with any history, and compute the model matrices of the pose.
Both jobs succeed, and the matrix of a joint `d` joints from its root takes a point, up to a relative error of
`(1 + 2^-14)^d - 1`, where the exact poses of the joints on the path take it one after the other, and then where the root
matrix takes it. -/
theorem C83_frame {anims : Nat → Option (Animation F32 Float3Key QuatKey)} {n : Nat}
    (hst : StoreOk F32.zero F32.one ((n + 3) / 4) anims) {c : Context F32 (SoaVec3 F32) (SoaQuat F32)}
    (hc : Reached codeNumerics F32.zero F32.one anims n c) {addr : Nat} {a : Animation F32 Float3Key QuatKey}
    (ha : anims addr = some a) {M s ρ T : ℝ} (hM : 1 / 2 ^ 60 ≤ M) (hs : 1 ≤ s) (hok : Animation32Ok a M s)
    (hn : (a.numTracks + 3) / 4 = (n + 3) / 4) {r : F32} (hr : Unit01 r) {out : List (SoaTransform F32)}
    (hout : (n + 3) / 4 ≤ out.length)
    (j : LocalToModel.Job (SoaTransform F32) (Mat4 F32)) (models : List (Mat4 F32)) (hp : ParentsFirst j.parents)
    (hlen : j.parents.length ≤ a.numTracks) (hmodels : j.parents.length ≤ models.length)
    (hρ : 1 ≤ ρ) (hroot : Root32Ok j.root ρ T) (hf1 : -(2:Int)^31 ≤ j.from_) (hf2 : j.from_ < 0)
    (ht1 : (j.parents.length : Int) ≤ j.to + 1) (ht2 : j.to < 2^31 - 1) :
    ∃ c' out' models', Sampling.run codeNumerics a addr r c out = .ok (c', out') ∧
      LocalToModel.run Mat4.mul localMatrices { j with input := out' } models = .ok models' ∧ models'.length = models.length ∧
      ∃ pose : Nat → JointPose, (∀ i < j.parents.length, ExactPose a i r (pose i)) ∧
        ∀ i < j.parents.length, ∃ m path, models'[i]? = some m ∧ PathTo j.parents i path ∧
          ((1 + 1 / 2 ^ 14 : ℝ) ^ path.length ≤ 2 → s ≤ 2 ^ 100 → ρ * s ^ path.length ≤ 2 ^ 100 →
            reach s (2 * M) ρ T path.length ≤ 2 ^ 100 →
            Matrix32Ok m (2 * (ρ * s ^ path.length)) (2 * reach s (2 * M) ρ T path.length) ∧
            ∀ p : F4 ℝ, ∃ x : F4 ℝ, pureQuat x = moveAlong pose path (pureQuat p) ∧ ∀ r, r ≠ 3 →
              |(valMat m).transformPoint p r - (valMat j.root).transformPoint x r| ≤
                (ρ * s ^ path.length * len (p 0) (p 1) (p 2) + reach s (2 * M) ρ T path.length) *
                  ((1 + 1 / 2 ^ 14) ^ path.length - 1)) := by
  obtain ⟨c', out', hrun, hol, hlane⟩ := sampled_close hst hc ha hM hs hok hn hr hout
  have hsoa : ∀ i < j.parents.length, i / 4 < (n + 3) / 4 := fun i hi => by omega
  have hnum : ∀ i, 4 * (i / 4) + ((⟨i % 4, Nat.mod_lt _ (by decide)⟩ : Fin 4) : Nat) = i := fun i => Nat.div_add_mod i 4
  have hex : ∀ i, ∃ P : JointPose, i < j.parents.length → ∃ o, out'[i / 4]? = some o ∧ ExactPose a i r P ∧
      Joint32Ok o ⟨i % 4, Nat.mod_lt _ (by decide)⟩ s (2 * M) (1 / 2 ^ 19) ∧
      PoseClose (lanePose o ⟨i % 4, Nat.mod_lt _ (by decide)⟩) P s (2 * M) (19 / 2 ^ 19) ∧
      Quaternion.normSq P.rotation = 1 ∧ P.translation.re = 0 := by
    intro i
    by_cases hi : i < j.parents.length
    · obtain ⟨o, P, h1, h2, h3, h4, h5, h6⟩ := hlane (i / 4) (hsoa i hi) ⟨i % 4, Nat.mod_lt _ (by decide)⟩
      rw [hnum i] at h2
      exact ⟨P, fun _ => ⟨o, h1, h2, h3, h4, h5, h6⟩⟩
    · exact ⟨⟨0, 0, 0⟩, fun h => absurd h hi⟩
  choose pose hpose using hex
  obtain ⟨sp, hsp⟩ : ∃ sp : Nat → JointPose, ∀ i < j.parents.length, ∀ o, out'[i / 4]? = some o →
      sp i = lanePose o ⟨i % 4, Nat.mod_lt _ (by decide)⟩ := by
    refine ⟨fun i => match out'[i / 4]? with | some o => lanePose o ⟨i % 4, Nat.mod_lt _ (by decide)⟩ | none => ⟨0, 0, 0⟩, ?_⟩
    intro i _ o ho
    simp only [ho]
  have hM0 : 0 < M := lt_of_lt_of_le (by positivity) hM
  obtain ⟨models', e1, e2, e3⟩ := C79_model_space { j with input := out' } models hp
    (by
      simp only [LocalToModel.validate, Bool.and_eq_true, decide_eq_true_eq]
      refine ⟨?_, hmodels⟩
      unfold numSoa
      omega)
    hs (by refine le_trans ?_ (show M ≤ 2 * M by linarith); exact le_trans (by norm_num) hM) (by norm_num : (0:ℝ) ≤ 1 / 2 ^ 19)
    (by norm_num) hρ
    (fun i hi t ht => by
      obtain ⟨o, h1, -, h3, -⟩ := hpose i hi
      have ht' : out'[i / 4]? = some t := ht
      rw [h1] at ht'
      cases ht'
      exact h3)
    hroot sp
    (fun i hi => by
      obtain ⟨o, h1, -⟩ := hpose i hi
      rw [hsp i hi o h1]
      simp only [jointPose, List.getElem?_map, h1]
      rfl)
    hf1 hf2 ht1 ht2
  refine ⟨c', out', models', hrun, e1, e2, pose, fun i hi => (hpose i hi).choose_spec.2.1, fun i hi => ?_⟩
  obtain ⟨m, path, hm, hpath, h⟩ := e3 i hi
  refine ⟨m, path, hm, hpath, fun hg hs2 hov1 hov2 => ?_⟩
  have hadd := compound_add (a := perJoint (1 / 2 ^ 19)) (b := 19 / 2 ^ 19) (c := 1 / 2 ^ 14) (by unfold perJoint; norm_num)
    (by norm_num) (by unfold perJoint; norm_num) path.length
  have hlt := Pipeline.path_lt hpath
  have gb : (1:ℝ) ≤ (1 + 19 / 2 ^ 19) ^ path.length := one_le_pow₀ (by norm_num)
  obtain ⟨f1, f2⟩ := h (by linarith) hs2 hov1 hov2
  have hall := along_close (p := sp) (e := pose) (s := s) (B := 2 * M) (η := 19 / 2 ^ 19) (by linarith) (by norm_num) (by linarith) path
    (fun k hk => by
      obtain ⟨o, h1, -, -, h4, -⟩ := hpose k (hlt k hk)
      rw [hsp k (hlt k hk) o h1]
      exact h4)
  refine bounded_entries hρ hroot f1 (one_le_pow₀ (by norm_num)) hg hs (by linarith) (fun v => (hall v).1) (fun p => ?_)
  obtain ⟨y, hy, hyb⟩ := f2 p
  have hclose := hall (pureQuat p)
  have hre : ∀ (q : List Nat), (∀ k ∈ q, k ∈ path) → (moveAlong pose q (pureQuat p)).re = 0 := by
    intro q
    induction q with
    | nil => intro _; rfl
    | cons k l ih =>
      intro h
      obtain ⟨o, -, -, -, -, h5, h6⟩ := hpose k (hlt k (h k (by simp)))
      exact Pipeline.move_re h5 h6 _
  obtain ⟨x, hx⟩ := Pipeline.pure_exists (hre path (fun _ h => h))
  refine ⟨x, hx, fun r hr => ?_⟩
  have h1 := hyb r hr
  have h2 := hclose.2
  rw [← hy, ← hx, pure_norm (show (pureQuat y - pureQuat x).re = 0 by rw [Quaternion.re_sub]; exact sub_self _),
    pure_norm (show (pureQuat p).re = 0 from rfl)] at h2
  simp only [Quaternion.imI_sub, Quaternion.imJ_sub, Quaternion.imK_sub] at h2
  have h3 : |(valMat j.root).transformPoint y r - (valMat j.root).transformPoint x r| ≤ ρ * len (y 0 - x 0) (y 1 - x 1) (y 2 - x 2) := by
    rw [tp_row, tp_row, show ∀ a b c d y0 y1 y2 x0 x1 x2 : ℝ, a * y0 + b * y1 + c * y2 + d - (a * x0 + b * x1 + c * x2 + d) =
      a * (y0 - x0) + b * (y1 - x1) + c * (y2 - x2) from fun a b c d y0 y1 y2 x0 x1 x2 => by ring]
    exact dot_le_len.trans (mul_le_mul_of_nonneg_right (hroot.linear r hr) len_nonneg)
  have h4 := mul_le_mul_of_nonneg_left h2 (show 0 ≤ ρ by linarith)
  have T0 : 0 ≤ T := (abs_nonneg _).trans (hroot.translation r hr)
  have h5 : ρ * far s (2 * M) (len (p 0) (p 1) (p 2)) path.length ≤
      ρ * s ^ path.length * len (p 0) (p 1) (p 2) + reach s (2 * M) ρ T path.length := by
    unfold far reach
    have e : ρ * (s ^ path.length * len (p 0) (p 1) (p 2) + 2 * M * ∑ k ∈ Finset.range path.length, s ^ k) + T =
      ρ * s ^ path.length * len (p 0) (p 1) (p 2) + (T + 2 * M * ρ * ∑ k ∈ Finset.range path.length, s ^ k) := by ring
    linarith
  have h6 := mul_le_mul_of_nonneg_right h5 (show 0 ≤ (1 + 19 / 2 ^ 19 : ℝ) ^ path.length - 1 by linarith)
  set R := ρ * s ^ path.length * len (p 0) (p 1) (p 2) + reach s (2 * M) ρ T path.length with hR
  have R0 : 0 ≤ R := by
    refine le_trans ?_ h5
    unfold far
    have := len_nonneg (a := p 0) (b := p 1) (c := p 2)
    positivity
  have h7 := mul_le_mul_of_nonneg_left hadd R0
  have h8 := abs_sub_le ((valMat m).transformPoint p r) ((valMat j.root).transformPoint y r) ((valMat j.root).transformPoint x r)
  have h9 : len ((pureQuat y).imI - (pureQuat x).imI) ((pureQuat y).imJ - (pureQuat x).imJ) ((pureQuat y).imK - (pureQuat x).imK) =
    len (y 0 - x 0) (y 1 - x 1) (y 2 - x 2) := rfl
  have h10 : len (pureQuat p).imI (pureQuat p).imJ (pureQuat p).imK = len (p 0) (p 1) (p 2) := rfl
  rw [h9, h10] at h4
  have h11 : ρ * (far s (2 * M) (len (p 0) (p 1) (p 2)) path.length * ((1 + 19 / 2 ^ 19) ^ path.length - 1)) =
    ρ * far s (2 * M) (len (p 0) (p 1) (p 2)) path.length * ((1 + 19 / 2 ^ 19) ^ path.length - 1) := by ring
  rw [h11] at h4
  linarith

/-- C83: an animation without scale, the identity as root matrix, at most 1024 joints on a path: a joint is where it should
be up to `d / 2^13` of the length of its path. -/
theorem C83_rigid {anims : Nat → Option (Animation F32 Float3Key QuatKey)} {n : Nat}
    (hst : StoreOk F32.zero F32.one ((n + 3) / 4) anims) {c : Context F32 (SoaVec3 F32) (SoaQuat F32)}
    (hc : Reached codeNumerics F32.zero F32.one anims n c) {addr : Nat} {a : Animation F32 Float3Key QuatKey}
    (ha : anims addr = some a) {M : ℝ} (hM : 1 / 2 ^ 60 ≤ M) (hM2 : M ≤ 2 ^ 16) (hok : Animation32Ok a M 1)
    (hn : (a.numTracks + 3) / 4 = (n + 3) / 4) {r : F32} (hr : Unit01 r) {out : List (SoaTransform F32)}
    (hout : (n + 3) / 4 ≤ out.length)
    (j : LocalToModel.Job (SoaTransform F32) (Mat4 F32)) (models : List (Mat4 F32)) (hp : ParentsFirst j.parents)
    (hlen : j.parents.length ≤ a.numTracks) (hmodels : j.parents.length ≤ models.length)
    (hroot : ∀ c r, Finite32 (j.root c r).bits ∧ val (j.root c r) = if c = r then 1 else 0)
    (hf1 : -(2:Int)^31 ≤ j.from_) (hf2 : j.from_ < 0)
    (ht1 : (j.parents.length : Int) ≤ j.to + 1) (ht2 : j.to < 2^31 - 1) :
    ∃ c' out' models', Sampling.run codeNumerics a addr r c out = .ok (c', out') ∧
      LocalToModel.run Mat4.mul localMatrices { j with input := out' } models = .ok models' ∧
      ∃ pose : Nat → JointPose, (∀ i < j.parents.length, ExactPose a i r (pose i)) ∧
        ∀ i < j.parents.length, ∃ m path, models'[i]? = some m ∧ PathTo j.parents i path ∧
          (path.length ≤ 1024 →
            ∀ p : F4 ℝ, ∃ x : F4 ℝ, pureQuat x = moveAlong pose path (pureQuat p) ∧ ∀ r, r ≠ 3 →
              |(valMat m).transformPoint p r - x r| ≤ (len (p 0) (p 1) (p 2) + path.length * (2 * M)) * (path.length / 2 ^ 13)) := by
  obtain ⟨c', out', models', h1, h2, -, pose, h3, h4⟩ := C83_frame hst hc ha hM le_rfl hok hn hr hout j models hp hlen hmodels le_rfl
    (eye_root hroot) hf1 hf2 ht1 ht2
  refine ⟨c', out', models', h1, h2, pose, h3, fun i hi => ?_⟩
  obtain ⟨m, path, e1, e2, e3⟩ := h4 i hi
  refine ⟨m, path, e1, e2, fun hd p => ?_⟩
  have hd' : (path.length : ℝ) ≤ 1024 := by exact_mod_cast hd
  have hg := compound14 hd
  have hreach : reach 1 (2 * M) 1 0 path.length = path.length * (2 * M) := by
    simp [reach, mul_comm]
  have M0 : 0 < M := lt_of_lt_of_le (by positivity) hM
  obtain ⟨-, e4⟩ := e3 (by have : (path.length : ℝ) / 2 ^ 13 ≤ 1 := by rw [div_le_one (by positivity)]; norm_num; linarith
                           linarith) (by norm_num)
    (by rw [one_pow, one_mul]; norm_num) (by rw [hreach]; norm_num at hM2 ⊢; nlinarith)
  obtain ⟨x, hx, h⟩ := e4 p
  refine ⟨x, hx, fun r hr => ?_⟩
  have h5 := h r hr
  rw [eye_point32 hroot x r hr, one_pow, mul_one, one_mul, hreach] at h5
  refine h5.trans (mul_le_mul_of_nonneg_left hg ?_)
  have := len_nonneg (a := p 0) (b := p 1) (c := p 2)
  positivity

/-- C83: there is only one exact pose. -/
theorem C83_exact_unique {a : Animation F32 Float3Key QuatKey} {M s : ℝ} (hok : Animation32Ok a M s) {t : Nat} {r : F32}
    {P Q : JointPose} (hP : ExactPose a t r P) (hQ : ExactPose a t r Q) : P = Q := by
  obtain ⟨⟨l1, k1, f1, a1, e1⟩, ⟨l2, k2, f2, a2, e2⟩, ⟨l3, k3, f3, a3, e3⟩⟩ := hP
  obtain ⟨⟨l1', k1', f1', b1, e1'⟩, ⟨l2', k2', f2', b2, e2'⟩, ⟨l3', k3', f3', b3, e3'⟩⟩ := hQ
  obtain ⟨rfl, rfl, rfl⟩ := around_unique hok.ratios a1 b1
  obtain ⟨rfl, rfl, rfl⟩ := around_unique hok.ratios a2 b2
  obtain ⟨rfl, rfl, rfl⟩ := around_unique hok.ratios a3 b3
  cases P
  cases Q
  simp only at e1 e1' e2 e2' e3 e3'
  rw [e1, e1', e2, e2', e3, e3']

/-! ### Example -/

section
open Ozz.Sampling.FloatExample Ozz.Sampling.Example

/-- The animation of the other examples without scale. -/
def anim33 : Animation F32 Float3Key QuatKey :=
  { anim32 with scales := chan32 (List.replicate 9 (same 0x3C00)) }

theorem well33 : WellFormed F32.zero F32.one anim33 :=
  ⟨⟨_, _, _, chan32_ok _ rfl⟩, ⟨_, _, _, chan32_ok _ rfl⟩, ⟨_, _, _, chan32_ok _ rfl⟩⟩

def store33 (addr : Nat) : Option (Animation F32 Float3Key QuatKey) := if addr = 100 then some anim33 else none

theorem store33_ok : StoreOk F32.zero F32.one ((2 + 3) / 4) store33 := by
  refine ⟨by simp [store33], fun addr a h => Or.inr (Or.inr ?_)⟩
  simp only [store33] at h
  split at h
  · cases h; exact ⟨rfl, well33⟩
  · cases h

private theorem quat_of {k : Nat} (h : k < 9) : ∃ key ∈ quatKeys, quatValue anim33.rotations k = fun x => val (key.decompress x) := by
  have hl : k < quatKeys.length := h
  refine ⟨quatKeys[k], List.getElem_mem hl, ?_⟩
  funext x
  have : anim33.rotations.keys[k]? = some quatKeys[k] := List.getElem?_eq_getElem hl
  simp only [quatValue, this]

private theorem cast_abs {q b : ℚ} (h : |q| ≤ b) : |((q : ℚ) : ℝ)| ≤ (b : ℝ) := by
  rw [← Rat.cast_abs]
  exact_mod_cast h

private theorem one_of {x : Fin 3} {k : Nat} (h : k < 9) : halfValue anim33.scales x k = 1 := by
  have : anim33.scales.keys[k]? = some (same 0x3C00) := by
    show (List.replicate 9 (same 0x3C00))[k]? = _
    rw [List.getElem?_replicate, if_pos h]
  simp only [halfValue, this, same]
  have h1 : value16 (0x3C00 : BitVec 16) = 1 := by decide +kernel
  rw [h1]
  norm_num

theorem anim33_ok : Animation32Ok anim33 1024 1 where
  wellFormed := well33
  ratios := points32
  translations := by
    intro k hk x
    have hk : k ∈ floatKeys := hk
    simp only [floatKeys, List.mem_cons, List.not_mem_nil, or_false] at hk
    rcases hk with rfl | rfl | rfl | rfl | rfl | rfl | rfl | rfl | rfl <;> simp only [same] <;>
      refine ⟨⟨by decide, by decide, by decide⟩, (cast_abs (b := 1024) (by decide +kernel)).trans (by norm_num)⟩
  rotations := room32
  near := by
    intro t l k h
    obtain ⟨time, pred, track, hch, c⟩ := h
    have hk : k < 9 := c.rightLt
    obtain ⟨p, hp, ep⟩ := quat_of (lt_trans c.lt hk)
    obtain ⟨q, hq, eq⟩ := quat_of hk
    rw [ep, eq]
    have h := (Rat.cast_le (K := ℝ)).mpr (near32 p hp q hq)
    push_cast at h
    exact h
  scales := by
    intro k hk x
    have hk : k ∈ List.replicate 9 (same 0x3C00) := hk
    rw [List.eq_of_mem_replicate hk]
    simp only [same]
    exact ⟨⟨by decide, by decide, by decide⟩, (cast_abs (b := 1) (by decide +kernel)).trans (by norm_num)⟩
  scalesPass := by
    intro t l k h x
    obtain ⟨time, pred, track, hch, c⟩ := h
    have hk : k < 9 := c.rightLt
    rw [one_of hk, one_of (lt_trans c.lt hk)]
    norm_num

def eye33 : Mat4 F32 := f4 (f4 F32.one F32.zero F32.zero F32.zero) (f4 F32.zero F32.one F32.zero F32.zero)
  (f4 F32.zero F32.zero F32.one F32.zero) (f4 F32.zero F32.zero F32.zero F32.one)

theorem eye33_ok : ∀ c r, Finite32 (eye33 c r).bits ∧ val (eye33 c r) = if c = r then 1 else 0 := by
  have z : Finite32 F32.zero.bits ∧ val F32.zero = 0 := ⟨by decide +kernel, valZero⟩
  have o : Finite32 F32.one.bits ∧ val F32.one = 1 := ⟨by decide +kernel, valOne⟩
  intro c r
  fin_cases c <;> fin_cases r <;> first | exact z | exact o

/-- Two joints of a moving skeleton, a quarter of the way through, with a brand-new context: the second is within 2 m of
where it should be if translations go up to a kilometre. -/
example (mt ms : Mem F32 (SoaVec3 F32)) (mr : Mem F32 (SoaQuat F32)) (o : SoaTransform F32) (m0 : Mat4 F32) :
    ∃ c' out' models', Sampling.run codeNumerics anim33 100 quarter (Context.new 2 mt mr ms) [o] = .ok (c', out') ∧
      LocalToModel.run Mat4.mul localMatrices ⟨[-1, 0], out', eye33, -1, 1023, false⟩ [m0, m0] = .ok models' ∧
      ∃ pose : Nat → JointPose, ExactPose anim33 0 quarter (pose 0) ∧ ExactPose anim33 1 quarter (pose 1) ∧
        ∃ m x, models'[1]? = some m ∧ pureQuat x = moveAlong pose [0, 1] 0 ∧ ∀ r, r ≠ 3 → |val (m 3 r) - x r| ≤ 2 := by
  have hp : ParentsFirst [-1, 0] := by
    intro i h
    have h : i < 2 := h
    obtain rfl | rfl : i = 0 ∨ i = 1 := by omega
    · exact ⟨by show (-1 : Int) ≤ -1; norm_num, by show (-1 : Int) < 0; norm_num⟩
    · exact ⟨by show (-1 : Int) ≤ 0; norm_num, by show (0 : Int) < 1; norm_num⟩
  obtain ⟨c', out', models', h1, h2, pose, h3, h4⟩ := C83_rigid (M := 1024) store33_ok (c := Context.new 2 mt mr ms)
    ⟨mt, mr, ms, [], by simp [OpsOk], .nil _⟩ (addr := 100) (a := anim33) (by simp [store33]) (by norm_num) (by norm_num) anim33_ok rfl
    quarter_unit (out := [o]) (by simp) ⟨[-1, 0], [], eye33, -1, 1023, false⟩ [m0, m0] hp (by decide) (by simp) eye33_ok
    (by norm_num) (by norm_num) (by norm_num) (by norm_num)
  refine ⟨c', out', models', h1, h2, pose, h3 0 (by decide), h3 1 (by decide), ?_⟩
  obtain ⟨m, path, e1, e2, e3⟩ := h4 1 (by decide)
  have hpath : PathTo [-1, 0] 1 [0, 1] := .child (p := 0) rfl (.root rfl)
  cases LocalToModel.pathTo_unique e2 hpath
  obtain ⟨x, hx, hb⟩ := e3 (by decide) (splat 0)
  have hz : pureQuat (splat 0) = 0 := by ext <;> rfl
  rw [hz] at hx
  refine ⟨m, x, e1, hx, fun r hr => ?_⟩
  have h5 := hb r hr
  rw [tp_origin] at h5
  refine h5.trans ?_
  simp only [splat, len, List.length_cons, List.length_nil]
  norm_num

end

end Ozz.Props
