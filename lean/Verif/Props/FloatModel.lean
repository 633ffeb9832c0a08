import Verif.Proofs.FloatModel
import Verif.Props.LocalToModel

/-!
Property theorems about model matrices in single precision: C79.
-/

namespace Ozz.Props

open Spec Ieee LocalToModel Pipeline F32

/-- C79: the model matrices computed in single precision. The matrix of a joint `d` joints from its root takes a point,
up to a relative error of `(1 + 2^-18 + 8δ)^d - 1`, where the poses of the joints on the path take it one after the
other, and then where the root matrix takes it. -/
theorem C79_model_space (j : LocalToModel.Job (SoaTransform F32) (Mat4 F32)) (out : List (Mat4 F32))
    (hp : ParentsFirst j.parents) (hv : LocalToModel.validate j out = true) {s B δ ρ T : ℝ} (hs : 1 ≤ s)
    (hB : 1 / 2 ^ 100 ≤ B) (hδ0 : 0 ≤ δ) (hδ : δ ≤ 1 / 1000) (hρ : 1 ≤ ρ)
    (hjoints : ∀ i < j.parents.length, ∀ t, j.input[i / 4]? = some t → Joint32Ok t ⟨i % 4, Nat.mod_lt _ (by decide)⟩ s B δ)
    (hroot : Root32Ok j.root ρ T) (pose : Nat → JointPose)
    (hpose : ∀ i < j.parents.length, jointPose (j.input.map valTransform) i = some (pose i))
    (hf1 : -(2:Int)^31 ≤ j.from_) (hf2 : j.from_ < 0)
    (ht1 : (j.parents.length : Int) ≤ j.to + 1) (ht2 : j.to < 2^31 - 1) :
    ∃ out', LocalToModel.run Mat4.mul localMatrices j out = .ok out' ∧ out'.length = out.length ∧
      ∀ i < j.parents.length, ∃ m path, out'[i]? = some m ∧ PathTo j.parents i path ∧
        ((1 + perJoint δ) ^ path.length ≤ 2 → s ≤ 2 ^ 100 → ρ * s ^ path.length ≤ 2 ^ 100 →
          reach s B ρ T path.length ≤ 2 ^ 100 →
          (∀ c r, r ≠ 3 → Finite32 (m c r).bits) ∧
          ∀ p : F4 ℝ, ∃ x : F4 ℝ, pureQuat x = moveAlong pose path (pureQuat p) ∧ ∀ r, r ≠ 3 →
            |(valMat m).transformPoint p r - (valMat j.root).transformPoint x r| ≤
              (ρ * s ^ path.length * len (p 0) (p 1) (p 2) + reach s B ρ T path.length) *
                ((1 + perJoint δ) ^ path.length - 1)) := by
  have hv' := hv
  simp only [LocalToModel.validate, Bool.and_eq_true, decide_eq_true_eq] at hv'
  obtain ⟨loc, hloc⟩ := local_exists32 hv'.1
  obtain ⟨out', h1, h2, -, h3⟩ := C28_full_run Mat4.mul localMatrices j out hp hv loc hloc hf1 hf2 ht1 ht2
  refine ⟨out', h1, h2, fun i hi => ?_⟩
  obtain ⟨m, hm, path, hpath, rfl⟩ := h3 i hi
  have hlt := path_lt hpath
  refine ⟨_, path, hm, hpath, fun hg hs2 hov1 hov2 => ?_⟩
  exact path_near path (fun k hk => hloc k (hlt k hk)) (fun k hk => hjoints k (hlt k hk)) (fun k hk => hpose k (hlt k hk))
    hδ0 hδ hs hs2 hB hρ hroot hg hov1 hov2

/-- C79: under an affine root matrix the bottom row of every model matrix is exactly (0, 0, 0, 1). -/
theorem C79_bottom_row (j : LocalToModel.Job (SoaTransform F32) (Mat4 F32)) (out : List (Mat4 F32))
    (hp : ParentsFirst j.parents) (hv : LocalToModel.validate j out = true) {s B δ : ℝ} (hs : 1 ≤ s) (hs2 : s ≤ 2 ^ 100)
    (hδ : δ ≤ 1 / 1000)
    (hjoints : ∀ i < j.parents.length, ∀ t, j.input[i / 4]? = some t → Joint32Ok t ⟨i % 4, Nat.mod_lt _ (by decide)⟩ s B δ)
    (hroot : ∀ c, Finite32 (j.root c 3).bits ∧ val (j.root c 3) = if c = 3 then 1 else 0)
    (hf1 : -(2:Int)^31 ≤ j.from_) (hf2 : j.from_ < 0)
    (ht1 : (j.parents.length : Int) ≤ j.to + 1) (ht2 : j.to < 2^31 - 1) :
    ∃ out', LocalToModel.run Mat4.mul localMatrices j out = .ok out' ∧ ∀ i < j.parents.length, ∃ m, out'[i]? = some m ∧
      ∀ c, Finite32 (m c 3).bits ∧ val (m c 3) = if c = 3 then 1 else 0 := by
  have hv' := hv
  simp only [LocalToModel.validate, Bool.and_eq_true, decide_eq_true_eq] at hv'
  obtain ⟨loc, hloc⟩ := local_exists32 hv'.1
  obtain ⟨out', h1, h2, -, h3⟩ := C28_full_run Mat4.mul localMatrices j out hp hv loc hloc hf1 hf2 ht1 ht2
  refine ⟨out', h1, fun i hi => ?_⟩
  obtain ⟨m, hm, path, hpath, rfl⟩ := h3 i hi
  have hlt := path_lt hpath
  refine ⟨_, hm, fun c => ?_⟩
  have hL : ∀ k, ∃ L, k ∈ path → LocalNear (loc k) L s B δ := by
    intro k
    by_cases hk : k ∈ path
    · obtain ⟨t, ht, e⟩ := hloc k (hlt k hk)
      exact ⟨_, fun _ => e ▸ local_near (hjoints k (hlt k hk) t ht) hδ hs hs2⟩
    · exact ⟨fun _ _ => 0, fun h => absurd h hk⟩
  choose ideal hideal using hL
  have := path_affine (root := j.root) path hideal ⟨fun c => (hroot c).1, fun c hc => by rw [(hroot c).2, if_neg hc],
    by rw [(hroot 3).2, if_pos rfl]⟩
  refine ⟨this.finite c, ?_⟩
  split
  · next h => subst h; exact this.one
  · next h => exact this.last c h

/-- C79: poses without scale under the identity, rotations as unit as sampling leaves them (C63), at most 1024 joints on a
path: a joint is where it should be up to `d / 2^15` of the length of its path. -/
theorem C79_rigid (j : LocalToModel.Job (SoaTransform F32) (Mat4 F32)) (out : List (Mat4 F32))
    (hp : ParentsFirst j.parents) (hv : LocalToModel.validate j out = true) {B : ℝ}
    (hB : 1 / 2 ^ 100 ≤ B) (hB2 : B ≤ 2 ^ 90)
    (hjoints : ∀ i < j.parents.length, ∀ t, j.input[i / 4]? = some t →
      Joint32Ok t ⟨i % 4, Nat.mod_lt _ (by decide)⟩ 1 B (1 / 2 ^ 19))
    (hroot : ∀ c r, Finite32 (j.root c r).bits ∧ val (j.root c r) = if c = r then 1 else 0) (pose : Nat → JointPose)
    (hpose : ∀ i < j.parents.length, jointPose (j.input.map valTransform) i = some (pose i))
    (hf1 : -(2:Int)^31 ≤ j.from_) (hf2 : j.from_ < 0)
    (ht1 : (j.parents.length : Int) ≤ j.to + 1) (ht2 : j.to < 2^31 - 1) :
    ∃ out', LocalToModel.run Mat4.mul localMatrices j out = .ok out' ∧ out'.length = out.length ∧
      ∀ i < j.parents.length, ∃ m path, out'[i]? = some m ∧ PathTo j.parents i path ∧
        (path.length ≤ 1024 →
          (∀ c r, Finite32 (m c r).bits) ∧ (∀ c, val (m c 3) = if c = 3 then 1 else 0) ∧
          ∀ p : F4 ℝ, ∃ x : F4 ℝ, pureQuat x = moveAlong pose path (pureQuat p) ∧ ∀ r, r ≠ 3 →
            |(valMat m).transformPoint p r - x r| ≤ (len (p 0) (p 1) (p 2) + path.length * B) * (path.length / 2 ^ 15)) := by
  have hr : Root32Ok j.root 1 0 := eye_root hroot
  obtain ⟨out', h1, h2, h3⟩ := C79_model_space j out hp hv le_rfl hB (by positivity) (by norm_num) le_rfl hjoints hr pose hpose
    hf1 hf2 ht1 ht2
  obtain ⟨out'', h1', h3'⟩ := C79_bottom_row j out hp hv le_rfl (by norm_num) (by norm_num) hjoints
    (fun c => ⟨(hroot c 3).1, (hroot c 3).2⟩) hf1 hf2 ht1 ht2
  rw [h1] at h1'
  cases h1'
  refine ⟨out', h1, h2, fun i hi => ?_⟩
  obtain ⟨m, path, e1, e2, e3⟩ := h3 i hi
  obtain ⟨m', e1', e3'⟩ := h3' i hi
  rw [e1] at e1'
  cases e1'
  refine ⟨m, path, e1, e2, fun hd => ?_⟩
  have hd' : (path.length : ℝ) ≤ 1024 := by exact_mod_cast hd
  have hg := compound hd
  have hreach : reach 1 B 1 0 path.length = path.length * B := by
    simp [reach, mul_comm]
  have B0 : 0 < B := lt_of_lt_of_le (by positivity) hB
  obtain ⟨f, e4⟩ := e3 (by have : (path.length : ℝ) / 2 ^ 15 ≤ 1 := by rw [div_le_one (by positivity)]; norm_num; linarith
                           linarith) (by norm_num)
    (by rw [one_pow, one_mul]; norm_num) (by rw [hreach]; norm_num at hB2 ⊢; nlinarith)
  refine ⟨fun c r => ?_, fun c => (e3' c).2, fun p => ?_⟩
  · by_cases h : r = 3
    · subst h; exact (e3' c).1
    · exact f c r h
  · obtain ⟨x, hx, h⟩ := e4 p
    refine ⟨x, hx, fun r hr => ?_⟩
    have h5 := h r hr
    rw [eye_point32 hroot x r hr, one_pow, mul_one, one_mul, hreach] at h5
    refine h5.trans (mul_le_mul_of_nonneg_left hg ?_)
    have := len_nonneg (a := p 0) (b := p 1) (c := p 2)
    positivity

/-- C79: bones keep their length. Without scale and under the identity, the origins of a joint and its parent, read off
the model matrices, are as far apart as the joint's translation is long, up to `d² / 2^13` of the longest bone. -/
theorem C79_bones (j : LocalToModel.Job (SoaTransform F32) (Mat4 F32)) (out : List (Mat4 F32))
    (hp : ParentsFirst j.parents) (hv : LocalToModel.validate j out = true) {B : ℝ}
    (hB : 1 / 2 ^ 100 ≤ B) (hB2 : B ≤ 2 ^ 90)
    (hjoints : ∀ i < j.parents.length, ∀ t, j.input[i / 4]? = some t →
      Joint32Ok t ⟨i % 4, Nat.mod_lt _ (by decide)⟩ 1 B (1 / 2 ^ 19))
    (hroot : ∀ c r, Finite32 (j.root c r).bits ∧ val (j.root c r) = if c = r then 1 else 0) (pose : Nat → JointPose)
    (hpose : ∀ i < j.parents.length, jointPose (j.input.map valTransform) i = some (pose i))
    (hscale : ∀ i < j.parents.length, (pose i).scale = (1, 1, 1))
    (hf1 : -(2:Int)^31 ≤ j.from_) (hf2 : j.from_ < 0)
    (ht1 : (j.parents.length : Int) ≤ j.to + 1) (ht2 : j.to < 2^31 - 1) :
    ∃ out', LocalToModel.run Mat4.mul localMatrices j out = .ok out' ∧
      ∀ (i q : Nat) (path : List Nat), j.parents[i]? = some (q : Int) → PathTo j.parents i path → path.length ≤ 1024 →
        ∃ m m', out'[i]? = some m ∧ out'[q]? = some m' ∧
          |len (val (m 3 0) - val (m' 3 0)) (val (m 3 1) - val (m' 3 1)) (val (m 3 2) - val (m' 3 2)) -
            len (pose i).translation.imI (pose i).translation.imJ (pose i).translation.imK| ≤ B * path.length ^ 2 / 2 ^ 13 := by
  obtain ⟨out', h1, -, h2⟩ := C79_rigid j out hp hv hB hB2 hjoints hroot pose hpose hf1 hf2 ht1 ht2
  refine ⟨out', h1, fun i q path hq hpath hd => ?_⟩
  have hlt := path_lt hpath
  have hin : ∀ k ∈ path, ∃ t, j.input[k / 4]? = some t := by
    intro k hk
    have := hpose k (hlt k hk)
    rw [jointPose, List.getElem?_map, Option.map_eq_some_iff] at this
    obtain ⟨t, ht, -⟩ := this
    obtain ⟨t', ht', -⟩ := Option.map_eq_some_iff.mp ht
    exact ⟨t', ht'⟩
  obtain ⟨l, hl, rfl⟩ : ∃ l, PathTo j.parents q l ∧ path = l ++ [i] := by
    cases hpath with
    | root h =>
      rw [hq] at h
      have := Option.some.inj h
      omega
    | child h h' =>
      rw [hq] at h
      have := Int.ofNat.inj (Option.some.inj h)
      subst this
      exact ⟨_, h', rfl⟩
  have hiq : i < j.parents.length := hlt i (by simp)
  have hql : q < j.parents.length := path_lt hl q (by cases hl <;> simp)
  obtain ⟨m, p1, a1, a2, a3⟩ := h2 i hiq
  obtain ⟨m', p2, b1, b2, b3⟩ := h2 q hql
  cases pathTo_unique a2 hpath
  cases pathTo_unique b2 hl
  rw [List.length_append, List.length_singleton] at hd a3 ⊢
  obtain ⟨-, -, a4⟩ := a3 hd
  obtain ⟨-, -, b4⟩ := b3 (by omega)
  obtain ⟨x, hx, a5⟩ := a4 (splat 0)
  obtain ⟨y, hy, b5⟩ := b4 (splat 0)
  refine ⟨m, m', a1, b1, ?_⟩
  have hlen := bone_length l i (fun k hk => hpose k (hlt k hk)) (fun k hk => by
    obtain ⟨t, ht⟩ := hin k hk
    exact rotation_ne_zero (by norm_num) ht (hjoints k (hlt k hk) t ht) (hpose k (hlt k hk)))
    (fun k hk => hscale k (hlt k (by simp [hk]))) hx hy
  have B0 : 0 < B := lt_of_lt_of_le (by positivity) hB
  have hz : len ((splat 0 : F4 ℝ) 0) ((splat 0 : F4 ℝ) 1) ((splat 0 : F4 ℝ) 2) = 0 := by simp [splat, len]
  have each : ∀ r, r ≠ 3 → |val (m 3 r) - val (m' 3 r) - (x r - y r)| ≤ 2 * (B * ((l.length + 1 : ℕ) : ℝ) ^ 2 / 2 ^ 15) := by
    intro r hr
    have c1 := a5 r hr
    have c2 := b5 r hr
    rw [tp_origin, hz, zero_add] at c1 c2
    have c3 := abs_sub (val (m 3 r) - x r) (val (m' 3 r) - y r)
    rw [show val (m 3 r) - val (m' 3 r) - (x r - y r) = val (m 3 r) - x r - (val (m' 3 r) - y r) by ring]
    have c4 : (l.length : ℝ) * B * (l.length / 2 ^ 15) ≤ B * ((l.length + 1 : ℕ) : ℝ) ^ 2 / 2 ^ 15 := by
      push_cast
      rw [show (l.length : ℝ) * B * (l.length / 2 ^ 15) = B * (l.length : ℝ) ^ 2 / 2 ^ 15 by ring]
      gcongr
      linarith
    have c5 : ((l.length + 1 : ℕ) : ℝ) * B * (((l.length + 1 : ℕ) : ℝ) / 2 ^ 15) = B * ((l.length + 1 : ℕ) : ℝ) ^ 2 / 2 ^ 15 := by ring
    rw [c5] at c1
    simp only [valMat] at c1 c2
    linarith only [c1, c2, c3, c4]
  refine (len_near hlen (each 0 (by decide)) (each 1 (by decide)) (each 2 (by decide))).trans ?_
  have : 0 ≤ B * ((l.length + 1 : ℕ) : ℝ) ^ 2 := by positivity
  norm_num at this ⊢
  linarith only [this]

/-! ### Examples -/

/-- 0, 1, 5, 6, 7 and the float next to √2/2. -/
private def f0 : F32 := ⟨0x00000000#32⟩
private def f1 : F32 := ⟨0x3f800000#32⟩
private def f5 : F32 := ⟨0x40a00000#32⟩
private def f6 : F32 := ⟨0x40c00000#32⟩
private def f7 : F32 := ⟨0x40e00000#32⟩
private def fh : F32 := ⟨0x3f3504f3#32⟩

/-- Two joints: a quarter turn about z, shifted by (5, 6, 7), and below it a shift by (1, 0, 0). -/
private def block32 : SoaTransform F32 where
  translation := ⟨f4 f5 f1 f0 f0, f4 f6 f0 f0 f0, f4 f7 f0 f0 f0⟩
  rotation := ⟨splat f0, splat f0, f4 fh f0 f0 f0, f4 fh f1 f1 f1⟩
  scale := ⟨splat f1, splat f1, splat f1⟩

private def eye32 : Mat4 F32 := f4 (f4 f1 f0 f0 f0) (f4 f0 f1 f0 f0) (f4 f0 f0 f1 f0) (f4 f0 f0 f0 f1)

private def conv32 : LocalToModel.Job (SoaTransform F32) (Mat4 F32) where
  parents := [-1, 0]
  input := [block32]
  root := eye32
  from_ := -1
  «to» := 1023
  fromExcluded := false

private theorem v0 : val f0 = 0 := by
  have : value32 0x00000000#32 = 0 := by decide +kernel
  simp only [val, f0, real, this]; norm_num
private theorem v1 : val f1 = 1 := by
  have : value32 0x3f800000#32 = 1 := by decide +kernel
  simp only [val, f1, real, this]; norm_num
private theorem v5 : val f5 = 5 := by
  have : value32 0x40a00000#32 = 5 := by decide +kernel
  simp only [val, f5, real, this]; norm_num
private theorem v6 : val f6 = 6 := by
  have : value32 0x40c00000#32 = 6 := by decide +kernel
  simp only [val, f6, real, this]; norm_num
private theorem v7 : val f7 = 7 := by
  have : value32 0x40e00000#32 = 7 := by decide +kernel
  simp only [val, f7, real, this]; norm_num
private theorem vh : val fh = 11863283 / 2 ^ 24 := by
  have : value32 0x3f3504f3#32 = 11863283 / 2 ^ 24 := by decide +kernel
  simp only [val, fh, real, this]; norm_num

private theorem conv32_first : ParentsFirst conv32.parents := by
  intro i h
  have h : i < 2 := h
  obtain rfl | rfl : i = 0 ∨ i = 1 := by omega
  · exact ⟨by show (-1 : Int) ≤ -1; norm_num, by show (-1 : Int) < 0; norm_num⟩
  · exact ⟨by show (-1 : Int) ≤ 0; norm_num, by show (0 : Int) < 1; norm_num⟩

private theorem joints32 : ∀ i < conv32.parents.length, ∀ t, conv32.input[i / 4]? = some t →
    Joint32Ok t ⟨i % 4, Nat.mod_lt _ (by decide)⟩ 1 11 (1 / 2 ^ 19) := by
  intro i hi t ht
  have hi : i < 2 := hi
  have g0 : Finite32 f0.bits := by decide +kernel
  have g1 : Finite32 f1.bits := by decide +kernel
  have g5 : Finite32 f5.bits := by decide +kernel
  have g6 : Finite32 f6.bits := by decide +kernel
  have g7 : Finite32 f7.bits := by decide +kernel
  have gh : Finite32 fh.bits := by decide +kernel
  obtain rfl | rfl : i = 0 ∨ i = 1 := by omega
  · cases ht
    refine ⟨⟨g5, g6, g7⟩, ⟨g0, g0, gh, gh⟩, ⟨g1, g1, g1⟩, ?_, ?_, ?_⟩
    · change len (val f5) (val f6) (val f7) ≤ 11
      rw [v5, v6, v7]
      exact len_le (by norm_num) (by norm_num)
    · change |val f0 ^ 2 + val f0 ^ 2 + val fh ^ 2 + val fh ^ 2 - 1| ≤ _
      rw [v0, vh, abs_le]
      norm_num
    · change |val f1| ≤ 1 ∧ |val f1| ≤ 1 ∧ |val f1| ≤ 1
      rw [v1]; norm_num
  · cases ht
    refine ⟨⟨g1, g0, g0⟩, ⟨g0, g0, g0, g1⟩, ⟨g1, g1, g1⟩, ?_, ?_, ?_⟩
    · change len (val f1) (val f0) (val f0) ≤ 11
      rw [v1, v0]
      exact len_le (by norm_num) (by norm_num)
    · change |val f0 ^ 2 + val f0 ^ 2 + val f0 ^ 2 + val f1 ^ 2 - 1| ≤ _
      rw [v0, v1]; norm_num
    · change |val f1| ≤ 1 ∧ |val f1| ≤ 1 ∧ |val f1| ≤ 1
      rw [v1]; norm_num

private theorem eye32_ok : ∀ c r, Finite32 (conv32.root c r).bits ∧ val (conv32.root c r) = if c = r then 1 else 0 := by
  intro c r
  constructor
  · revert c r; decide +kernel
  · change val (eye32 c r) = _
    fin_cases c <;> fin_cases r <;> first | exact v0 | exact v1

private noncomputable def poses32 (i : Nat) : JointPose :=
  if i = 0 then { translation := ⟨0, val f5, val f6, val f7⟩, rotation := ⟨val fh, val f0, val f0, val fh⟩, scale := (val f1, val f1, val f1) }
  else { translation := ⟨0, val f1, val f0, val f0⟩, rotation := ⟨val f1, val f0, val f0, val f0⟩, scale := (val f1, val f1, val f1) }

private theorem poses32_ok (i : Nat) (h : i < 2) : jointPose (conv32.input.map valTransform) i = some (poses32 i) := by
  obtain rfl | rfl : i = 0 ∨ i = 1 := by omega
  · rfl
  · rfl

private theorem path1 : PathTo conv32.parents 1 [0, 1] := PathTo.child (p := 0) rfl (PathTo.root rfl)

/-- The hypotheses of `C79_rigid` and `C79_bones`: the second joint's bone has length 1, up to 2^-7. -/
example : ∃ out' m m', LocalToModel.run Mat4.mul localMatrices conv32 [eye32, eye32] = .ok out' ∧ out'[1]? = some m ∧
    out'[0]? = some m' ∧
    |len (val (m 3 0) - val (m' 3 0)) (val (m 3 1) - val (m' 3 1)) (val (m 3 2) - val (m' 3 2)) - 1| ≤ 1 / 2 ^ 7 := by
  obtain ⟨out', h1, h2⟩ := C79_bones conv32 [eye32, eye32] conv32_first (by decide +kernel) (B := 11) (by norm_num) (by norm_num)
    joints32 eye32_ok poses32 poses32_ok (by
      intro i hi
      have e : ((1:ℝ), (1:ℝ), (1:ℝ)) = (val f1, val f1, val f1) := by rw [v1]
      rw [e]
      unfold poses32
      split <;> rfl)
    (by show (-(2:Int)^31 ≤ -1); norm_num) (by show (-1 : Int) < 0; norm_num) (by show ((2:Nat):Int) ≤ 1023 + 1; norm_num)
    (by show (1023:Int) < 2^31 - 1; norm_num)
  obtain ⟨m, m', a, b, c⟩ := h2 1 0 [0, 1] rfl path1 (by decide)
  refine ⟨out', m, m', h1, a, b, ?_⟩
  have hl : len (poses32 1).translation.imI (poses32 1).translation.imJ (poses32 1).translation.imK = 1 := by
    change len (val f1) (val f0) (val f0) = 1
    rw [v1, v0]; simp [len]
  rw [hl] at c
  refine c.trans ?_
  norm_num

end Ozz.Props
