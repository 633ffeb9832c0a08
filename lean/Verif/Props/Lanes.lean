import Verif.Proofs.Lanes

/-! C96: poses of joints in SoA buffers. -/

namespace Ozz.Props

open Ozz Lanes Spec

variable {α : Type}

/-- **C96.** Writing poses of joints into a buffer of SoA transforms, in any order and as often as one likes, and reading any joint
back gives the pose last written for it, or what the buffer held before if none was. -/
theorem C96_buffer (pad : Vec3 α → α) (buf : List (SoaTransform α)) (ws : List (Nat × Transform3A α))
    (h : ∀ w ∈ ws, w.1 < 4 * buf.length) :
    ∃ buf', setJoints buf ws = .ok buf' ∧ buf'.length = buf.length ∧ ∀ i, i < 4 * buf.length →
      ∃ u, getJoint pad buf' i = .ok u ∧
        match lastWrite i ws with
        | some t => SameTransform u t
        | none => getJoint pad buf i = .ok u := by
  obtain ⟨b, e, l, hb⟩ := setJoints_ok ws buf h
  exact ⟨b, e, l, hb pad⟩

/-- **C96.** A joint outside the buffer is a panic, when writing and when reading. -/
theorem C96_outside (pad : Vec3 α → α) (buf : List (SoaTransform α)) (ws : List (Nat × Transform3A α)) :
    ((∃ w ∈ ws, 4 * buf.length ≤ w.1) → setJoints buf ws = .error .panic) ∧
      ∀ i, 4 * buf.length ≤ i → getJoint pad buf i = .error .panic := by
  refine ⟨fun ⟨w, hw, hl⟩ => setJoints_panic ws buf ⟨w, hw, by omega⟩, fun i hi => ?_⟩
  have h1 : buf[i / 4]? = none := List.getElem?_eq_none (by omega)
  simp [getJoint, getIdx, h1, bind, Except.bind]

/-- **C96.** Single transforms: lanes are numbered from 0 to 3, all others panic. -/
theorem C96_lanes (pad : Vec3 α → α) (s : SoaTransform α) (t : Transform3A α) (idx : Nat) :
    ((∃ u, transform pad s idx = .ok u) ↔ idx < 4) ∧ ((∃ s', setTransform s idx t = .ok s') ↔ idx < 4) ∧
      (¬ idx < 4 → transform pad s idx = .error .panic ∧ setTransform s idx t = .error .panic) := by
  by_cases h : idx < 4
  · obtain ⟨s', e, -⟩ := setTransform_ok s h t
    simp [transform_ok pad s h, e, h]
  · simp [transform_panic pad s h, setTransform_panic s h t, h]

/-- **C96.** All four lanes of a splatted transform are that transform. -/
theorem C96_splat (pad : Vec3 α → α) (t : Transform3A α) (idx : Nat) (h : idx < 4) :
    ∃ u, transform pad (splatTransform t) idx = .ok u ∧ SameTransform u t := by
  refine ⟨_, transform_ok pad _ h, ?_⟩
  have key : ∀ l : Fin 4, SameTransform (laneOf pad (splatTransform t) l) t := by
    intro l
    fin_cases l <;> exact ⟨⟨rfl, rfl, rfl⟩, ⟨rfl, rfl, rfl, rfl⟩, ⟨rfl, rfl, rfl⟩⟩
  exact key _

section
variable [Add α] [Sub α] [Mul α] [Div α] [Neg α] [NumOps α]

/-- **C96.** The local matrix of a joint is made of that joint's pose alone: joints with the same pose, wherever they are stored and
whatever their neighbours are, have the same matrix. True of any arithmetic. -/
theorem C96_matrix (pad : Vec3 α → α) {s s' : SoaTransform α} {i j : Nat} {u v : Transform3A α} (hi : i < 4) (hj : j < 4)
    (hu : transform pad s i = .ok u) (hv : transform pad s' j = .ok v) (h : SameTransform u v) :
    LocalToModel.localMatrices s ⟨i, hi⟩ = LocalToModel.localMatrices s' ⟨j, hj⟩ := by
  rw [transform_ok pad s hi] at hu
  rw [transform_ok pad s' hj] at hv
  cases hu
  cases hv
  exact localMatrices_lane pad h

end

/-- **C96.** In single precision the matrices of the identity transform are exactly the identity matrix. -/
theorem C96_identity (l : Fin 4) : LocalToModel.localMatrices (Lanes.identity (α := F32)) l = eyeMat := by
  have h : ∀ l c r : Fin 4, LocalToModel.localMatrices (Lanes.identity (α := F32)) l c r = eyeMat c r := by decide +kernel
  funext c r
  exact h l c r

/-- **C96.** `num_aligned_joints`, computed with `& !3` on 64-bit numbers, is the number of joints that fit the SoA buffers: the smallest
multiple of four that is not below the number of joints. -/
theorem C96_aligned_joints (n : Nat) (h : n + 3 < 2 ^ 64) :
    numAligned n = 4 * numSoa n ∧ n ≤ numAligned n ∧ (∀ k, n ≤ 4 * k → numAligned n ≤ 4 * k) ∧
      (BitVec.ofNat 64 (n + 3) &&& ~~~3#64).toNat = numAligned n := by
  refine ⟨by unfold numAligned numSoa; omega, by unfold numAligned; omega, fun k hk => by unfold numAligned; omega, ?_⟩
  have e : BitVec.ofNat 64 (n + 3) &&& ~~~3#64 = (BitVec.ofNat 64 (n + 3) >>> 2) <<< 2 := by
    apply BitVec.eq_of_getLsbD_eq
    intro i hi
    have h3 : (3#64).getLsbD i = decide (i < 2) := by
      have : ∀ i : Fin 64, (3#64).getLsbD i.1 = decide (i.1 < 2) := by decide +kernel
      exact this ⟨i, hi⟩
    rw [BitVec.getLsbD_and, BitVec.getLsbD_not, h3, BitVec.getLsbD_shiftLeft, BitVec.getLsbD_ushiftRight]
    by_cases h2 : i < 2
    · simp [h2]
    · have : 2 + (i - 2) = i := by omega
      simp [h2, hi, this]
  rw [e, BitVec.toNat_shiftLeft, BitVec.toNat_ushiftRight, BitVec.toNat_ofNat, Nat.mod_eq_of_lt h, Nat.shiftRight_eq_div_pow,
    Nat.shiftLeft_eq]
  unfold numAligned
  omega

private def pose96 (n : Nat) : Transform3A F32 :=
  ⟨f4 (F32.ofNat n) (F32.ofNat (n + 1)) (F32.ofNat (n + 2)) F32.zero, f4 F32.zero F32.one F32.zero (F32.ofNat n),
    f4 F32.one (F32.ofNat (n + 5)) F32.one F32.zero⟩

/-- Joint 5 of eight is written twice, joint 6 once: reading gives the second and the only pose, joint 4 stays as it was, and joint 8
panics. -/
example (pad : Vec3 F32 → F32) :
    let ws : List (Nat × Transform3A F32) := [(5, pose96 1), (6, pose96 2), (5, pose96 3)]
    (∀ w ∈ ws, w.1 < 4 * [Lanes.identity (α := F32), Lanes.identity].length) ∧ lastWrite 5 ws = some (pose96 3) ∧ lastWrite 6 ws = some (pose96 2) ∧
      lastWrite 4 ws = none ∧ (pose96 3).translation 0 ≠ (pose96 1).translation 0 ∧
      getJoint pad [Lanes.identity (α := F32), Lanes.identity] 8 = .error .panic := by
  refine ⟨by decide, rfl, rfl, rfl, by decide +kernel, (C96_outside pad _ []).2 8 (by decide)⟩

example : numAligned 67 = 68 ∧ numAligned 68 = 68 ∧ (67 : Nat) + 3 < 2 ^ 64 := by decide

end Ozz.Props
