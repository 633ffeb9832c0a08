import Verif.Proofs.FloatRigid

/-! C84: the inverse of a matrix in single precision. -/

namespace Ozz.Props

open Ozz F32 Ieee Spec IK

/-- C84: the inverse of a matrix whose entries are bounded by row and column weights and whose determinant is not too small
against them: finite, and every entry near that of the exact inverse. -/
theorem C84_inverse (m : Mat4 F32) (hm : ∀ c r, Finite32 (m c r).bits) (α β : Fin 4 → ℝ)
    (hlo : ∀ c r, 1 / 2 ^ 24 ≤ α r * β c) (hhi : ∀ c r, α r * β c ≤ 2 ^ 24) (hB : ∀ c r, |val (m c r)| ≤ α r * β c)
    (hd1 : 1 / 2 ^ 18 ≤ |(toMatrix (valMat m)).det|) (hd2 : |(toMatrix (valMat m)).det| ≤ 2 ^ 18) {l : ℝ} (hl : l ≤ 40)
    (hdet : α 0 * α 1 * α 2 * α 3 * (β 0 * β 1 * β 2 * β 3) ≤ l * |(toMatrix (valMat m)).det|) (c r : Fin 4) :
    Finite32 (m.invert c r).bits ∧
      |val (m.invert c r) - (toMatrix (valMat m))⁻¹ r c| ≤ l / (α c * β r) * ((288 + 3024 * l) / 2 ^ 24) := by
  have hne : (toMatrix (valMat m)).det ≠ 0 := by
    rw [← abs_pos]; exact lt_of_lt_of_le (by positivity) hd1
  have app : ∀ c, AppV (m c) (valMat m c) (fun r => α r * β c) 0 24 := fun c r =>
    App.exact_ (hm c r) (hB c r) (hlo c r) (hhi c r)
  have hD := detOf_eq (valMat m)
  have hp := permDet_weights α β
  have hq := permMinors_weights α β c r
  rw [← hD] at hd1 hd2 hdet
  have hD0 : 0 < |detOf (valMat m)| := lt_of_lt_of_le (by positivity) hd1
  have hw : 0 < α c * β r := lt_of_lt_of_le (by positivity) (hlo r c)
  obtain ⟨h1, h2⟩ := inverse_near app (κ := 24 * l) (by linarith) (by rw [hp]; linarith) hd1 hd2 c r
  refine ⟨h1, ?_⟩
  rw [inv_entry _ hne]
  refine h2.trans ?_
  have e : (permMinors fun c r => α r * β c).2 c r = 6 * (α 0 * α 1 * α 2 * α 3 * (β 0 * β 1 * β 2 * β 3)) / (α c * β r) := by
    rw [eq_div_iff hw.ne']; linarith
  rw [e]
  have hl0 : 0 ≤ l := by
    by_contra hn
    have hpos : 0 < permDet fun c r => α r * β c := (codeDet_app app).pos
    rw [hp] at hpos
    have : l * |detOf (valMat m)| < 0 := mul_neg_of_neg_of_pos (not_le.mp hn) hD0
    linarith
  have k : 6 * (α 0 * α 1 * α 2 * α 3 * (β 0 * β 1 * β 2 * β 3)) / (α c * β r) / |detOf (valMat m)| ≤ 6 * (l / (α c * β r)) := by
    rw [div_div, div_le_iff₀ (by positivity)]
    have : 6 * (l / (α c * β r)) * (α c * β r * |detOf (valMat m)|) = 6 * (l * |detOf (valMat m)|) := by
      rw [show 6 * (l / (α c * β r)) * (α c * β r * |detOf (valMat m)|) = 6 * (l / (α c * β r) * (α c * β r) * |detOf (valMat m)|) by ring,
        div_mul_cancel₀ _ hw.ne']
    rw [this]; linarith
  refine (mul_le_mul_of_nonneg_right k (by positivity)).trans (le_of_eq ?_)
  ring

/-- C84: the inverse of the matrix of a joint without scale: rotation entries within `123 / 2^24`, translation entries within
`362 T / 2^24` of the exact inverse. -/
theorem C84_rigid {m : Mat4 F32} {ε T : ℝ} (h : Rigid32 m ε T) (hε : ε ≤ 1 / 1000) (hT : 1 ≤ T) (hT2 : T ≤ 2 ^ 16) :
    (toMatrix (valMat m)).det ≠ 0 ∧ (∀ c r, Finite32 (m.invert c r).bits) ∧
    (∀ c r, c ≠ 3 → r ≠ 3 → |val (m.invert c r) - (toMatrix (valMat m))⁻¹ r c| ≤ 123 / 2 ^ 24) ∧
    (∀ r, r ≠ 3 → |val (m.invert 3 r) - (toMatrix (valMat m))⁻¹ r 3| ≤ 362 * T / 2 ^ 24) := by
  have hd := (rigid_real h).det_ne hε
  obtain ⟨h1, h2, h3⟩ := rigid_inverse h hε hT hT2
  have e : ∀ c r, (toMatrix (valMat m))⁻¹ r c = (valMat m).invert c r := fun c r => by
    rw [inv_entry _ hd, invert_eq]; ring
  refine ⟨hd, h1, fun c r hc hr => ?_, fun r hr => ?_⟩
  · rw [e]
    refine (h2 c r hc hr).err.trans ?_
    norm_num
  · rw [e]
    refine (h3 r hr).err.trans ?_
    norm_num
    linarith

/-- C84: a point taken into the space of such a joint and back is where it was, up to `T / 2^13`. -/
theorem C84_point {m : Mat4 F32} {ε T : ℝ} (h : Rigid32 m ε T) (hε : ε ≤ 1 / 1000) (hT : 1 ≤ T) (hT2 : T ≤ 2 ^ 16)
    {x : F4 F32} (hx : ∀ i, i ≠ 3 → Finite32 (x i).bits) (hX : ∀ i, i ≠ 3 → |val (x i)| ≤ T) :
    (∀ i, i ≠ 3 → Finite32 (m.invert.transformPoint x i).bits) ∧
    ∀ y, SendsPoint (valMat m) (valVec (m.invert.transformPoint x)) y → dist2 y (valVec x) ≤ (T / 2 ^ 13) ^ 2 :=
  ⟨fun i hi => (rigid_point h hε hT hT2 hx hX i hi).fin, fun _ hy => rigid_back h hε hT hT2 hx hX hy⟩

/-- A quarter turn about z and a translation of (1, 2, 3): columns y, −x, z. -/
private def turned : Mat4 F32 :=
  f4 (f4 ⟨0⟩ ⟨0x3f800000⟩ ⟨0⟩ ⟨0⟩) (f4 ⟨0xbf800000⟩ ⟨0⟩ ⟨0⟩ ⟨0⟩) (f4 ⟨0⟩ ⟨0⟩ ⟨0x3f800000⟩ ⟨0⟩)
    (f4 ⟨0x3f800000⟩ ⟨0x40000000⟩ ⟨0x40400000⟩ ⟨0x3f800000⟩)

private theorem turned_val : valMat turned = f4 (f4 0 1 0 0) (f4 (-1) 0 0 0) (f4 0 0 1 0) (f4 1 2 3 1) := by
  have z : val (⟨0⟩ : F32) = 0 := by
    have : value32 0 = 0 := by decide +kernel
    rw [val, real, this]; norm_num
  have o : val (⟨0x3f800000⟩ : F32) = 1 := by
    have : value32 0x3f800000 = 1 := by decide +kernel
    rw [val, real, this]; norm_num
  have n : val (⟨0xbf800000⟩ : F32) = -1 := by
    have : value32 0xbf800000 = -1 := by decide +kernel
    rw [val, real, this]; norm_num
  have t : val (⟨0x40000000⟩ : F32) = 2 := by
    have : value32 0x40000000 = 2 := by decide +kernel
    rw [val, real, this]; norm_num
  have u : val (⟨0x40400000⟩ : F32) = 3 := by
    have : value32 0x40400000 = 3 := by decide +kernel
    rw [val, real, this]; norm_num
  funext c r
  revert c r
  apply four <;> apply four <;> simp only [valMat, turned, f4_0, f4_1, f4_2, f4_3, z, o, n, t, u]

private theorem turned_rigid : Rigid32 turned 0 4 where
  finite := by
    have : ∀ c r, Finite32 (turned c r).bits := by decide +kernel
    exact this
  affine := by rw [turned_val]; simp [AffineMat]
  columns := by
    rw [turned_val]
    intro i j hi hj
    revert j
    revert i
    refine four_ne ?_ ?_ ?_ <;> refine four_ne ?_ ?_ ?_ <;> simp [dot3]
  translation := by
    intro r hr
    show |valMat turned 3 r| ≤ 4
    rw [turned_val]
    revert r
    refine four_ne ?_ ?_ ?_ <;> norm_num

/-- Its inverse takes (1, 2, 3) to the origin. -/
example : (∀ c r, Finite32 (turned.invert c r).bits) ∧
    ∀ i, i ≠ 3 → value32 (turned.invert.transformPoint (turned 3) i).bits = 0 :=
  ⟨(C84_rigid turned_rigid (by norm_num) (by norm_num) (by norm_num)).2.1, by
    have : ∀ i : Fin 4, i ≠ 3 → value32 (turned.invert.transformPoint (turned 3) i).bits = 0 := by decide +kernel
    exact this⟩

/-- It meets the general theorem too, with row weights 4, 4, 4, 1 and column weights 1/4, 1/4, 1/4, 1. -/
example : |val (turned.invert 3 0) - (toMatrix (valMat turned))⁻¹ 0 3| ≤ 1 / (1 * (1 / 4)) * ((288 + 3024 * 1) / 2 ^ 24) := by
  have hd : (toMatrix (valMat turned)).det = 1 := by
    rw [← detOf_eq, turned_val]
    simp only [detOf, Mat4.minors, swz, swz2, pick, f4_0, f4_1, f4_2, f4_3, Pi.add_apply, Pi.mul_apply, Pi.sub_apply]
    norm_num
  refine (C84_inverse turned turned_rigid.finite (f4 4 4 4 1) (f4 (1 / 4) (1 / 4) (1 / 4) 1) ?_ ?_ ?_ ?_ ?_ (l := 1) ?_ ?_ 3 0).2
  · apply four <;> apply four <;> norm_num
  · apply four <;> apply four <;> norm_num
  · intro c r
    show |valMat turned c r| ≤ _
    rw [turned_val]
    revert c r
    apply four <;> apply four <;> norm_num
  all_goals try rw [hd]
  all_goals norm_num

/-- A uniform scale, with a power of two. -/
private def scaled (s : F32) : Mat4 F32 := f4 (f4 s ⟨0⟩ ⟨0⟩ ⟨0⟩) (f4 ⟨0⟩ s ⟨0⟩ ⟨0⟩) (f4 ⟨0⟩ ⟨0⟩ s ⟨0⟩) (f4 ⟨0⟩ ⟨0⟩ ⟨0⟩ ⟨0x3f800000⟩)

/-- C84: a lower limit on the determinant is needed: a uniform scale of `2^-22` has an exact inverse, of `2^22`, but the
Newton step overflows and the result is not a number. -/
theorem C84_small_scale : ∃ m : Mat4 F32, (∀ c r, Finite32 (m c r).bits) ∧
    (∀ c r, value32 (m c r).bits = if c = r then if c = 3 then 1 else 1 / 2 ^ 22 else 0) ∧
    NaN32 (m.invert 0 1).bits ∧ Inf32 (m.invert 0 0).bits := by
  refine ⟨scaled ⟨0x34800000⟩, ?_, ?_, ?_, ?_⟩ <;> decide +kernel

/-- C84: and so is an upper limit: with a uniform scale of `2^43` the determinant overflows. -/
theorem C84_large_scale : ∃ m : Mat4 F32, (∀ c r, Finite32 (m c r).bits) ∧
    (∀ c r, value32 (m c r).bits = if c = r then if c = 3 then 1 else 2 ^ 43 else 0) ∧ ∀ c r, NaN32 (m.invert c r).bits := by
  refine ⟨scaled ⟨0x55000000⟩, ?_, ?_, ?_⟩ <;> decide +kernel

end Ozz.Props
