import Verif.Proofs.Blending
import Verif.Spec.JointBlending
import Mathlib.Data.List.Forall2

/-! Helper lemmas for C98: all of blending is lane by lane. -/

namespace Ozz.Blending

open Spec

variable {α : Type} [Add α] [Sub α] [Mul α] [Div α] [Neg α] [NumOps α]
variable {t t' o o' : SoaTransform α} {l l' : Fin 4} {w w' v v' : F4 α}

theorem same_blend1 (h : SameLane t l t' l') (hw : w l = w' l') : SameLane (blend1 t w) l (blend1 t' w') l' := by
  constructor <;>
    simp only [blend1, SoaVec3.mulNum, SoaQuat.mulNum, Pi.mul_apply, h.tx, h.ty, h.tz, h.rx, h.ry, h.rz, h.rw,
      h.sx, h.sy, h.sz, hw]

theorem same_blendN (h : SameLane t l t' l') (hw : w l = w' l') (ho : SameLane o l o' l') :
    SameLane (blendN t w o) l (blendN t' w' o') l' := by
  constructor <;>
    simp only [blendN, SoaVec3.mulNum, SoaVec3.add, SoaQuat.mulNum, SoaQuat.add, SoaQuat.dot, SoaQuat.xorNum, xor4,
      sign4, Pi.mul_apply, Pi.add_apply, h.tx, h.ty, h.tz, h.rx, h.ry, h.rz, h.rw, h.sx, h.sy, h.sz, hw,
      ho.tx, ho.ty, ho.tz, ho.rx, ho.ry, ho.rz, ho.rw, ho.sx, ho.sy, ho.sz]

theorem same_normalizeBy (hw : w l = w' l') (ho : SameLane o l o' l') :
    SameLane (normalizeBy w o) l (normalizeBy w' o') l' := by
  constructor <;>
    simp only [normalizeBy, SoaVec3.mulNum, SoaQuat.normalize, recip4, sqrt4, Pi.mul_apply, Pi.add_apply, hw,
      ho.tx, ho.ty, ho.tz, ho.rx, ho.ry, ho.rz, ho.rw, ho.sx, ho.sy, ho.sz]

theorem same_blendAdd (h : SameLane t l t' l') (hw : w l = w' l') (hv : v l = v' l') (ho : SameLane o l o' l') :
    SameLane (blendAdd t w v o) l (blendAdd t' w' v' o') l' := by
  constructor <;>
    simp only [blendAdd, interpQuat, SoaVec3.mulNum, SoaVec3.add, SoaQuat.positiveW, SoaQuat.mul, SoaQuat.normalize,
      SoaQuat.xorNum, xor4, sign4, recip4, sqrt4, one4, splat, Pi.mul_apply, Pi.add_apply, Pi.sub_apply,
      h.tx, h.ty, h.tz, h.rx, h.ry, h.rz, h.rw, h.sx, h.sy, h.sz, hw, hv,
      ho.tx, ho.ty, ho.tz, ho.rx, ho.ry, ho.rz, ho.rw, ho.sx, ho.sy, ho.sz]

theorem same_blendSub (h : SameLane t l t' l') (hw : w l = w' l') (hv : v l = v' l') (ho : SameLane o l o' l') :
    SameLane (blendSub t w v o) l (blendSub t' w' v' o') l' := by
  constructor <;>
    simp only [blendSub, interpQuat, SoaVec3.mulNum, SoaVec3.sub, SoaQuat.positiveW, SoaQuat.mul, SoaQuat.normalize,
      SoaQuat.conjugate, SoaQuat.xorNum, xor4, sign4, recip4, sqrt4, one4, splat, Pi.mul_apply, Pi.add_apply,
      Pi.sub_apply, Pi.neg_apply, h.tx, h.ty, h.tz, h.rx, h.ry, h.rz, h.rw, h.sx, h.sy, h.sz, hw, hv,
      ho.tx, ho.ty, ho.tz, ho.rx, ho.ry, ho.rz, ho.rw, ho.sx, ho.sy, ho.sz]

variable {i i' : Nat} {y y' : Layer α} {ls ls' : List (Layer α)}

omit [Add α] [Sub α] [Mul α] [Div α] [Neg α] [NumOps α] in
theorem same_partial (h : SameForJoint i l i' l' y y') : y.isPartial = y'.isPartial := by
  have := h.masked
  unfold Layer.isPartial
  cases hy : y.jointWeights <;> cases hy' : y'.jointWeights <;> simp_all

omit [Add α] [Sub α] [Mul α] [Div α] [Neg α] in
theorem same_jointWeight (h : SameForJoint i l i' l' y y') :
    (y.jointWeights[i]?.getD zero4) l = (y'.jointWeights[i']?.getD zero4) l' := by
  have := h.jointWeight
  cases hy : y.jointWeights[i]? <;> cases hy' : y'.jointWeights[i']? <;> simp_all [zero4, splat]

omit [Add α] [Sub α] [Div α] [Neg α] in
theorem same_maskedBy (h : SameForJoint i l i' l' y y') (x : α) :
    (if y.isPartial then splat x * max4 (y.jointWeights[i]?.getD zero4) zero4 else splat x : F4 α) l =
    (if y'.isPartial then splat x * max4 (y'.jointWeights[i']?.getD zero4) zero4 else splat x : F4 α) l' := by
  rw [same_partial h]
  split
  · simp only [Pi.mul_apply, max4, same_jointWeight h]
    rfl
  · rfl

omit [Add α] [Sub α] [Div α] [Neg α] in
theorem same_weightAt (h : SameForJoint i l i' l' y y') : y.weightAt i l = y'.weightAt i' l' := by
  unfold Layer.weightAt
  rw [h.weight]
  exact same_maskedBy h _

omit [Add α] [Sub α] [Mul α] [Div α] [Neg α] in
theorem same_poseAt (h : SameForJoint i l i' l' y y') : SameLane (y.poseAt i) l (y'.poseAt i') l' := by
  obtain ⟨ts, ts', t, t', h1, h2, h3, h4, h5⟩ := h.pose
  unfold Layer.poseAt
  simp only [h1, h2, h3, h4, Option.getD_some]
  exact h5

omit [Add α] [Sub α] [Mul α] [Div α] [Neg α] in
theorem same_active (h : SameForJoint i l i' l' y y') : y.active = y'.active := by
  unfold Layer.active; rw [h.weight]

omit [Add α] [Sub α] [Mul α] [Div α] [Neg α] in
theorem same_filter (h : List.Forall₂ (SameForJoint i l i' l') ls ls') :
    List.Forall₂ (SameForJoint i l i' l') (ls.filter Layer.active) (ls'.filter Layer.active) := by
  induction h with
  | nil => exact .nil
  | cons h _ ih =>
    rw [List.filter_cons, List.filter_cons, same_active h]
    split
    · exact .cons h ih
    · exact ih

omit [Add α] [Sub α] [Mul α] [Div α] [Neg α] in
theorem same_numActive (h : List.Forall₂ (SameForJoint i l i' l') ls ls') : numActive ls = numActive ls' :=
  (same_filter h).length_eq

omit [Add α] [Sub α] [Mul α] [Div α] [Neg α] in
theorem same_numPartial (h : List.Forall₂ (SameForJoint i l i' l') ls ls') : numPartial ls = numPartial ls' := by
  unfold numPartial
  have hf := same_filter h
  generalize ls.filter Layer.active = fs, ls'.filter Layer.active = fs' at hf ⊢
  induction hf with
  | nil => rfl
  | cons h _ ih =>
    rw [List.filter_cons, List.filter_cons, same_partial h]
    split
    · simp [ih]
    · exact ih

omit [Sub α] [Mul α] [Div α] [Neg α] in
theorem same_sumWeights (h : List.Forall₂ (SameForJoint i l i' l') ls ls') (x : α) :
    sumWeights ls x = sumWeights ls' x := by
  unfold sumWeights
  have hf := same_filter h
  generalize ls.filter Layer.active = fs, ls'.filter Layer.active = fs' at hf ⊢
  induction hf generalizing x with
  | nil => rfl
  | cons h _ ih => rw [List.foldl_cons, List.foldl_cons, h.weight]; exact ih _

/-- Accumulated weights and poses agree at the joint. -/
def SameAcc (l l' : Fin 4) : Option (F4 α × SoaTransform α) → Option (F4 α × SoaTransform α) → Prop
  | none, none => True
  | some p, some p' => p.1 l = p'.1 l' ∧ SameLane p.2 l p'.2 l'
  | _, _ => False

theorem same_jointStep {st st' : Option (F4 α × SoaTransform α)} (hst : SameAcc l l' st st')
    (h : SameForJoint i l i' l' y y') : SameAcc l l' (jointStep i st y) (jointStep i' st' y') := by
  match st, st', hst with
  | none, none, _ => exact ⟨same_weightAt h, same_blend1 (same_poseAt h) (same_weightAt h)⟩
  | some (a, o), some (a', o'), hst =>
    refine ⟨?_, same_blendN (same_poseAt h) (same_weightAt h) hst.2⟩
    have := hst.1
    simp only at this
    simp only [Pi.add_apply, this, same_weightAt h]

theorem same_jointFold {st st' : Option (F4 α × SoaTransform α)} (hst : SameAcc l l' st st')
    (h : List.Forall₂ (SameForJoint i l i' l') ls ls') : SameAcc l l' (jointFold i ls st) (jointFold i' ls' st') := by
  unfold jointFold
  have hf := same_filter h
  generalize ls.filter Layer.active = fs, ls'.filter Layer.active = fs' at hf ⊢
  induction hf generalizing st st' with
  | nil => exact hst
  | cons h _ ih => rw [List.foldl_cons, List.foldl_cons]; exact ih (same_jointStep hst h)

theorem same_additiveStep (ho : SameLane o l o' l') (h : SameForJoint i l i' l' y y') :
    SameLane (additiveStep i o y) l (additiveStep i' o' y') l' := by
  unfold additiveStep
  simp only
  rw [h.weight]
  split
  · refine same_blendAdd (same_poseAt h) (same_maskedBy h _) ?_ ho
    simp only [Pi.sub_apply, one4, splat]
    congr 1
    exact same_maskedBy h _
  · split
    · refine same_blendSub (same_poseAt h) (same_maskedBy h _) ?_ ho
      simp only [Pi.sub_apply, one4, splat]
      congr 1
      exact same_maskedBy h _
    · exact ho

theorem same_additive (ho : SameLane o l o' l') (h : List.Forall₂ (SameForJoint i l i' l') ls ls') :
    SameLane (ls.foldl (additiveStep i) o) l (ls'.foldl (additiveStep i') o') l' := by
  induction h generalizing o o' with
  | nil => exact ho
  | cons h _ ih => rw [List.foldl_cons, List.foldl_cons]; exact ih (same_additiveStep ho h)

omit [Add α] [Sub α] [Mul α] [Neg α] in
theorem recip4_same (h : w l = w' l') : recip4 w l = recip4 w' l' := by simp only [recip4, h]

theorem same_jointBlend {thr : α} {r r' : SoaTransform α} {old old' : F4 α × SoaTransform α}
    (hthr : NumOps.lt NumOps.zero (thr - NumOps.zero) = true)
    (hr : SameLane r l r' l') (h : List.Forall₂ (SameForJoint i l i' l') ls ls') :
    SameLane (jointBlend thr ls r i old) l (jointBlend thr ls' r' i' old') l' := by
  have ea := same_numActive h
  have ep := same_numPartial h
  have es := same_sumWeights h (NumOps.zero : α)
  unfold jointBlend
  by_cases hn : numActive ls = 0
  · have hp : numPartial ls = 0 := by
      unfold numPartial; unfold numActive at hn; rw [List.length_eq_zero_iff.mp hn]; rfl
    have hsw : sumWeights ls NumOps.zero = (NumOps.zero : α) := by
      unfold sumWeights; unfold numActive at hn; rw [List.length_eq_zero_iff.mp hn]; rfl
    simp only [finalWeight, withRest, ← ep, ← ea, ← es, hp, hn, hsw, hthr, if_true]
    exact same_normalizeBy rfl hr
  · have hf := same_jointFold (st := none) (st' := none) trivial h
    obtain ⟨⟨a, o⟩, hx⟩ := jointFold_none i ls hn
    obtain ⟨⟨a', o'⟩, hx'⟩ := jointFold_none i' ls' (ea ▸ hn)
    rw [hx, hx'] at hf
    rw [hx, hx']
    obtain ⟨f1, f2⟩ := hf
    simp only [Option.getD_some] at f1 f2 ⊢
    refine same_normalizeBy (recip4_same ?_) ?_
    · unfold finalWeight
      simp only [← ep, ← ea, ← es, hn, if_false]
      split
      · split <;> rfl
      · simp only [max4, splat, f1]
    · unfold withRest
      simp only [← ep, ← ea, ← es, hn, if_false]
      split
      · split
        · exact same_blendN hr rfl f2
        · exact f2
      · refine same_blendN hr ?_ f2
        simp only [max4, Pi.sub_apply, splat, f1, zero4]

end Ozz.Blending
