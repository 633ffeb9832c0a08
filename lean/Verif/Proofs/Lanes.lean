import Verif.Spec.Lanes
import Mathlib.Tactic.FinCases
import Mathlib.Data.Fintype.Basic

/-! Helpers for C96: what a lane of a transform holds. -/

namespace Ozz.Lanes

open Spec

variable {α : Type}

/-- Lane `l` of a transform. -/
def laneOf (pad : Vec3 α → α) (s : SoaTransform α) (l : Fin 4) : Transform3A α :=
  ⟨toVec3A pad ⟨s.translation.x l, s.translation.y l, s.translation.z l⟩,
    f4 (s.rotation.x l) (s.rotation.y l) (s.rotation.z l) (s.rotation.w l),
    toVec3A pad ⟨s.scale.x l, s.scale.y l, s.scale.z l⟩⟩

theorem transform_ok (pad : Vec3 α → α) (s : SoaTransform α) {idx : Nat} (h : idx < 4) :
    transform pad s idx = .ok (laneOf pad s ⟨idx, h⟩) := by
  simp [transform, vec3, quat, get4, h, laneOf, bind, Except.bind, pure, Except.pure]

theorem transform_panic (pad : Vec3 α → α) (s : SoaTransform α) {idx : Nat} (h : ¬ idx < 4) :
    transform pad s idx = .error .panic := by
  simp [transform, vec3, get4, h, bind, Except.bind]

theorem setTransform_ok (s : SoaTransform α) {idx : Nat} (h : idx < 4) (t : Transform3A α) :
    ∃ s', setTransform s idx t = .ok s' ∧ (∀ pad, SameTransform (laneOf pad s' ⟨idx, h⟩) t) ∧
      ∀ pad (l : Fin 4), l.val ≠ idx → laneOf pad s' l = laneOf pad s l := by
  refine ⟨_, by simp only [setTransform, setVec3, setQuat, set4, h, if_true, bind, Except.bind, pure, Except.pure]; rfl, ?_, ?_⟩
  · intro pad
    refine ⟨⟨?_, ?_, ?_⟩, ⟨?_, ?_, ?_, ?_⟩, ⟨?_, ?_, ?_⟩⟩ <;> simp [laneOf, toVec3A, f4, toVec3]
  · intro pad l hl
    simp [laneOf, hl]

theorem setTransform_panic (s : SoaTransform α) {idx : Nat} (h : ¬ idx < 4) (t : Transform3A α) :
    setTransform s idx t = .error .panic := by
  simp [setTransform, setVec3, set4, h, bind, Except.bind]

theorem sameTransform_trans {a b c : Transform3A α} (h1 : SameTransform a b) (h2 : SameTransform b c) : SameTransform a c where
  translation := ⟨h1.1.1.trans h2.1.1, h1.1.2.1.trans h2.1.2.1, h1.1.2.2.trans h2.1.2.2⟩
  rotation := ⟨h1.2.1.trans h2.2.1, h1.2.2.1.trans h2.2.2.1, h1.2.2.2.1.trans h2.2.2.2.1, h1.2.2.2.2.trans h2.2.2.2.2⟩
  scale := ⟨h1.3.1.trans h2.3.1, h1.3.2.1.trans h2.3.2.1, h1.3.2.2.trans h2.3.2.2⟩

theorem getJoint_ok (pad : Vec3 α → α) {buf : List (SoaTransform α)} {i : Nat} (h : i / 4 < buf.length) :
    getJoint pad buf i = .ok (laneOf pad buf[i / 4] ⟨i % 4, Nat.mod_lt _ (by decide)⟩) := by
  simp only [getJoint, getIdx, List.getElem?_eq_getElem h, bind, Except.bind]
  exact transform_ok pad _ _

theorem setJoint_ok {buf : List (SoaTransform α)} {i : Nat} (h : i < 4 * buf.length) (t : Transform3A α) :
    ∃ buf', setJoint buf i t = .ok buf' ∧ buf'.length = buf.length ∧
      (∀ pad, ∃ u, getJoint pad buf' i = .ok u ∧ SameTransform u t) ∧
      ∀ pad k, k ≠ i → getJoint pad buf' k = getJoint pad buf k := by
  have hi : i / 4 < buf.length := by omega
  have hm : i % 4 < 4 := Nat.mod_lt _ (by decide)
  obtain ⟨s', e, hs, ho⟩ := setTransform_ok buf[i / 4] hm t
  refine ⟨buf.set (i / 4) s', by simp [setJoint, getIdx, bind, Except.bind, e, setIdx, hi], by simp, ?_, ?_⟩
  · intro pad
    refine ⟨_, getJoint_ok pad (by simpa using hi), ?_⟩
    simpa using hs pad
  · intro pad k hk
    by_cases hkl : k / 4 < buf.length
    · rw [getJoint_ok pad hkl, getJoint_ok pad (by simpa using hkl)]
      congr 1
      by_cases hq : i / 4 = k / 4
      · have := ho pad ⟨k % 4, Nat.mod_lt _ (by decide)⟩ (by show k % 4 ≠ i % 4; omega)
        simpa [← hq] using this
      · simp [hq]
    · have h1 : buf[k / 4]? = none := List.getElem?_eq_none (by omega)
      have h2 : (buf.set (i / 4) s')[k / 4]? = none := List.getElem?_eq_none (by simp; omega)
      simp only [getJoint, getIdx, h1, h2]

theorem lastWrite_cons (joint : Nat) (w : Nat × Transform3A α) (ws : List (Nat × Transform3A α)) :
    lastWrite joint (w :: ws) = (lastWrite joint ws).or (if w.1 = joint then some w.2 else none) := by
  simp only [lastWrite, List.reverse_cons, List.find?_append, List.find?_cons, List.find?_nil]
  cases h : ws.reverse.find? (fun w => w.1 == joint) with
  | some x => simp
  | none =>
    by_cases hw : w.1 = joint
    · simp [hw]
    · simp [hw, show (w.1 == joint) = false by simpa using hw]

theorem sameTransform_refl (a : Transform3A α) : SameTransform a a :=
  ⟨⟨rfl, rfl, rfl⟩, ⟨rfl, rfl, rfl, rfl⟩, ⟨rfl, rfl, rfl⟩⟩

theorem setJoints_ok : ∀ (ws : List (Nat × Transform3A α)) (buf : List (SoaTransform α)), (∀ w ∈ ws, w.1 < 4 * buf.length) →
    ∃ buf', setJoints buf ws = .ok buf' ∧ buf'.length = buf.length ∧ ∀ pad i, i < 4 * buf.length →
      ∃ u, getJoint pad buf' i = .ok u ∧
        match lastWrite i ws with
        | some t => SameTransform u t
        | none => getJoint pad buf i = .ok u := by
  intro ws
  induction ws with
  | nil =>
    intro buf _
    exact ⟨buf, rfl, rfl, fun pad i hi => ⟨_, getJoint_ok pad (by omega), getJoint_ok pad (by omega)⟩⟩
  | cons w ws ih =>
    intro buf hw
    obtain ⟨b1, e1, l1, s1, o1⟩ := setJoint_ok (hw w (by simp)) w.2
    obtain ⟨b2, e2, l2, h2⟩ := ih b1 (fun v hv => by rw [l1]; exact hw v (by simp [hv]))
    refine ⟨b2, by simp [setJoints, e1, bind, Except.bind, e2], l2.trans l1, ?_⟩
    intro pad i hi
    obtain ⟨u, hu, hm⟩ := h2 pad i (by rw [l1]; exact hi)
    refine ⟨u, hu, ?_⟩
    rw [lastWrite_cons]
    cases hl : lastWrite i ws with
    | some t => simpa [hl] using hm
    | none =>
      simp only [hl] at hm
      by_cases hwi : w.1 = i
      · subst hwi
        obtain ⟨v, hv, sv⟩ := s1 pad
        rw [hv] at hm
        cases hm
        simpa using sv
      · rw [o1 pad i (fun h => hwi h.symm)] at hm
        simpa [hwi] using hm

theorem setJoints_panic : ∀ (ws : List (Nat × Transform3A α)) (buf : List (SoaTransform α)), (∃ w ∈ ws, ¬ w.1 < 4 * buf.length) →
    setJoints buf ws = .error .panic := by
  intro ws
  induction ws with
  | nil => rintro _ ⟨w, hw, -⟩; cases hw
  | cons w ws ih =>
    rintro buf ⟨v, hv, hb⟩
    by_cases hw : w.1 < 4 * buf.length
    · obtain ⟨b1, e1, l1, -, -⟩ := setJoint_ok hw w.2
      simp only [setJoints, e1, bind, Except.bind]
      refine ih b1 ⟨v, ?_, by rw [l1]; exact hb⟩
      rcases List.mem_cons.1 hv with rfl | h
      · exact absurd hw hb
      · exact h
    · have h1 : buf[w.1 / 4]? = none := List.getElem?_eq_none (by omega)
      simp [setJoints, setJoint, getIdx, h1, bind, Except.bind]

section
variable [Add α] [Sub α] [Mul α] [Div α] [Neg α] [NumOps α]

theorem localMatrices_lane {s s' : SoaTransform α} {l l' : Fin 4} (pad : Vec3 α → α)
    (h : SameTransform (laneOf pad s l) (laneOf pad s' l')) : LocalToModel.localMatrices s l = LocalToModel.localMatrices s' l' := by
  obtain ⟨⟨t0, t1, t2⟩, ⟨r0, r1, r2, r3⟩, ⟨s0, s1, s2⟩⟩ := h
  simp only [laneOf, toVec3A, f4] at t0 t1 t2 r0 r1 r2 r3 s0 s1 s2
  have key : ∀ (s : SoaTransform α) (l : Fin 4) (c r : Fin 4),
      LocalToModel.localMatrices s l c r = SoaMat4.fromAffine s.translation s.rotation s.scale c r l := by
    intro s l c r
    fin_cases l <;> fin_cases c <;> fin_cases r <;> rfl
  funext c r
  rw [key, key]
  fin_cases c <;> fin_cases r <;>
    simp [SoaMat4.fromAffine, f4, one4, two4, zero4, splat, t0, t1, t2, r0, r1, r2, r3, s0, s1, s2]

end

end Ozz.Lanes
