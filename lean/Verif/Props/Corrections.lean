import Verif.Proofs.Corrections
import Verif.Props.IKPole
import Verif.Props.IKAim

/-!
Property theorems about the corrections of the IK jobs when they are applied to the pose, in exact arithmetic: C91.
-/

namespace Ozz.Props

open Spec Corrections Pipeline
open LocalToModel (localMatrices)

/-- Re-running from a corrected joint gives the model matrices of the corrected pose; the other joints keep theirs. -/
private theorem rerun {l : LocalToModel.Job (SoaTransform ℝ) (Mat4 ℝ)} {buf : List (Mat4 ℝ)} {pose pose' : Nat → JointPose}
    (P : Posed l buf pose) {s : Nat} (hs : s < l.parents.length) {locals : List (SoaTransform ℝ)}
    (hlen : locals.length = l.input.length) (hpose : ∀ i < l.parents.length, jointPose locals i = some (pose' i))
    (hsame : ∀ i < l.parents.length, ¬ Desc l.parents s i → pose' i = pose i)
    (hu : ∀ i < l.parents.length, Quaternion.normSq (pose' i).rotation = 1)
    (hr : ∀ i < l.parents.length, (pose' i).Regular) {out : List (Mat4 ℝ)}
    (hout : LocalToModel.run Mat4.mul localMatrices l buf = .ok out) :
    ∃ out', LocalToModel.run Mat4.mul localMatrices { l with input := locals, from_ := s } out = .ok out' ∧
      (∀ i < l.parents.length, ¬ Desc l.parents s i → out'[i]? = out[i]?) ∧
      ∀ i < l.parents.length, ∃ m path, out'[i]? = some m ∧ PathTo l.parents i path ∧ ModelAt l.root pose' path m := by
  have hv := P.valid
  simp only [LocalToModel.validate, Bool.and_eq_true, decide_eq_true_eq] at hv
  obtain ⟨o1, o2, o3, h1, h2, h3, rfl⟩ := C30_incremental_eq_full Mat4.mul localMatrices { l with input := locals } P.order s hs P.upto
    P.most l.input hv.1 (by rw [hlen]; exact hv.1) (fun i hi hn m => local_same (by
      rw [hpose i hi, hsame i hi hn, P.holds i hi]) m) buf hv.2
  have e1 : ({ l with input := l.input, from_ := -1, fromExcluded := false } : LocalToModel.Job (SoaTransform ℝ) (Mat4 ℝ)) = l := by
    rw [← P.from_, ← P.excl]
  have h1' : LocalToModel.run Mat4.mul localMatrices l buf = .ok o1 := by rw [← h1]; exact congrArg (LocalToModel.run _ _ · buf) e1.symm
  have ho : o1 = out := by
    rw [h1'] at hout
    exact Except.ok.inj hout
  subst ho
  have h2' : LocalToModel.run Mat4.mul localMatrices { l with input := locals, from_ := s } o1 = .ok o2 := by
    rw [← h2]; simp only [P.excl]
  refine ⟨o2, h2', fun i hi hn => ?_, ?_⟩
  · obtain ⟨o, g1, -, g2, -⟩ := C29_partial_update Mat4.mul localMatrices { l with input := locals, from_ := s } o1 P.order (by
      obtain ⟨o', k1, k2, -⟩ := full_models l buf P.order.1 P.valid pose P.holds P.unit P.regular P.affine P.det (by rw [P.from_]; norm_num)
        (by rw [P.from_]; norm_num) P.upto P.most
      rw [h1'] at k1
      have := Except.ok.inj k1
      simp only [LocalToModel.validate, Bool.and_eq_true, decide_eq_true_eq]
      rw [hlen, this, k2]
      exact hv) (by show (-(2:Int)^31 ≤ (s : Int)); norm_num) (by
        show (s : Int) < 2^31 - 1
        have := P.upto
        have := P.most
        omega) (by
        show (-(2:Int)^31 ≤ l.to)
        have := P.upto
        norm_num; omega) P.most
    rw [h2'] at g1
    have := Except.ok.inj g1
    subst this
    refine g2 i ?_
    rintro ⟨-, -, h | ⟨a, ha, hd, -⟩⟩
    · have h : (s : Int) < 0 := h
      omega
    · have ha : (s : Int) = a := ha
      have : a = s := by omega
      subst this
      exact hn hd
  · obtain ⟨o, k1, -, k2⟩ := full_models { l with input := locals, from_ := -1, fromExcluded := false } buf P.order.1 (by
      simp only [LocalToModel.validate, Bool.and_eq_true, decide_eq_true_eq]
      rw [hlen]
      exact hv) pose' hpose hu hr P.affine P.det (by show (-(2:Int)^31 ≤ -1); norm_num)
        (by show (-1 : Int) < 0; norm_num) P.upto P.most
    rw [h3] at k1
    have := Except.ok.inj k1
    subst this
    exact k2

private theorem conj_zero (c : Quaternion ℝ) : c * 0 * c⁻¹ = 0 := by rw [mul_zero, zero_mul]

private theorem along_one (pose : Nat → JointPose) (k : Nat) (v : Quaternion ℝ) : moveAlong pose [k] v = (pose k).move v := rfl

private theorem pure_zero : pureQuat (f4 0 0 0 0) = 0 := by
  ext <;> simp [pureQuat] <;> rfl

private theorem uniform_regular {p : JointPose} (h : p.Uniform) : p.Regular := by
  obtain ⟨c, hc, hs⟩ := h
  rw [JointPose.Regular, hs]
  exact ⟨hc, hc, hc⟩

private theorem turn_unit {p : JointPose} {c : F4 ℝ} (hp : Quaternion.normSq p.rotation = 1) (hc : UnitQuat c) :
    Quaternion.normSq (p.turn (toQuat c)).rotation = 1 := by
  unfold UnitQuat at hc
  simp only [JointPose.turn, map_mul, hp, hc, mul_one]

/-- C91: multiplying the local rotation of a joint by a correction turns the space of that joint by the correction before
its pose applies, and changes no other joint. -/
theorem C91_apply {qmul : F4 ℝ → F4 ℝ → F4 ℝ} (hq : ∀ a b, toQuat (qmul a b) = toQuat a * toQuat b)
    {locals : List (SoaTransform ℝ)} {i : Nat} (c : F4 ℝ) {p : JointPose} (hp : jointPose locals i = some p) :
    ∃ locals' p', applyCorrection qmul locals i c = Except.ok locals' ∧ locals'.length = locals.length ∧ jointPose locals' i = some p' ∧
      (∀ k, k ≠ i → jointPose locals' k = jointPose locals k) ∧
      (p.Uniform → ∀ v x : F4 ℝ, Turns c v x → p'.move (pureQuat v) = p.move (pureQuat x)) := by
  obtain ⟨locals', h1, h2, h3, h4⟩ := apply_ok hq (c := c) hp
  refine ⟨locals', _, h1, h2, h3, h4, fun hu v x hx => ?_⟩
  rw [move_turn hu _ rfl, hx]

/-- C91: correct a start joint and a middle joint below it and update the model matrices from the start joint on. Then the
end joint is where the corrections send it: turned by the middle correction in the space the middle joint had (`ε` to `ε'`),
and turned by the start correction in the space the start joint had (`p` to `x`). The start joint stays where it is, and
joints that are not below it keep their model matrices. -/
theorem C91_moves {qmul : F4 ℝ → F4 ℝ → F4 ℝ} (hq : ∀ a b, toQuat (qmul a b) = toQuat a * toQuat b)
    {l : LocalToModel.Job (SoaTransform ℝ) (Mat4 ℝ)} {buf : List (Mat4 ℝ)} {pose : Nat → JointPose} (P : Posed l buf pose)
    {s m e : Nat} (hsm : Desc l.parents s m) (hne : s ≠ m) (hme : Desc l.parents m e) (hs : (pose s).Uniform) (hm : (pose m).Uniform) :
    ∃ out S M E, LocalToModel.run Mat4.mul localMatrices l buf = .ok out ∧ out[s]? = some S ∧ out[m]? = some M ∧ out[e]? = some E ∧
      ∀ cs cm : F4 ℝ, UnitQuat cs → UnitQuat cm → ∃ locals₁ locals₂ out' S' E',
        applyCorrection qmul l.input s cs = Except.ok locals₁ ∧ applyCorrection qmul locals₁ m cm = Except.ok locals₂ ∧
        LocalToModel.run Mat4.mul localMatrices { l with input := locals₂, from_ := s } out = .ok out' ∧
        out'[s]? = some S' ∧ out'[e]? = some E' ∧ Same3 (S' 3) (S 3) ∧
        (∀ i < l.parents.length, ¬ Desc l.parents s i → out'[i]? = out[i]?) ∧
        ∀ ε ε' y p x : F4 ℝ, SendsPoint M ε (E 3) → Turns cm ε ε' → SendsPoint M ε' y → SendsPoint S p y → Turns cs p x →
          SendsPoint S x (E' 3) := by
  have hsl : s < l.parents.length := lt_of_le_of_lt (Desc.le P.order.1 hsm) (Desc.lt hsm)
  have hml := Desc.lt hsm
  have hel := Desc.lt hme
  obtain ⟨out, h1, -, h2⟩ := full_models l buf P.order.1 P.valid pose P.holds P.unit P.regular P.affine P.det (by rw [P.from_]; norm_num)
    (by rw [P.from_]; norm_num) P.upto P.most
  obtain ⟨S, ls, hS, pS, mS⟩ := h2 s hsl
  obtain ⟨M, lm, hM, pM, mM⟩ := h2 m hml
  obtain ⟨E, le, hE, pE, mE⟩ := h2 e hel
  refine ⟨out, S, M, E, h1, hS, hM, hE, fun cs cm ucs ucm => ?_⟩
  obtain ⟨b, pb, hb, hb'⟩ := path_through P.order.1 hsm pS
  obtain ⟨b0, rfl, hb0⟩ := hb' hne
  have := LocalToModel.pathTo_unique pM pb
  subst this
  obtain ⟨d, pd, hd, -⟩ := path_through P.order.1 hme pM
  have := LocalToModel.pathTo_unique pE pd
  subst this
  obtain ⟨a, rfl, ha⟩ := path_end P.order.1 pS
  have hres : ∀ k < l.parents.length, (pose k).translation.re = 0 := fun k hk => jointPose_re (P.holds k hk)
  have hin : ∀ k ∈ (a ++ [s] ++ (b0 ++ [m])) ++ d, k < l.parents.length := path_lt pd
  have hre : ∀ {q : List Nat}, (∀ k ∈ q, k ∈ (a ++ [s] ++ (b0 ++ [m])) ++ d) → ∀ {v : Quaternion ℝ}, v.re = 0 → (moveAlong pose q v).re = 0 :=
    fun hq v hv => moveAlong_re (fun k hk => hres k (hin k (hq k hk))) (fun k hk => P.unit k (hin k (hq k hk))) hv
  -- the corrected locals
  obtain ⟨locals₁, a1, a2, a3, a4⟩ := apply_ok hq (c := cs) (P.holds s hsl)
  obtain ⟨locals₂, c1, c2, c3, c4⟩ := apply_ok hq (c := cm) (locals := locals₁) (i := m) (p := pose m)
    (by rw [a4 m (Ne.symm hne), P.holds m hml])
  obtain ⟨pose', hpose'⟩ : ∃ f : Nat → JointPose, f = fun k => if k = m then (pose m).turn (toQuat cm)
      else if k = s then (pose s).turn (toQuat cs) else pose k := ⟨_, rfl⟩
  have p1 : pose' m = (pose m).turn (toQuat cm) := by rw [hpose']; simp
  have p2 : pose' s = (pose s).turn (toQuat cs) := by rw [hpose']; simp [hne]
  have p3 : ∀ k, k ≠ s → k ≠ m → pose' k = pose k := fun k k1 k2 => by rw [hpose']; simp [k1, k2]
  clear hpose'
  have hcase : ∀ (Q : JointPose → Prop) (k : Nat), Q ((pose m).turn (toQuat cm)) → Q ((pose s).turn (toQuat cs)) → Q (pose k) → Q (pose' k) := by
    intro Q k q1 q2 q3
    by_cases k1 : k = m
    · rw [k1, p1]; exact q1
    by_cases k2 : k = s
    · rw [k2, p2]; exact q2
    rw [p3 k k2 k1]; exact q3
  have hholds : ∀ i < l.parents.length, jointPose locals₂ i = some (pose' i) := by
    intro i hi
    by_cases k1 : i = m
    · rw [k1, c3, p1]
    by_cases k2 : i = s
    · rw [k2, c4 s hne, a3, p2]
    rw [c4 i k1, a4 i k2, P.holds i hi, p3 i k2 k1]
  obtain ⟨out', r1, r2, r3⟩ := rerun P hsl (locals := locals₂) (by rw [c2, a2]) hholds
    (fun i _ hn => p3 i (fun h => hn (by rw [h]; exact .refl hsl)) (fun h => hn (by rw [h]; exact hsm)))
    (fun i hi => hcase (fun p => Quaternion.normSq p.rotation = 1) i (turn_unit (P.unit m hml) ucm) (turn_unit (P.unit s hsl) ucs) (P.unit i hi))
    (fun i hi => hcase (fun p => p.Regular) i (P.regular m hml) (P.regular s hsl) (P.regular i hi)) h1
  obtain ⟨S', ls', hS', pS', mS'⟩ := r3 s hsl
  obtain ⟨E', le', hE', pE', mE'⟩ := r3 e hel
  have := LocalToModel.pathTo_unique pS' pS
  subst this
  have := LocalToModel.pathTo_unique pE' pd
  subst this
  have sa : ∀ v, moveAlong pose' a v = moveAlong pose a v := moveAlong_same fun k hk => p3 k (by have := ha k hk; omega)
    (by have := ha k hk; have := Desc.le P.order.1 hsm; omega)
  have sb : ∀ v, moveAlong pose' b0 v = moveAlong pose b0 v := moveAlong_same fun k hk => p3 k
    (by have := (hb k (by simp [hk])).1; omega) (by have := hb0 k hk; omega)
  have sd : ∀ v, moveAlong pose' d v = moveAlong pose d v := moveAlong_same fun k hk => p3 k
    (by have := (hd k hk).1; have := Desc.le P.order.1 hsm; omega) (by have := (hd k hk).1; omega)
  refine ⟨locals₁, locals₂, out', S', E', a1, c1, r1, hS', hE', ?_, r2, ?_⟩
  · have z0 : moveAlong pose' (a ++ [s]) (pureQuat (f4 0 0 0 0)) = moveAlong pose (a ++ [s]) (pureQuat (f4 0 0 0 0)) := by
      rw [moveAlong_append, moveAlong_append, sa]
      rw [along_one, along_one, p2, move_turn hs _ (by rw [pure_zero]; rfl), pure_zero, conj_zero]
    obtain ⟨z, hz⟩ := pure_exists (hre (q := a ++ [s]) (by intro k hk; simp only [List.mem_append] at hk ⊢; tauto) (v := pureQuat (f4 0 0 0 0)) rfl)
    have e1 := mS.point _ z hz
    have e2 := mS'.point _ z (hz.trans z0.symm)
    have e3 := IK.sendsPoint_iff.mp (origin_point S)
    have e4 := IK.sendsPoint_iff.mp (origin_point S')
    rw [e1] at e3
    rw [e2] at e4
    exact IK.Same3.trans e4 (IK.Same3.symm e3)
  · intro ε ε' y p x hε hε' hy hp hx
    -- the end joint in the space of the middle joint
    have d1 : (moveAlong pose d (pureQuat (f4 0 0 0 0))).re = 0 := hre (by intro k hk; simp only [List.mem_append] at hk ⊢; tauto) rfl
    obtain ⟨ε₀, hε₀⟩ := pure_exists d1
    have e0 : Same3 ε ε₀ := sends_unique mM.affine mM.det hε (IK.sendsPoint_iff.mpr (by
      rw [← model_relative mM mE hε₀ (hre (by intro k hk; simp only [List.mem_append] at hk ⊢; tauto) rfl)]
      exact IK.sendsPoint_iff.mp (origin_point E)))
    -- bent, in the space of the start joint
    have d2 : (moveAlong pose (b0 ++ [m]) (pureQuat ε')).re = 0 := hre (by intro k hk; simp only [List.mem_append] at hk ⊢; tauto) rfl
    obtain ⟨p₀, hp₀⟩ := pure_exists d2
    have e1 : Same3 p p₀ := sends_unique mS.affine mS.det hp (IK.sendsPoint_iff.mpr (by
      rw [← model_relative mS mM hp₀ (hre (by intro k hk; simp only [List.mem_append] at hk ⊢; tauto) rfl)]
      exact IK.sendsPoint_iff.mp hy))
    -- the corrected end joint
    have t1 : pureQuat ε' = toQuat cm * pureQuat ε * (toQuat cm)⁻¹ := hε'
    have t2 : pureQuat x = toQuat cs * pureQuat p * (toQuat cs)⁻¹ := hx
    have key : moveAlong pose' (a ++ [s] ++ (b0 ++ [m]) ++ d) (pureQuat (f4 0 0 0 0)) = moveAlong pose (a ++ [s]) (pureQuat x) := by
      rw [moveAlong_append, sd, ← hε₀, ← IK.pureQuat_same e0, moveAlong_append, moveAlong_append pose' b0 [m]]
      have k1 : moveAlong pose' [m] (pureQuat ε) = moveAlong pose [m] (pureQuat ε') := by
        rw [along_one, along_one, p1, move_turn hm _ rfl, ← t1]
      rw [k1, sb, ← moveAlong_append pose b0 [m], ← hp₀, ← IK.pureQuat_same e1, moveAlong_append, sa, moveAlong_append pose a [s]]
      refine congrArg _ ?_
      rw [along_one, along_one, p2, move_turn hs _ rfl, ← t2]
    obtain ⟨z, hz⟩ := pure_exists (hre (q := a ++ [s]) (by intro k hk; simp only [List.mem_append] at hk ⊢; tauto) (v := pureQuat x) rfl)
    have f1 := mS.point x z hz
    have f2 := mE'.point _ z (hz.trans key.symm)
    have f3 := IK.sendsPoint_iff.mp (origin_point E')
    rw [f2, ← f1] at f3
    exact IK.sendsPoint_iff.mpr f3

/-- C91: between model matrices of one pose, a joint is a similarity of an ancestor if the joints between them have the same
scale on all axes; all model matrices are affine and invertible. -/
theorem C91_chain {l : LocalToModel.Job (SoaTransform ℝ) (Mat4 ℝ)} {buf : List (Mat4 ℝ)} {pose : Nat → JointPose} (P : Posed l buf pose)
    {s m : Nat} (hsm : Desc l.parents s m) (hs : ∀ k, Desc l.parents s k → Desc l.parents k m → k ≠ s → (pose k).Uniform)
    {out : List (Mat4 ℝ)} (hout : LocalToModel.run Mat4.mul localMatrices l buf = .ok out) {S M : Mat4 ℝ} (hS : out[s]? = some S)
    (hM : out[m]? = some M) : AffineMat S ∧ (toMatrix S).det ≠ 0 ∧ AffineMat M ∧ (toMatrix M).det ≠ 0 ∧
      ∃ k : ℝ, ∀ v w v' w' x y, SendsVector M v x → SendsVector S v' x → SendsVector M w y → SendsVector S w' y →
        dot3 v' w' = k * dot3 v w := by
  have hsl : s < l.parents.length := lt_of_le_of_lt (Desc.le P.order.1 hsm) (Desc.lt hsm)
  have hml := Desc.lt hsm
  obtain ⟨o, h1, -, h2⟩ := full_models l buf P.order.1 P.valid pose P.holds P.unit P.regular P.affine P.det (by rw [P.from_]; norm_num)
    (by rw [P.from_]; norm_num) P.upto P.most
  rw [h1] at hout
  have := Except.ok.inj hout
  subst this
  obtain ⟨S₀, ls, hS₀, pS, mS⟩ := h2 s hsl
  obtain ⟨M₀, lm, hM₀, pM, mM⟩ := h2 m hml
  rw [hS₀] at hS
  rw [hM₀] at hM
  cases hS
  cases hM
  refine ⟨mS.affine, mS.det, mM.affine, mM.det, ?_⟩
  obtain ⟨b, pb, hb, -⟩ := path_through P.order.1 hsm pS
  have := LocalToModel.pathTo_unique pM pb
  subst this
  have hin : ∀ k ∈ ls ++ b, k < l.parents.length := path_lt pb
  have hre : ∀ {q : List Nat}, (∀ k ∈ q, k ∈ ls ++ b) → ∀ {v : Quaternion ℝ}, v.re = 0 → (moveAlong pose q v).re = 0 :=
    fun hq v hv => moveAlong_re (fun k hk => jointPose_re (P.holds k (hin k (hq k hk)))) (fun k hk => P.unit k (hin k (hq k hk))) hv
  obtain ⟨c, hc⟩ := moveAlong_similar (pose := pose) (l := b) (fun k hk => jointPose_re (P.holds k (hin k (by simp [hk]))))
    (fun k hk => P.unit k (hin k (by simp [hk]))) (fun k hk => hs k (hb k hk).2.2.1 (hb k hk).2.2.2 (by have := (hb k hk).1; omega))
  -- images of points
  have him : ∀ p : F4 ℝ, ∃ q : F4 ℝ, pureQuat q = moveAlong pose b (pureQuat p) ∧ M.transformPoint p = S.transformPoint q := by
    intro p
    obtain ⟨q, hq⟩ := pure_exists (hre (q := b) (by intro k hk; simp [hk]) (v := pureQuat p) rfl)
    exact ⟨q, hq, model_relative mS mM hq (hre (by intro k hk; simp [hk]) rfl)⟩
  obtain ⟨o', ho', hoM⟩ := him (f4 0 0 0 0)
  -- images of vectors
  have hvec : ∀ v v' x : F4 ℝ, SendsVector M v x → SendsVector S v' x → ∃ q : F4 ℝ, pureQuat q = moveAlong pose b (pureQuat v) ∧
      v' 0 = q 0 - o' 0 ∧ v' 1 = q 1 - o' 1 ∧ v' 2 = q 2 - o' 2 := by
    intro v v' x hv hv'
    obtain ⟨q, hq, hqM⟩ := him v
    refine ⟨q, hq, ?_⟩
    have hd : SendsVector S (q - o') x := by
      rw [IK.sendsVector_iff] at hv ⊢
      refine IK.Same3.trans hv ?_
      have a1 := IK.transformPoint_add M (f4 0 0 0 0) v
      have a2 := IK.transformPoint_add S o' (q - o')
      have a3 : (f4 0 0 0 0 : F4 ℝ) + v = v := by apply ext4 <;> simp
      have a4 : o' + (q - o') = q := by apply ext4 <;> simp
      rw [a3, hqM, hoM] at a1
      rw [a4, a1] at a2
      have a5 := add_left_cancel a2
      rw [a5]
      exact IK.Same3.refl _
    have e1 := IK.vector_invert mS.affine mS.det hv'
    have e2 := IK.vector_invert mS.affine mS.det hd
    exact IK.Same3.trans (IK.Same3.symm e1) e2
  refine ⟨c, fun v w v' w' x y hv hv' hw hw' => ?_⟩
  obtain ⟨q, hq, q0, q1, q2⟩ := hvec v v' x hv hv'
  obtain ⟨r, hr, r0, r1, r2⟩ := hvec w w' y hw hw'
  have n1 := hc (pureQuat v) (pureQuat (f4 0 0 0 0)) rfl rfl
  have n2 := hc (pureQuat w) (pureQuat (f4 0 0 0 0)) rfl rfl
  have n3 := hc (pureQuat v) (pureQuat w) rfl rfl
  rw [← hq, ← ho', normSq_pure_sub, normSq_pure_sub] at n1
  rw [← hr, ← ho', normSq_pure_sub, normSq_pure_sub] at n2
  rw [← hq, ← hr, normSq_pure_sub, normSq_pure_sub] at n3
  simp only [dot3, Pi.sub_apply, f4_0, f4_1, f4_2, sub_zero] at n1 n2 n3 ⊢
  rw [q0, q1, q2, r0, r1, r2]
  linear_combination (n1 + n2 - n3) / 2

/-- C91: correct one joint and update the model matrices from it on. Its new model matrix sends a point where the old one
sends the turned point; joints that are not below it keep their model matrices. -/
theorem C91_turns {qmul : F4 ℝ → F4 ℝ → F4 ℝ} (hq : ∀ a b, toQuat (qmul a b) = toQuat a * toQuat b)
    {l : LocalToModel.Job (SoaTransform ℝ) (Mat4 ℝ)} {buf : List (Mat4 ℝ)} {pose : Nat → JointPose} (P : Posed l buf pose)
    {i : Nat} (hi : i < l.parents.length) (hs : (pose i).Uniform) :
    ∃ out J, LocalToModel.run Mat4.mul localMatrices l buf = .ok out ∧ out[i]? = some J ∧ AffineMat J ∧ (toMatrix J).det ≠ 0 ∧
      ∀ c : F4 ℝ, UnitQuat c → ∃ locals out' J', applyCorrection qmul l.input i c = Except.ok locals ∧
        LocalToModel.run Mat4.mul localMatrices { l with input := locals, from_ := i } out = .ok out' ∧ out'[i]? = some J' ∧
        (∀ k < l.parents.length, ¬ Desc l.parents i k → out'[k]? = out[k]?) ∧
        ∀ v x y : F4 ℝ, Turns c v x → (SendsPoint J' v y ↔ SendsPoint J x y) := by
  obtain ⟨out, h1, -, h2⟩ := full_models l buf P.order.1 P.valid pose P.holds P.unit P.regular P.affine P.det (by rw [P.from_]; norm_num)
    (by rw [P.from_]; norm_num) P.upto P.most
  obtain ⟨J, li, hJ, pJ, mJ⟩ := h2 i hi
  refine ⟨out, J, h1, hJ, mJ.affine, mJ.det, fun c hc => ?_⟩
  obtain ⟨locals, a1, a2, a3, a4⟩ := apply_ok hq (c := c) (P.holds i hi)
  obtain ⟨pose', hpose'⟩ : ∃ f : Nat → JointPose, f = fun k => if k = i then (pose i).turn (toQuat c) else pose k := ⟨_, rfl⟩
  have p1 : pose' i = (pose i).turn (toQuat c) := by rw [hpose']; simp
  have p2 : ∀ k, k ≠ i → pose' k = pose k := fun k k1 => by rw [hpose']; simp [k1]
  clear hpose'
  obtain ⟨out', r1, r2, r3⟩ := rerun P hi (locals := locals) (pose' := pose') a2
    (fun k hk => by
      by_cases k1 : k = i
      · rw [k1, a3, p1]
      · rw [a4 k k1, P.holds k hk, p2 k k1])
    (fun k _ hn => p2 k fun h => hn (by rw [h]; exact .refl hi))
    (fun k hk => by
      by_cases k1 : k = i
      · rw [k1, p1]; exact turn_unit (P.unit i hi) hc
      · rw [p2 k k1]; exact P.unit k hk)
    (fun k hk => by
      by_cases k1 : k = i
      · rw [k1, p1]; exact P.regular i hi
      · rw [p2 k k1]; exact P.regular k hk) h1
  obtain ⟨J', li', hJ', pJ', mJ'⟩ := r3 i hi
  have := LocalToModel.pathTo_unique pJ' pJ
  subst this
  refine ⟨locals, out', J', a1, r1, hJ', r2, fun v x y hx => ?_⟩
  obtain ⟨a, rfl, ha⟩ := path_end P.order.1 pJ
  have hin := path_lt pJ
  have t1 : pureQuat x = toQuat c * pureQuat v * (toQuat c)⁻¹ := hx
  have key : moveAlong pose' (a ++ [i]) (pureQuat v) = moveAlong pose (a ++ [i]) (pureQuat x) := by
    rw [moveAlong_append, moveAlong_append, along_one, along_one, p1, move_turn hs _ rfl, ← t1]
    exact moveAlong_same (fun k hk => p2 k (by have := ha k hk; omega)) _
  obtain ⟨z, hz⟩ := pure_exists (moveAlong_re (pose := pose) (l := a ++ [i]) (fun k hk => jointPose_re (P.holds k (hin k hk)))
    (fun k hk => P.unit k (hin k hk)) (v := pureQuat x) rfl)
  rw [IK.sendsPoint_iff, IK.sendsPoint_iff, mJ.point x z hz, mJ'.point v z (hz.trans key.symm)]

private theorem turns_exists (q v : F4 ℝ) : ∃ x, Turns q v x := by
  obtain ⟨x, hx⟩ := pure_exists (conj_re (c := toQuat q) (v := pureQuat v) rfl)
  exact ⟨x, hx⟩

private theorem sends_exists (m : Mat4 ℝ) (v : F4 ℝ) : ∃ x, SendsPoint m v x :=
  ⟨_, IK.sendsPoint_iff.mpr (IK.Same3.refl _)⟩

private theorem comes_exists {m : Mat4 ℝ} (ha : AffineMat m) (hd : (toMatrix m).det ≠ 0) (y : F4 ℝ) : ∃ v, SendsPoint m v y :=
  ⟨_, IK.sendsPoint_iff.mpr (IK.Same3.symm (IK.invert_point ha hd y))⟩

private theorem sends_same {m : Mat4 ℝ} {v x y : F4 ℝ} (h : SendsPoint m v x) (h' : SendsPoint m v y) : Same3 x y :=
  IK.Same3.trans (IK.sendsPoint_iff.mp h) (IK.Same3.symm (IK.sendsPoint_iff.mp h'))

/-- C91: the two-bone job end to end. Compute the model matrices, run the two-bone job on those of three joints, one below the
other, multiply the local rotations of the first two by the corrections and update the model matrices from the first on. If
the job reported reached, the end joint is at the target: exactly, unless the bent chain points almost opposite to the target,
and within `1.5e-3` of the distance (in the space of the start joint) then.
`μ` and `ε` are the start and the end joint in the space of the middle joint, `τ` and `π` target and pole vector in the space
of the start joint. -/
theorem C91_reaches {qmul : F4 ℝ → F4 ℝ → F4 ℝ} (hq : ∀ a b, toQuat (qmul a b) = toQuat a * toQuat b)
    {l : LocalToModel.Job (SoaTransform ℝ) (Mat4 ℝ)} {buf : List (Mat4 ℝ)} {pose : Nat → JointPose} (P : Posed l buf pose)
    {s m e : Nat} (hsm : Desc l.parents s m) (hne : s ≠ m) (hme : Desc l.parents m e)
    (hs : ∀ k, Desc l.parents s k → Desc l.parents k m → (pose k).Uniform) :
    ∃ out S M E, LocalToModel.run Mat4.mul localMatrices l buf = .ok out ∧ out[s]? = some S ∧ out[m]? = some M ∧ out[e]? = some E ∧
      ∀ j j' : IK.TwoBone ℝ, j.startJoint = S → j.midJoint = M → j.endJoint = E → j.run idealTrig = .ok j' → j'.reached = true →
      dot3 j.midAxis j.midAxis = 1 → ∀ μ ε τ π : F4 ℝ, SendsPoint M μ (S 3) → SendsPoint M ε (E 3) → dot3 j.midAxis μ = 0 →
      dot3 j.midAxis ε = 0 → SendsPoint S τ j.target → 1 / 1000000 ≤ dot3 τ τ → SendsVector S π j.poleVector →
      dot3 τ π ^ 2 < dot3 τ τ * dot3 π π → ∃ locals₁ locals₂ out' E',
        applyCorrection qmul l.input s j'.startCorrection = Except.ok locals₁ ∧
        applyCorrection qmul locals₁ m j'.midCorrection = Except.ok locals₂ ∧
        LocalToModel.run Mat4.mul localMatrices { l with input := locals₂, from_ := s } out = .ok out' ∧ out'[e]? = some E' ∧
        (∀ ε' y p, Turns j'.midCorrection ε ε' → SendsPoint M ε' y → SendsPoint S p y → -(1 - 1 / 1000000) * dot3 τ τ ≤ dot3 p τ →
          Same3 (E' 3) j.target) ∧
        ∃ x, SendsPoint S x (E' 3) ∧ dist2 x τ ≤ 2 / 1000000 * dot3 τ τ := by
  have hsl : s < l.parents.length := lt_of_le_of_lt (Desc.le P.order.1 hsm) (Desc.lt hsm)
  obtain ⟨out, S, M, E, h1, hS, hM, hE, h⟩ := C91_moves hq P hsm hne hme (hs s (.refl hsl) hsm) (hs m hsm (.refl (Desc.lt hsm)))
  obtain ⟨aS, dS, aM, dM, k, hk⟩ := C91_chain P hsm (fun k h1 h2 _ => hs k h1 h2) h1 hS hM
  refine ⟨out, S, M, E, h1, hS, hM, hE, ?_⟩
  rintro j j' rfl rfl rfl hrun hr ha μ ε τ π hμ hε haμ haε hτ hfar hπ hpole
  have hw := C52_reached_full_weight hrun hr
  have hw : 1 ≤ j.weight := by simpa using hw
  obtain ⟨ucs, ucm⟩ := C52_unit hrun (by linarith) ha aS dS hτ hπ hpole
  obtain ⟨locals₁, locals₂, out', S', E', g1, g2, g3, -, g5, -, -, g⟩ := h _ _ ucs ucm
  refine ⟨locals₁, locals₂, out', E', g1, g2, g3, g5, fun ε' y p hε' hy hp hc => ?_, ?_⟩
  · obtain ⟨x, hx⟩ := turns_exists j'.startCorrection p
    have c := (C53_reaches_partial hrun hr aS dS aM dM hk ha hμ hε haμ haε hτ hfar hπ hpole hε' hy hp hx).1 hc
    exact sends_same (g ε ε' y p x hε hε' hy hp hx) c
  · obtain ⟨ε', hε'⟩ := turns_exists j'.midCorrection ε
    obtain ⟨y, hy⟩ := sends_exists j.midJoint ε'
    obtain ⟨p, hp⟩ := comes_exists aS dS y
    obtain ⟨x, hx⟩ := turns_exists j'.startCorrection p
    exact ⟨x, g ε ε' y p x hε hε' hy hp hx,
      (C53_reaches_partial hrun hr aS dS aM dM hk ha hμ hε haμ haε hτ hfar hπ hpole hε' hy hp hx).2⟩

/-- C91: the same for any target, softened or out of reach: at full weight the end joint ends up at the softened distance from
the start joint (measured in the space of the start joint), within what the bones can span, and in the direction of the
target unless the bent chain points almost opposite to it. -/
theorem C91_soft {qmul : F4 ℝ → F4 ℝ → F4 ℝ} (hq : ∀ a b, toQuat (qmul a b) = toQuat a * toQuat b)
    {l : LocalToModel.Job (SoaTransform ℝ) (Mat4 ℝ)} {buf : List (Mat4 ℝ)} {pose : Nat → JointPose} (P : Posed l buf pose)
    {s m e : Nat} (hsm : Desc l.parents s m) (hne : s ≠ m) (hme : Desc l.parents m e) (hs : (pose s).Uniform) (hm : (pose m).Uniform) :
    ∃ out S M E, LocalToModel.run Mat4.mul localMatrices l buf = .ok out ∧ out[s]? = some S ∧ out[m]? = some M ∧ out[e]? = some E ∧
      ∀ j j' : IK.TwoBone ℝ, j.startJoint = S → j.midJoint = M → j.endJoint = E → j.run idealTrig = .ok j' → 1 ≤ j.weight →
      ∀ (k : ℝ) (μ ε σ η τ π : F4 ℝ), Rig j k μ ε σ η τ π → ∃ locals₁ locals₂ out' E' x,
        applyCorrection qmul l.input s j'.startCorrection = Except.ok locals₁ ∧
        applyCorrection qmul locals₁ m j'.midCorrection = Except.ok locals₂ ∧
        LocalToModel.run Mat4.mul localMatrices { l with input := locals₂, from_ := s } out = .ok out' ∧ out'[e]? = some E' ∧
        SendsPoint S x (E' 3) ∧ dot3 x x = reachDistance σ η τ j.soften ^ 2 ∧
        ∀ ε' y p, Turns j'.midCorrection ε ε' → SendsPoint M ε' y → SendsPoint S p y →
          1 / 1000000 ≤ reachDistance σ η τ j.soften * softDistance (√(dot3 σ σ) + √(dist2 η σ)) j.soften √(dot3 τ τ) →
          -(1 - 1 / 1000000) * √(dot3 p p * dot3 τ τ) ≤ dot3 p τ →
          Same3 x (fun i => reachDistance σ η τ j.soften / √(dot3 τ τ) * τ i) := by
  obtain ⟨out, S, M, E, h1, hS, hM, hE, h⟩ := C91_moves hq P hsm hne hme hs hm
  refine ⟨out, S, M, E, h1, hS, hM, hE, ?_⟩
  rintro j j' rfl rfl rfl hrun hw k μ ε σ η τ π R
  obtain ⟨ucs, ucm⟩ := C52_unit hrun (by linarith) R.unit R.affineS R.detS R.targetS R.poleS R.pole
  obtain ⟨locals₁, locals₂, out', S', E', g1, g2, g3, -, g5, -, -, g⟩ := h _ _ ucs ucm
  obtain ⟨ε', hε'⟩ := turns_exists j'.midCorrection ε
  obtain ⟨y, hy⟩ := sends_exists j.midJoint ε'
  obtain ⟨p, hp⟩ := comes_exists R.affineS R.detS y
  obtain ⟨x, hx⟩ := turns_exists j'.startCorrection p
  have gx := g ε ε' y p x R.endM hε' hy hp hx
  refine ⟨locals₁, locals₂, out', E', x, g1, g2, g3, g5, gx, C58_distance hrun hw R hε' hy hp hx, fun ε₁ y₁ p₁ hε₁ hy₁ hp₁ hfar hnear => ?_⟩
  obtain ⟨x₁, hx₁⟩ := turns_exists j'.startCorrection p₁
  have c := C58_end hrun hw R hε₁ hy₁ hp₁ hx₁ hfar hnear
  exact IK.Same3.trans (sends_unique R.affineS R.detS gx (g ε ε₁ y₁ p₁ x₁ R.endM hε₁ hy₁ hp₁ hx₁)) c

/-- C91: the aim job end to end. Compute the model matrices, run the aim job on that of a joint, multiply its local rotation
by the correction and update the model matrices from it on. If the job reported reached at full weight, then the new model
matrix of the joint sends a point of the forward line to the target: exactly, unless that point was almost opposite to the
target, and within `1.5e-3` of the distance (in the old space of the joint) then. The point is on the forward ray if the target
is farther away than the offset or the offset is behind the joint. -/
theorem C91_aims {qmul : F4 ℝ → F4 ℝ → F4 ℝ} (hq : ∀ a b, toQuat (qmul a b) = toQuat a * toQuat b)
    {l : LocalToModel.Job (SoaTransform ℝ) (Mat4 ℝ)} {buf : List (Mat4 ℝ)} {pose : Nat → JointPose} (P : Posed l buf pose)
    {i : Nat} (hi : i < l.parents.length) (hs : (pose i).Uniform) :
    ∃ out J, LocalToModel.run Mat4.mul localMatrices l buf = .ok out ∧ out[i]? = some J ∧
      ∀ j j' : IK.Aim ℝ, j.joint = J → j.run idealTrig = .ok j' → j'.reached = true → 1 ≤ j.weight →
      dot3 j.forward j.forward = 1 → ∀ τ : F4 ℝ, SendsPoint J τ j.target → 1 / 1000000 ≤ dot3 τ τ →
      ∃ locals out' J' t, applyCorrection qmul l.input i j'.correction = Except.ok locals ∧
        LocalToModel.run Mat4.mul localMatrices { l with input := locals, from_ := i } out = .ok out' ∧ out'[i]? = some J' ∧
        let p : F4 ℝ := fun i => j.offset i + t * j.forward i
        (-(1 - 1 / 1000000) * dot3 τ τ ≤ dot3 p τ → SendsPoint J' p j.target) ∧
        (∃ x y, SendsPoint J' p y ∧ SendsPoint J x y ∧ dist2 x τ ≤ 2 / 1000000 * dot3 τ τ) ∧
        (dot3 j.offset j.offset ≤ dot3 τ τ ∨ dot3 j.forward j.offset ≤ 0 → 0 ≤ t) := by
  obtain ⟨out, J, h1, hJ, aJ, dJ, h⟩ := C91_turns hq P hi hs
  refine ⟨out, J, h1, hJ, ?_⟩
  rintro j j' rfl hrun hr hw hf τ hτ hfar
  obtain ⟨uc, t, x, c1, c2, c3, c4⟩ := C54_aims_partial hrun hr hw aJ dJ hf hτ hfar
  obtain ⟨locals, out', J', g1, g2, g3, -, g⟩ := h _ uc
  obtain ⟨y, hy⟩ := sends_exists j.joint x
  exact ⟨locals, out', J', t, g1, g2, g3, fun hc => (g _ _ _ c1).mpr (c2 hc), ⟨x, y, (g _ _ _ c1).mpr hy, hy, c3⟩, c4⟩

/-! ### Examples and a counterexample -/

private def spot (a b c x y z : ℝ) : Mat4 ℝ := f4 (f4 a 0 0 0) (f4 0 b 0 0) (f4 0 0 c 0) (f4 x y z 1)

private theorem spot_det (x y z : ℝ) {a b c : ℝ} (ha : a ≠ 0) (hb : b ≠ 0) (hc : c ≠ 0) : (toMatrix (spot a b c x y z)).det ≠ 0 := by
  rw [Matrix.det_succ_row_zero]
  simp only [Fin.sum_univ_four, Matrix.det_fin_three, Matrix.submatrix_apply, toMatrix]
  simp [Fin.succAbove, spot, ha, hb, hc]

private theorem spot_point (a b c x y z : ℝ) (p : F4 ℝ) : (spot a b c x y z).transformPoint p = f4 (a * p 0 + x) (b * p 1 + y) (c * p 2 + z) 1 := by
  apply ext4 <;> simp [Mat4.transformPoint, swz, spot] <;> ring

private theorem spot_sends {a b c x y z : ℝ} {p q : F4 ℝ} (h0 : q 0 = a * p 0 + x) (h1 : q 1 = b * p 1 + y) (h2 : q 2 = c * p 2 + z) :
    SendsPoint (spot a b c x y z) p q := by
  rw [IK.sendsPoint_iff, spot_point]
  exact ⟨h0, h1, h2⟩

/-- A matrix is known by what it does to points. -/
private theorem matrix_ext {m n : Mat4 ℝ} (hm : AffineMat m) (hn : AffineMat n)
    (h : ∀ p, Same3 (m.transformPoint p) (n.transformPoint p)) : m = n := by
  obtain ⟨m0, m1, m2, m3⟩ := hm
  obtain ⟨n0, n1, n2, n3⟩ := hn
  have e : ∀ (m : Mat4 ℝ) (p : F4 ℝ) i, m.transformPoint p i = m 0 i * p 0 + m 1 i * p 1 + m 2 i * p 2 + m 3 i := by
    intro m p
    apply four <;> simp [Mat4.transformPoint, swz] <;> ring
  have a := h (f4 0 0 0 0)
  have b := h (f4 1 0 0 0)
  have c := h (f4 0 1 0 0)
  have d := h (f4 0 0 1 0)
  simp only [Same3, e, f4_0, f4_1, f4_2, mul_zero, mul_one, zero_add, add_zero] at a b c d
  obtain ⟨a0, a1, a2⟩ := a
  rw [a0, a1, a2] at b c d
  simp only [add_left_inj] at b c d
  have f := (four (p := fun i => m 0 i = n 0 i)) b.1 b.2.1 b.2.2 (by rw [m0, n0])
  have g := (four (p := fun i => m 1 i = n 1 i)) c.1 c.2.1 c.2.2 (by rw [m1, n1])
  have k := (four (p := fun i => m 2 i = n 2 i)) d.1 d.2.1 d.2.2 (by rw [m2, n2])
  have q := (four (p := fun i => m 3 i = n 3 i)) a0 a1 a2 (by rw [m3, n3])
  exact funext (four (p := fun i => m i = n i) (funext f) (funext g) (funext k) (funext q))

/-- A joint that does not turn. -/
private def still (x y z a b c : ℝ) : JointPose := { translation := ⟨0, x, y, z⟩, rotation := ⟨1, 0, 0, 0⟩, scale := (a, b, c) }

private theorem still_move (x y z a b c : ℝ) (v : F4 ℝ) :
    (still x y z a b c).move (pureQuat v) = pureQuat (f4 (a * v 0 + x) (b * v 1 + y) (c * v 2 + z) 0) := by
  rw [move_def (x := pureQuat (f4 (a * v 0) (b * v 1) (c * v 2) 0)) _ ⟨rfl, rfl, rfl, rfl⟩]
  have h1 : (still x y z a b c).rotation = 1 := rfl
  rw [h1, one_mul, inv_one, mul_one]
  have h2 : (still x y z a b c).translation = pureQuat (f4 x y z 0) := rfl
  rw [h2]
  ext <;> simp

private theorem still_unit (x y z a b c : ℝ) : Quaternion.normSq (still x y z a b c).rotation = 1 := by
  rw [Quaternion.normSq_def']; simp [still]

private theorem spot_affine (a b c x y z : ℝ) : AffineMat (spot a b c x y z) := by simp [AffineMat, spot]

/-- Three joints, one below the other, none of them turned: scaled by two at (1, 2, 3), scaled by two at (0, 1, 0), at (1, 0, 0). -/
private noncomputable def arm : LocalToModel.Job (SoaTransform ℝ) (Mat4 ℝ) where
  parents := [-1, 0, 1]
  input := [⟨⟨f4 1 0 1 0, f4 2 1 0 0, f4 3 0 0 0⟩, ⟨splat 0, splat 0, splat 0, splat 1⟩, ⟨f4 2 2 1 1, f4 2 2 1 1, f4 2 2 1 1⟩⟩]
  root := spot 1 1 1 0 0 0
  from_ := -1
  «to» := 1023
  fromExcluded := false

private noncomputable def armPose (i : Nat) : JointPose :=
  if i = 0 then still 1 2 3 2 2 2 else if i = 1 then still 0 1 0 2 2 2 else still 1 0 0 1 1 1

private theorem arm_posed : Posed arm [spot 1 1 1 0 0 0, spot 1 1 1 0 0 0, spot 1 1 1 0 0 0] armPose where
  order := by
    refine ⟨fun i h => ?_, fun i p h0 hp => ?_⟩
    · have h : i < 3 := h
      obtain rfl | rfl | rfl : i = 0 ∨ i = 1 ∨ i = 2 := by omega
      · exact ⟨by show (-1 : Int) ≤ -1; norm_num, by show (-1 : Int) < 0; norm_num⟩
      · exact ⟨by show (-1 : Int) ≤ 0; norm_num, by show (0 : Int) < 1; norm_num⟩
      · exact ⟨by show (-1 : Int) ≤ 1; norm_num, by show (1 : Int) < 2; norm_num⟩
    · have h : i < 3 := (List.getElem?_eq_some_iff.mp hp).1
      obtain rfl | rfl : i = 1 ∨ i = 2 := by omega
      · have hp : some (0 : Int) = some (p : Int) := hp
        have : p = 0 := by simpa using hp.symm
        subst this
        exact .refl (by show 0 < 3; norm_num)
      · have hp : some (1 : Int) = some (p : Int) := hp
        have hp := Option.some.inj hp
        have : p = 1 := by omega
        subst this
        exact .refl (by show 1 < 3; norm_num)
  valid := rfl
  holds i hi := by
    have hi : i < 3 := hi
    obtain rfl | rfl | rfl : i = 0 ∨ i = 1 ∨ i = 2 := by omega
    · rfl
    · rfl
    · rfl
  unit i hi := by
    have hi : i < 3 := hi
    obtain rfl | rfl | rfl : i = 0 ∨ i = 1 ∨ i = 2 := by omega
    · exact still_unit ..
    · exact still_unit ..
    · exact still_unit ..
  regular i hi := by
    have hi : i < 3 := hi
    obtain rfl | rfl | rfl : i = 0 ∨ i = 1 ∨ i = 2 := by omega
    · norm_num [JointPose.Regular, armPose, still]
    · norm_num [JointPose.Regular, armPose, still]
    · norm_num [JointPose.Regular, armPose, still]
  affine := spot_affine ..
  det := spot_det _ _ _ one_ne_zero one_ne_zero one_ne_zero
  from_ := rfl
  excl := rfl
  upto := by show ((3 : Nat) : Int) ≤ 1023 + 1; norm_num
  most := by show (1023 : Int) < 2 ^ 31 - 1; norm_num

private theorem arm_desc : Desc arm.parents 0 1 ∧ Desc arm.parents 1 2 :=
  ⟨.step (c := 0) rfl (.refl (by show 0 < 3; norm_num)), .step (c := 1) rfl (.refl (by show 1 < 3; norm_num))⟩

/-- The model matrices of the arm. -/
private theorem arm_models {out : List (Mat4 ℝ)} {S M E : Mat4 ℝ}
    (h : LocalToModel.run Mat4.mul localMatrices arm [spot 1 1 1 0 0 0, spot 1 1 1 0 0 0, spot 1 1 1 0 0 0] = .ok out)
    (hS : out[0]? = some S) (hM : out[1]? = some M) (hE : out[2]? = some E) :
    S = spot 2 2 2 1 2 3 ∧ M = spot 4 4 4 1 4 3 ∧ E = spot 4 4 4 5 4 3 := by
  have P := arm_posed
  obtain ⟨o, h1, -, h2⟩ := full_models arm _ P.order.1 P.valid armPose P.holds P.unit P.regular P.affine P.det (by rw [P.from_]; norm_num)
    (by rw [P.from_]; norm_num) P.upto P.most
  rw [h1] at h
  have := Except.ok.inj h
  subst this
  obtain ⟨S', l0, a1, a2, a3⟩ := h2 0 (by show 0 < 3; norm_num)
  obtain ⟨M', l1, b1, b2, b3⟩ := h2 1 (by show 1 < 3; norm_num)
  obtain ⟨E', l2, c1, c2, c3⟩ := h2 2 (by show 2 < 3; norm_num)
  rw [a1] at hS
  rw [b1] at hM
  rw [c1] at hE
  cases hS
  cases hM
  cases hE
  have p0 : PathTo arm.parents 0 [0] := .root rfl
  have p1 : PathTo arm.parents 1 [0, 1] := .child (p := 0) rfl p0
  have p2 : PathTo arm.parents 2 [0, 1, 2] := .child (p := 1) rfl p1
  have := LocalToModel.pathTo_unique a2 p0
  subst this
  have := LocalToModel.pathTo_unique b2 p1
  subst this
  have := LocalToModel.pathTo_unique c2 p2
  subst this
  have e0 : armPose 0 = still 1 2 3 2 2 2 := rfl
  have e1 : armPose 1 = still 0 1 0 2 2 2 := rfl
  have e2 : armPose 2 = still 1 0 0 1 1 1 := rfl
  have hroot : arm.root = spot 1 1 1 0 0 0 := rfl
  have hcons : ∀ k l v, moveAlong armPose (k :: l) v = (armPose k).move (moveAlong armPose l v) := fun _ _ _ => rfl
  have hnil : ∀ v, moveAlong armPose [] v = v := fun _ => rfl
  refine ⟨matrix_ext a3.affine (spot_affine ..) fun p => ?_, matrix_ext b3.affine (spot_affine ..) fun p => ?_,
    matrix_ext c3.affine (spot_affine ..) fun p => ?_⟩
  · rw [a3.point p _ (by rw [hcons, hnil, e0, still_move]), hroot, spot_point, spot_point]
    norm_num [Same3]
  · rw [b3.point p _ (by rw [hcons, hcons, hnil, e1, still_move, e0, still_move]), hroot, spot_point, spot_point]
    norm_num [Same3]
    ring_nf
    trivial
  · rw [c3.point p _ (by rw [hcons, hcons, hcons, hnil, e2, still_move, e1, still_move, e0, still_move]), hroot, spot_point, spot_point]
    norm_num [Same3]
    ring_nf
    trivial

/-- The hypotheses of `C91_reaches` hold: the target is (1, 2, 7), the axis of the middle joint is z, and the end joint gets
within 0.003 of (0, 0, 2) in the space of the start joint. -/
example {qmul : F4 ℝ → F4 ℝ → F4 ℝ} (hq : ∀ a b, toQuat (qmul a b) = toQuat a * toQuat b) :
    ∃ (out : List (Mat4 ℝ)) (j j' : IK.TwoBone ℝ) (locals₁ locals₂ : List (SoaTransform ℝ)) (out' : List (Mat4 ℝ)) (E' : Mat4 ℝ) (x : F4 ℝ),
      LocalToModel.run Mat4.mul localMatrices arm [spot 1 1 1 0 0 0, spot 1 1 1 0 0 0, spot 1 1 1 0 0 0] = .ok out ∧
      j.run idealTrig = .ok j' ∧ j'.reached = true ∧ applyCorrection qmul arm.input 0 j'.startCorrection = Except.ok locals₁ ∧
      applyCorrection qmul locals₁ 1 j'.midCorrection = Except.ok locals₂ ∧
      LocalToModel.run Mat4.mul localMatrices { arm with input := locals₂, from_ := ((0 : Nat) : Int) } out = .ok out' ∧ out'[2]? = some E' ∧
      SendsPoint (spot 2 2 2 1 2 3) x (E' 3) ∧ dist2 x (f4 0 0 2 0) ≤ 8 / 1000000 := by
  obtain ⟨out, S, M, E, h1, hS, hM, hE, h⟩ := C91_reaches hq arm_posed arm_desc.1 (by norm_num) arm_desc.2 (by
    intro k k1 k2
    have := Desc.le arm_posed.order.1 k2
    obtain rfl | rfl : k = 0 ∨ k = 1 := by omega
    · exact ⟨2, by norm_num, rfl⟩
    · exact ⟨2, by norm_num, rfl⟩)
  obtain ⟨rfl, rfl, rfl⟩ := arm_models h1 hS hM hE
  obtain ⟨j, hj⟩ : ∃ j : IK.TwoBone ℝ, j = ⟨f4 1 2 7 1, f4 0 0 1 0, f4 0 1 0 0, 1 / 3, 1, 1, spot 2 2 2 1 2 3, spot 4 4 4 1 4 3, spot 4 4 4 5 4 3,
    f4 0 0 0 1, f4 0 0 0 1, false⟩ := ⟨_, rfl⟩
  have j1 : j.startJoint = spot 2 2 2 1 2 3 := by rw [hj]
  have j2 : j.midJoint = spot 4 4 4 1 4 3 := by rw [hj]
  have j3 : j.endJoint = spot 4 4 4 5 4 3 := by rw [hj]
  have j4 : j.target = f4 1 2 7 1 := by rw [hj]
  have j5 : j.midAxis = f4 0 0 1 0 := by rw [hj]
  have j6 : j.poleVector = f4 0 1 0 0 := by rw [hj]
  have hax : dot3 j.midAxis j.midAxis = 1 := by rw [j5]; norm_num [dot3]
  obtain ⟨a, b, r, hrun⟩ := C52_runs idealTrig j (by rw [j5]; norm_num [vec3IsNormalized])
  have hds := spot_det 1 2 3 (two_ne_zero (α := ℝ)) (two_ne_zero (α := ℝ)) (two_ne_zero (α := ℝ))
  have hτ : SendsPoint (spot 2 2 2 1 2 3) (f4 0 0 2 0) j.target := by
    rw [j4]
    apply spot_sends <;> norm_num [spot]
  have hσ : SendsPoint (spot 2 2 2 1 2 3) (f4 0 1 0 0) (spot 4 4 4 1 4 3 3) := by
    apply spot_sends <;> norm_num [spot]
  have hη : SendsPoint (spot 2 2 2 1 2 3) (f4 2 1 0 0) (spot 4 4 4 5 4 3 3) := by
    apply spot_sends <;> norm_num [spot]
  have s4 : √(4 : ℝ) = 2 := by rw [show (4 : ℝ) = 2 ^ 2 by norm_num]; exact Real.sqrt_sq (by norm_num)
  have hr : r = true := by
    refine (C53_reached_iff hrun (σ := f4 0 1 0 0) (η := f4 2 1 0 0) (τ := f4 0 0 2 0) (by rw [j1]; exact spot_affine ..)
      (by rw [j1]; exact hds) (by rw [j1, j2]; exact hσ) (by rw [j1, j3]; exact hη) (by rw [j1]; exact hτ)).mpr ?_
    rw [hj]
    norm_num [dot3, dist2, s4]
  obtain ⟨locals₁, locals₂, out', E', g1, g2, g3, g4, -, x, g5, g6⟩ := h j _ j1 j2 j3 hrun hr hax (f4 0 (-1 / 2) 0 0) (f4 1 0 0 0) (f4 0 0 2 0)
    (f4 0 (1 / 2) 0 0) (by apply spot_sends <;> norm_num [spot]) (by apply spot_sends <;> norm_num [spot])
    (by rw [j5]; norm_num [dot3]) (by rw [j5]; norm_num [dot3]) hτ (by norm_num [dot3])
    (by rw [j6, IK.sendsVector_iff]; norm_num [Same3, Mat4.transformVector, swz, spot]) (by norm_num [dot3])
  refine ⟨out, j, _, locals₁, locals₂, out', E', x, h1, hrun, hr, g1, g2, g3, g4, g5, g6.trans ?_⟩
  norm_num [dot3]

/-- The hypotheses of `C91_soft` hold: the target (1, 2, 23) is out of reach, and the arm ends up stretched, at the distance
1 + 2 in the space of the start joint. -/
example {qmul : F4 ℝ → F4 ℝ → F4 ℝ} (hq : ∀ a b, toQuat (qmul a b) = toQuat a * toQuat b) :
    ∃ (out : List (Mat4 ℝ)) (j j' : IK.TwoBone ℝ) (locals₁ locals₂ : List (SoaTransform ℝ)) (out' : List (Mat4 ℝ)) (E' : Mat4 ℝ) (x : F4 ℝ),
      LocalToModel.run Mat4.mul localMatrices arm [spot 1 1 1 0 0 0, spot 1 1 1 0 0 0, spot 1 1 1 0 0 0] = .ok out ∧
      j.run idealTrig = .ok j' ∧ applyCorrection qmul arm.input 0 j'.startCorrection = Except.ok locals₁ ∧
      applyCorrection qmul locals₁ 1 j'.midCorrection = Except.ok locals₂ ∧
      LocalToModel.run Mat4.mul localMatrices { arm with input := locals₂, from_ := ((0 : Nat) : Int) } out = .ok out' ∧ out'[2]? = some E' ∧
      SendsPoint (spot 2 2 2 1 2 3) x (E' 3) ∧ dot3 x x = 3 ^ 2 := by
  obtain ⟨out, S, M, E, h1, hS, hM, hE, h⟩ := C91_soft hq arm_posed arm_desc.1 (by norm_num) arm_desc.2 ⟨2, by norm_num, rfl⟩ ⟨2, by norm_num, rfl⟩
  obtain ⟨aS, dS, aM, dM, k, hk⟩ := C91_chain arm_posed arm_desc.1 (by
    intro k k1 k2 _
    have := Desc.le arm_posed.order.1 k2
    obtain rfl | rfl : k = 0 ∨ k = 1 := by omega
    · exact ⟨2, by norm_num, rfl⟩
    · exact ⟨2, by norm_num, rfl⟩) h1 hS hM
  obtain ⟨rfl, rfl, rfl⟩ := arm_models h1 hS hM hE
  obtain ⟨j, hj⟩ : ∃ j : IK.TwoBone ℝ, j = ⟨f4 1 2 23 1, f4 0 0 1 0, f4 0 1 0 0, 1 / 3, 1, 1, spot 2 2 2 1 2 3, spot 4 4 4 1 4 3, spot 4 4 4 5 4 3,
    f4 0 0 0 1, f4 0 0 0 1, false⟩ := ⟨_, rfl⟩
  obtain ⟨a, b, r, hrun⟩ := C52_runs idealTrig j (by rw [hj]; norm_num [vec3IsNormalized])
  have R : Rig j k (f4 0 (-1 / 2) 0 0) (f4 1 0 0 0) (f4 0 1 0 0) (f4 2 1 0 0) (f4 0 0 10 0) (f4 0 (1 / 2) 0 0) := by
    subst hj
    exact
      { affineS := aS, detS := dS, affineM := aM, detM := dM, similar := hk
        unit := by norm_num [dot3]
        startM := by apply spot_sends <;> norm_num [spot]
        endM := by apply spot_sends <;> norm_num [spot]
        axisS := by norm_num [dot3]
        axisE := by norm_num [dot3]
        midS := by apply spot_sends <;> norm_num [spot]
        endS := by apply spot_sends <;> norm_num [spot]
        targetS := by apply spot_sends <;> norm_num [spot]
        poleS := by rw [IK.sendsVector_iff]; norm_num [Same3, Mat4.transformVector, swz, spot]
        bone1 := by norm_num [dot3]
        bone2 := by norm_num [dist2]
        apart := by norm_num [dot3]
        pole := by norm_num [dot3] }
  obtain ⟨locals₁, locals₂, out', E', x, g1, g2, g3, g4, g5, g6, -⟩ := h j _ (by rw [hj]) (by rw [hj]) (by rw [hj]) hrun (by rw [hj]) k _ _ _ _ _ _ R
  refine ⟨out, j, _, locals₁, locals₂, out', E', x, h1, hrun, g1, g2, g3, g4, g5, g6.trans ?_⟩
  have s4 : √(4 : ℝ) = 2 := by rw [show (4 : ℝ) = 2 ^ 2 by norm_num]; exact Real.sqrt_sq (by norm_num)
  have s100 : √(100 : ℝ) = 10 := by rw [show (100 : ℝ) = 10 ^ 2 by norm_num]; exact Real.sqrt_sq (by norm_num)
  have hsoft : j.soften = 1 := by rw [hj]
  rw [hsoft, reachDistance, C58_soft_off _ le_rfl]
  norm_num [dot3, dist2, s4, s100, clampReach]

/-- The hypotheses of `C91_aims` hold: the first joint of the arm aims its x axis, from the offset (0, 0, 3), at (1, 12, 3). -/
example {qmul : F4 ℝ → F4 ℝ → F4 ℝ} (hq : ∀ a b, toQuat (qmul a b) = toQuat a * toQuat b) :
    ∃ (out : List (Mat4 ℝ)) (j j' : IK.Aim ℝ) (locals : List (SoaTransform ℝ)) (out' : List (Mat4 ℝ)) (J' : Mat4 ℝ) (t : ℝ),
      LocalToModel.run Mat4.mul localMatrices arm [spot 1 1 1 0 0 0, spot 1 1 1 0 0 0, spot 1 1 1 0 0 0] = .ok out ∧
      j.run idealTrig = .ok j' ∧ j'.reached = true ∧ applyCorrection qmul arm.input 0 j'.correction = Except.ok locals ∧
      LocalToModel.run Mat4.mul localMatrices { arm with input := locals, from_ := ((0 : Nat) : Int) } out = .ok out' ∧ out'[0]? = some J' ∧
      0 ≤ t ∧ SendsPoint J' (f4 t 0 3 0) (f4 1 12 3 0) := by
  obtain ⟨out, J, h1, hJ, h⟩ := C91_aims hq arm_posed (i := 0) (by show 0 < 3; norm_num) ⟨2, by norm_num, rfl⟩
  obtain ⟨_, S, M, E, h1', hS, hM, hE, -⟩ := C91_moves hq arm_posed arm_desc.1 (by norm_num) arm_desc.2 ⟨2, by norm_num, rfl⟩ ⟨2, by norm_num, rfl⟩
  rw [h1] at h1'
  have := Except.ok.inj h1'
  subst this
  rw [hJ] at hS
  cases hS
  obtain ⟨rfl, -, -⟩ := arm_models h1 hJ hM hE
  obtain ⟨j, hj⟩ : ∃ j : IK.Aim ℝ, j = ⟨f4 1 12 3 0, f4 1 0 0 0, f4 0 0 3 0, f4 0 1 0 0, f4 0 1 1 0, 1 / 3, 1, spot 2 2 2 1 2 3, f4 0 0 0 1, false⟩ :=
    ⟨_, rfl⟩
  have j1 : j.joint = spot 2 2 2 1 2 3 := by rw [hj]
  have j2 : j.forward = f4 1 0 0 0 := by rw [hj]
  have j3 : j.offset = f4 0 0 3 0 := by rw [hj]
  have j4 : j.target = f4 1 12 3 0 := by rw [hj]
  have hf : dot3 j.forward j.forward = 1 := by rw [j2]; norm_num [dot3]
  obtain ⟨j', hrun⟩ := C54_runs idealTrig j (by rw [hf]; norm_num) (by rw [hf]; norm_num)
  have hτ : SendsPoint (spot 2 2 2 1 2 3) (f4 0 5 0 0) j.target := by
    rw [j4]
    apply spot_sends <;> norm_num [spot]
  have hr : j'.reached = true := by
    by_contra hn
    have := (C54_unreached hrun (by rw [j1]; exact spot_affine ..) (by rw [j1]; exact spot_det _ _ _ two_ne_zero two_ne_zero two_ne_zero) hf
      (by rw [j1]; exact hτ)).mp (by simpa using hn) 4
    rw [j2, j3] at this
    norm_num [dot3] at this
  obtain ⟨locals, out', J', t, g1, g2, g3, g4, -, g5⟩ := h j j' j1 hrun hr (by rw [hj]) hf (f4 0 5 0 0) hτ (by norm_num [dot3])
  have ht := g5 (Or.inl (by rw [j3]; norm_num [dot3]))
  have hs := g4 (by rw [j2, j3]; norm_num [dot3])
  refine ⟨out, j, j', locals, out', J', t, h1, hrun, hr, g1, g2, g3, ht, ?_⟩
  rw [j2, j3, j4] at hs
  intro i
  have := hs i
  simpa using this

/-- One joint that is scaled by (1, 2, 1). -/
private noncomputable def flat : LocalToModel.Job (SoaTransform ℝ) (Mat4 ℝ) where
  parents := [-1]
  input := [⟨⟨splat 0, splat 0, splat 0⟩, ⟨splat 0, splat 0, splat 0, splat 1⟩, ⟨splat 1, splat 2, splat 1⟩⟩]
  root := spot 1 1 1 0 0 0
  from_ := -1
  «to» := 1023
  fromExcluded := false

private theorem flat_posed : Posed flat [spot 1 1 1 0 0 0] (fun _ => still 0 0 0 1 2 1) where
  order := by
    refine ⟨fun i h => ?_, fun i p h0 hp => ?_⟩
    · have h : i < 1 := h
      obtain rfl : i = 0 := by omega
      exact ⟨by show (-1 : Int) ≤ -1; norm_num, by show (-1 : Int) < 0; norm_num⟩
    · have h : i < 1 := (List.getElem?_eq_some_iff.mp hp).1
      omega
  valid := rfl
  holds i hi := by
    have hi : i < 1 := hi
    obtain rfl : i = 0 := by omega
    rfl
  unit i hi := still_unit ..
  regular i hi := by norm_num [JointPose.Regular, still]
  affine := spot_affine ..
  det := spot_det _ _ _ one_ne_zero one_ne_zero one_ne_zero
  from_ := rfl
  excl := rfl
  upto := by show ((1 : Nat) : Int) ≤ 1023 + 1; norm_num
  most := by show (1023 : Int) < 2 ^ 31 - 1; norm_num

/-- C91 is false for a joint with different scales: the joint is scaled by (1, 2, 1), forward is x, the target is (1, 2, 0). The
aim job reports reached, but after its correction is applied no point of the forward line is at the target. -/
theorem C91_uneven_scale {qmul : F4 ℝ → F4 ℝ → F4 ℝ} (hq : ∀ a b, toQuat (qmul a b) = toQuat a * toQuat b) :
    ∃ (l : LocalToModel.Job (SoaTransform ℝ) (Mat4 ℝ)) (buf : List (Mat4 ℝ)) (pose : Nat → JointPose) (out : List (Mat4 ℝ)) (j j' : IK.Aim ℝ)
      (locals : List (SoaTransform ℝ)) (out' : List (Mat4 ℝ)) (J' : Mat4 ℝ),
      Posed l buf pose ∧ (pose 0).scale = (1, 2, 1) ∧ LocalToModel.run Mat4.mul localMatrices l buf = .ok out ∧ out[0]? = some j.joint ∧
      j.run idealTrig = .ok j' ∧ j'.reached = true ∧ j.weight = 1 ∧ j.forward = f4 1 0 0 0 ∧ j.offset = f4 0 0 0 0 ∧ j.target = f4 1 2 0 1 ∧
      applyCorrection qmul l.input 0 j'.correction = Except.ok locals ∧
      LocalToModel.run Mat4.mul localMatrices { l with input := locals, from_ := ((0 : Nat) : Int) } out = .ok out' ∧ out'[0]? = some J' ∧
      ∀ t : ℝ, ¬ SendsPoint J' (fun i => j.offset i + t * j.forward i) j.target := by
  have P := flat_posed
  obtain ⟨out, h1, -, h2⟩ := full_models flat _ P.order.1 P.valid _ P.holds P.unit P.regular P.affine P.det (by rw [P.from_]; norm_num)
    (by rw [P.from_]; norm_num) P.upto P.most
  obtain ⟨J, l0, hJ, pJ, mJ⟩ := h2 0 (by show 0 < 1; norm_num)
  have p0 : PathTo flat.parents 0 [0] := .root rfl
  have := LocalToModel.pathTo_unique pJ p0
  subst this
  have eJ : J = spot 1 2 1 0 0 0 := matrix_ext mJ.affine (spot_affine ..) fun p => by
    rw [mJ.point p _ (by rw [along_one, still_move]), show flat.root = spot 1 1 1 0 0 0 from rfl, spot_point, spot_point]
    norm_num [Same3]
  subst eJ
  obtain ⟨j, hj⟩ : ∃ j : IK.Aim ℝ, j = ⟨f4 1 2 0 1, f4 1 0 0 0, f4 0 0 0 0, f4 0 1 0 0, f4 0 0 1 0, 0, 1, spot 1 2 1 0 0 0, f4 0 0 0 1, false⟩ :=
    ⟨_, rfl⟩
  have j1 : j.joint = spot 1 2 1 0 0 0 := by rw [hj]
  have j2 : j.forward = f4 1 0 0 0 := by rw [hj]
  have j3 : j.offset = f4 0 0 0 0 := by rw [hj]
  have j4 : j.target = f4 1 2 0 1 := by rw [hj]
  have j5 : j.weight = 1 := by rw [hj]
  have hf : dot3 j.forward j.forward = 1 := by rw [j2]; norm_num [dot3]
  have ha : AffineMat j.joint := by rw [j1]; exact spot_affine ..
  have hd : (toMatrix j.joint).det ≠ 0 := by rw [j1]; exact spot_det _ _ _ one_ne_zero two_ne_zero one_ne_zero
  have hτ : SendsPoint j.joint (f4 1 1 0 0) j.target := by
    rw [j1, j4]
    apply spot_sends <;> norm_num [spot]
  obtain ⟨j', hrun⟩ := C54_runs idealTrig j (by rw [hf]; norm_num) (by rw [hf]; norm_num)
  have hr : j'.reached = true := by
    by_contra hn
    have := (C54_unreached hrun ha hd hf hτ).mp (by simpa using hn) 0
    rw [j3, j2] at this
    norm_num [dot3] at this
  obtain ⟨uc, t, x, c1, c2, -, c4⟩ := C54_aims_partial hrun hr (by rw [j5]) ha hd hf hτ (by norm_num [dot3])
  have ht := c4 (Or.inl (by rw [j3]; norm_num [dot3]))
  have hx := sends_unique ha hd (c2 (by rw [j2, j3]; norm_num [dot3]; linarith)) hτ
  obtain ⟨locals, a1, a2, a3, a4⟩ := apply_ok hq (c := j'.correction) (P.holds 0 (by show 0 < 1; norm_num))
  obtain ⟨out', r1, -, r3⟩ := rerun P (s := 0) (by show 0 < 1; norm_num) (locals := locals)
    (pose' := fun _ => (still 0 0 0 1 2 1).turn (toQuat j'.correction)) a2
    (fun k hk => by
      have hk : k < 1 := hk
      obtain rfl : k = 0 := by omega
      exact a3)
    (fun k hk hn => by
      have hk' : k < 1 := hk
      obtain rfl : k = 0 := by omega
      exact absurd (.refl hk) hn)
    (fun k hk => turn_unit (still_unit ..) uc) (fun k hk => P.regular k hk) h1
  obtain ⟨J', l1, hJ', pJ', mJ'⟩ := r3 0 (by show 0 < 1; norm_num)
  have := LocalToModel.pathTo_unique pJ' p0
  subst this
  refine ⟨flat, _, _, out, j, j', locals, out', J', P, rfl, h1, by rw [j1]; exact hJ, hrun, hr, j5, j2, j3, j4, a1, r1, hJ', fun u hu => ?_⟩
  -- the joint turns the forward line to the diagonal
  have c1' : pureQuat x = toQuat j'.correction * pureQuat (fun i => j.offset i + t * j.forward i) * (toQuat j'.correction)⁻¹ := c1
  obtain ⟨x0, x1, x2⟩ := hx
  simp only [f4_0, f4_1, f4_2] at x0 x1 x2
  have ht0 : t ≠ 0 := by
    rintro rfl
    have z : pureQuat (fun i => j.offset i + 0 * j.forward i) = 0 := by
      rw [j2, j3, ← pure_zero]
      exact pureQuat_iff.mpr (by simp)
    rw [z, conj_zero] at c1'
    have := congrArg QuaternionAlgebra.imI c1'
    have : x 0 = 0 := this
    linarith
  obtain ⟨k, hk⟩ : ∃ k : ℝ, k = u / t := ⟨_, rfl⟩
  have e1 : pureQuat (f4 (k * t) 0 0 0) = (k : Quaternion ℝ) * pureQuat (fun i => j.offset i + t * j.forward i) := by
    rw [j2, j3]
    ext <;> simp [pureQuat_at]
  have e2 : pureQuat (f4 k k 0 0) = (k : Quaternion ℝ) * pureQuat x := by
    ext <;> simp [pureQuat_at, x0, x1, x2]
  have key : pureQuat (f4 k k 0 0) = moveAlong (fun _ => (still 0 0 0 1 2 1).turn (toQuat j'.correction)) [0]
      (pureQuat (fun i => j.offset i + u * j.forward i)) := by
    have r1 : ((still 0 0 0 1 2 1).turn (toQuat j'.correction)).rotation = toQuat j'.correction := one_mul _
    have r2 : ((still 0 0 0 1 2 1).turn (toQuat j'.correction)).translation = 0 := rfl
    rw [along_one, move_def (x := pureQuat (f4 (k * t) 0 0 0)) _ (by
      rw [j2, j3, hk]
      simp [pureQuat_at, JointPose.turn, still]
      field_simp), r1, r2, add_zero, e1, ← mul_assoc, ← Quaternion.coe_commutes, mul_assoc, mul_assoc, ← mul_assoc (toQuat _), ← c1', e2]
  rw [IK.sendsPoint_iff, mJ'.point _ _ key, show flat.root = spot 1 1 1 0 0 0 from rfl, spot_point, j4] at hu
  obtain ⟨u0, u1, -⟩ := hu
  simp only [f4_0, f4_1] at u0 u1
  linarith

end Ozz.Props
