import Verif.Proofs.Pipeline
import Verif.Props.LocalToModel
import Verif.Props.Skinning

/-!
Property theorems about the jobs used together, in exact arithmetic: C64 (pose to model space), C65 (model space to
skinned mesh).
-/

namespace Ozz.Props

open Spec LocalToModel Pipeline
open Ozz.Skinning (influence joint applyH skinned InRange Mapped)

/-- C64: the model matrix of a joint takes a point where the poses of its ancestors take it, one after the other, and
then where the root matrix takes it. -/
theorem C64_point (j : LocalToModel.Job (SoaTransform ℝ) (Mat4 ℝ)) (out : List (Mat4 ℝ)) (hp : ParentsFirst j.parents)
    (hv : LocalToModel.validate j out = true) (pose : Nat → JointPose)
    (hpose : ∀ i < j.parents.length, jointPose j.input i = some (pose i))
    (hu : ∀ i < j.parents.length, Quaternion.normSq (pose i).rotation = 1)
    (hf1 : -(2:Int)^31 ≤ j.from_) (hf2 : j.from_ < 0)
    (ht1 : (j.parents.length : Int) ≤ j.to + 1) (ht2 : j.to < 2^31 - 1) :
    ∃ out', LocalToModel.run Mat4.mul localMatrices j out = .ok out' ∧ out'.length = out.length ∧
      ∀ i < j.parents.length, ∃ m path, out'[i]? = some m ∧ PathTo j.parents i path ∧
        ∀ p x : F4 ℝ, pureQuat x = moveAlong pose path (pureQuat p) → m.transformPoint p = j.root.transformPoint x := by
  have hv' := hv
  simp only [LocalToModel.validate, Bool.and_eq_true, decide_eq_true_eq] at hv'
  obtain ⟨loc, hloc⟩ := local_exists hv'.1
  obtain ⟨out', h1, h2, -, h3⟩ := C28_full_run Mat4.mul localMatrices j out hp hv loc hloc hf1 hf2 ht1 ht2
  refine ⟨out', h1, h2, fun i hi => ?_⟩
  obtain ⟨m, hm, path, hpath, rfl⟩ := h3 i hi
  have hlt := path_lt hpath
  exact ⟨_, path, hm, hpath, fun p x hx => path_point j.root path (fun k hk => hloc k (hlt k hk))
    (fun k hk => hpose k (hlt k hk)) (fun k hk => hu k (hlt k hk)) p x hx⟩

/-- C64: without scale (and with the identity as root matrix) the model matrices keep all distances. -/
theorem C64_rigid (j : LocalToModel.Job (SoaTransform ℝ) (Mat4 ℝ)) (out : List (Mat4 ℝ)) (hp : ParentsFirst j.parents)
    (hv : LocalToModel.validate j out = true) (pose : Nat → JointPose)
    (hpose : ∀ i < j.parents.length, jointPose j.input i = some (pose i))
    (hu : ∀ i < j.parents.length, Quaternion.normSq (pose i).rotation = 1)
    (hs : ∀ i < j.parents.length, (pose i).scale = (1, 1, 1)) (hr : toMatrix j.root = 1)
    (hf1 : -(2:Int)^31 ≤ j.from_) (hf2 : j.from_ < 0)
    (ht1 : (j.parents.length : Int) ≤ j.to + 1) (ht2 : j.to < 2^31 - 1) :
    ∃ out', LocalToModel.run Mat4.mul localMatrices j out = .ok out' ∧
      ∀ i < j.parents.length, ∃ m, out'[i]? = some m ∧ ∀ p q : F4 ℝ,
        let d := m.transformPoint p - m.transformPoint q
        dot3 d d = dot3 (p - q) (p - q) := by
  obtain ⟨out', h1, -, h2⟩ := C64_point j out hp hv pose hpose hu hf1 hf2 ht1 ht2
  refine ⟨out', h1, fun i hi => ?_⟩
  obtain ⟨m, path, hm, hpath, h3⟩ := h2 i hi
  refine ⟨m, hm, fun p q => ?_⟩
  have hlt := path_lt hpath
  have key := moveAlong_rigid path (fun k hk => hpose k (hlt k hk)) (fun k hk => hu k (hlt k hk))
    (fun k hk => hs k (hlt k hk)) (v := pureQuat p) (w := pureQuat q) rfl rfl
  obtain ⟨x, hx⟩ := pure_exists key.1
  obtain ⟨y, hy⟩ := pure_exists key.2.1
  have e1 := eye_point hr x
  have e2 := eye_point hr y
  rw [← h3 p x hx] at e1
  rw [← h3 q y hy] at e2
  have k2 := key.2.2
  rw [← hx, ← hy, ← e1, ← e2, normSq_pure_sub, normSq_pure_sub] at k2
  exact k2

/-- C65: skin a mesh with the products of the model matrices of a pose under a root matrix and the inverses of those of
the same pose under the identity: every vertex is moved by the root matrix, every normal and tangent is turned by it,
whatever the weights. -/
theorem C65_root_moves_mesh (ck : Bool) (l : LocalToModel.Job (SoaTransform ℝ) (Mat4 ℝ)) (one : Mat4 ℝ)
    (buf : List (Mat4 ℝ)) (hp : ParentsFirst l.parents)
    (hv : LocalToModel.validate l buf = true) (pose : Nat → JointPose)
    (hpose : ∀ i < l.parents.length, jointPose l.input i = some (pose i))
    (hu : ∀ i < l.parents.length, Quaternion.normSq (pose i).rotation = 1)
    (hs : ∀ i < l.parents.length, (pose i).scale.1 ≠ 0 ∧ (pose i).scale.2.1 ≠ 0 ∧ (pose i).scale.2.2 ≠ 0)
    (h1 : toMatrix one = 1)
    (hf1 : -(2:Int)^31 ≤ l.from_) (hf2 : l.from_ < 0)
    (ht1 : (l.parents.length : Int) ≤ l.to + 1) (ht2 : l.to < 2^31 - 1) :
    ∃ now bind, LocalToModel.run Mat4.mul localMatrices l buf = .ok now ∧
      LocalToModel.run Mat4.mul localMatrices { l with root := one } buf = .ok bind ∧
      ∀ (j : Skinning.Job ℝ) (s : Skinning.State ℝ) (ix : List Nat) (ws : List ℝ),
        Skinning.validate ck j s = .ok true → j.vertexCount * j.influences < 2 ^ 64 →
        j.matrices = some (.ok (List.zipWith (fun m b => m.mul b.invert) now bind)) → j.itMatrices = none →
        j.indices = some (.ok ix) → (∀ k i, k < j.vertexCount * j.influences → ix[k]? = some i → i < l.parents.length) →
        (1 < j.influences → j.weights = some (.ok ws)) →
        ∃ s', Skinning.run ck j s = .ok s' ∧
          Mapped j.vertexCount (fun _ p => applyH l.root p 1) j.inPositions s'.positions ∧
          (j.inNormals ≠ none → Mapped j.vertexCount (fun _ p => applyH l.root p 0) j.inNormals s'.normals) ∧
          (j.inTangents ≠ none → Mapped j.vertexCount (fun _ p => applyH l.root p 0) j.inTangents s'.tangents) := by
  have hv' := hv
  simp only [LocalToModel.validate, Bool.and_eq_true, decide_eq_true_eq] at hv'
  obtain ⟨loc, hloc⟩ := local_exists hv'.1
  obtain ⟨now, n1, n2, -, n3⟩ := C28_full_run Mat4.mul localMatrices l buf hp hv loc hloc hf1 hf2 ht1 ht2
  obtain ⟨bind, b1, b2, -, b3⟩ := C28_full_run Mat4.mul localMatrices { l with root := one } buf hp hv loc hloc hf1 hf2 ht1 ht2
  simp only at b3
  refine ⟨now, bind, n1, b1, fun j s ix ws hv hb hm hit hix hin hw => ?_⟩
  have hval : Skinning.Valid j s := by
    obtain ⟨b, e1, e2⟩ := Skinning.validate_iff ck j s hb
    rw [e1] at hv
    cases hv
    exact e2.mp rfl
  have hpos := hval.1
  have hlen : j.vertexCount * j.influences ≤ ix.length := by
    obtain ⟨xs, e1, e2⟩ := hval.2.2.1
    rw [hix] at e1
    cases e1
    exact e2
  have hms : ∀ i < l.parents.length, (List.zipWith (fun m b => Mat4.mul m b.invert) now bind)[i]? = some l.root := by
    intro i hi
    obtain ⟨m, e1, path, hpath, rfl⟩ := n3 i hi
    obtain ⟨b, e2, path', hpath', rfl⟩ := b3 i hi
    have := pathTo_unique hpath hpath'
    subst this
    rw [List.getElem?_zipWith, e1, e2]
    simp only [Option.some.injEq]
    have hd : (toMatrix (path.foldl (fun acc k => Mat4.mul acc (loc k)) one)).det ≠ 0 := by
      apply path_det one (by rw [h1, Matrix.det_one]; exact one_ne_zero)
      intro k hk
      have hk' := path_lt hpath k hk
      rw [local_det (hloc k hk') (hpose k hk') (hu k hk')]
      obtain ⟨s1, s2, s3⟩ := hs k hk'
      exact mul_ne_zero (mul_ne_zero s1 s2) s3
    have hinv := (C49_inverse _ hd).1
    apply toMatrix_inj
    rw [toMatrix_mul] at hinv ⊢
    rw [path_root l.root one h1 path, mul_assoc, hinv, mul_one]
  have hrange : InRange j (List.zipWith (fun m b => Mat4.mul m b.invert) now bind) ix := by
    refine ⟨fun k i hk hi => ?_, fun _ h => absurd hit h⟩
    obtain ⟨h', _⟩ := List.getElem?_eq_some_iff.mp (hms i (hin k i hk hi))
    exact h'
  obtain ⟨s', r1, r2, r3, r4⟩ := C46_skinned ck j s _ _ ix ws hv hb hm (.inr ⟨hit, rfl⟩) hix hrange hw
  have hjoint : ∀ i < j.vertexCount, ∀ k < j.influences,
      joint (List.zipWith (fun m b => Mat4.mul m b.invert) now bind) ix j.influences i k = l.root := by
    intro i hi k hk
    have hlt : i * j.influences + k < j.vertexCount * j.influences := by
      have : (i + 1) * j.influences ≤ j.vertexCount * j.influences := Nat.mul_le_mul_right _ hi
      rw [Nat.succ_mul] at this
      omega
    have hl : i * j.influences + k < ix.length := by omega
    have e := hin _ _ hlt (List.getElem?_eq_getElem hl)
    rw [joint, List.getD_eq_getElem?_getD (l := ix), List.getElem?_eq_getElem hl, Option.getD_some,
      List.getD_eq_getElem?_getD, hms _ e, Option.getD_some]
  have conv : ∀ (c : ℝ) (a b : Skinning.Buf (Skinning.P3 ℝ)),
      Mapped j.vertexCount (fun i p => skinned (List.zipWith (fun m b => Mat4.mul m b.invert) now bind) ix ws j.influences i p c) a b →
      Mapped j.vertexCount (fun _ p => applyH l.root p c) a b := by
    rintro c a b ⟨xs, ys, e1, e2, e3⟩
    refine ⟨xs, ys, e1, e2, fun i p hi hp => ?_⟩
    rw [e3 i p hi hp]
    simp only [C46_rigid _ ix ws j.influences i l.root hpos (hjoint i hi)]
  exact ⟨s', r1, conv _ _ _ r2, fun h => conv _ _ _ (r3 h), fun h => conv _ _ _ (r4 h)⟩

/-- C65: skinning with the model matrices of a pose and the inverses of the same matrices leaves every mesh where it is. -/
theorem C65_bind_pose (ck : Bool) (l : LocalToModel.Job (SoaTransform ℝ) (Mat4 ℝ)) (buf : List (Mat4 ℝ))
    (hp : ParentsFirst l.parents) (hv : LocalToModel.validate l buf = true) (pose : Nat → JointPose)
    (hpose : ∀ i < l.parents.length, jointPose l.input i = some (pose i))
    (hu : ∀ i < l.parents.length, Quaternion.normSq (pose i).rotation = 1)
    (hs : ∀ i < l.parents.length, (pose i).scale.1 ≠ 0 ∧ (pose i).scale.2.1 ≠ 0 ∧ (pose i).scale.2.2 ≠ 0)
    (h1 : toMatrix l.root = 1)
    (hf1 : -(2:Int)^31 ≤ l.from_) (hf2 : l.from_ < 0)
    (ht1 : (l.parents.length : Int) ≤ l.to + 1) (ht2 : l.to < 2^31 - 1) :
    ∃ bind, LocalToModel.run Mat4.mul localMatrices l buf = .ok bind ∧
      ∀ (j : Skinning.Job ℝ) (s : Skinning.State ℝ) (ix : List Nat) (ws : List ℝ),
        Skinning.validate ck j s = .ok true → j.vertexCount * j.influences < 2 ^ 64 →
        j.matrices = some (.ok (bind.map fun b => b.mul b.invert)) → j.itMatrices = none →
        j.indices = some (.ok ix) → (∀ k i, k < j.vertexCount * j.influences → ix[k]? = some i → i < l.parents.length) →
        (1 < j.influences → j.weights = some (.ok ws)) →
        ∃ s', Skinning.run ck j s = .ok s' ∧
          Mapped j.vertexCount (fun _ p => p) j.inPositions s'.positions ∧
          (j.inNormals ≠ none → Mapped j.vertexCount (fun _ p => p) j.inNormals s'.normals) ∧
          (j.inTangents ≠ none → Mapped j.vertexCount (fun _ p => p) j.inTangents s'.tangents) := by
  obtain ⟨now, bind, n1, b1, h⟩ := C65_root_moves_mesh ck l l.root buf hp hv pose hpose hu hs h1 hf1 hf2 ht1 ht2
  rw [show ({ l with root := l.root } : LocalToModel.Job _ _) = l from rfl, n1] at b1
  cases b1
  refine ⟨now, n1, fun j s ix ws hv hb hm hit hix hin hw => ?_⟩
  have hz : List.zipWith (fun m b => Mat4.mul m b.invert) now now = now.map fun b => b.mul b.invert := by
    rw [List.zipWith_self]
  obtain ⟨s', r1, r2, r3, r4⟩ := h j s ix ws hv hb (by rw [hz]; exact hm) hit hix hin hw
  have e : ∀ (p : Skinning.P3 ℝ) (c : ℝ), applyH l.root p c = p := by
    intro p c
    have e : ∀ c r, l.root c r = if r = c then 1 else 0 := fun c r => by
      have := congrFun (congrFun h1 r) c
      rw [Matrix.one_apply] at this
      exact this
    funext r
    fin_cases r <;> simp [applyH, e, Fin.ext_iff]
  simp only [e] at r2 r3 r4
  exact ⟨s', r1, r2, r3, r4⟩

/-! ### Examples -/

/-- Two joints: a quarter turn about z with scale (2, 3, 4), shifted by (5, 6, 7), and below it a shift by (1, 0, 0) that
mirrors x. -/
private noncomputable def block : SoaTransform ℝ where
  translation := ⟨f4 5 1 0 0, f4 6 0 0 0, f4 7 0 0 0⟩
  rotation := ⟨splat 0, splat 0, f4 (√2 / 2) 0 0 0, f4 (√2 / 2) 1 1 1⟩
  scale := ⟨f4 2 (-1) 1 1, f4 3 1 1 1, f4 4 1 1 1⟩

private noncomputable def poses (i : Nat) : JointPose :=
  if i = 0 then { translation := ⟨0, 5, 6, 7⟩, rotation := ⟨√2 / 2, 0, 0, √2 / 2⟩, scale := (2, 3, 4) }
  else { translation := ⟨0, 1, 0, 0⟩, rotation := ⟨1, 0, 0, 0⟩, scale := (-1, 1, 1) }

private theorem poses_ok (i : Nat) (h : i < 2) : jointPose [block] i = some (poses i) := by
  obtain rfl | rfl : i = 0 ∨ i = 1 := by omega
  · rfl
  · rfl

private theorem poses_unit (i : Nat) (h : i < 2) : Quaternion.normSq (poses i).rotation = 1 := by
  have h2 : √2 * √2 = (2 : ℝ) := Real.mul_self_sqrt (by norm_num)
  rw [Quaternion.normSq_def']
  obtain rfl | rfl : i = 0 ∨ i = 1 := by omega
  · simp only [poses, if_pos]
    linear_combination h2 / 2
  · simp [poses]

/-- Eye and shift matrices. -/
private def eye : Mat4 ℝ := f4 (f4 1 0 0 0) (f4 0 1 0 0) (f4 0 0 1 0) (f4 0 0 0 1)
private def up : Mat4 ℝ := f4 (f4 1 0 0 0) (f4 0 1 0 0) (f4 0 0 1 0) (f4 0 0 9 1)

private theorem eye_one : toMatrix eye = 1 := by
  ext r c
  fin_cases r <;> fin_cases c <;> simp [toMatrix, eye]

private noncomputable def conv (root : Mat4 ℝ) : LocalToModel.Job (SoaTransform ℝ) (Mat4 ℝ) where
  parents := [-1, 0]
  input := [block]
  root := root
  from_ := -1
  «to» := 1023
  fromExcluded := false

private theorem conv_first (root : Mat4 ℝ) : ParentsFirst (conv root).parents := by
  intro i h
  have h : i < 2 := h
  obtain rfl | rfl : i = 0 ∨ i = 1 := by omega
  · exact ⟨by show (-1 : Int) ≤ -1; norm_num, by show (-1 : Int) < 0; norm_num⟩
  · exact ⟨by show (-1 : Int) ≤ 0; norm_num, by show (0 : Int) < 1; norm_num⟩

/-- The hypotheses of `C64_point`: the origin of the second joint goes to (1, 0, 0), that to (5, 8, 7). -/
example : ∃ out' m, LocalToModel.run Mat4.mul localMatrices (conv up) [eye, eye] = .ok out' ∧ out'[1]? = some m ∧
    m.transformPoint (f4 0 0 0 1) = f4 5 8 16 1 := by
  obtain ⟨out', h1, -, h2⟩ := C64_point (conv up) [eye, eye] (conv_first up) rfl poses poses_ok poses_unit
    (by show (-(2:Int)^31 ≤ -1); norm_num) (by show (-1 : Int) < 0; norm_num) (by show ((2:Nat):Int) ≤ 1023 + 1; norm_num)
    (by show (1023 : Int) < 2^31 - 1; norm_num)
  obtain ⟨m, path, h3, h4, h5⟩ := h2 1 (by show 1 < 2; norm_num)
  have hpath : path = [0, 1] :=
    LocalToModel.pathTo_unique h4 (.child (p := 0) (l := [0]) rfl (.root rfl))
  subst hpath
  refine ⟨out', m, h1, h3, ?_⟩
  rw [h5 _ (f4 5 8 7 1) ?_]
  · apply ext4 <;> simp [Mat4.transformPoint, swz, conv, up] <;> norm_num
  · have h2 : √2 * √2 = (2 : ℝ) := Real.mul_self_sqrt (by norm_num)
    have e : (poses 1).move (pureQuat (f4 0 0 0 1)) = pureQuat (f4 1 0 0 0) := by
      rw [move_def (x := 0) _ ⟨rfl, (mul_zero _).symm, (mul_zero _).symm, (mul_zero _).symm⟩, mul_zero, zero_mul,
        zero_add]
      rfl
    obtain ⟨x, x0, x1, x2, x3⟩ : ∃ x : Quaternion ℝ, x.re = 0 ∧ x.imI = 2 ∧ x.imJ = 0 ∧ x.imK = 0 :=
      ⟨⟨0, 2, 0, 0⟩, rfl, rfl, rfl, rfl⟩
    show _ = (poses 0).move ((poses 1).move (pureQuat (f4 0 0 0 1)))
    rw [e, move_def (x := x) _ (by simp [x0, x1, x2, x3, poses, pureQuat_at]), Quaternion.inv_def, poses_unit 0 (by norm_num),
      inv_one, one_smul]
    obtain ⟨y, hy, y0, y1, y2, y3⟩ : ∃ y : Quaternion ℝ, (poses 0).rotation = y ∧ y.re = √2 / 2 ∧ y.imI = 0 ∧
        y.imJ = 0 ∧ y.imK = √2 / 2 := ⟨_, rfl, by simp [poses], by simp [poses], by simp [poses], by simp [poses]⟩
    obtain ⟨z, hz, z0, z1, z2, z3⟩ : ∃ z : Quaternion ℝ, (poses 0).translation = z ∧ z.re = 0 ∧ z.imI = 5 ∧
        z.imJ = 6 ∧ z.imK = 7 := ⟨_, rfl, by simp [poses], by simp [poses], by simp [poses], by simp [poses]⟩
    simp only [hy, hz]
    ext <;> simp [x0, x1, x2, x3, y0, y1, y2, y3, z0, z1, z2, z3, pureQuat_at] <;> linarith

private theorem poses_scale (i : Nat) (hi : i < 2) :
    (poses i).scale.1 ≠ 0 ∧ (poses i).scale.2.1 ≠ 0 ∧ (poses i).scale.2.2 ≠ 0 := by
  obtain rfl | rfl : i = 0 ∨ i = 1 := by omega
  · simp [poses]
  · simp [poses]

/-- The same pose without scales. -/
private noncomputable def rigid (i : Nat) : JointPose := { poses i with scale := (1, 1, 1) }

/-- The hypotheses of `C64_rigid`. -/
example := C64_rigid { conv eye with input := [{ block with scale := ⟨splat 1, splat 1, splat 1⟩ }] } [eye, eye]
  (conv_first eye) rfl rigid (by
    intro i hi
    have hi : i < 2 := hi
    obtain rfl | rfl : i = 0 ∨ i = 1 := by omega
    · rfl
    · rfl) poses_unit (fun _ _ => rfl) eye_one
  (by show (-(2:Int)^31 ≤ -1); norm_num) (by show (-1 : Int) < 0; norm_num) (by show ((2:Nat):Int) ≤ 1023 + 1; norm_num)
  (by show (1023 : Int) < 2^31 - 1; norm_num)

/-- A vertex that hangs on both joints, with weights 1/4 and 3/4. -/
private noncomputable def skin (ms : List (Mat4 ℝ)) (p : Skinning.P3 ℝ) : Skinning.Job ℝ where
  vertexCount := 1
  influences := 2
  matrices := some (.ok ms)
  itMatrices := none
  indices := some (.ok [0, 1])
  weights := some (.ok [1 / 4])
  inPositions := some (.ok [p])
  inNormals := none
  inTangents := none

/-- The hypotheses of `C65_root_moves_mesh`: the vertex is moved by the root matrix. -/
example (ck : Bool) (p : Skinning.P3 ℝ) : ∃ now bind s' ys,
    LocalToModel.run Mat4.mul localMatrices (conv up) [eye, eye] = .ok now ∧
    LocalToModel.run Mat4.mul localMatrices (conv eye) [eye, eye] = .ok bind ∧
    Skinning.run ck (skin (List.zipWith (fun m b => m.mul b.invert) now bind) p) ⟨some (.ok [p]), none, none⟩ = .ok s' ∧
    s'.positions = some (.ok ys) ∧ ys[0]? = some (applyH up p 1) := by
  obtain ⟨now, bind, h1, h2, h3⟩ := C65_root_moves_mesh ck (conv up) eye [eye, eye] (conv_first up) rfl poses poses_ok poses_unit
    poses_scale eye_one
    (by show (-(2:Int)^31 ≤ -1); norm_num) (by show (-1 : Int) < 0; norm_num) (by show ((2:Nat):Int) ≤ 1023 + 1; norm_num)
    (by show (1023 : Int) < 2^31 - 1; norm_num)
  have hne : 0 < (List.zipWith (fun m b => Mat4.mul m b.invert) now bind).length := by
    rw [List.length_zipWith]
    have hv : LocalToModel.validate (conv up) [eye, eye] = true := rfl
    obtain ⟨o1, e1, e2, -⟩ := C64_point (conv up) [eye, eye] (conv_first up) rfl poses poses_ok poses_unit
      (by show (-(2:Int)^31 ≤ -1); norm_num) (by show (-1 : Int) < 0; norm_num)
      (by show ((2:Nat):Int) ≤ 1023 + 1; norm_num) (by show (1023 : Int) < 2^31 - 1; norm_num)
    obtain ⟨o2, e3, e4, -⟩ := C64_point (conv eye) [eye, eye] (conv_first eye) rfl poses poses_ok poses_unit
      (by show (-(2:Int)^31 ≤ -1); norm_num) (by show (-1 : Int) < 0; norm_num)
      (by show ((2:Nat):Int) ≤ 1023 + 1; norm_num) (by show (1023 : Int) < 2^31 - 1; norm_num)
    rw [h1] at e1
    cases e1
    rw [show conv eye = { conv up with root := eye } from rfl, h2] at e3
    cases e3
    rw [e2, e4]
    decide
  have hval : Skinning.validate ck (skin (List.zipWith (fun m b => m.mul b.invert) now bind) p) ⟨some (.ok [p]), none, none⟩
      = .ok true := by
    obtain ⟨b, e1, e2⟩ := Skinning.validate_iff ck (skin (List.zipWith (fun m b => m.mul b.invert) now bind) p)
      ⟨some (.ok [p]), none, none⟩ (by show 1 * 2 < 2 ^ 64; norm_num)
    rw [e1, e2.mpr ?_]
    exact ⟨by show 0 < 2; norm_num, ⟨_, rfl, hne⟩, ⟨_, rfl, by show 1 * 2 ≤ 2; norm_num⟩, fun _ => ⟨_, rfl, by show 1 * 1 ≤ 1; norm_num⟩,
      ⟨_, rfl, Nat.le_refl 1⟩, ⟨_, rfl, Nat.le_refl 1⟩, fun _ => rfl, fun h => absurd rfl h⟩
  obtain ⟨s', r1, ⟨xs, ys, r2, r3, r4⟩, -⟩ := h3 (skin _ p) ⟨some (.ok [p]), none, none⟩ [0, 1] [1 / 4] hval
    (by show 1 * 2 < 2 ^ 64; norm_num) rfl rfl rfl (by
      intro k i hk hi
      have hk : k < 1 * 2 := hk
      obtain rfl | rfl : k = 0 ∨ k = 1 := by omega
      · cases hi; show 0 < 2; norm_num
      · cases hi; show 1 < 2; norm_num) (fun _ => rfl)
  cases r2
  exact ⟨now, bind, s', ys, h1, h2, r1, r3, r4 0 p (Nat.zero_lt_one) rfl⟩

/-- The hypotheses of `C65_bind_pose`. -/
example (ck : Bool) := C65_bind_pose ck (conv eye) [eye, eye] (conv_first eye) rfl poses poses_ok poses_unit
  poses_scale eye_one
  (by show (-(2:Int)^31 ≤ -1); norm_num) (by show (-1 : Int) < 0; norm_num) (by show ((2:Nat):Int) ≤ 1023 + 1; norm_num)
  (by show (1023 : Int) < 2^31 - 1; norm_num)

end Ozz.Props
