import Verif.Proofs.SkinningExact
import Mathlib.Tactic.FinCases
import Mathlib.Tactic.NormNum

/-! Property theorems about skinning: C46, C47, C48. -/

namespace Ozz.Props

open Ozz.Skinning (influence joint applyH skinned InRange KeptFrom Mapped)

section
variable {α : Type} [Add α] [Sub α] [Mul α] [Div α] [Neg α] [NumOps α]

omit [Add α] [Sub α] [Mul α] [Div α] [Neg α] [NumOps α] in
private theorem valid_of_validate {ck : Bool} {j : Skinning.Job α} {s : Skinning.State α} (hv : Skinning.validate ck j s = .ok true)
    (hb : j.vertexCount * j.influences < 2 ^ 64) : Skinning.Valid j s := by
  obtain ⟨b, h1, h2⟩ := Skinning.validate_iff ck j s hb
  rw [h1] at hv
  cases hv
  exact h2.mp rfl

omit [Add α] [Sub α] [Mul α] [Div α] [Neg α] [NumOps α] in
private theorem inRange_use {j : Skinning.Job α} {ms : List (Mat4 α)} {ix : List Nat} (hm : j.matrices = some (.ok ms))
    (hix : j.indices = some (.ok ix)) (hin : InRange j ms ix) :
    Skinning.ItOk j ∧
    (∀ ms ix, j.matrices = some (.ok ms) → j.indices = some (.ok ix) → Skinning.Within ms ix (j.vertexCount * j.influences)) ∧
    (Skinning.usesIt j = true → ∀ ms ix, j.itMatrices = some (.ok ms) → j.indices = some (.ok ix) →
      Skinning.Within ms ix (j.vertexCount * j.influences)) := by
  have hu : Skinning.usesIt j = true → ∃ its, j.itMatrices = some (.ok its) ∧
      ∀ k i, k < j.vertexCount * j.influences → ix[k]? = some i → i < its.length := by
    intro h
    unfold Skinning.usesIt at h
    rw [Bool.and_eq_true] at h
    exact hin.inverse (by intro h0; rw [h0] at h; simp at h) (by intro h0; rw [h0] at h; simp at h)
  refine ⟨fun h => ?_, ?_, ?_⟩
  · obtain ⟨its, h1, -⟩ := hu h
    exact ⟨its, h1⟩
  · intro ms' ix' h1 h2
    rw [hm] at h1; rw [hix] at h2
    cases h1; cases h2
    exact hin.matrices
  · intro h ms' ix' h1 h2
    obtain ⟨its, h3, h4⟩ := hu h
    rw [h3] at h1; rw [hix] at h2
    cases h1; cases h2
    exact h4

omit [Div α] [Neg α] in
/-- C48: a valid job whose indices are in range runs; it writes only the first elements of the outputs of the attributes it
has, in any arithmetic. -/
theorem C48_runs (ck : Bool) (j : Skinning.Job α) (s : Skinning.State α) (ms : List (Mat4 α)) (ix : List Nat)
    (hv : Skinning.validate ck j s = .ok true) (hb : j.vertexCount * j.influences < 2 ^ 64)
    (hm : j.matrices = some (.ok ms)) (hix : j.indices = some (.ok ix)) (hin : InRange j ms ix) :
    ∃ s', Skinning.run ck j s = .ok s' ∧ KeptFrom j.vertexCount s.positions s'.positions ∧
      (j.inNormals = none → s'.normals = s.normals ∧ s'.tangents = s.tangents) ∧
      (j.inNormals ≠ none → KeptFrom j.vertexCount s.normals s'.normals) ∧
      (j.inTangents = none → s'.tangents = s.tangents) ∧
      (j.inTangents ≠ none → KeptFrom j.vertexCount s.tangents s'.tangents) := by
  have hv' := valid_of_validate hv hb
  obtain ⟨u1, u2, u3⟩ := inRange_use hm hix hin
  obtain ⟨x, o, ho, -, -, hr, hw⟩ := Skinning.skin_run ck j s hv' hb u1 u2 u3
  have hnt : j.inTangents ≠ none → j.inNormals ≠ none := fun h h' => h (hv'.2.2.2.2.2.2.1 h')
  have hN : j.inNormals ≠ none → (Skinning.attrsOf j).normals = true := by
    intro h
    cases hx : j.inNormals with
    | none => exact absurd hx h
    | some _ => simp [Skinning.attrsOf, hx]
  have hT : j.inTangents ≠ none → (Skinning.attrsOf j).tangents = true := by
    intro h
    have h' := hN (hnt h)
    cases hx : j.inTangents with
    | none => exact absurd hx h
    | some _ =>
      have : j.inNormals.isSome = true := h'
      simp [Skinning.attrsOf, hx, this]
  refine ⟨_, hr, ⟨_, _, ho.outP.1, rfl, hw.lenP, hw.keepP⟩, ?_, ?_, ?_, ?_⟩
  · intro h
    simp [Skinning.putBack, Skinning.attrsOf, h]
  · intro h
    refine ⟨_, o.normals, (ho.outN (hN h)).1, ?_, hw.lenN, hw.keepN⟩
    unfold Skinning.putBack; rw [if_pos (hN h)]
  · intro h
    simp [Skinning.putBack, Skinning.attrsOf, h]
  · intro h
    refine ⟨_, o.tangents, (ho.outT (hN (hnt h)) (hT h)).1, ?_, hw.lenT, hw.keepT⟩
    simp [Skinning.putBack, hN (hnt h), hT h]

omit [Div α] [Neg α] in
/-- C48: nothing is indexed out of bounds. If sizes do not overflow and there are matrices, no job panics, valid or not,
whatever the indices. -/
theorem C48_no_panic (ck : Bool) (j : Skinning.Job α) (s : Skinning.State α) (hb : j.vertexCount * j.influences < 2 ^ 64)
    (hm : j.matrices ≠ none) : Skinning.run ck j s ≠ .panic :=
  Skinning.run_noPanic ck j s hb (.inr hm)

omit [Div α] [Neg α] in
/-- C48, second half, for jobs that have matrices (not an empty list) and no tangents without normals: if `validate`
returns false, `run` returns an error and changes nothing. Without these restrictions it is false, see below. -/
theorem C48_rejected_partial (ck : Bool) (j : Skinning.Job α) (s : Skinning.State α)
    (hv : Skinning.validate ck j s = .ok false) (hb : j.vertexCount * j.influences < 2 ^ 64)
    (hm : j.matrices ≠ none) (hm' : j.matrices ≠ some (.ok [])) (ht : j.inNormals = none → j.inTangents = none) :
    ∃ e, Skinning.run ck j s = .err e s := by
  obtain ⟨b, h1, h2⟩ := Skinning.validate_iff ck j s hb
  rw [h1] at hv
  cases hv
  exact Skinning.reject_run ck j s (fun h => by cases h2.mpr h) hb hm hm' ht

omit [Div α] [Neg α] in
/-- C48 is false: without matrices `validate` returns false and `run` panics for two or more influences. -/
theorem C48_missing_matrices (ck : Bool) (j : Skinning.Job α) (s : Skinning.State α) (hm : j.matrices = none)
    (hn : 2 ≤ j.influences) : Skinning.validate ck j s = .ok false ∧ Skinning.run ck j s = .panic := by
  constructor
  · unfold Skinning.validate
    rw [hm]; rfl
  · rw [Skinning.run_eq ck j s (by omega), if_neg (by omega)]
    unfold Skinning.openN
    rw [hm]; rfl

omit [Add α] [Sub α] [Mul α] [Div α] [Neg α] [NumOps α] in
/-- C47: the selected code handles exactly the job's number of influences, its normal matrices and its attributes. -/
theorem C47_dispatch (j : Skinning.Job α) (h : 0 < j.influences) :
    ∃ k, Skinning.table (Skinning.branchOf j) =
        some (k, j.inNormals.isSome && j.itMatrices.isSome, ⟨j.inNormals.isSome, j.inNormals.isSome && j.inTangents.isSome⟩) ∧
      (k = .one ↔ j.influences = 1) ∧ (∀ n, k = .const n ↔ n = j.influences ∧ 2 ≤ n ∧ n ≤ 4) ∧ (k = .any ↔ 5 ≤ j.influences) := by
  refine ⟨_, Skinning.table_branch j h, ?_, ?_, ?_⟩
  · unfold Skinning.kindOf
    split
    · simp [*]
    · split <;> simp [*]
  · intro n
    unfold Skinning.kindOf
    split
    · simp; omega
    · split
      · simp; omega
      · simp; omega
  · unfold Skinning.kindOf
    split
    · simp; omega
    · split
      · simp; omega
      · simp; omega

omit [Add α] [Sub α] [Mul α] [Div α] [Neg α] [NumOps α] in
/-- C47: the `unreachable!()` of the match is never reached. -/
theorem C47_reachable (j : Skinning.Job α) (h : 0 < j.influences) : Skinning.table (Skinning.branchOf j) ≠ none := by
  rw [Skinning.table_branch j h]; simp

end

/-- C46: every vertex goes to the weighted average of where its joints move it; directions likewise, by the normal
matrices if there are any. -/
theorem C46_skinned (ck : Bool) (j : Skinning.Job ℝ) (s : Skinning.State ℝ) (ms nms : List (Mat4 ℝ)) (ix : List Nat)
    (ws : List ℝ) (hv : Skinning.validate ck j s = .ok true) (hb : j.vertexCount * j.influences < 2 ^ 64)
    (hm : j.matrices = some (.ok ms)) (hnm : j.itMatrices = some (.ok nms) ∨ j.itMatrices = none ∧ nms = ms)
    (hix : j.indices = some (.ok ix)) (hin : InRange j ms ix) (hw : 1 < j.influences → j.weights = some (.ok ws)) :
    ∃ s', Skinning.run ck j s = .ok s' ∧
      Mapped j.vertexCount (fun i p => skinned ms ix ws j.influences i p 1) j.inPositions s'.positions ∧
      (j.inNormals ≠ none →
        Mapped j.vertexCount (fun i p => skinned nms ix ws j.influences i p 0) j.inNormals s'.normals) ∧
      (j.inTangents ≠ none →
        Mapped j.vertexCount (fun i p => skinned nms ix ws j.influences i p 0) j.inTangents s'.tangents) := by
  have hv' := valid_of_validate hv hb
  have hpos := hv'.1
  obtain ⟨u1, u2, u3⟩ := inRange_use hm hix hin
  obtain ⟨x, o, ho, hxi, hxw, hr, hwr⟩ := Skinning.skin_run ck j s hv' hb u1 u2 u3
  have hnt : j.inTangents ≠ none → j.inNormals ≠ none := fun h h' => h (hv'.2.2.2.2.2.2.1 h')
  have hN : j.inNormals ≠ none → (Skinning.attrsOf j).normals = true := by
    intro h
    cases hx : j.inNormals with
    | none => exact absurd hx h
    | some _ => simp [Skinning.attrsOf, hx]
  have hT : j.inTangents ≠ none → (Skinning.attrsOf j).tangents = true := by
    intro h
    have h' := hN (hnt h)
    cases hx : j.inTangents with
    | none => exact absurd hx h
    | some _ =>
      have : j.inNormals.isSome = true := h'
      simp [Skinning.attrsOf, hx, this]
  have e1 : x.matrices = ms := by
    have := ho.matrices; rw [hm] at this; cases this; rfl
  have e2 : x.indices = ix := by
    rw [hix] at hxi; cases hxi; rfl
  -- with one influence the weights do not matter
  have hsk : ∀ l i p h, applyH (Skinning.vertexMat l x.indices x.weights j.influences i) p h = skinned l ix ws j.influences i p h := by
    intro l i p h
    rw [Skinning.applyH_vertexMat _ _ _ _ _ hpos, e2]
    by_cases h1 : 1 < j.influences
    · have e3 : x.weights = ws := by
        have := hxw h1; rw [hw h1] at this; cases this; rfl
      rw [e3]
    · have h1 : j.influences = 1 := by omega
      rw [h1]
      unfold skinned influence
      simp
  have hnorm : j.inNormals ≠ none → ∀ i, (x.itMatrices.map fun l => Skinning.vertexMat l x.indices x.weights j.influences i).getD
      (Skinning.vertexMat x.matrices x.indices x.weights j.influences i) =
      Skinning.vertexMat nms x.indices x.weights j.influences i := by
    intro hne i
    rcases hnm with hnm | ⟨hnm, hnm'⟩
    · have hu : Skinning.usesIt j = true := by
        unfold Skinning.usesIt
        have : j.inNormals.isSome = true := hN hne
        rw [this, hnm]; rfl
      obtain ⟨its, h1, h2⟩ := ho.it_on hu
      rw [hnm] at h2; cases h2
      rw [h1]; rfl
    · have hu : Skinning.usesIt j = false := by
        unfold Skinning.usesIt
        rw [hnm]; simp
      rw [ho.it_off hu, hnm', ← e1]; rfl
  refine ⟨_, hr, ⟨_, o.positions, ho.inP.1, rfl, ?_⟩, ?_, ?_⟩
  · intro i p hi hp
    rw [hwr.pos i p hi hp, Skinning.point_real, hsk, e1]
  · intro h
    refine ⟨_, o.normals, (ho.inN (hN h)).1, ?_, ?_⟩
    · unfold Skinning.putBack; rw [if_pos (hN h)]
    · intro i p hi hp
      rw [hwr.nor (hN h) i p hi hp, hnorm h, Skinning.vector_real, hsk]
  · intro h
    have h' := hnt h
    refine ⟨_, o.tangents, (ho.inT (hN h') (hT h)).1, ?_, ?_⟩
    · simp [Skinning.putBack, hN h', hT h]
    · intro i p hi hp
      rw [hwr.tan (hN h') (hT h) i p hi hp, hnorm h', Skinning.vector_real, hsk]

/-- C46: the weights of a vertex sum to one, whatever is stored. -/
theorem C46_weights_sum (ws : List ℝ) (n i : Nat) (h : 0 < n) : ∑ k ∈ Finset.range n, influence ws n i k = 1 := by
  obtain ⟨n, rfl⟩ : ∃ m, n = m + 1 := ⟨n - 1, by omega⟩
  rw [Finset.sum_range_succ]
  have h1 : ∑ k ∈ Finset.range n, influence ws (n + 1) i k = ∑ k ∈ Finset.range n, ws.getD (i * n + k) 0 := by
    apply Finset.sum_congr rfl
    intro k hk
    rw [Finset.mem_range] at hk
    rw [influence, if_pos (by omega)]; rfl
  rw [h1, influence, if_neg (by omega)]
  show _ + (1 - ∑ m ∈ Finset.range n, ws.getD (i * n + m) 0) = 1
  ring

/-- C46: if all joints of a vertex move alike, the vertex moves with them. -/
theorem C46_rigid (ms : List (Mat4 ℝ)) (ix : List Nat) (ws : List ℝ) (n i : Nat) (m : Mat4 ℝ) (h : 0 < n)
    (hm : ∀ k < n, joint ms ix n i k = m) (p : Skinning.P3 ℝ) (c : ℝ) : skinned ms ix ws n i p c = applyH m p c := by
  funext r
  unfold skinned
  rw [Finset.sum_congr rfl (fun k hk => by rw [hm k (Finset.mem_range.mp hk)]), ← Finset.sum_mul, C46_weights_sum ws n i h, one_mul]

/-! ### Examples -/

section
open Ozz.Skinning

/-- A translation. -/
private def shift (x y z : ℝ) : Mat4 ℝ := fun c => match c with
  | 0 => f4 1 0 0 0
  | 1 => f4 0 1 0 0
  | 2 => f4 0 0 1 0
  | 3 => f4 x y z 1

private def v3 (x y z : ℝ) : P3 ℝ := fun r => match r with
  | 0 => x
  | 1 => y
  | 2 => z

/-- One vertex, two joints, weights 1/4 and 3/4, with normals. -/
private noncomputable def job : Skinning.Job ℝ where
  vertexCount := 1
  influences := 2
  matrices := some (.ok [shift 0 0 0, shift 4 0 8])
  itMatrices := none
  indices := some (.ok [0, 1])
  weights := some (.ok [1 / 4])
  inPositions := some (.ok [v3 1 2 3])
  inNormals := some (.ok [v3 0 0 1])
  inTangents := none

private noncomputable def out : Skinning.State ℝ where
  positions := some (.ok [v3 0 0 0, v3 7 7 7])
  normals := some (.ok [v3 0 0 0])
  tangents := none

private theorem job_valid (ck : Bool) : Skinning.validate ck job out = .ok true := by cases ck <;> rfl

private theorem job_range : InRange job [shift 0 0 0, shift 4 0 8] [0, 1] := by
  constructor
  · intro k i hk hi
    have hk : k < 1 * 2 := hk
    obtain rfl | rfl : k = 0 ∨ k = 1 := by omega
    · cases hi; decide
    · cases hi; decide
  · intro _ h
    exact absurd rfl h

/-- The hypotheses of `C46_skinned` hold and the result is the average of `(1, 2, 3)` and `(5, 2, 11)`. -/
example (ck : Bool) : ∃ s', Skinning.run ck job out = .ok s' ∧
    Mapped 1 (fun i p => skinned [shift 0 0 0, shift 4 0 8] [0, 1] [1 / 4] 2 i p 1) job.inPositions s'.positions := by
  obtain ⟨s', h1, h2, -⟩ := C46_skinned ck job out [shift 0 0 0, shift 4 0 8] [shift 0 0 0, shift 4 0 8] [0, 1] [1 / 4] (job_valid ck) (by decide) rfl
    (.inr ⟨rfl, rfl⟩) rfl job_range (fun _ => rfl)
  exact ⟨s', h1, h2⟩

example : skinned [shift 0 0 0, shift 4 0 8] [0, 1] [1 / 4] 2 0 (v3 1 2 3) 1 = v3 4 2 9 := by
  funext r
  fin_cases r <;> simp [skinned, influence, joint, applyH, shift, v3, f4, Finset.sum_range_succ] <;> norm_num

/-- Normals are not translated. -/
example : skinned [shift 0 0 0, shift 4 0 8] [0, 1] [1 / 4] 2 0 (v3 0 0 1) 0 = v3 0 0 1 := by
  funext r
  fin_cases r <;> simp [skinned, influence, joint, applyH, shift, v3, f4, Finset.sum_range_succ] <;> norm_num

/-- The second output element is kept. -/
example (ck : Bool) : ∃ s', Skinning.run ck job out = .ok s' ∧ KeptFrom 1 out.positions s'.positions := by
  obtain ⟨s', h1, h2, -⟩ := C48_runs ck job out _ _ (job_valid ck) (by decide) rfl rfl job_range
  exact ⟨s', h1, h2⟩

example : Skinning.table (Skinning.branchOf job) = some (.const 2, false, ⟨true, false⟩) := rfl

/-- The hypotheses of `C46_rigid`. -/
example (p : P3 ℝ) : skinned [shift 1 2 3] [0, 0, 0] [5, 7] 3 0 p 1 = applyH (shift 1 2 3) p 1 :=
  C46_rigid _ _ _ _ _ _ (by decide) (by
    intro k hk
    obtain rfl | rfl | rfl : k = 0 ∨ k = 1 ∨ k = 2 := by omega
    all_goals rfl) _ _

/-- The hypotheses of `C48_rejected_partial`: not enough weights. -/
example (ck : Bool) : Skinning.validate ck { job with weights := some (.ok []) } out = .ok false ∧
    ∃ e, Skinning.run ck { job with weights := some (.ok []) } out = .err e out := by
  have h : Skinning.validate ck { job with weights := some (.ok []) } out = .ok false := by cases ck <;> rfl
  exact ⟨h, C48_rejected_partial ck _ _ h (by decide) (by simp [job]) (by simp [job]) (by simp [job])⟩

end

/-! ### Where C48 fails -/

section
open Ozz.Skinning

/-- C48 is false: with no matrices and no vertices `validate` returns false but `run` succeeds. -/
theorem C48_accepts_empty_matrices (ck : Bool) :
    let j : Skinning.Job ℝ := { job with vertexCount := 0, matrices := some (.ok []) }
    Skinning.validate ck j out = .ok false ∧ ∃ s', Skinning.run ck j out = .ok s' := by
  cases ck <;> exact ⟨rfl, _, rfl⟩

/-- C48 is false: tangents without normals are rejected by `validate` and ignored by `run`. -/
theorem C48_accepts_lone_tangents (ck : Bool) :
    let j : Skinning.Job ℝ := { job with inNormals := none, inTangents := some (.ok [v3 1 0 0]) }
    Skinning.validate ck j out = .ok false ∧ ∃ s', Skinning.run ck j out = .ok s' := by
  cases ck <;> exact ⟨rfl, _, rfl⟩

/-- An index out of range is an error, but vertices before it were already written. -/
theorem C48_partial_write (ck : Bool) :
    let j : Skinning.Job ℝ := { job with
      vertexCount := 2
      influences := 1
      indices := some (.ok [1, 5])
      inNormals := none
      inPositions := some (.ok [v3 1 2 3, v3 1 2 3]) }
    Skinning.validate ck j out = .ok true ∧
    Skinning.run ck j out = .err .invalidIndex { out with positions := some (.ok [point (shift 4 0 8) (v3 1 2 3), v3 7 7 7]) } := by
  cases ck <;> exact ⟨rfl, rfl⟩

/-- Without overflow checks the needed sizes wrap: a job of two vertices and 2^63 + 1 influences passes `validate` with
two indices, and `run` panics. -/
theorem C48_size_overflow :
    let j : Skinning.Job ℝ := { job with
      vertexCount := 2
      influences := 2 ^ 63 + 1
      inNormals := none
      weights := some (.ok [])
      inPositions := some (.ok [v3 1 2 3, v3 1 2 3]) }
    Skinning.validate false j out = .ok true ∧ Skinning.run false j out = .panic ∧
    Skinning.validate true j out = .error .panic := by
  refine ⟨rfl, rfl, rfl⟩

end

end Ozz.Props
