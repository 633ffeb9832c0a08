import Verif.Proofs.FloatSkin
import Mathlib.Tactic.FinCases
import Mathlib.Tactic.NormNum

/-! Property theorems about skinning in single precision: C80. -/

namespace Ozz.Props

open Ozz.Skinning (influence joint applyH skinned InRange norm1 valP MappedNear Matrices32Ok Weights32Ok)
open Ieee Spec F32

theorem valid_of_validate32 {ck : Bool} {j : Skinning.Job F32} {s : Skinning.State F32} (hv : Skinning.validate ck j s = .ok true)
    (hb : j.vertexCount * j.influences < 2 ^ 64) : Skinning.Valid j s := by
  obtain ⟨b, h1, h2⟩ := Skinning.validate_iff ck j s hb
  rw [h1] at hv
  cases hv
  exact h2.mp rfl

/-- C80: with floats, every vertex is within a few roundings of the weighted average of where its joints move it, and nothing
overflows. `Ω` bounds the sum of the stored weights of a vertex (1 if they are positive and add up to at most 1), `μ` and `τ` the
entries of the matrices. -/
theorem C80_skinned (ck : Bool) (j : Skinning.Job F32) (s : Skinning.State F32) (ms nms : List (Mat4 F32)) (ix : List Nat)
    (ws : List F32) (hv : Skinning.validate ck j s = .ok true) (hb : j.vertexCount * j.influences < 2 ^ 64)
    (hm : j.matrices = some (.ok ms)) (hnm : j.itMatrices = some (.ok nms) ∨ j.itMatrices = none ∧ nms = ms)
    (hix : j.indices = some (.ok ix)) (hin : InRange j ms ix) (hw : 1 < j.influences → j.weights = some (.ok ws))
    (hn : j.influences ≤ 2 ^ 20) {Ω μ τ limit : ℝ} (hΩ : 1 ≤ Ω) (hμ : 1 / 2 ^ 100 ≤ μ) (hτ : 1 / 2 ^ 100 ≤ τ) (hΩ2 : Ω ≤ 2 ^ 100)
    (hΩμ : Ω * μ ≤ 2 ^ 100) (hlim : Ω * (μ * limit + τ) ≤ 2 ^ 100)
    (hms : Matrices32Ok ms μ τ) (hnms : j.inNormals ≠ none → Matrices32Ok nms μ τ)
    (hws : 1 < j.influences → Weights32Ok ws j.influences j.vertexCount Ω) :
    ∃ s', Skinning.run ck j s = .ok s' ∧
      MappedNear j.vertexCount (fun i p => skinned (ms.map valMat) ix (ws.map val) j.influences i p 1)
        (fun p => (5 * j.influences + 21) / 2 ^ 24 * (Ω * (μ * norm1 p + τ)) + 1 / 2 ^ 147) limit j.inPositions s'.positions ∧
      (j.inNormals ≠ none →
        MappedNear j.vertexCount (fun i p => skinned (nms.map valMat) ix (ws.map val) j.influences i p 0)
          (fun p => (5 * j.influences + 21) / 2 ^ 24 * (Ω * (μ * norm1 p)) + 1 / 2 ^ 147) limit j.inNormals s'.normals) ∧
      (j.inTangents ≠ none →
        MappedNear j.vertexCount (fun i p => skinned (nms.map valMat) ix (ws.map val) j.influences i p 0)
          (fun p => (5 * j.influences + 21) / 2 ^ 24 * (Ω * (μ * norm1 p)) + 1 / 2 ^ 147) limit j.inTangents s'.tangents) := by
  have hv' := valid_of_validate32 hv hb
  have hpos := hv'.1
  have hu : Skinning.usesIt j = true → ∃ its, j.itMatrices = some (.ok its) ∧
      ∀ k i, k < j.vertexCount * j.influences → ix[k]? = some i → i < its.length := by
    intro h
    unfold Skinning.usesIt at h
    rw [Bool.and_eq_true] at h
    exact hin.inverse (by intro h0; rw [h0] at h; simp at h) (by intro h0; rw [h0] at h; simp at h)
  obtain ⟨x, o, ho, hxi, hxw, hr, hwr⟩ := Skinning.skin_run ck j s hv' hb
    (fun h => by obtain ⟨its, h1, -⟩ := hu h; exact ⟨its, h1⟩)
    (by
      intro ms' ix' h1 h2
      rw [hm] at h1; rw [hix] at h2
      cases h1; cases h2
      exact hin.matrices)
    (by
      intro h ms' ix' h1 h2
      obtain ⟨its, h3, h4⟩ := hu h
      rw [h3] at h1; rw [hix] at h2
      cases h1; cases h2
      exact h4)
  have hnt : j.inTangents ≠ none → j.inNormals ≠ none := fun h h' => h (hv'.2.2.2.2.2.2.1 h')
  have hN : j.inNormals ≠ none → (Skinning.attrsOf j).normals = true := by
    intro h
    cases hx : j.inNormals with
    | none => exact absurd hx h
    | some _ => simp [Skinning.attrsOf, hx]
  have hT : j.inTangents ≠ none → (Skinning.attrsOf j).tangents = true := by
    intro h
    have h' := hN (hnt h)
    cases hx : j.inTangents with
    | none => exact absurd hx h
    | some _ =>
      have : j.inNormals.isSome = true := h'
      simp [Skinning.attrsOf, hx, this]
  have e1 : x.matrices = ms := by
    have := ho.matrices; rw [hm] at this; cases this; rfl
  have e2 : x.indices = ix := by
    rw [hix] at hxi; cases hxi; rfl
  have hlen : j.vertexCount * j.influences ≤ ix.length := by
    obtain ⟨ix', h1, h2⟩ := hv'.2.2.1
    rw [hix] at h1; cases h1
    exact h2
  -- with one influence the weights do not matter
  have hsame : ∀ l i, Skinning.vertexMat l x.indices x.weights j.influences i = Skinning.vertexMat l ix ws j.influences i := by
    intro l i
    rw [e2]
    by_cases h1 : 1 < j.influences
    · have e3 : x.weights = ws := by
        have := hxw h1; rw [hw h1] at this; cases this; rfl
      rw [e3]
    · have h1 : j.influences = 1 := by omega
      rw [h1]
      unfold Skinning.vertexMat
      rw [if_pos rfl, if_pos rfl]
  have hnorm : j.inNormals ≠ none → ∀ i, (x.itMatrices.map fun l => Skinning.vertexMat l x.indices x.weights j.influences i).getD
      (Skinning.vertexMat x.matrices x.indices x.weights j.influences i) =
      Skinning.vertexMat nms ix ws j.influences i := by
    intro hne i
    rcases hnm with hnm | ⟨hnm, hnm'⟩
    · have hu : Skinning.usesIt j = true := by
        unfold Skinning.usesIt
        have : j.inNormals.isSome = true := hN hne
        rw [this, hnm]; rfl
      obtain ⟨its, h1, h2⟩ := ho.it_on hu
      rw [hnm] at h2; cases h2
      rw [h1]; exact hsame _ _
    · have hu : Skinning.usesIt j = false := by
        unfold Skinning.usesIt
        rw [hnm]; simp
      rw [ho.it_off hu, hnm', ← hsame, ← e1]; rfl
  have hwithin : j.inNormals ≠ none → Skinning.Within nms ix (j.vertexCount * j.influences) := by
    intro hne
    rcases hnm with hnm | ⟨hnm, rfl⟩
    · obtain ⟨its, h1, h2⟩ := hin.inverse hne (by rw [hnm]; simp)
      rw [hnm] at h1; cases h1
      exact h2
    · exact hin.matrices
  have over : ∀ p : Skinning.P3 F32, norm1 (valP p) ≤ limit → Ω * (μ * norm1 (valP p) + τ) ≤ 2 ^ 100 := by
    intro p hp
    refine le_trans ?_ hlim
    have μ0 : 0 < μ := lt_of_lt_of_le (by positivity) hμ
    have := mul_le_mul_of_nonneg_left hp μ0.le
    exact mul_le_mul_of_nonneg_left (by linarith) (by linarith)
  refine ⟨_, hr, ⟨_, o.positions, ho.inP.1, rfl, ?_⟩, ?_, ?_⟩
  · intro i p hi hp hf hl
    refine ⟨_, hwr.pos i p hi hp, fun r => ?_⟩
    rw [hsame, e1]
    exact (Skinning.vertex_ok hpos hn hin.matrices hlen hi hms hws hΩ hμ hτ hΩ2 hΩμ p hf (over p hl) r).1
  · intro h
    refine ⟨_, o.normals, (ho.inN (hN h)).1, ?_, ?_⟩
    · unfold Skinning.putBack; rw [if_pos (hN h)]
    · intro i p hi hp hf hl
      refine ⟨_, hwr.nor (hN h) i p hi hp, fun r => ?_⟩
      rw [hnorm h]
      exact (Skinning.vertex_ok hpos hn (hwithin h) hlen hi (hnms h) hws hΩ hμ hτ hΩ2 hΩμ p hf (over p hl) r).2
  · intro h
    have h' := hnt h
    refine ⟨_, o.tangents, (ho.inT (hN h') (hT h)).1, ?_, ?_⟩
    · simp [Skinning.putBack, hN h', hT h]
    · intro i p hi hp hf hl
      refine ⟨_, hwr.tan (hN h') (hT h) i p hi hp, fun r => ?_⟩
      rw [hnorm h']
      exact (Skinning.vertex_ok hpos hn (hwithin h') hlen hi (hnms h') hws hΩ hμ hτ hΩ2 hΩμ p hf (over p hl) r).2

/-! ### Examples -/

section
open Ozz.Skinning

private def g0 : F32 := ⟨0x00000000#32⟩
private def g1 : F32 := ⟨0x3f800000#32⟩
private def gq : F32 := ⟨0x3e800000#32⟩
private def g4 : F32 := ⟨0x40800000#32⟩

private theorem vg0 : val g0 = 0 := by
  have : value32 0x00000000#32 = 0 := by decide +kernel
  simp only [val, g0, real, this]; norm_num
private theorem vg1 : val g1 = 1 := by
  have : value32 0x3f800000#32 = 1 := by decide +kernel
  simp only [val, g1, real, this]; norm_num
private theorem vgq : val gq = 1 / 4 := by
  have : value32 0x3e800000#32 = 1 / 4 := by decide +kernel
  simp only [val, gq, real, this]; norm_num
private theorem vg4 : val g4 = 4 := by
  have : value32 0x40800000#32 = 4 := by decide +kernel
  simp only [val, g4, real, this]; norm_num

/-- A translation by `x` along the first axis. -/
private def shift32 (x : F32) : Mat4 F32 := fun c r =>
  if c = 3 ∧ r = 0 then x else if c = r then g1 else g0

private def p100 : P3 F32 := fun r => if r = 0 then g1 else g0

/-- One vertex, two joints, weights 1/4 and 3/4. -/
private def job32 : Skinning.Job F32 where
  vertexCount := 1
  influences := 2
  matrices := some (.ok [shift32 g0, shift32 g4])
  itMatrices := none
  indices := some (.ok [0, 1])
  weights := some (.ok [gq])
  inPositions := some (.ok [p100])
  inNormals := none
  inTangents := none

private def out32 : Skinning.State F32 where
  positions := some (.ok [p100])
  normals := none
  tangents := none

private theorem job32_range : InRange job32 [shift32 g0, shift32 g4] [0, 1] := by
  constructor
  · intro k i hk hi
    have hk : k < 1 * 2 := hk
    obtain rfl | rfl : k = 0 ∨ k = 1 := by omega
    · cases hi; simp
    · cases hi; simp
  · intro h
    exact absurd rfl h

private theorem shift32_ok : Matrices32Ok [shift32 g0, shift32 g4] 1 4 := by
  refine ⟨?_, ?_, ?_⟩
  · intro m hm
    simp only [List.mem_cons, List.not_mem_nil, or_false] at hm
    rcases hm with rfl | rfl <;> decide +kernel
  · intro m hm c r hc hr
    have h : ∀ x, |val (shift32 x c r)| ≤ 1 := by
      intro x
      unfold shift32
      rw [if_neg (fun h => hc h.1)]
      split
      · rw [vg1]; norm_num
      · rw [vg0]; norm_num
    simp only [List.mem_cons, List.not_mem_nil, or_false] at hm
    rcases hm with rfl | rfl <;> exact h _
  · intro m hm r hr
    have h : ∀ x, |val x| ≤ 4 → |val (shift32 x 3 r)| ≤ 4 := by
      intro x hx
      unfold shift32
      split
      · exact hx
      · split
        · rw [vg1]; norm_num
        · rw [vg0]; norm_num
    simp only [List.mem_cons, List.not_mem_nil, or_false] at hm
    rcases hm with rfl | rfl
    · exact h _ (by rw [vg0]; norm_num)
    · exact h _ (by rw [vg4]; norm_num)

private theorem weights32_ok : Weights32Ok [gq] 2 1 1 := by
  refine ⟨?_, ?_⟩
  · intro w hw
    simp only [List.mem_cons, List.not_mem_nil, or_false] at hw
    subst hw; decide +kernel
  · intro i hi
    obtain rfl : i = 0 := by omega
    simp [vgq]
    norm_num

/-- The hypotheses of `C80_skinned`: the vertex `(1, 0, 0)` goes to `(1, 0, 0)/4 + 3 (5, 0, 0)/4`, whose first coordinate is 4. -/
example (ck : Bool) : ∃ s' ys q, Skinning.run ck job32 out32 = .ok s' ∧ s'.positions = some (.ok ys) ∧ ys[0]? = some q ∧
    |val (q 0) - 4| ≤ 1 / 2 ^ 16 := by
  obtain ⟨s', h1, ⟨xs, ys, h2, h3, h4⟩, -⟩ := C80_skinned ck job32 out32 [shift32 g0, shift32 g4] [shift32 g0, shift32 g4] [0, 1] [gq]
    (by cases ck <;> rfl) (by decide) rfl (.inr ⟨rfl, rfl⟩) rfl job32_range (fun _ => rfl) (by decide) (Ω := 1) (μ := 1) (τ := 4)
    (limit := 100) (by norm_num) (by norm_num) (by norm_num) (by norm_num) (by norm_num) (by norm_num) shift32_ok
    (fun h => absurd rfl h) (fun _ => weights32_ok)
  cases h2
  have hn : norm1 (valP p100) = 1 := by
    simp [norm1, valP, p100, vg0, vg1]
  obtain ⟨q, h5, h6⟩ := h4 0 p100 Nat.zero_lt_one rfl (by decide +kernel) (by rw [hn]; norm_num)
  refine ⟨s', ys, q, h1, h3, h5, ?_⟩
  have h7 := (h6 0).2
  beta_reduce at h7
  have h8 : skinned ([shift32 g0, shift32 g4].map valMat) [0, 1] ([gq].map val) 2 0 (valP p100) 1 0 = 4 := by
    simp [skinned, influence, joint, applyH, valMat, valP, shift32, p100, Finset.sum_range_succ, vg0, vg1, vgq, vg4]
    norm_num
  have h9 : job32.influences = 2 := rfl
  rw [hn] at h7
  rw [h9, h8] at h7
  refine h7.trans ?_
  norm_num

end

end Ozz.Props
