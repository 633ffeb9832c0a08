import Verif.Proofs.VertexSkinning
import Verif.Spec.Skinning
import Verif.Proofs.Float

/-!
C99: skinning treats every vertex by itself. The theorem holds for every arithmetic, in particular for `f32`
with NaN and infinity.
-/

namespace Ozz.Props

open Ozz.Skinning (InRange Mapped)
open Spec

section
variable {α : Type} [Add α] [Sub α] [Mul α] [NumOps α]

/-- What a run writes: every vertex is moved by the one matrix of that vertex, its directions by that of the normal
matrices, in any arithmetic. -/
theorem vertex_run (ck : Bool) (j : Skinning.Job α) (s : Skinning.State α) (ms nms : List (Mat4 α)) (ix : List Nat)
    (ws : List α) (hv : Skinning.validate ck j s = .ok true) (hb : j.vertexCount * j.influences < 2 ^ 64)
    (hm : j.matrices = some (.ok ms)) (hnm : j.itMatrices = some (.ok nms) ∨ j.itMatrices = none ∧ nms = ms)
    (hix : j.indices = some (.ok ix)) (hin : InRange j ms ix) (hw : 1 < j.influences → j.weights = some (.ok ws)) :
    ∃ s', Skinning.run ck j s = .ok s' ∧
      Mapped j.vertexCount (fun i => Skinning.point (Skinning.vertexMat ms ix ws j.influences i)) j.inPositions s'.positions ∧
      (j.inNormals ≠ none →
        Mapped j.vertexCount (fun i => Skinning.vector (Skinning.vertexMat nms ix ws j.influences i)) j.inNormals s'.normals) ∧
      (j.inTangents ≠ none →
        Mapped j.vertexCount (fun i => Skinning.vector (Skinning.vertexMat nms ix ws j.influences i)) j.inTangents s'.tangents) := by
  have hv' : Skinning.Valid j s := by
    obtain ⟨b, h1, h2⟩ := Skinning.validate_iff ck j s hb
    rw [h1] at hv
    cases hv
    exact h2.mp rfl
  have hu : Skinning.usesIt j = true → ∃ its, j.itMatrices = some (.ok its) ∧
      ∀ k i, k < j.vertexCount * j.influences → ix[k]? = some i → i < its.length := by
    intro h
    unfold Skinning.usesIt at h
    rw [Bool.and_eq_true] at h
    exact hin.inverse (by intro h0; rw [h0] at h; simp at h) (by intro h0; rw [h0] at h; simp at h)
  obtain ⟨x, o, ho, hxi, hxw, hr, hwr⟩ := Skinning.skin_run ck j s hv' hb
    (fun h => by obtain ⟨its, h1, -⟩ := hu h; exact ⟨its, h1⟩)
    (fun ms' ix' h1 h2 => by rw [hm] at h1; rw [hix] at h2; cases h1; cases h2; exact hin.matrices)
    (fun h ms' ix' h1 h2 => by
      obtain ⟨its, h3, h4⟩ := hu h
      rw [h3] at h1; rw [hix] at h2; cases h1; cases h2; exact h4)
  have hnt : j.inTangents ≠ none → j.inNormals ≠ none := fun h h' => h (hv'.2.2.2.2.2.2.1 h')
  have hN : j.inNormals ≠ none → (Skinning.attrsOf j).normals = true := by
    intro h
    cases hx : j.inNormals with
    | none => exact absurd hx h
    | some _ => simp [Skinning.attrsOf, hx]
  have hT : j.inTangents ≠ none → (Skinning.attrsOf j).tangents = true := by
    intro h
    have h' := hN (hnt h)
    cases hx : j.inTangents with
    | none => exact absurd hx h
    | some _ =>
      have : j.inNormals.isSome = true := h'
      simp [Skinning.attrsOf, hx, this]
  have e1 : x.matrices = ms := by
    have := ho.matrices; rw [hm] at this; cases this; rfl
  have e2 : x.indices = ix := by
    rw [hix] at hxi; cases hxi; rfl
  have hsk : ∀ l i, Skinning.vertexMat l x.indices x.weights j.influences i = Skinning.vertexMat l ix ws j.influences i := by
    intro l i
    rw [e2]
    by_cases h1 : 1 < j.influences
    · have e3 : x.weights = ws := by
        have := hxw h1; rw [hw h1] at this; cases this; rfl
      rw [e3]
    · have h1 : j.influences = 1 := by have := hv'.1; omega
      simp only [Skinning.vertexMat, h1, if_true]
  have hnorm : j.inNormals ≠ none → ∀ i, (x.itMatrices.map fun l => Skinning.vertexMat l x.indices x.weights j.influences i).getD
      (Skinning.vertexMat x.matrices x.indices x.weights j.influences i) =
      Skinning.vertexMat nms ix ws j.influences i := by
    intro hne i
    rw [← hsk]
    rcases hnm with hnm | ⟨hnm, hnm'⟩
    · have hu : Skinning.usesIt j = true := by
        unfold Skinning.usesIt
        have : j.inNormals.isSome = true := hN hne
        rw [this, hnm]; rfl
      obtain ⟨its, h1, h2⟩ := ho.it_on hu
      rw [hnm] at h2; cases h2
      rw [h1]; rfl
    · have hu : Skinning.usesIt j = false := by
        unfold Skinning.usesIt
        rw [hnm]; simp
      rw [ho.it_off hu, hnm', ← e1]; rfl
  refine ⟨_, hr, ⟨_, o.positions, ho.inP.1, rfl, ?_⟩, ?_, ?_⟩
  · intro i p hi hp
    rw [hwr.pos i p hi hp, hsk, e1]
  · intro h
    refine ⟨_, o.normals, (ho.inN (hN h)).1, ?_, ?_⟩
    · unfold Skinning.putBack; rw [if_pos (hN h)]
    · intro i p hi hp
      rw [hwr.nor (hN h) i p hi hp, hnorm h]
  · intro h
    have h' := hnt h
    refine ⟨_, o.tangents, (ho.inT (hN h') (hT h)).1, ?_, ?_⟩
    · simp [Skinning.putBack, hN h', hT h]
    · intro i p hi hp
      rw [hwr.tan (hN h') (hT h) i p hi hp, hnorm h']

/-- Elements of two buffers that are the same stay the same if both are mapped by the same function. -/
theorem mapped_same {A : Type} {n n' v v' : Nat} {f g : Nat → A → A} {b b' c c' : Skinning.Buf A} (h : Mapped n f b c)
    (h' : Mapped n' g b' c') (hv : v < n) (hv' : v' < n') (hfg : f v = g v') (hs : SameElem b v b' v') : SameElem c v c' v' := by
  obtain ⟨xs, ys, rfl, rfl, h⟩ := h
  obtain ⟨xs', ys', rfl, rfl, h'⟩ := h'
  obtain ⟨us, us', p, e1, e2, e3, e4⟩ := hs
  cases e1; cases e2
  exact ⟨ys, ys', f v p, rfl, rfl, h v p hv e3, by rw [hfg]; exact h' v' p hv' e4⟩

/-- C99: two jobs with the same number of influences, each with its own mesh, matrices and outputs, and a vertex of
each: if the two vertices have the same weights and refer to the same matrices (under whatever indices), then the
same position goes to the same position and the same normals and tangents to the same normals and tangents, whatever
the other vertices and joints are, with debug or release arithmetic. Directions go by the normal matrices of a job if
it has them, else by its matrices. -/
theorem C99_vertex_alone (ck ck' : Bool) (j j' : Skinning.Job α) (s s' : Skinning.State α)
    (ms nms ms' nms' : List (Mat4 α)) (ix ix' : List Nat) (ws ws' : List α)
    (hv : Skinning.validate ck j s = .ok true) (hb : j.vertexCount * j.influences < 2 ^ 64)
    (hm : j.matrices = some (.ok ms)) (hnm : j.itMatrices = some (.ok nms) ∨ j.itMatrices = none ∧ nms = ms)
    (hix : j.indices = some (.ok ix)) (hin : InRange j ms ix) (hw : 1 < j.influences → j.weights = some (.ok ws))
    (hv' : Skinning.validate ck' j' s' = .ok true) (hb' : j'.vertexCount * j'.influences < 2 ^ 64)
    (hm' : j'.matrices = some (.ok ms')) (hnm' : j'.itMatrices = some (.ok nms') ∨ j'.itMatrices = none ∧ nms' = ms')
    (hix' : j'.indices = some (.ok ix')) (hin' : InRange j' ms' ix') (hw' : 1 < j'.influences → j'.weights = some (.ok ws'))
    (hn : j.influences = j'.influences) (v v' : Nat) (hlt : v < j.vertexCount) (hlt' : v' < j'.vertexCount)
    (hsm : SameMatrices j.influences ms ix v ms' ix' v')
    (hsw : 1 < j.influences → SameWeights j.influences ws v ws' v') :
    ∃ t t', Skinning.run ck j s = .ok t ∧ Skinning.run ck' j' s' = .ok t' ∧
      (SameElem j.inPositions v j'.inPositions v' → SameElem t.positions v t'.positions v') ∧
      (SameMatrices j.influences nms ix v nms' ix' v' →
        (SameElem j.inNormals v j'.inNormals v' → SameElem t.normals v t'.normals v') ∧
        (SameElem j.inTangents v j'.inTangents v' → SameElem t.tangents v t'.tangents v')) := by
  obtain ⟨t, h1, h2, h3, h4⟩ := vertex_run ck j s ms nms ix ws hv hb hm hnm hix hin hw
  obtain ⟨t', k1, k2, k3, k4⟩ := vertex_run ck' j' s' ms' nms' ix' ws' hv' hb' hm' hnm' hix' hin' hw'
  have hpos : 0 < j.influences := by
    obtain ⟨b, e1, e2⟩ := Skinning.validate_iff ck j s hb
    rw [e1] at hv
    cases hv
    exact (e2.mp rfl).1
  rw [← hn] at k2 k3 k4
  refine ⟨t, t', h1, k1, mapped_same h2 k2 hlt hlt' (by simp only [Skinning.vertexMat_same hpos hsm hsw]), fun hnm2 => ⟨?_, ?_⟩⟩
  · intro he
    refine mapped_same (h3 ?_) (k3 ?_) hlt hlt' (by simp only [Skinning.vertexMat_same hpos hnm2 hsw]) he
    · obtain ⟨_, _, _, e, -⟩ := he; rw [e]; simp
    · obtain ⟨_, _, _, -, e, -⟩ := he; rw [e]; simp
  · intro he
    refine mapped_same (h4 ?_) (k4 ?_) hlt hlt' (by simp only [Skinning.vertexMat_same hpos hnm2 hsw]) he
    · obtain ⟨_, _, _, e, -⟩ := he; rw [e]; simp
    · obtain ⟨_, _, _, -, e, -⟩ := he; rw [e]; simp

end

/-! ### Example

The only vertex of a mesh, and the second of two of another mesh with joints in another order, where the first vertex
and a third joint hold NaN. -/

section
open Ozz.Skinning

def vtxNan : F32 := F32.pack false 2143289344

def vtxMat (x : F32) : Mat4 F32 := fun _ => splat x

def vtxPoint (x : F32) : P3 F32 := fun _ => x

def vtxJob : Skinning.Job F32 where
  vertexCount := 1
  influences := 2
  matrices := some (.ok [vtxMat F32.one, vtxMat (F32.ofNat 3)])
  itMatrices := none
  indices := some (.ok [0, 1])
  weights := some (.ok [F32.ofNat 5])
  inPositions := some (.ok [vtxPoint F32.one])
  inNormals := some (.ok [vtxPoint F32.one])
  inTangents := none

def vtxJob' : Skinning.Job F32 where
  vertexCount := 2
  influences := 2
  matrices := some (.ok [vtxMat (F32.ofNat 3), vtxMat vtxNan, vtxMat F32.one])
  itMatrices := none
  indices := some (.ok [1, 1, 2, 0])
  weights := some (.ok [vtxNan, F32.ofNat 5])
  inPositions := some (.ok [vtxPoint vtxNan, vtxPoint F32.one])
  inNormals := some (.ok [vtxPoint vtxNan, vtxPoint F32.one])
  inTangents := none

def vtxOut : Skinning.State F32 := ⟨some (.ok [vtxPoint vtxNan]), some (.ok [vtxPoint vtxNan]), none⟩

def vtxOut' : Skinning.State F32 :=
  ⟨some (.ok [vtxPoint vtxNan, vtxPoint vtxNan]), some (.ok [vtxPoint vtxNan, vtxPoint vtxNan]), none⟩

theorem vtxJob_range : InRange vtxJob [vtxMat F32.one, vtxMat (F32.ofNat 3)] [0, 1] := by
  constructor
  · intro k i hk hi
    have hk : k < 1 * 2 := hk
    obtain rfl | rfl : k = 0 ∨ k = 1 := by omega
    all_goals cases hi; decide
  · intro _ h
    exact absurd rfl h

theorem vtxJob_range' : InRange vtxJob' [vtxMat (F32.ofNat 3), vtxMat vtxNan, vtxMat F32.one] [1, 1, 2, 0] := by
  constructor
  · intro k i hk hi
    have hk : k < 2 * 2 := hk
    obtain rfl | rfl | rfl | rfl : k = 0 ∨ k = 1 ∨ k = 2 ∨ k = 3 := by omega
    all_goals cases hi; decide
  · intro _ h
    exact absurd rfl h

example : ∃ t t', Skinning.run true vtxJob vtxOut = .ok t ∧ Skinning.run false vtxJob' vtxOut' = .ok t' ∧
    SameElem t.positions 0 t'.positions 1 ∧ SameElem t.normals 0 t'.normals 1 := by
  have hsm : SameMatrices 2 [vtxMat F32.one, vtxMat (F32.ofNat 3)] [0, 1] 0
      [vtxMat (F32.ofNat 3), vtxMat vtxNan, vtxMat F32.one] [1, 1, 2, 0] 1 := by
    intro k hk
    obtain rfl | rfl : k = 0 ∨ k = 1 := by omega
    all_goals exact ⟨_, _, _, rfl, rfl, rfl, rfl⟩
  obtain ⟨t, t', h1, h2, h3, h4⟩ := C99_vertex_alone true false vtxJob vtxJob' vtxOut vtxOut' _ _ _ _ _ _
    [F32.ofNat 5] [vtxNan, F32.ofNat 5] rfl (by decide) rfl (.inr ⟨rfl, rfl⟩) rfl vtxJob_range (fun _ => rfl)
    rfl (by decide) rfl (.inr ⟨rfl, rfl⟩) rfl vtxJob_range' (fun _ => rfl) rfl 0 1 (by decide) (by decide) hsm (by
      intro _ k hk
      have hk : k < 2 - 1 := hk
      obtain rfl : k = 0 := by omega
      rfl)
  exact ⟨t, t', h1, h2, h3 ⟨_, _, _, rfl, rfl, rfl, rfl⟩, (h4 hsm).1 ⟨_, _, _, rfl, rfl, rfl, rfl⟩⟩

end

end Ozz.Props
