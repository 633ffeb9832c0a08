import Verif.Proofs.JointBlending
import Verif.Props.Blending

/-!
C98: blending treats every joint by itself. The theorems hold for every arithmetic, in particular for
`f32` with NaN and infinity: whatever the other joints hold, also those in the same SIMD register, a joint
comes out the same, and its place in the skeleton does not matter either.
-/

namespace Ozz.Props

open Ozz Blending Spec

section

variable {α : Type} [Add α] [Sub α] [Mul α] [Div α] [Neg α] [NumOps α]

/-- C98: two jobs that say the same about a joint of the first and a joint of the second give these two
joints the same pose, in any arithmetic where subtracting zero keeps positive thresholds positive. The
skeletons, the places of the joints, all other joints, the contexts and the old outputs may differ. -/
theorem C98_joint_alone (j j' : Job α) (rest rest' : List (SoaTransform α)) (c c' : Context α)
    (out out' : List (SoaTransform α)) (hs : j.skeleton = some rest) (hs' : j'.skeleton = some rest')
    (h0 : NumOps.lt NumOps.zero j.threshold = true → NumOps.lt NumOps.zero (j.threshold - NumOps.zero) = true)
    (i i' : Nat) (l l' : Fin 4) (r r' : SoaTransform α) (hr : rest[i]? = some r) (hr' : rest'[i']? = some r')
    (hrest : SameLane r l r' l') (hthr : j.threshold = j'.threshold)
    (hl : List.Forall₂ (SameForJoint i l i' l') j.layers j'.layers)
    (ha : List.Forall₂ (SameForJoint i l i' l') j.additiveLayers j'.additiveLayers)
    (s s' : State α) (hrun : run j ⟨some c, some (.ok out)⟩ = .ok s)
    (hrun' : run j' ⟨some c', some (.ok out')⟩ = .ok s') :
    ∃ d d' os os' o o', s = ⟨some d, some (.ok os)⟩ ∧ s' = ⟨some d', some (.ok os')⟩ ∧
      os[i]? = some o ∧ os'[i']? = some o' ∧ SameLane o l o' l' := by
  obtain ⟨_, _, _, -, -, -, h4, -⟩ := (validate_iff _ _).mp (run_ok_validate _ _ _ hrun)
  obtain ⟨d, os, rfl, -, e, -⟩ := blended hs hrun
  obtain ⟨d', os', rfl, -, e', -⟩ := blended hs' hrun'
  obtain ⟨old, f⟩ := e i r hr
  obtain ⟨old', f'⟩ := e' i' r' hr'
  refine ⟨d, d', os, os', _, _, rfl, rfl, f, f', ?_⟩
  unfold jointRun
  rw [← hthr]
  exact same_additive (same_jointBlend (h0 h4) hrest hl) ha

end

/-- C98 for single precision, where nothing has to be assumed of the arithmetic. -/
theorem C98_f32 (j j' : Job F32) (rest rest' : List (SoaTransform F32)) (c c' : Context F32)
    (out out' : List (SoaTransform F32)) (hs : j.skeleton = some rest) (hs' : j'.skeleton = some rest')
    (i i' : Nat) (l l' : Fin 4) (r r' : SoaTransform F32) (hr : rest[i]? = some r) (hr' : rest'[i']? = some r')
    (hrest : SameLane r l r' l') (hthr : j.threshold = j'.threshold)
    (hl : List.Forall₂ (SameForJoint i l i' l') j.layers j'.layers)
    (ha : List.Forall₂ (SameForJoint i l i' l') j.additiveLayers j'.additiveLayers)
    (s s' : State F32) (hrun : run j ⟨some c, some (.ok out)⟩ = .ok s)
    (hrun' : run j' ⟨some c', some (.ok out')⟩ = .ok s') :
    ∃ d d' os os' o o', s = ⟨some d, some (.ok os)⟩ ∧ s' = ⟨some d', some (.ok os')⟩ ∧
      os[i]? = some o ∧ os'[i']? = some o' ∧ SameLane o l o' l' :=
  C98_joint_alone j j' rest rest' c c' out out' hs hs' (fun h => by rw [C57_f32 _ h]; exact h) i i' l l' r r' hr hr'
    hrest hthr hl ha s s' hrun hrun'

/-! ### Example

Four joints of which the second holds NaN everywhere, and eight joints where the first of the four stands
in the seventh place: it comes out the same. -/

/-- Quiet NaN. -/
def laneNan : F32 := F32.pack false 2143289344

def laneOne : F32 := F32.one

/-- A pose with the given x for every joint. -/
def lanePoseF (x : F4 F32) : SoaTransform F32 :=
  ⟨⟨x, splat laneOne, splat laneOne⟩, ⟨x, splat laneOne, splat laneOne, splat laneOne⟩, ⟨x, splat laneOne, splat laneOne⟩⟩

def jobNan : Job F32 :=
  ⟨some [lanePoseF (f4 laneOne laneNan laneOne laneOne)], laneOne, [⟨.ok [lanePoseF (f4 laneOne laneNan laneOne laneOne)], laneOne, [f4 laneOne laneNan laneOne laneOne]⟩],
    [⟨.ok [lanePoseF (f4 laneOne laneNan laneNan laneOne)], laneOne, []⟩]⟩

def jobTwo : Job F32 :=
  ⟨some [lanePoseF (splat laneNan), lanePoseF (f4 laneNan laneNan laneOne laneNan)], laneOne,
    [⟨.ok [lanePoseF (splat laneNan), lanePoseF (f4 laneNan laneNan laneOne laneNan)], laneOne, [splat laneNan, f4 laneNan laneNan laneOne laneNan]⟩],
    [⟨.ok [lanePoseF (splat laneNan), lanePoseF (f4 laneNan laneNan laneOne laneNan)], laneOne, []⟩]⟩

def laneCtx : Context F32 := ⟨3, 3, laneNan, []⟩

theorem jobNan_runs : ∃ s, run jobNan ⟨some laneCtx, some (.ok [lanePoseF (splat laneNan)])⟩ = .ok s := by
  obtain ⟨c', out', h, -⟩ := C35_valid_runs_partial jobNan [lanePoseF (f4 laneOne laneNan laneOne laneOne)] laneCtx [lanePoseF (splat laneNan)]
    (by
      rw [validate_iff]
      refine ⟨_, _, _, rfl, rfl, rfl, by decide +kernel, by simp, ?_, ?_⟩ <;> intro l hl <;>
        simp only [jobNan, List.mem_cons, List.not_mem_nil, or_false] at hl <;> subst hl <;> rw [Layer.ok_iff]
      · exact ⟨_, rfl, by simp, by simp⟩
      · exact ⟨_, rfl, by simp, by simp⟩) rfl (.inr rfl)
  exact ⟨_, h⟩

theorem jobTwo_runs : ∃ s, run jobTwo ⟨some laneCtx, some (.ok [lanePoseF (splat laneNan), lanePoseF (splat laneNan)])⟩ = .ok s := by
  obtain ⟨c', out', h, -⟩ := C35_valid_runs_partial jobTwo [lanePoseF (splat laneNan), lanePoseF (f4 laneNan laneNan laneOne laneNan)] laneCtx
    [lanePoseF (splat laneNan), lanePoseF (splat laneNan)]
    (by
      rw [validate_iff]
      refine ⟨_, _, _, rfl, rfl, rfl, by decide +kernel, by simp, ?_, ?_⟩ <;> intro l hl <;>
        simp only [jobTwo, List.mem_cons, List.not_mem_nil, or_false] at hl <;> subst hl <;> rw [Layer.ok_iff]
      · exact ⟨_, rfl, by simp, by simp⟩
      · exact ⟨_, rfl, by simp, by simp⟩) rfl (.inr rfl)
  exact ⟨_, h⟩

/-- Lane 0 of the only SoA joint of one job, lane 2 of the second SoA joint of the other. -/
example : ∃ s s' d d' os os' o o', run jobNan ⟨some laneCtx, some (.ok [lanePoseF (splat laneNan)])⟩ = .ok s ∧
    run jobTwo ⟨some laneCtx, some (.ok [lanePoseF (splat laneNan), lanePoseF (splat laneNan)])⟩ = .ok s' ∧
    s = ⟨some d, some (.ok os)⟩ ∧ s' = ⟨some d', some (.ok os')⟩ ∧
    os[0]? = some o ∧ os'[1]? = some o' ∧ SameLane o 0 o' 2 := by
  obtain ⟨s, h⟩ := jobNan_runs
  obtain ⟨s', h'⟩ := jobTwo_runs
  obtain ⟨d, d', os, os', o, o', k⟩ := C98_f32 jobNan jobTwo _ _ laneCtx laneCtx _ _ rfl rfl 0 1 0 2 _ _ rfl rfl
    (by constructor <;> rfl) rfl
    (.cons ⟨rfl, by simp, rfl, _, _, _, _, rfl, rfl, rfl, rfl, by constructor <;> rfl⟩ .nil)
    (.cons ⟨rfl, by simp, rfl, _, _, _, _, rfl, rfl, rfl, rfl, by constructor <;> rfl⟩ .nil) s s' h h'
  exact ⟨s, s', d, d', os, os', o, o', h, h', k⟩

end Ozz.Props
