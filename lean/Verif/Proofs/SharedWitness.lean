import Verif.Proofs.SharedAlias
import Verif.Model.Math

/-! Helper lemmas: executions in which blending reads layers of different times, and deadlocks. -/

namespace Ozz.Shared

open Spec.Shared

section Generic
variable {R : Type} {E : R → Type} {X Y : Type} [DecidableEq R]

/-- Changing the result. -/
def End.map (f : X → Y) : End E X → End E Y
  | .done x s => .done (f x) s
  | .died s => .died s
  | .blocked => .blocked

theorem exec_map (cell : Bool) (f : X → Y) (p : Prog E X) :
    ∀ held s, exec cell (p.map f) held s = (exec cell p held s).map f := by
  induction p with
  | lock r m k ih =>
    intro held s
    show exec cell (.lock r m fun v => (k v).map f) held s = _
    rw [exec, exec]
    split
    · split
      · exact ih _ _ _
      · exact ih _ _ _
    · split <;> rfl
  | put r v k ih =>
    intro held s
    show exec cell (.put r v (k.map f)) held s = _
    rw [exec, exec]
    split
    · exact ih _ _
    · rfl
  | drop g k ih =>
    intro held s
    show exec cell (.drop g (k.map f)) held s = _
    rw [exec, exec]
    split
    · exact ih _ _
    · rfl
  | ret x =>
    intro held s
    show exec cell (.ret (f x)) held s = _
    rw [exec, exec]
    split <;> rfl
  | panic => intro held s; rfl

/-- A thread of the application writing one buffer. -/
def writer (r : R) (v : E r) (x : X) : Prog E X :=
  .lock r .wr fun
    | none => .ret x
    | some _ => .put r v (give [(r, .wr)] x)

theorem twoPhase_writer {q : R → Prop} (r : R) (v : E r) (x : X) : TwoPhase q (writer r v x) [] :=
  ⟨fun _ => ⟨List.mem_cons_self, twoPhase_give _ _⟩, rfl⟩

theorem exec_writer {cell : Bool} {s : Store E} {r : R} {v : E r} {x : X} (h : (s r).poisoned = false) :
    exec cell (writer r v x) [] s = .done x (s.put r v) := by
  rw [writer, exec, if_pos (room_nil _ _), if_neg (by simp [h])]
  dsimp only
  rw [exec_put List.mem_cons_self, exec_give]

end Generic

/-! ### Blending -/

/-- All joints moved by `x` along the first axis. -/
def slid (x : F32) : SoaTransform F32 where
  translation := ⟨splat x, splat F32.zero, splat F32.zero⟩
  rotation := ⟨splat F32.zero, splat F32.zero, splat F32.zero, splat F32.one⟩
  scale := ⟨splat F32.one, splat F32.one, splat F32.one⟩

/-- Buffer 2 becomes the blend of buffers 0 and 1, which weigh 1 and 3. -/
def tornJob : BlendJob F32 where
  skeleton := some [slid F32.zero]
  threshold := ⟨0x3dcccccd⟩
  layers := [⟨0, ⟨0x3f800000⟩, []⟩, ⟨1, ⟨0x40400000⟩, []⟩]
  additiveLayers := []
  output := some 2

/-- A fresh context. -/
def tornContext : Blending.Context F32 := ⟨0, 0, F32.zero, []⟩

/-- Thread `false` blends; thread `true` writes one layer, then the other. -/
def tornNext : Bool → Nat → Option (Prog (Elem F32) Nat)
  | false, 0 => some ((blendProg id tornJob (some tornContext)).map fun _ => 1)
  | true, 0 => some (writer (.soa 0) [slid F32.one] 1)
  | true, 1 => some (writer (.soa 1) [slid F32.one] 2)
  | _, _ => none

/-- All transforms hold the rest pose. -/
def tornStore : Store (Elem F32)
  | .soa _ => ⟨[slid F32.zero], false⟩
  | .mat _ => ⟨[], false⟩
  | .idx _ => ⟨[], false⟩
  | .num _ => ⟨[], false⟩
  | .vec _ => ⟨[], false⟩

/-- Blending reads the first layer, then both layers are written, then it reads the second. -/
def tornSchedule : List Bool :=
  [false, false, false, false, false] ++ List.replicate 10 true ++ List.replicate 10 false

/-- The execution. -/
def tornRun : Nat → Sys (Elem F32) Nat Bool := runSchedule tornNext tornStore (fun _ => 0) tornSchedule

/-- Where the first joint of a pose is. -/
def seen (out : List (SoaTransform F32)) : List Nat := out.map fun t => (t.translation.x 0).bits.toNat

theorem tornRun_end : ((tornRun 25).threads false).idle = some 1 ∧ ((tornRun 25).threads true).idle = some 2 ∧
    seen ((tornRun 25).store (.soa 2)).data = [0x3f400000] := by
  decide +kernel

/-- The job on the content of its layers. -/
def tornSeen (a b : F32) : Blending.Job F32 :=
  ⟨some [slid F32.zero], ⟨0x3dcccccd⟩, [⟨.ok [slid a], ⟨0x3f800000⟩, []⟩, ⟨.ok [slid b], ⟨0x40400000⟩, []⟩], []⟩

/-- Where the blend of two poses is. -/
def tornBlend (a b : F32) : Option (List Nat) :=
  match Blending.runBody (tornSeen a b) [slid F32.zero] tornContext [slid F32.zero] with
  | .ok (_, out) => some (seen out)
  | _ => none

theorem tornBlend_values : tornBlend F32.zero F32.zero = some [0] ∧ tornBlend F32.one F32.zero = some [0x3e800000] ∧
    tornBlend F32.one F32.one = some [0x3f800000] := by
  decide +kernel

/-- The buffers of the layers after thread `true` has written `k` of them. -/
def Layers (k : Nat) (A : Store (Elem F32)) : Prop :=
  (k = 0 ∧ A (.soa 0) = ⟨[slid F32.zero], false⟩ ∧ A (.soa 1) = ⟨[slid F32.zero], false⟩) ∨
  (k = 1 ∧ A (.soa 0) = ⟨[slid F32.one], false⟩ ∧ A (.soa 1) = ⟨[slid F32.zero], false⟩) ∨
  (k = 2 ∧ A (.soa 0) = ⟨[slid F32.one], false⟩ ∧ A (.soa 1) = ⟨[slid F32.one], false⟩)

/-- What programs run one after the other can lead to. -/
structure Calm (A : Store (Elem F32)) (v : Bool → Option Nat) : Prop where
  layers : ∃ k, v true = some k ∧ Layers k A
  out : ∃ out, A (.soa 2) = ⟨out, false⟩ ∧ (v false = some 0 → out = [slid F32.zero]) ∧
    (seen out = [0] ∨ seen out = [0x3e800000] ∨ seen out = [0x3f800000])

theorem layers_put {k : Nat} {A : Store (Elem F32)} (h : Layers k A) (out : List (SoaTransform F32)) :
    Layers k (A.put (.soa 2) out) := by
  unfold Layers
  rw [put_ne _ (by simp : Ref.soa 0 ≠ Ref.soa 2), put_ne _ (by simp : Ref.soa 1 ≠ Ref.soa 2)]
  exact h

theorem blend_calm {k : Nat} {A : Store (Elem F32)} (hl : Layers k A)
    (ho : A (.soa 2) = ⟨[slid F32.zero], false⟩) :
    ∃ out, exec false ((blendProg id tornJob (some tornContext)).map fun _ => 1) [] A = .done 1 (A.put (.soa 2) out) ∧
      (seen out = [0] ∨ seen out = [0x3e800000] ∨ seen out = [0x3f800000]) := by
  obtain ⟨a, b, h0, h1, hb⟩ : ∃ a b, A (.soa 0) = ⟨[slid a], false⟩ ∧ A (.soa 1) = ⟨[slid b], false⟩ ∧
      (tornBlend a b = some [0] ∨ tornBlend a b = some [0x3e800000] ∨ tornBlend a b = some [0x3f800000]) := by
    rcases hl with ⟨_, h0, h1⟩ | ⟨_, h0, h1⟩ | ⟨_, h0, h1⟩
    · exact ⟨_, _, h0, h1, .inl tornBlend_values.1⟩
    · exact ⟨_, _, h0, h1, .inr (.inl tornBlend_values.2.1)⟩
    · exact ⟨_, _, h0, h1, .inr (.inr tornBlend_values.2.2)⟩
  have hsee : tornJob.see A = tornSeen a b := by
    simp only [BlendJob.see, tornJob, tornSeen, BlendLayer.see, BlendLayer.view, bufOf, List.map_cons, List.map_nil]
    rw [h0, h1]
    rfl
  have hm := exec_blend (cell := false) (s := A) id tornJob (c := tornContext) (o := 2) (rest := [slid F32.zero])
    rfl rfl (by
      intro l hl
      simp only [tornJob, List.mem_cons, List.not_mem_nil, or_false] at hl
      rcases hl with rfl | rfl <;> simp) (out := [slid F32.zero]) (by rw [bufOf, ho]; rfl) (by decide +kernel)
  rw [hsee] at hm
  rw [exec_map]
  unfold tornBlend at hb
  generalize Blending.runBody (tornSeen a b) [slid F32.zero] tornContext [slid F32.zero] = oc at hm hb
  rcases oc with ⟨c, out⟩ | ⟨e, c, out⟩ | _
  · refine ⟨out, ?_, ?_⟩
    · have hm : _ = _ := hm
      rw [hm]
      rfl
    · simpa using hb
  · simp at hb
  · simp at hb

theorem serial_calm {l : List Bool} {A : Store (Elem F32)} {v : Bool → Option Nat}
    (h : Serial tornNext tornStore (fun _ => 0) l A v) : Calm A v := by
  induction h with
  | nil => exact ⟨⟨0, rfl, .inl ⟨rfl, rfl, rfl⟩⟩, ⟨_, rfl, fun _ => rfl, .inl (by decide +kernel)⟩⟩
  | @done l s v t x p x' s' _ hv hn he ih =>
    obtain ⟨⟨k, hk, hl⟩, ⟨out, ho, hz, hs⟩⟩ := ih
    cases t with
    | false =>
      have hx : x = 0 ∧ p = (blendProg id tornJob (some tornContext)).map fun _ => 1 := by
        unfold tornNext at hn
        split at hn <;> simp_all
      obtain ⟨rfl, rfl⟩ := hx
      obtain ⟨out', he', hs'⟩ := blend_calm hl (by rw [ho, hz hv])
      rw [he'] at he
      cases he
      refine ⟨⟨k, by simpa using hk, layers_put hl _⟩, ⟨out', ?_, by simp, hs'⟩⟩
      rw [put_self, ho]
    | true =>
      have hx : (x = 0 ∧ p = writer (.soa 0) [slid F32.one] 1) ∨ (x = 1 ∧ p = writer (.soa 1) [slid F32.one] 2) := by
        unfold tornNext at hn
        split at hn <;> simp_all
      cases hk.symm.trans hv
      rcases hx with ⟨rfl, rfl⟩ | ⟨rfl, rfl⟩
      · rcases hl with ⟨_, h0, h1⟩ | ⟨h, _⟩ | ⟨h, _⟩
        · rw [exec_writer (by rw [h0])] at he
          cases he
          refine ⟨⟨1, by simp, .inr (.inl ⟨rfl, ?_, ?_⟩)⟩, ⟨out, ?_, by simpa using hz, hs⟩⟩
          · rw [put_self, h0]
          · rw [put_ne _ (by simp), h1]
          · rw [put_ne _ (by simp), ho]
        · cases h
        · cases h
      · rcases hl with ⟨h, _⟩ | ⟨_, h0, h1⟩ | ⟨h, _⟩
        · cases h
        · rw [exec_writer (by rw [h1])] at he
          cases he
          refine ⟨⟨2, by simp, .inr (.inr ⟨rfl, ?_, ?_⟩)⟩, ⟨out, ?_, by simpa using hz, hs⟩⟩
          · rw [put_ne _ (by simp), h0]
          · rw [put_self, h1]
          · rw [put_ne _ (by simp), ho]
        · cases h
  | @died l s v t x p s' _ hv hn he ih =>
    exfalso
    obtain ⟨⟨k, hk, hl⟩, ⟨out, ho, hz, hs⟩⟩ := ih
    cases t with
    | false =>
      have hx : x = 0 ∧ p = (blendProg id tornJob (some tornContext)).map fun _ => 1 := by
        unfold tornNext at hn
        split at hn <;> simp_all
      obtain ⟨rfl, rfl⟩ := hx
      obtain ⟨out', he', hs'⟩ := blend_calm hl (by rw [ho, hz hv])
      rw [he'] at he
      cases he
    | true =>
      have hx : p = writer (.soa 0) [slid F32.one] 1 ∨ p = writer (.soa 1) [slid F32.one] 2 := by
        unfold tornNext at hn
        split at hn <;> simp_all
      have hp : (s (.soa 0)).poisoned = false ∧ (s (.soa 1)).poisoned = false := by
        rcases hl with ⟨_, h0, h1⟩ | ⟨_, h0, h1⟩ | ⟨_, h0, h1⟩ <;> rw [h0, h1] <;> exact ⟨rfl, rfl⟩
      rcases hx with rfl | rfl
      · rw [exec_writer hp.1] at he; cases he
      · rw [exec_writer hp.2] at he; cases he

/-! ### Deadlocks -/

/-- Two blending jobs, each reading the output of the other. -/
def crossBlend (out layer : Nat) : BlendJob F32 where
  skeleton := some [slid F32.zero]
  threshold := ⟨0x3dcccccd⟩
  layers := [⟨layer, ⟨0x3f800000⟩, []⟩]
  additiveLayers := []
  output := some out

/-- One thread for each job. -/
def crossNext : Bool → Nat → Option (Prog (Elem F32) Nat)
  | false, 0 => some ((blendProg id (crossBlend 0 1) (some tornContext)).map fun _ => 1)
  | true, 0 => some ((blendProg id (crossBlend 1 0) (some tornContext)).map fun _ => 1)
  | _, _ => none

/-- Both threads take their output first. -/
def crossRun : Nat → Sys (Elem F32) Nat Bool :=
  runSchedule crossNext tornStore (fun _ => 0) [false, false, true, true]

theorem crossRun_end : ((crossRun 4).threads false).wants = some (.soa 1, .rd) ∧
    ((crossRun 4).threads true).wants = some (.soa 0, .rd) ∧
    ¬ Free (crossRun 4) (.soa 1) .rd ∧ ¬ Free (crossRun 4) (.soa 0) .rd := by
  decide +kernel

/-- Two skinning jobs, each reading the positions the other writes. -/
def crossSkin (from_ to_ : Nat) : SkinJob where
  vertexCount := 1
  influences := 1
  matrices := some 0
  itMatrices := none
  indices := some 0
  weights := none
  inPositions := some from_
  inNormals := none
  inTangents := none
  outPositions := some to_
  outNormals := none
  outTangents := none

/-- One thread for each job. -/
def pingPongNext : Bool → Nat → Option (Prog (Elem F32) Nat)
  | false, 0 => some ((skinProg false id (crossSkin 0 1)).map fun _ => 1)
  | true, 0 => some ((skinProg false id (crossSkin 1 0)).map fun _ => 1)
  | _, _ => none

/-- One vertex and one matrix. -/
def skinStore : Store (Elem F32)
  | .soa _ => ⟨[], false⟩
  | .mat _ => ⟨[fun _ => splat F32.one], false⟩
  | .idx _ => ⟨[0], false⟩
  | .num _ => ⟨[F32.one], false⟩
  | .vec _ => ⟨[fun _ => F32.one], false⟩

/-- Both threads take their input first. -/
def pingPongRun : Nat → Sys (Elem F32) Nat Bool :=
  runSchedule pingPongNext skinStore (fun _ => 0) [false, false, false, false, true, true, true, true]

theorem pingPongRun_end : ((pingPongRun 8).threads false).wants = some (.vec 1, .wr) ∧
    ((pingPongRun 8).threads true).wants = some (.vec 0, .wr) ∧
    ¬ Free (pingPongRun 8) (.vec 1) .wr ∧ ¬ Free (pingPongRun 8) (.vec 0) .wr := by
  decide +kernel

end Ozz.Shared
