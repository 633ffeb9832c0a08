import Verif.Proofs.SharedJobs
import Verif.Proofs.SharedSerial

/-! Helper lemmas: a job on shared buffers, running alone, does what the model of the job does. -/

namespace Ozz.Shared

open Spec.Shared

section Generic
variable {R : Type} {E : R → Type} {X : Type} [DecidableEq R] {cell : Bool} {s : Store E}

theorem exec_give (held : List (Guard R)) (x : X) : exec cell (give held x) held s = .done x s := by
  induction held with
  | nil => rfl
  | cons g held ih =>
    show exec cell (.drop g (give held x)) _ _ = _
    rw [exec, if_pos List.mem_cons_self, List.erase_cons_head, ih]

theorem store_put_put (s : Store E) (r : R) (a b : E r) : (s.put r a).put r b = s.put r b := by
  funext r'
  by_cases e : r' = r
  · subst e; rw [put_self, put_self, put_self]
  · rw [put_ne _ e, put_ne _ e, put_ne _ e]

theorem store_put_same (s : Store E) (r : R) : s.put r (s r).data = s := by
  funext r'
  by_cases e : r' = r
  · subst e; rw [put_self]
  · rw [put_ne _ e]

theorem exec_lock_ok {r : R} {m : Mode} {k : Option (E r) → Prog E X} {held : List (Guard R)} {v : E r}
    (hr : Room r m held) (hb : bufOf s r = .ok v) :
    exec cell (.lock r m k) held s = exec cell (k (some v)) ((r, m) :: held) s := by
  unfold bufOf at hb
  split at hb
  · cases hb
  · rename_i hp
    cases hb
    rw [exec, if_pos hr, if_neg hp]

theorem exec_lock_err {r : R} {m : Mode} {k : Option (E r) → Prog E X} {held : List (Guard R)} {e : OzzError}
    (hr : Room r m held) (hb : bufOf s r = .error e) :
    exec cell (.lock r m k) held s = exec cell (k none) held s ∧ e = .lockPoison := by
  unfold bufOf at hb
  split at hb
  · rename_i hp
    cases hb
    rw [exec, if_pos hr, if_pos hp]
    exact ⟨rfl, rfl⟩
  · cases hb

theorem bufOf_put_ne (s : Store E) {r r' : R} (h : r' ≠ r) (v : E r) : bufOf (s.put r v) r' = bufOf s r' := by
  rw [bufOf, bufOf, put_ne _ h]

theorem bufOf_put_self (s : Store E) {r : R} {w : E r} (h : bufOf s r = .ok w) (v : E r) :
    bufOf (s.put r v) r = .ok v := by
  unfold bufOf at *
  rw [put_self]
  split at h
  · cases h
  · rename_i hp
    rw [if_neg hp]

theorem bufOf_data {r : R} {w : E r} (h : bufOf s r = .ok w) : w = (s r).data := by
  unfold bufOf at h
  split at h
  · cases h
  · cases h; rfl

theorem exec_put {r : R} {v : E r} {k : Prog E X} {held : List (Guard R)} (h : (r, Mode.wr) ∈ held) :
    exec cell (.put r v k) held s = exec cell k held (s.put r v) := by
  rw [exec, if_pos h]

theorem exec_drop {g : Guard R} {k : Prog E X} {held : List (Guard R)} :
    exec cell (.drop g k) (g :: held) s = exec cell k held s := by
  rw [exec, if_pos List.mem_cons_self, List.erase_cons_head]

theorem room_nil (r : R) (m : Mode) : Room r m [] := fun g h => by cases h

end Generic

variable {α : Type} [Add α] [Sub α] [Mul α] [Div α] [Neg α] [NumOps α] {cell : Bool} {s : Store (Elem α)}

/-! ### Local to model -/

theorem exec_ltm (add : Int → Int → Res Int) (torn : List (Mat4 α) → List (Mat4 α)) (j : LtmJob α)
    {parents : List Int} {i o : Nat} (hs : j.skeleton = some parents) (hi : j.input = some i)
    (ho : j.output = some o) :
    exec cell (ltmProg add torn j) [] s =
      match bufOf s (.soa i), bufOf s (.mat o) with
      | .error e, _ => .done (.error e) s
      | .ok _, .error e => .done (.error e) s
      | .ok input, .ok out =>
        match LocalToModel.runWith add Mat4.mul LocalToModel.localMatrices (j.view parents input) out with
        | .ok out' => .done (.ok ()) (s.put (.mat o) out')
        | .error (.err e) => .done (.error e) s
        | .error .panic => .died (fallen cell (.mat o) (s.put (.mat o) (torn out))) := by
  unfold ltmProg
  rw [hs, hi, ho]
  dsimp only
  cases h1 : bufOf s (.soa i) with
  | error e =>
    obtain ⟨h, rfl⟩ := exec_lock_err (cell := cell) (X := Reply) (m := .rd) (held := []) (room_nil _ _) h1 (k := _)
    rw [h]
    rfl
  | ok input =>
    rw [exec_lock_ok (room_nil _ _) h1]
    have hroom : Room (.mat o) .wr [((Ref.soa i, Mode.rd) : Guard Ref)] := by
      intro g hg e
      simp only [List.mem_singleton] at hg
      subst hg
      cases e
    cases h2 : bufOf s (.mat o) with
    | error e =>
      obtain ⟨h, rfl⟩ := exec_lock_err (cell := cell) (X := Reply) hroom h2 (k := _)
      rw [h]
      exact exec_give _ _
    | ok out =>
      rw [exec_lock_ok hroom h2]
      dsimp only
      cases hrun : LocalToModel.runWith add Mat4.mul LocalToModel.localMatrices (j.view parents input) out with
      | ok out' => dsimp only; rw [exec_put List.mem_cons_self, exec_give]
      | error f =>
        cases f with
        | err e => exact exec_give _ _
        | panic =>
          dsimp only
          rw [exec_put List.mem_cons_self, exec, fallen]
          rfl

/-! ### Sampling -/

section
variable {α K3 KQ V3 VQ : Type} [Sampling.RatioOps α] (N : Sampling.Numerics α K3 KQ V3 VQ (SoaTransform α))
  (torn : List (SoaTransform α) → List (SoaTransform α)) {s : Store (Elem α)}

theorem exec_sam (j : SamJob α K3 KQ) {anim : Sampling.Animation α K3 KQ} {addr o : Nat}
    (ha : j.animation = some (anim, addr)) (ho : j.output = some o) (ctx : Sampling.Context α V3 VQ) :
    exec cell (samProg N torn j (some ctx)) [] s =
      match bufOf s (.soa o) with
      | .error e => .done (.error e, some ctx) s
      | .ok out =>
        match Sampling.run N anim addr j.ratio ctx out with
        | .ok (ctx', out') => .done (.ok (), some ctx') (s.put (.soa o) out')
        | .err e (ctx', out') => .done (.error e, some ctx') (s.put (.soa o) out')
        | .panic => .died (fallen cell (.soa o) (s.put (.soa o) (torn out))) := by
  unfold samProg
  rw [ha, ho]
  dsimp only
  cases h1 : bufOf s (.soa o) with
  | error e =>
    obtain ⟨h, rfl⟩ := exec_lock_err (cell := cell) (X := Reply × Option (Sampling.Context α V3 VQ)) (m := .wr)
      (held := []) (room_nil _ _) h1 (k := _)
    rw [h]
    rfl
  | ok out =>
    rw [exec_lock_ok (room_nil _ _) h1]
    dsimp only
    cases hrun : Sampling.run N anim addr j.ratio ctx out with
    | ok st => obtain ⟨c, o'⟩ := st; dsimp only; rw [exec_put List.mem_cons_self, exec_give]
    | err e st => obtain ⟨c, o'⟩ := st; dsimp only; rw [exec_put List.mem_cons_self, exec_give]
    | panic => dsimp only; rw [exec_put List.mem_cons_self, exec, fallen]; rfl

end

/-! ### Blending -/

/-- The program ended as the model says, having changed only buffer `o`. -/
def Meets (cell : Bool) (s : Store (Elem α)) (o : Nat) (oc : Outcome (Blending.Context α × List (SoaTransform α)))
    (e : End (Elem α) (BlendReply α)) : Prop :=
  match oc with
  | .ok (c, out) => e = .done (.ok (), some c) (s.put (.soa o) out)
  | .err er (c, out) => e = .done (.error er, some c) (s.put (.soa o) out)
  | .panic => ∃ out, e = .died (fallen cell (.soa o) (s.put (.soa o) out))

theorem room_layer {o l : Nat} (h : l ≠ o) : Room (.soa l) .rd [((Ref.soa o, Mode.wr) : Guard Ref)] := by
  intro g hg e
  simp only [List.mem_singleton] at hg
  subst hg
  cases e
  exact absurd rfl h

theorem soa_ne {l o : Nat} (h : l ≠ o) : Ref.soa l ≠ Ref.soa o := fun e => h (by cases e; rfl)

theorem meets_panic {o l : Nat} {out : List (SoaTransform α)} :
    Meets cell s o .panic (exec cell (.panic) [(.soa l, .rd), (.soa o, .wr)] (s.put (.soa o) out)) := by
  refine ⟨out, ?_⟩
  rw [exec, fallen]
  rfl

theorem meets_panic' {o : Nat} {out : List (SoaTransform α)} :
    Meets cell s o .panic (exec cell (.panic) [(.soa o, .wr)] (s.put (.soa o) out)) := by
  refine ⟨out, ?_⟩
  rw [exec, fallen]
  rfl

theorem exec_addLayers (torn : List (SoaTransform α) → List (SoaTransform α)) (o n : Nat) (c : Blending.Context α)
    (ls : List (BlendLayer α)) : (∀ l ∈ ls, l.transform ≠ o) → ∀ out,
    Meets cell s o
      (match Blending.addLayers n (ls.map (·.see s)) out with
        | .panic => .panic
        | .err e out => .err e (c, out)
        | .ok out => .ok (c, out))
      (exec cell (addLayersProg o n torn c ls out) [(.soa o, .wr)] (s.put (.soa o) out)) := by
  induction ls with
  | nil => intro _ out; exact exec_give _ _
  | cons l ls ih =>
    intro hl out
    have ih := ih (fun l' h => hl l' (List.mem_cons_of_mem _ h))
    have hne := hl l List.mem_cons_self
    rw [List.map_cons, Blending.addLayers, addLayersProg]
    have hbuf := bufOf_put_ne s (soa_ne hne) out
    cases hb : bufOf s (.soa l.transform) with
    | error e =>
      rw [hb] at hbuf
      obtain ⟨h, rfl⟩ := exec_lock_err (cell := cell) (X := BlendReply α) (room_layer hne) hbuf (k := _)
      rw [h]
      have hc : Blending.checkLayer n (l.see s) = .error .lockPoison := by
        simp [Blending.checkLayer, BlendLayer.see, BlendLayer.view, hb]
      rw [hc]
      exact exec_give _ _
    | ok data =>
      rw [hb] at hbuf
      rw [exec_lock_ok (room_layer hne) hbuf]
      have hsee : l.see s = l.view (.ok data) := by rw [BlendLayer.see, hb]
      rw [hsee]
      dsimp only
      cases hc : Blending.checkLayer n (l.view (.ok data)) with
      | error e => exact exec_give _ _
      | ok transform =>
        dsimp only
        have hw : (l.view (.ok data)).weight = l.weight := rfl
        rw [hw]
        generalize hr : (if NumOps.lt NumOps.zero l.weight then
            Blending.additivePass n (l.view (.ok data)) transform Blending.blendAdd (splat l.weight) out
          else if NumOps.lt l.weight NumOps.zero then
            Blending.additivePass n (l.view (.ok data)) transform Blending.blendSub (splat (-l.weight)) out
          else Except.ok out) = r
        cases r with
        | error f =>
          dsimp only
          rw [exec_put (List.mem_cons_of_mem _ List.mem_cons_self), store_put_put]
          exact meets_panic
        | ok out' =>
          dsimp only
          rw [exec_put (List.mem_cons_of_mem _ List.mem_cons_self), store_put_put, exec_drop]
          exact ih out'

theorem exec_blendLayers (torn : List (SoaTransform α) → List (SoaTransform α)) (o n : Nat)
    {k : Blending.Context α → List (SoaTransform α) → Prog (Elem α) (BlendReply α)}
    {K : Blending.Context α → List (SoaTransform α) → Outcome (Blending.Context α × List (SoaTransform α))}
    (hk : ∀ c out, Meets cell s o (K c out) (exec cell (k c out) [(.soa o, .wr)] (s.put (.soa o) out)))
    (ls : List (BlendLayer α)) : (∀ l ∈ ls, l.transform ≠ o) → ∀ c out,
    Meets cell s o
      (match Blending.blendLayers n (ls.map (·.see s)) c out with
        | .panic => .panic
        | .err e st => .err e st
        | .ok (c, out) => K c out)
      (exec cell (blendLayersProg o n torn ls c out k) [(.soa o, .wr)] (s.put (.soa o) out)) := by
  induction ls with
  | nil => intro _ c out; exact hk c out
  | cons l ls ih =>
    intro hl c out
    have ih := ih (fun l' h => hl l' (List.mem_cons_of_mem _ h))
    have hne := hl l List.mem_cons_self
    rw [List.map_cons, Blending.blendLayers, blendLayersProg]
    have hbuf := bufOf_put_ne s (soa_ne hne) out
    cases hb : bufOf s (.soa l.transform) with
    | error e =>
      rw [hb] at hbuf
      obtain ⟨h, rfl⟩ := exec_lock_err (cell := cell) (X := BlendReply α) (room_layer hne) hbuf (k := _)
      rw [h]
      have hc : Blending.checkLayer n (l.see s) = .error .lockPoison := by
        simp [Blending.checkLayer, BlendLayer.see, BlendLayer.view, hb]
      rw [hc]
      exact exec_give _ _
    | ok data =>
      rw [hb] at hbuf
      rw [exec_lock_ok (room_layer hne) hbuf]
      have hsee : l.see s = l.view (.ok data) := by rw [BlendLayer.see, hb]
      rw [hsee]
      dsimp only
      cases hc : Blending.checkLayer n (l.view (.ok data)) with
      | error e => exact exec_give _ _
      | ok transform =>
        dsimp only
        have hw : (l.view (.ok data)).weight = l.weight := rfl
        rw [hw]
        cases hle : NumOps.le l.weight NumOps.zero with
        | true =>
          simp only [if_true]
          rw [exec_drop]
          exact ih c out
        | false =>
          simp only [Bool.false_eq_true, if_false]
          cases hp : Blending.layerPass n (l.view (.ok data)) transform c out with
          | error f =>
            dsimp only
            rw [exec_put (List.mem_cons_of_mem _ List.mem_cons_self), store_put_put]
            exact meets_panic
          | ok st =>
            obtain ⟨c', out'⟩ := st
            dsimp only
            rw [exec_put (List.mem_cons_of_mem _ List.mem_cons_self), store_put_put, exec_drop]
            exact ih c' out'

theorem exec_blend (torn : List (SoaTransform α) → List (SoaTransform α)) (j : BlendJob α)
    {rest : List (SoaTransform α)} {c : Blending.Context α} {o : Nat} (hs : j.skeleton = some rest)
    (ho : j.output = some o) (ha : ∀ l, l ∈ j.layers ∨ l ∈ j.additiveLayers → l.transform ≠ o)
    {out : List (SoaTransform α)} (hb : bufOf s (.soa o) = .ok out)
    (hok : NumOps.lt NumOps.zero j.threshold && decide (rest.length ≤ out.length)) :
    Meets cell s o (Blending.runBody (j.see s) rest c out) (exec cell (blendProg torn j (some c)) [] s) := by
  unfold blendProg
  rw [hs, ho]
  dsimp only
  rw [exec_lock_ok (room_nil _ _) hb]
  dsimp only
  rw [if_pos hok]
  have key := exec_blendLayers (cell := cell) (s := s) torn o rest.length
    (k := fun c out =>
      match Blending.blendRestPose rest j.threshold c out with
      | .error _ => .put (.soa o) (torn out) .panic
      | .ok (c, out) =>
        match Blending.normalize rest c out with
        | .error _ => .put (.soa o) (torn out) .panic
        | .ok out => .put (.soa o) out (addLayersProg o rest.length torn c j.additiveLayers out))
    (K := fun c out =>
      match Blending.blendRestPose rest j.threshold c out with
      | .error _ => .panic
      | .ok (c, out) =>
        match Blending.normalize rest c out with
        | .error _ => .panic
        | .ok out =>
          match Blending.addLayers rest.length (j.additiveLayers.map (·.see s)) out with
          | .panic => .panic
          | .err e out => .err e (c, out)
          | .ok out => .ok (c, out))
    (by
      intro c out
      cases hr : Blending.blendRestPose rest j.threshold c out with
      | error f =>
        dsimp only
        rw [exec_put List.mem_cons_self, store_put_put]
        exact meets_panic'
      | ok st =>
        obtain ⟨c', out'⟩ := st
        dsimp only
        cases hn : Blending.normalize rest c' out' with
        | error f =>
          dsimp only
          rw [exec_put List.mem_cons_self, store_put_put]
          exact meets_panic'
        | ok out'' =>
          dsimp only
          rw [exec_put List.mem_cons_self, store_put_put]
          exact exec_addLayers torn o rest.length c' _ (fun l h => ha l (.inr h)) out'')
    j.layers (fun l h => ha l (.inl h)) (Blending.resetContext rest.length c) out
  have hs' : s.put (.soa o) out = s := by
    rw [bufOf_data hb]; exact store_put_same s (.soa o)
  rw [hs'] at key
  unfold Blending.runBody BlendJob.see
  dsimp only
  exact key

theorem exec_blend_run (torn : List (SoaTransform α) → List (SoaTransform α)) (j : BlendJob α)
    (ctx : Option (Blending.Context α))
    (ha : ∀ o l, j.output = some o → l ∈ j.layers ∨ l ∈ j.additiveLayers → l.transform ≠ o) :
    BlendMeets s j (Blending.run (j.see s) ⟨ctx, j.out s⟩) (exec cell (blendProg torn j ctx) [] s) := by
  have hbad : BlendMeets s j (.err .invalidJob ⟨ctx, j.out s⟩) (exec cell (.ret (.error .invalidJob, ctx)) [] s) :=
    ⟨s, rfl, rfl, fun _ _ => rfl⟩
  cases hs : j.skeleton with
  | none =>
    have h1 : Blending.run (j.see s) ⟨ctx, j.out s⟩ = .err .invalidJob ⟨ctx, j.out s⟩ := by
      simp only [Blending.run, BlendJob.see, hs]
    have h2 : blendProg torn j ctx = .ret (.error .invalidJob, ctx) := by simp only [blendProg, hs]
    rw [h1, h2]
    exact hbad
  | some rest =>
    cases ctx with
    | none =>
      have h1 : Blending.run (j.see s) ⟨none, j.out s⟩ = .err .invalidJob ⟨none, j.out s⟩ := by
        simp only [Blending.run, BlendJob.see, hs]
      have h2 : blendProg torn j none = .ret (.error .invalidJob, none) := by simp only [blendProg, hs]
      rw [h1, h2]
      exact hbad
    | some c =>
      cases ho : j.output with
      | none =>
        have h1 : Blending.run (j.see s) ⟨some c, j.out s⟩ = .err .invalidJob ⟨some c, j.out s⟩ := by
          simp only [Blending.run, BlendJob.see, BlendJob.out, hs, ho, Option.map_none]
        have h2 : blendProg torn j (some c) = .ret (.error .invalidJob, some c) := by simp only [blendProg, hs, ho]
        rw [h1, h2]
        exact hbad
      | some o =>
        have hout : j.out s = some (bufOf s (.soa o)) := by rw [BlendJob.out, ho]; rfl
        cases hb : bufOf s (.soa o) with
        | error e =>
          have h1 : Blending.run (j.see s) ⟨some c, j.out s⟩ = .err e ⟨some c, j.out s⟩ := by
            rw [hout, hb]
            simp only [Blending.run, BlendJob.see, hs]
          rw [h1]
          unfold blendProg
          rw [hs, ho]
          dsimp only
          obtain ⟨h, rfl⟩ := exec_lock_err (cell := cell) (X := BlendReply α) (m := .wr) (held := []) (room_nil _ _) hb (k := _)
          rw [h]
          exact ⟨s, rfl, rfl, fun _ _ => rfl⟩
        | ok out =>
          by_cases hok : NumOps.lt NumOps.zero j.threshold && decide (rest.length ≤ out.length)
          · have hm := exec_blend (cell := cell) (s := s) torn j (c := c) hs ho (fun l hl => ha o l ho hl) hb hok
            have h1 : Blending.run (j.see s) ⟨some c, j.out s⟩ =
                match Blending.runBody (j.see s) rest c out with
                | .panic => .panic
                | .err e (c, out) => .err e ⟨some c, some (.ok out)⟩
                | .ok (c, out) => .ok ⟨some c, some (.ok out)⟩ := by
              rw [hout, hb]
              have hsk : (j.see s).skeleton = some rest := hs
              simp only [Blending.run, hsk]
              have : (j.see s).threshold = j.threshold := rfl
              rw [this, if_pos hok]
              rcases Blending.runBody (j.see s) rest c out with ⟨_, _⟩ | ⟨_, _, _⟩ | _ <;> rfl
            rw [h1]
            have hput : ∀ out', j.out (s.put (.soa o) out') = some (.ok out') := by
              intro out'
              rw [BlendJob.out, ho, Option.map_some, bufOf_put_self s hb]
            have hother : ∀ out' r, (∀ o, j.output = some o → r ≠ .soa o) → (s.put (.soa o) out') r = s r :=
              fun out' r hr => put_ne _ (hr o ho) _
            generalize Blending.runBody (j.see s) rest c out = oc at hm
            rcases oc with ⟨c', out'⟩ | ⟨e, c', out'⟩ | _
            · exact ⟨_, hm, hput _, hother _⟩
            · exact ⟨_, hm, hput _, hother _⟩
            · obtain ⟨out', hm⟩ := hm
              refine ⟨_, hm, fun r hr => ?_⟩
              unfold fallen
              split
              · exact hother _ r hr
              · rw [Store.poison, Function.update_of_ne (hr o ho)]
                exact hother _ r hr
          · have h1 : Blending.run (j.see s) ⟨some c, j.out s⟩ = .err .invalidJob ⟨some c, j.out s⟩ := by
              rw [hout, hb]
              have hsk : (j.see s).skeleton = some rest := hs
              simp only [Blending.run, hsk]
              have : (j.see s).threshold = j.threshold := rfl
              rw [this, if_neg hok]
            rw [h1]
            unfold blendProg
            rw [hs, ho]
            dsimp only
            rw [exec_lock_ok (room_nil _ _) hb]
            dsimp only
            rw [if_neg hok]
            exact ⟨s, exec_give _ _, rfl, fun _ _ => rfl⟩

end Ozz.Shared
