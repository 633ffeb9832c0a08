import Verif.Proofs.SharedWitness
import Verif.Proofs.SharedEnd

/-!
Jobs on shared buffers (`Rc<RefCell<Vec<T>>>`, `Arc<RwLock<Vec<T>>>`): what threads running them see of
each other, whether they can get stuck, and what a job running alone does.
-/

namespace Ozz.Props

open Shared Spec.Shared

/-! ### C71: what threads see of each other -/

section
variable {R : Type} {E : R → Type} {X T : Type} [DecidableEq R] [DecidableEq T]

/-- C71: whatever threads do, a guard for writing excludes all other guards on the buffer. -/
theorem C71_exclusive {next : T → X → Option (Prog E X)} {s : Store E} {x : T → X} {e : Nat → Sys E X T}
    (h : Execution next s x e) (i : Nat) : Exclusive (e i) :=
  execution_induct h (start_exclusive _ _) (fun _ _ _ hP hs => step_exclusive hs hP) i

end

variable {α : Type} [Add α] [Sub α] [Mul α] [Div α] [Neg α] [NumOps α]

/-- C71: threads that run local-to-model, sampling and skinning jobs, blending jobs whose layers no
other thread writes, and two-phase programs of the application look as if the programs had run one
after the other: at every time there is an order, extending the one before, in which running the
programs alone gives the buffers nobody is writing to and the results of the threads. -/
theorem C71_jobs_serial {X T : Type} [DecidableEq T] {next : T → X → Option (Prog (Elem α) X)}
    (hn : ∀ t x p, next t x = some p → JobProg (Quiet next t) p)
    {s : Store (Elem α)} {x : T → X} {e : Nat → Sys (Elem α) X T} (h : Execution next s x e) :
    ∃ l : Nat → List T, (∀ i, l i <+: l (i + 1)) ∧
      ∀ i, ∃ A v, Serial next s x (l i) A v ∧ LooksLike (e i) A v :=
  execution_serial (fun t x p hp => jobProg_twoPhase (hn t x p hp)) h

/-- Blending of buffer 1 into buffer 0 and local-to-model from buffer 0, on two threads. -/
def pipeNext : Bool → Nat → Option (Prog (Elem F32) Nat)
  | false, 0 => some ((blendProg id (crossBlend 0 1) (some tornContext)).map fun _ => 1)
  | true, 0 => some ((ltmProg (fun a b => .ok (a + b)) id
      ⟨some [-1], some 0, some 0, fun _ => splat F32.zero, -1, 1, false⟩).map fun _ => 1)
  | _, _ => none

theorem pipeNext_cases {t : Bool} {x : Nat} {p : Prog (Elem F32) Nat} (h : pipeNext t x = some p) :
    (t = false ∧ x = 0 ∧ p = (blendProg id (crossBlend 0 1) (some tornContext)).map fun _ => 1) ∨
    (t = true ∧ x = 0 ∧ p = (ltmProg (fun a b => .ok (a + b)) id
      ⟨some [-1], some 0, some 0, fun _ => splat F32.zero, -1, 1, false⟩).map fun _ => 1) := by
  unfold pipeNext at h
  split at h
  · cases h; exact .inl ⟨rfl, rfl, rfl⟩
  · cases h; exact .inr ⟨rfl, rfl, rfl⟩
  · cases h

/-- Such threads: nobody writes the layer of the blending job. -/
example : ∀ t x p, pipeNext t x = some p → JobProg (Quiet pipeNext t) p := by
  intro t x p h
  rcases pipeNext_cases h with ⟨rfl, rfl, rfl⟩ | ⟨rfl, rfl, rfl⟩
  · refine .blend _ _ _ _ (fun l hl => ?_)
    have : l.transform = 1 := by
      simp only [crossBlend, List.mem_cons, List.not_mem_nil, or_false] at hl
      rw [hl]
    rw [this]
    intro t' ht' x p hp hw
    rcases pipeNext_cases hp with ⟨rfl, rfl, rfl⟩ | ⟨rfl, rfl, rfl⟩
    · exact ht' rfl
    · rcases hw with ⟨_, h⟩ | ⟨v, hw⟩
      · cases h
      · cases v with
        | none => exact hw
        | some v =>
          rcases hw with ⟨h, _⟩ | ⟨v, hw⟩
          · cases h
          · cases v with
            | none => exact hw
            | some w =>
              revert hw
              dsimp only
              split
              · exact fun h => h
              · exact fun h => h
              · exact fun h => h
  · exact .ltm _ _ _ _

/-- C71: not so if a layer of a blending job is written by others. Blending holds the guards on its
layers one at a time; here it reads the first of two layers before and the second after another thread
wrote both, one after the other. The pose it leaves is the result of no order of the three programs. -/
theorem C71_blending_mixes_times :
    (∀ t x p, tornNext t x = some p → (t = false ∧ p = (blendProg id tornJob (some tornContext)).map fun _ => 1) ∨
      (t = true ∧ ∃ r v x, p = writer r v x)) ∧
    Execution tornNext tornStore (fun _ => 0) tornRun ∧
    ((tornRun 25).threads false).idle = some 1 ∧ ((tornRun 25).threads true).idle = some 2 ∧
    ∀ l A v, Serial tornNext tornStore (fun _ => 0) l A v → ¬ LooksLike (tornRun 25) A v := by
  refine ⟨?_, runSchedule_execution .., tornRun_end.1, tornRun_end.2.1, ?_⟩
  · intro t x p h
    unfold tornNext at h
    split at h
    · cases h; exact .inl ⟨rfl, rfl⟩
    · cases h; exact .inr ⟨rfl, _, _, _, rfl⟩
    · cases h; exact .inr ⟨rfl, _, _, _, rfl⟩
    · cases h
  · intro l A v hs hl
    obtain ⟨-, out, ho, -, hv⟩ := serial_calm hs
    have h0 := idle_eq tornRun_end.1
    have h1 := idle_eq tornRun_end.2.1
    have hst := hl.store (.soa 2) (by
      intro t
      cases t with
      | false => rw [h0]; simp
      | true => rw [h1]; simp)
    have hseen := tornRun_end.2.2
    rw [hst, ho] at hseen
    have hseen : seen out = [0x3f400000] := hseen
    rw [hseen] at hv
    simp at hv

/-! ### C72: whether threads get stuck -/

/-- C72: threads running local-to-model and sampling jobs, blending jobs with an output numbered below
their layers, skinning jobs with buffers numbered in the order in which they are taken, and programs of the
application respecting the numbers never get stuck: all have finished or one can go on. -/
theorem C72_no_deadlock {X T : Type} [DecidableEq T] [Finite T] {next : T → X → Option (Prog (Elem α) X)}
    (hn : ∀ t x p, next t x = some p → OrderlyProg p)
    {s : Store (Elem α)} {x : T → X} {e : Nat → Sys (Elem α) X T} (h : Execution next s x e) (i : Nat) :
    (∀ t, Finished next (e i) t) ∨ ∃ t, CanGoOn next (e i) t :=
  no_deadlock (rank := Ref.rank) (execution_induct (P := fun S => ∀ t, OrderedThread Ref.rank (S.threads t)) h
    (fun t p hp => by cases hp; rfl)
    (fun S t S' hP hs => step_ordered (fun t x p hp => orderly_ordered (hn t x p hp)) hs hP) i)

/-- C72: if moreover each thread runs finitely many programs and some thread goes on whenever one can,
all threads finish. -/
theorem C72_all_finish {X T : Type} [DecidableEq T] [Finite T] {next : T → X → Option (Prog (Elem α) X)}
    (hn : ∀ t x p, next t x = some p → OrderlyProg p) {fuel : T → X → Nat} (hf : CountsDown next fuel)
    {s : Store (Elem α)} {x : T → X} {e : Nat → Sys (Elem α) X T} (h : Execution next s x e) (hb : Busy next e) :
    ∃ i, ∀ t, Finished next (e i) t := by
  obtain ⟨i, hi⟩ := busy_stops hf h hb
  refine ⟨i, (C72_no_deadlock hn h i).resolve_right ?_⟩
  rintro ⟨t, ⟨S', hs⟩, _⟩
  exact hi ⟨t, S', hs⟩

/-- The two threads of the example above are orderly and run one program each. -/
example : (∀ t x p, pipeNext t x = some p → OrderlyProg p) ∧ CountsDown pipeNext (fun _ x => 1 - x) := by
  refine ⟨fun t x p h => ?_, fun t x p h x' hr => ?_⟩
  · rcases pipeNext_cases h with ⟨rfl, rfl, rfl⟩ | ⟨rfl, rfl, rfl⟩
    · refine .blend _ _ _ _ (fun o l ho hl => ?_)
      cases ho
      simp only [crossBlend, List.mem_cons, List.not_mem_nil, or_false] at hl
      rw [hl]
      exact Nat.zero_lt_one
    · exact .ltm _ _ _ _
  · have key : ∀ {Y : Type} (p : Prog (Elem F32) Y), Spec.Shared.Returns x' (p.map fun _ => 1) → x' = 1 := by
      intro Y p
      induction p with
      | lock r m k ih => rintro ⟨v, h⟩; exact ih v h
      | put r v k ih => exact ih
      | drop g k ih => exact ih
      | ret y => exact fun h => h.symm
      | panic => exact fun h => h.elim
    rcases pipeNext_cases h with ⟨rfl, rfl, rfl⟩ | ⟨rfl, rfl, rfl⟩
    · rw [key _ hr]; exact Nat.zero_lt_one
    · rw [key _ hr]; exact Nat.zero_lt_one

/-- C72: without the condition on blending jobs, two of them can wait for each other forever: each holds
its output and reads the output of the other. -/
theorem C72_blending_deadlock :
    Execution crossNext tornStore (fun _ => 0) crossRun ∧
    (∀ t x p, crossNext t x = some p → ∃ out layer, p = (blendProg id (crossBlend out layer) (some tornContext)).map fun _ => 1) ∧
    ∀ t, (¬ ∃ S', Step crossNext (crossRun 4) t S') ∧ ¬ Finished crossNext (crossRun 4) t := by
  refine ⟨runSchedule_execution .., fun t x p h => ?_, fun t => ?_⟩
  · unfold crossNext at h
    split at h
    · cases h; exact ⟨_, _, rfl⟩
    · cases h; exact ⟨_, _, rfl⟩
    · cases h
  · obtain ⟨h1, h2, f1, f2⟩ := crossRun_end
    cases t with
    | false => exact stuck h1 f1
    | true => exact stuck h2 f2

/-- C72: nor can skinning jobs do without it: two jobs, each reading the positions the other writes. -/
theorem C72_skinning_deadlock :
    Execution pingPongNext skinStore (fun _ => 0) pingPongRun ∧
    (∀ t x p, pingPongNext t x = some p → ∃ a b, p = (skinProg false id (crossSkin a b)).map fun _ => 1) ∧
    ∀ t, (¬ ∃ S', Step pingPongNext (pingPongRun 8) t S') ∧ ¬ Finished pingPongNext (pingPongRun 8) t := by
  refine ⟨runSchedule_execution .., fun t x p h => ?_, fun t => ?_⟩
  · unfold pingPongNext at h
    split at h
    · cases h; exact ⟨_, _, rfl⟩
    · cases h; exact ⟨_, _, rfl⟩
    · cases h
  · obtain ⟨h1, h2, f1, f2⟩ := pingPongRun_end
    cases t with
    | false => exact stuck h1 f1
    | true => exact stuck h2 f2

/-! ### C73: a job running alone -/

/-- C73: the local-to-model job reads its input and writes its output as the model of the job says; a
poisoned lock is reported and nothing is changed, and a panic poisons the output. -/
theorem C73_local_to_model (cell : Bool) (add : Int → Int → Res Int) (torn : List (Mat4 α) → List (Mat4 α))
    (j : LtmJob α) {parents : List Int} {i o : Nat} (hs : j.skeleton = some parents) (hi : j.input = some i)
    (ho : j.output = some o) (s : Store (Elem α)) :
    exec cell (ltmProg add torn j) [] s =
      match bufOf s (.soa i), bufOf s (.mat o) with
      | .error e, _ => .done (.error e) s
      | .ok _, .error e => .done (.error e) s
      | .ok input, .ok out =>
        match LocalToModel.runWith add Mat4.mul LocalToModel.localMatrices (j.view parents input) out with
        | .ok out' => .done (.ok ()) (s.put (.mat o) out')
        | .error (.err e) => .done (.error e) s
        | .error .panic => .died (fallen cell (.mat o) (s.put (.mat o) (torn out))) :=
  exec_ltm add torn j hs hi ho

/-- C73: the sampling job writes its output as the model of the job says. -/
theorem C73_sampling {α K3 KQ V3 VQ : Type} [Sampling.RatioOps α] (cell : Bool)
    (N : Sampling.Numerics α K3 KQ V3 VQ (SoaTransform α)) (torn : List (SoaTransform α) → List (SoaTransform α))
    (j : SamJob α K3 KQ) {anim : Sampling.Animation α K3 KQ} {addr o : Nat}
    (ha : j.animation = some (anim, addr)) (ho : j.output = some o) (ctx : Sampling.Context α V3 VQ)
    (s : Store (Elem α)) :
    exec cell (samProg N torn j (some ctx)) [] s =
      match bufOf s (.soa o) with
      | .error e => .done (.error e, some ctx) s
      | .ok out =>
        match Sampling.run N anim addr j.ratio ctx out with
        | .ok (ctx', out') => .done (.ok (), some ctx') (s.put (.soa o) out')
        | .err e (ctx', out') => .done (.error e, some ctx') (s.put (.soa o) out')
        | .panic => .died (fallen cell (.soa o) (s.put (.soa o) (torn out))) :=
  exec_sam N torn j ha ho ctx

/-- C73: the blending job does what the model of the job says and changes only its output, if none of
its layers is its output. -/
theorem C73_blending (cell : Bool) (torn : List (SoaTransform α) → List (SoaTransform α)) (j : BlendJob α)
    (ctx : Option (Blending.Context α))
    (ha : ∀ o l, j.output = some o → l ∈ j.layers ∨ l ∈ j.additiveLayers → l.transform ≠ o) (s : Store (Elem α)) :
    BlendMeets s j (Blending.run (j.see s) ⟨ctx, j.out s⟩) (exec cell (blendProg torn j ctx) [] s) :=
  exec_blend_run torn j ctx ha

/-- C73: the skinning job does what the model of the job says and changes only its outputs, if no buffer
is used both for an output and for something else. -/
theorem C73_skinning (cell ck : Bool) (torn : Skinning.Outs α → Skinning.Outs α) {j : SkinJob} (hj : j.Apart)
    (s : Store (Elem α)) : SkinMeets s j (Skinning.run ck (j.see s) (j.outs s)) (exec cell (skinProg ck torn j) [] s) :=
  exec_skin ck torn hj

/-- Jobs of this kind. -/
example : (∀ o l, tornJob.output = some o → l ∈ tornJob.layers ∨ l ∈ tornJob.additiveLayers → l.transform ≠ o) ∧
    (crossSkin 0 1).Apart := by
  refine ⟨fun o l ho hl => ?_, by constructor <;> simp [crossSkin]⟩
  cases ho
  simp only [tornJob, List.mem_cons, List.not_mem_nil, or_false] at hl
  rcases hl with rfl | rfl <;> simp

/-- C73: a blending job with a layer that is its output never returns `Ok`. -/
theorem C73_blending_onto_layer (cell : Bool) (torn : List (SoaTransform α) → List (SoaTransform α)) (j : BlendJob α)
    (ctx : Option (Blending.Context α)) {o : Nat} (ho : j.output = some o)
    (ha : ∃ l, (l ∈ j.layers ∨ l ∈ j.additiveLayers) ∧ l.transform = o) (s : Store (Elem α)) :
    NotOk fstOk (exec cell (blendProg torn j ctx) [] s) :=
  alias_blend torn j ctx ho ha s

/-- C73: a skinning job that writes an attribute to the buffer it reads it from never returns `Ok`. -/
theorem C73_skinning_in_place (cell ck : Bool) (torn : Skinning.Outs α → Skinning.Outs α) (j : SkinJob)
    (h : j.OnItself) (s : Store (Elem α)) : NotOk isOk (exec cell (skinProg ck torn j) [] s) :=
  inPlace_skin ck torn j h s

/-- How a run ended, without the buffers. -/
def How {X : Type} : End (Elem α) X → Nat
  | .done _ _ => 0
  | .died _ => 1
  | .blocked => 2

/-- With valid jobs that use a buffer twice, `RefCell`s panic and `RwLock`s wait for themselves. -/
example : How (exec true (blendProg id (crossBlend 0 0) (some tornContext)) [] tornStore) = 1 ∧
    How (exec false (blendProg id (crossBlend 0 0) (some tornContext)) [] tornStore) = 2 ∧
    How (exec true (skinProg false id (crossSkin 0 0)) [] skinStore) = 1 ∧
    How (exec false (skinProg false id (crossSkin 0 0)) [] skinStore) = 2 ∧
    How (exec false (skinProg false id (crossSkin 0 1)) [] skinStore) = 0 ∧ (crossSkin 0 0).OnItself :=
  ⟨by decide +kernel, by decide +kernel, by decide +kernel, by decide +kernel, by decide +kernel,
    .inl ⟨0, rfl, rfl⟩⟩

section
variable {R : Type} {E : R → Type} {X T : Type} [DecidableEq R] [DecidableEq T]

/-- C73: a poisoned lock stays poisoned. -/
theorem C73_poison_stays {next : T → X → Option (Prog E X)} {s : Store E} {x : T → X} {e : Nat → Sys E X T}
    (h : Execution next s x e) {i j : Nat} (hij : i ≤ j) {r : R} (hp : ((e i).store r).poisoned = true) :
    ((e j).store r).poisoned = true :=
  execution_le h (P := fun S => (S.store r).poisoned = true) (fun _ _ _ hP hs => step_poisoned hs hP) hij hp

/-- C73: what a thread leaves in a buffer by panicking while it holds a guard for writing is never read:
from then on whenever the buffer is free it is poisoned. -/
theorem C73_torn_never_read {next : T → X → Option (Prog E X)} {s : Store E} {x : T → X} {e : Nat → Sys E X T}
    (h : Execution next s x e) {i j : Nat} (hij : i ≤ j) {t : T} {r : R}
    (hd : ((e i).threads t).status = .dead) (hw : (r, Mode.wr) ∈ ((e i).threads t).held) (m : Mode)
    (hf : Free (e j) r m) : ((e j).store r).poisoned = true := by
  obtain ⟨-, ho⟩ := execution_le h (P := Fell t r) (fun _ _ _ hP hs => step_fell hP hs) hij ⟨hd, .inl hw⟩
  rcases ho with ho | ho
  · exact absurd (.inr rfl) (hf t _ ho rfl)
  · exact ho

end

/-- A thread that panics while it writes, and a thread that wants to read. -/
def fallNext : Bool → Nat → Option (Prog (Elem F32) Nat)
  | false, 0 => some (.lock (.soa 0) .wr fun _ => .put (.soa 0) [] .panic)
  | true, 0 => some ((ltmProg (fun a b => .ok (a + b)) id
      ⟨some [-1], some 0, some 0, fun _ => splat F32.zero, -1, 1, false⟩).map fun
        | .error .lockPoison => 7
        | _ => 1)
  | _, _ => none

/-- The second thread is told about it. -/
example :
    let e := runSchedule fallNext tornStore (fun _ => 0) [false, false, false, false, true, true, false, true]
    (match ((e 4).threads false).status with | .dead => true | _ => false) = true ∧
    (.soa 0, .wr) ∈ ((e 4).threads false).held ∧ ((e 7).store (.soa 0)).poisoned = true ∧
    ((e 8).threads true).idle = some 7 := by
  decide +kernel

end Ozz.Props
