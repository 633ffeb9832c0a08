import Verif.Proofs.SharedSkin
import Verif.Proofs.SharedJobs
import Verif.Proofs.Shared
import Mathlib.Tactic.IntervalCases

/-! Helper lemmas: jobs using one buffer twice, poisoned locks, and a way to run schedules. -/

namespace Ozz.Shared

open Spec.Shared

section Generic
variable {R : Type} {E : R → Type} {X T : Type} [DecidableEq R] [DecidableEq T]
variable {next : T → X → Option (Prog E X)}

theorem step_poisoned {S S' : Sys E X T} {t : T} {r : R} (h : Step next S t S')
    (hp : (S.store r).poisoned = true) : (S'.store r).poisoned = true := by
  cases h with
  | lock _ _ _ => exact hp
  | poisoned _ _ _ => exact hp
  | @put r' v k held _ _ =>
    show ((S.store.put r' v) r).poisoned = true
    by_cases e : r = r'
    · subst e; rw [put_self]; exact hp
    · rw [put_ne _ e]; exact hp
  | drop _ _ => exact hp
  | begin _ _ => exact hp
  | panic _ => exact hp
  | @unwind g held _ =>
    show ((S.store.unwind g) r).poisoned = true
    unfold Store.unwind
    split
    · by_cases e : r = g.1
      · subst e; simp [Store.poison]
      · rw [Store.poison, Function.update_of_ne e]; exact hp
    · exact hp

theorem execution_le {s : Store E} {x : T → X} {e : Nat → Sys E X T} (h : Execution next s x e)
    {P : Sys E X T → Prop} (hs : ∀ S t S', P S → Step next S t S' → P S') {i j : Nat} (hij : i ≤ j) (hi : P (e i)) :
    P (e j) := by
  induction hij with
  | refl => exact hi
  | step _ ih =>
    rcases h.step _ with e' | ⟨t, ht⟩
    · rw [e']; exact ih
    · exact hs _ _ _ ih ht

/-- A thread that panicked with a writing guard on `r`, before or after it was dropped. -/
def Fell (t : T) (r : R) (S : Sys E X T) : Prop :=
  (S.threads t).status = .dead ∧ ((r, Mode.wr) ∈ (S.threads t).held ∨ (S.store r).poisoned = true)

theorem step_fell {S S' : Sys E X T} {t u : T} {r : R} (h : Fell t r S) (hs : Step next S u S') : Fell t r S' := by
  obtain ⟨hd, ho⟩ := h
  by_cases hu : t = u
  · subst hu
    cases hs with
    | lock e _ _ => rw [e] at hd; cases hd
    | poisoned e _ _ => rw [e] at hd; cases hd
    | put e _ => rw [e] at hd; cases hd
    | drop e _ => rw [e] at hd; cases hd
    | begin e _ => rw [e] at hd; cases hd
    | panic e => rw [e] at hd; cases hd
    | @unwind g held e =>
      refine ⟨by rw [threads_set_self], ?_⟩
      rw [threads_set_self]
      show (r, Mode.wr) ∈ held ∨ ((S.store.unwind g) r).poisoned = true
      rw [e] at ho
      rcases ho with ho | ho
      · rcases List.mem_cons.1 ho with rfl | ho
        · right; simp [Store.unwind, Store.poison]
        · exact .inl ho
      · right
        unfold Store.unwind
        split
        · by_cases e : r = g.1
          · subst e; simp [Store.poison]
          · rw [Store.poison, Function.update_of_ne e]; exact ho
        · exact ho
  · have ht := step_other hs hu
    refine ⟨by rw [ht]; exact hd, ?_⟩
    rw [ht]
    exact ho.imp id (step_poisoned hs)

/-! ### Running a schedule -/

variable [Fintype T]

instance (S : Sys E X T) (r : R) (m : Mode) : Decidable (Free S r m) :=
  inferInstanceAs (Decidable (∀ t, Room r m (S.threads t).held))

/-- A step of the thread, or nothing if it cannot go on. -/
def tryStep (next : T → X → Option (Prog E X)) (S : Sys E X T) (t : T) : Sys E X T :=
  match S.threads t with
  | ⟨.run (.lock r m k), held⟩ =>
    if Free S r m then
      if (S.store r).poisoned then S.set t ⟨.run (k none), held⟩
      else S.set t ⟨.run (k (some (S.store r).data)), (r, m) :: held⟩
    else S
  | ⟨.run (.put r v k), held⟩ =>
    if (r, Mode.wr) ∈ held then Sys.set ⟨S.store.put r v, S.threads⟩ t ⟨.run k, held⟩ else S
  | ⟨.run (.drop g k), held⟩ => if g ∈ held then S.set t ⟨.run k, held.erase g⟩ else S
  | ⟨.run (.ret x), held⟩ =>
    match held, next t x with
    | [], some p => S.set t ⟨.run p, []⟩
    | _, _ => S
  | ⟨.run .panic, held⟩ => S.set t ⟨.dead, held⟩
  | ⟨.dead, g :: held⟩ => Sys.set ⟨S.store.unwind g, S.threads⟩ t ⟨.dead, held⟩
  | ⟨.dead, []⟩ => S

theorem tryStep_step (S : Sys E X T) (t : T) : tryStep next S t = S ∨ Step next S t (tryStep next S t) := by
  unfold tryStep
  split
  · rename_i h
    split
    · rename_i hf
      split
      · rename_i hp; exact .inr (.poisoned h hf hp)
      · rename_i hp; exact .inr (.lock h hf (by simpa using hp))
    · exact .inl rfl
  · rename_i h
    split
    · rename_i hm; exact .inr (.put h hm)
    · exact .inl rfl
  · rename_i h
    split
    · rename_i hm; exact .inr (.drop h hm)
    · exact .inl rfl
  · rename_i h
    split
    · rename_i hn; exact .inr (.begin h hn)
    · exact .inl rfl
  · rename_i h; exact .inr (.panic h)
  · rename_i h; exact .inr (.unwind h)
  · exact .inl rfl

/-- Running a schedule from the start. -/
def runSchedule (next : T → X → Option (Prog E X)) (s : Store E) (x : T → X) (sched : List T) (i : Nat) : Sys E X T :=
  (sched.take i).foldl (tryStep next) (Sys.start s x)

theorem runSchedule_execution (next : T → X → Option (Prog E X)) (s : Store E) (x : T → X) (sched : List T) :
    Execution next s x (runSchedule next s x sched) := by
  refine ⟨rfl, fun i => ?_⟩
  unfold runSchedule
  by_cases h : i < sched.length
  · rw [List.take_succ_eq_append_getElem h, List.foldl_append]
    rcases tryStep_step (next := next) ((sched.take i).foldl (tryStep next) (Sys.start s x)) sched[i] with e | e
    · exact .inl e
    · exact .inr ⟨_, e⟩
  · rw [List.take_of_length_le (by omega), List.take_of_length_le (by omega)]
    exact .inl rfl

/-- What thread `t` is waiting for. -/
def Thread.wants (th : Thread E X) : Option (Guard R) :=
  match th.status with
  | .run (.lock r m _) => some (r, m)
  | _ => none

/-- The value of a thread between programs. -/
def Thread.idle (th : Thread E X) : Option X :=
  match th with
  | ⟨.run (.ret x), []⟩ => some x
  | _ => none

omit [DecidableEq R] [Fintype T] [DecidableEq T] in
theorem wants_eq {th : Thread E X} {g : Guard R} (h : th.wants = some g) :
    ∃ k, th.status = .run (.lock g.1 g.2 k) := by
  obtain ⟨st, held⟩ := th
  unfold Thread.wants at h
  dsimp only at h
  split at h
  · cases h; exact ⟨_, rfl⟩
  · cases h

omit [DecidableEq R] [Fintype T] [DecidableEq T] in
theorem idle_eq {th : Thread E X} {x : X} (h : th.idle = some x) : th = ⟨.run (.ret x), []⟩ := by
  unfold Thread.idle at h
  split at h
  · cases h; rfl
  · cases h

omit [Fintype T] in
/-- A thread waiting for a buffer that is not free. -/
theorem stuck {S : Sys E X T} {t : T} {g : Guard R} (h : (S.threads t).wants = some g) (hf : ¬ Free S g.1 g.2) :
    (¬ ∃ S', Step next S t S') ∧ ¬ Finished next S t := by
  obtain ⟨k, hk⟩ := wants_eq h
  constructor
  · rintro ⟨S', hs⟩
    cases hs with
    | lock e f _ => rw [e] at hk; cases hk; exact hf f
    | poisoned e f _ => rw [e] at hk; cases hk; exact hf f
    | put e _ => rw [e] at hk; cases hk
    | drop e _ => rw [e] at hk; cases hk
    | begin e _ => rw [e] at hk; cases hk
    | panic e => rw [e] at hk; cases hk
    | unwind e => rw [e] at hk; cases hk
  · rintro (⟨x, e, _⟩ | e)
    · rw [e] at hk; cases hk
    · rw [e] at hk; cases hk

end Generic

/-! ### One buffer used twice -/

set_option linter.unusedSectionVars false

variable {α : Type} [Add α] [Sub α] [Mul α] [Div α] [Neg α] [NumOps α] {cell : Bool}

theorem notOk_clash {X : Type} {r : Ref} {m : Mode} {k : Option (Elem α r) → Prog (Elem α) X}
    {held : List (Guard Ref)} {s : Store (Elem α)} (h : ¬ Room r m held) :
    exec cell (.lock r m k) held s = if cell then .died s else .blocked := by
  rw [exec, if_neg h]

theorem notOk_stop {X : Type} {ok : X → Prop} {s : Store (Elem α)} : NotOk ok (if cell then End.died s else .blocked) := by
  intro x s' e
  cases cell <;> simp at e

theorem not_room {o : Nat} : ¬ Room (.soa o) .rd [((Ref.soa o, Mode.wr) : Guard Ref)] := by
  intro h
  exact h _ List.mem_cons_self rfl (.inr rfl)

theorem notOk_give {held : List (Guard Ref)} {s : Store (Elem α)} {e : OzzError} {c : Option (Blending.Context α)} :
    NotOk fstOk (exec cell (give held (.error e, c)) held s) := by
  rw [exec_give]
  intro x s' h
  cases h
  intro h
  cases h

theorem notOk_panic {X : Type} {ok : X → Prop} {held : List (Guard Ref)} {s : Store (Elem α)} :
    NotOk ok (exec cell .panic held s) := by
  rw [exec]
  intro x s' h
  cases h

theorem alias_addLayers (torn : List (SoaTransform α) → List (SoaTransform α)) (o n : Nat) (c : Blending.Context α)
    (ls : List (BlendLayer α)) : (∃ l ∈ ls, l.transform = o) → ∀ out s,
    NotOk fstOk (exec cell (addLayersProg o n torn c ls out) [(.soa o, .wr)] s) := by
  induction ls with
  | nil => rintro ⟨l, h, _⟩; cases h
  | cons l ls ih =>
    intro hl out s
    rw [addLayersProg]
    by_cases he : l.transform = o
    · subst he
      rw [notOk_clash not_room]
      exact notOk_stop
    · have ih := ih (by
        obtain ⟨l', h, e⟩ := hl
        rcases List.mem_cons.1 h with rfl | h
        · exact absurd e he
        · exact ⟨l', h, e⟩)
      rw [exec, if_pos (room_layer he)]
      split
      · exact notOk_give
      · dsimp only
        split
        · exact notOk_give
        · split
          · rw [exec_put (List.mem_cons_of_mem _ List.mem_cons_self)]
            exact notOk_panic
          · rw [exec_put (List.mem_cons_of_mem _ List.mem_cons_self), exec_drop]
            exact ih _ _

theorem alias_blendLayers (torn : List (SoaTransform α) → List (SoaTransform α)) (o n : Nat)
    {k : Blending.Context α → List (SoaTransform α) → Prog (Elem α) (BlendReply α)}
    (ls : List (BlendLayer α)) :
    (∃ l ∈ ls, l.transform = o) ∨ (∀ c out s, NotOk fstOk (exec cell (k c out) [(.soa o, .wr)] s)) → ∀ c out s,
    NotOk fstOk (exec cell (blendLayersProg o n torn ls c out k) [(.soa o, .wr)] s) := by
  induction ls with
  | nil =>
    rintro (⟨l, h, _⟩ | h)
    · cases h
    · exact h
  | cons l ls ih =>
    intro hl c out s
    rw [blendLayersProg]
    by_cases he : l.transform = o
    · subst he
      rw [notOk_clash not_room]
      exact notOk_stop
    · have ih := ih (by
        rcases hl with ⟨l', h, e⟩ | h
        · rcases List.mem_cons.1 h with rfl | h
          · exact absurd e he
          · exact .inl ⟨l', h, e⟩
        · exact .inr h)
      rw [exec, if_pos (room_layer he)]
      split
      · exact notOk_give
      · dsimp only
        split
        · exact notOk_give
        · split
          · rw [exec_drop]
            exact ih _ _ _
          · split
            · rw [exec_put (List.mem_cons_of_mem _ List.mem_cons_self)]
              exact notOk_panic
            · rw [exec_put (List.mem_cons_of_mem _ List.mem_cons_self), exec_drop]
              exact ih _ _ _

theorem alias_blend (torn : List (SoaTransform α) → List (SoaTransform α)) (j : BlendJob α)
    (ctx : Option (Blending.Context α)) {o : Nat} (ho : j.output = some o)
    (ha : ∃ l, (l ∈ j.layers ∨ l ∈ j.additiveLayers) ∧ l.transform = o) (s : Store (Elem α)) :
    NotOk fstOk (exec cell (blendProg torn j ctx) [] s) := by
  unfold blendProg
  split
  · rename_i rest c o' h1 h2
    cases ho.symm.trans h2
    rw [exec, if_pos (room_nil _ _)]
    split
    · exact notOk_give (held := [])
    · dsimp only
      split
      · refine alias_blendLayers torn o _ j.layers ?_ _ _ _
        obtain ⟨l, h | h, e⟩ := ha
        · exact .inl ⟨l, h, e⟩
        · refine .inr (fun c out s => ?_)
          split
          · rw [exec_put List.mem_cons_self]; exact notOk_panic
          · split
            · rw [exec_put List.mem_cons_self]; exact notOk_panic
            · rw [exec_put List.mem_cons_self]
              exact alias_addLayers torn o _ _ _ ⟨l, h, e⟩ _ _
      · exact notOk_give
  · exact notOk_give (held := [])

/-! ### Skinning in place -/

theorem notOk_err {held : List (Guard Ref)} {s : Store (Elem α)} {e : OzzError} :
    NotOk isOk (exec cell (give held (.error e)) held s) := by
  rw [exec_give]
  intro x s' h
  cases h
  intro h
  cases h

theorem notOk_fault {held : List (Guard Ref)} {s : Store (Elem α)} {f : Fault} :
    NotOk isOk (exec cell (stop held f) held s) := by
  cases f with
  | err e => exact notOk_err
  | panic => exact notOk_panic

theorem notOk_open {A : Type} {c : Nat → Ref} {get : ∀ n, Elem α (c n) → List A} {m : Mode} {miss : Fault}
    {b : Option Nat} {held : List (Guard Ref)} {s : Store (Elem α)}
    {k : List A → List (Guard Ref) → Prog (Elem α) Reply}
    (hk : ∀ n xs, b = some n → Room (c n) m held → NotOk isOk (exec cell (k xs ((c n, m) :: held)) ((c n, m) :: held) s)) :
    NotOk isOk (exec cell (openBuf c get m miss b held k) held s) := by
  unfold openBuf
  split
  · exact notOk_fault
  · rename_i n
    rw [exec]
    split
    · rename_i hr
      split
      · exact notOk_err
      · exact hk _ _ rfl hr
    · exact notOk_stop

theorem notOk_unpackIf {A : Type} {on : Bool} {c : Nat → Ref} {get : ∀ n, Elem α (c n) → List A} {m : Mode}
    {b : Option Nat} {size : Nat} {held : List (Guard Ref)} {s : Store (Elem α)}
    {k : List A → List (Guard Ref) → Prog (Elem α) Reply}
    (hk : ∀ xs held', (∀ g ∈ held, g ∈ held') →
      (on = true → ∃ n, b = some n ∧ Room (c n) m held ∧ (c n, m) ∈ held') →
      NotOk isOk (exec cell (k xs held') held' s)) :
    NotOk isOk (exec cell (unpackBufIf on c get m b size held k) held s) := by
  unfold unpackBufIf
  split
  · unfold unpackBuf
    refine notOk_open (fun n xs hb hr => ?_)
    split
    · exact notOk_err
    · exact hk _ _ (fun g hg => List.mem_cons_of_mem _ hg) (fun _ => ⟨n, hb, hr, List.mem_cons_self⟩)
  · rename_i hon
    exact hk _ _ (fun g hg => hg) (fun h => absurd h hon)

theorem notOk_unpack {A : Type} {c : Nat → Ref} {get : ∀ n, Elem α (c n) → List A} {m : Mode}
    {b : Option Nat} {size : Nat} {held : List (Guard Ref)} {s : Store (Elem α)}
    {k : List A → List (Guard Ref) → Prog (Elem α) Reply}
    (hk : ∀ xs held', (∀ g ∈ held, g ∈ held') → (∃ n, b = some n ∧ Room (c n) m held ∧ (c n, m) ∈ held') →
      NotOk isOk (exec cell (k xs held') held' s)) :
    NotOk isOk (exec cell (unpackBuf c get m b size held k) held s) :=
  notOk_unpackIf (on := true) (fun xs held' h h' => hk xs held' h (h' rfl))

/-- The job writes an attribute to the buffer it reads it from. -/
def SkinJob.InPlace (j : SkinJob) (a : Skinning.Attrs) : Prop :=
  (∃ n, j.inPositions = some n ∧ j.outPositions = some n) ∨
  (a.normals = true ∧ ∃ n, j.inNormals = some n ∧ j.outNormals = some n) ∨
  ((a.normals && a.tangents) = true ∧ ∃ n, j.inTangents = some n ∧ j.outTangents = some n)

theorem clash_held {r : Ref} {m : Mode} {held : List (Guard Ref)} (h : (r, m) ∈ held) : ¬ Room r .wr held :=
  fun hr => hr _ h rfl (.inl rfl)

theorem notOk_attrs {a : Skinning.Attrs} {j : SkinJob} (hj : j.InPlace a) {held : List (Guard Ref)}
    {s : Store (Elem α)} {k : Skinning.Ins α → Skinning.Outs α → List (Guard Ref) → Prog (Elem α) Reply} :
    NotOk isOk (exec cell (attrBufs a j held k) held s) := by
  unfold attrBufs
  refine notOk_unpack (fun x1 h1 s1 n1 => ?_)
  refine notOk_unpackIf (fun x2 h2 s2 n2 => ?_)
  refine notOk_unpackIf (fun x3 h3 s3 n3 => ?_)
  refine notOk_unpack (fun x4 h4 s4 n4 => ?_)
  refine notOk_unpackIf (fun x5 h5 s5 n5 => ?_)
  refine notOk_unpackIf (fun x6 h6 s6 n6 => ?_)
  exfalso
  rcases hj with ⟨n, e, e'⟩ | ⟨hc, n, e, e'⟩ | ⟨hc, n, e, e'⟩
  · obtain ⟨m, em, _, hm⟩ := n1
    cases e.symm.trans em
    obtain ⟨m, em, hr, _⟩ := n4
    cases e'.symm.trans em
    exact clash_held (s3 _ (s2 _ hm)) hr
  · obtain ⟨m, em, _, hm⟩ := n2 hc
    cases e.symm.trans em
    obtain ⟨m, em, hr, _⟩ := n5 hc
    cases e'.symm.trans em
    exact clash_held (s4 _ (s3 _ hm)) hr
  · obtain ⟨m, em, _, hm⟩ := n3 hc
    cases e.symm.trans em
    obtain ⟨m, em, hr, _⟩ := n6 hc
    cases e'.symm.trans em
    exact clash_held (s5 _ (s4 _ hm)) hr

theorem notOk_it {it : Bool} {b : Option Nat} {held : List (Guard Ref)} {s : Store (Elem α)}
    {k : Option (List (Mat4 α)) → List (Guard Ref) → Prog (Elem α) Reply}
    (hk : ∀ xs held', NotOk isOk (exec cell (k xs held') held' s)) :
    NotOk isOk (exec cell (itBuf it b held k) held s) := by
  unfold itBuf
  split
  · exact notOk_open (fun n xs _ _ => hk _ _)
  · exact hk _ _

theorem notOk_attempt {β : Type} {r : Res β} {held : List (Guard Ref)} {s : Store (Elem α)}
    {k : β → Prog (Elem α) Reply} (hk : ∀ b, NotOk isOk (exec cell (k b) held s)) :
    NotOk isOk (exec cell (attempt r held k) held s) := by
  unfold attempt
  split
  · exact notOk_fault
  · exact hk _

theorem inPlace_table (ck : Bool) (torn : Skinning.Outs α → Skinning.Outs α) (j : SkinJob)
    (h : ∀ k it a, Skinning.table j.branch = some (k, it, a) → j.InPlace a) (s : Store (Elem α)) :
    NotOk isOk (exec cell (skinProg ck torn j) [] s) := by
  unfold skinProg
  split
  · exact notOk_err (held := [])
  · have h1 : ∀ it a, j.InPlace a → NotOk isOk (exec cell (skin1Prog torn it a j) [] s) := fun it a ha =>
      notOk_open (fun n xs _ _ => notOk_it (fun its h => notOk_unpack (fun xs h _ _ => notOk_attrs ha)))
    have hN : ∀ n it a, j.InPlace a → NotOk isOk (exec cell (skinNProg ck torn n it a j) [] s) := fun n it a ha =>
      notOk_open (fun n xs _ _ => notOk_it (fun its h => notOk_attempt (fun need => notOk_unpack (fun xs h _ _ =>
        notOk_attempt (fun need => notOk_unpack (fun xs h _ _ => notOk_attrs ha))))))
    split
    · exact notOk_panic
    · rename_i e; exact h1 _ _ (h _ _ _ e)
    · rename_i e; exact hN _ _ _ (h _ _ _ e)
    · rename_i e; exact hN _ _ _ (h _ _ _ e)

theorem table_attrs (j : SkinJob) {k : Skinning.Kind} {it : Bool} {a : Skinning.Attrs}
    (h : Skinning.table j.branch = some (k, it, a)) :
    a.normals = j.inNormals.isSome ∧ (a.normals && a.tangents) = (j.inNormals.isSome && j.inTangents.isSome) := by
  unfold SkinJob.branch at h
  have hm : min (j.influences - 1) 4 ≤ 4 := Nat.min_le_right ..
  generalize min (j.influences - 1) 4 = m at h hm
  cases hn : j.inNormals.isSome <;> cases ht : j.inTangents.isSome <;> cases hi : j.itMatrices.isSome <;>
    simp only [hn, ht, hi, if_true, Bool.false_eq_true, if_false] at h <;>
    interval_cases m <;> simp only [Skinning.table, Option.some.injEq, Prod.mk.injEq] at h <;>
    obtain ⟨-, -, rfl⟩ := h <;> exact ⟨rfl, rfl⟩

theorem inPlace_skin (ck : Bool) (torn : Skinning.Outs α → Skinning.Outs α) (j : SkinJob) (h : j.OnItself)
    (s : Store (Elem α)) : NotOk isOk (exec cell (skinProg ck torn j) [] s) := by
  refine inPlace_table ck torn j (fun k it a ht => ?_) s
  obtain ⟨h1, h2⟩ := table_attrs j ht
  rcases h with h | ⟨n, e, e'⟩ | ⟨hn, n, e, e'⟩
  · exact .inl h
  · exact .inr (.inl ⟨by rw [h1, e]; rfl, n, e, e'⟩)
  · exact .inr (.inr ⟨by rw [h2, hn, e]; rfl, n, e, e'⟩)

/-! ### The programs of threads -/

theorem jobProg_twoPhase {X : Type} {q : Ref → Prop} {p : Prog (Elem α) X} (h : JobProg q p) : TwoPhase q p [] := by
  cases h with
  | ltm add torn j f => exact (twoPhase_map f _ _).2 (twoPhase_ltm add torn j)
  | sam ops N torn j context f => exact (twoPhase_map f _ _).2 (twoPhase_sam ..)
  | blend torn j context f hq => exact (twoPhase_map f _ _).2 (twoPhase_blend _ _ _ hq)
  | skin ck torn j f => exact (twoPhase_map f _ _).2 (twoPhase_skin ck torn j)
  | other _ h => exact h

theorem orderly_ordered {X : Type} {p : Prog (Elem α) X} (h : OrderlyProg p) : Ordered Ref.rank p [] := by
  cases h with
  | ltm add torn j f => exact (ordered_map f _ _).2 (ordered_ltm add torn j)
  | sam ops N torn j context f => exact (ordered_map f _ _).2 (ordered_sam ..)
  | blend torn j context f hq =>
    refine (ordered_map f _ _).2 (ordered_blend _ _ _ (fun o l ho hl => ?_))
    simpa [Ref.rank, Prod.Lex.toLex_lt_toLex] using hq o l ho hl
  | skin ck torn j f hj => exact (ordered_map f _ _).2 (ordered_skin ck torn j hj)
  | other _ h => exact h

end Ozz.Shared
