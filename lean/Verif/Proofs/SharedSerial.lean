import Verif.Proofs.Shared

/-! Helper lemmas: programs that take all guards before dropping any behave as if run one after the other. -/

namespace Ozz.Shared

open Spec.Shared

variable {R : Type} {E : R → Type} {X T : Type} [DecidableEq R] [DecidableEq T]
variable {next : T → X → Option (Prog E X)} {S S' : Sys E X T} {t : T}

theorem put_self (s : Store E) (r : R) (v : E r) : s.put r v r = ⟨v, (s r).poisoned⟩ := by simp [Store.put]

theorem put_ne (s : Store E) {r r' : R} (h : r' ≠ r) (v : E r) : s.put r v r' = s r' := by
  simp [Store.put, Function.update_of_ne h]

/-- What a thread that runs `p₀` has done so far, had it run alone from `A`: the program left, its
guards and the buffers. -/
inductive Sofar (q : R → Prop) (p₀ : Prog E X) (A : Store E) :
    Prog E X → List (Guard R) → Store E → Prop
  | start : Sofar q p₀ A p₀ [] A
  | lock {r m k held s} : Sofar q p₀ A (.lock r m k) held s → Room r m held → (s r).poisoned = false →
      Sofar q p₀ A (k (some (s r).data)) ((r, m) :: held) s
  | poisoned {r m k held s} : Sofar q p₀ A (.lock r m k) held s → Room r m held → (s r).poisoned = true →
      Sofar q p₀ A (k none) held s
  | put {r v k held s} : Sofar q p₀ A (.put r v k) held s → (r, Mode.wr) ∈ held →
      Sofar q p₀ A k held (s.put r v)
  | drop {g k held s} : Sofar q p₀ A (.drop g k) held s → g ∈ held → g.2 = .rd → q g.1 →
      Sofar q p₀ A k (held.erase g) s

variable {q : R → Prop} {p₀ p : Prog E X} {A A' s : Store E} {held : List (Guard R)}

theorem sofar_exec (h : Sofar q p₀ A p held s) : exec false p₀ [] A = exec false p held s := by
  induction h with
  | start => rfl
  | lock _ hr hp ih => rw [ih, exec, if_pos hr, hp]; rfl
  | poisoned _ hr hp ih => rw [ih, exec, if_pos hr, if_pos hp]
  | put _ hm ih => rw [ih, exec, if_pos hm]
  | drop _ hm _ _ ih => rw [ih, exec, if_pos hm]

theorem mem_erase_wr {r : R} {g : Guard R} (hg : g.2 = .rd) : (r, Mode.wr) ∈ held.erase g ↔ (r, Mode.wr) ∈ held := by
  refine List.mem_erase_of_ne ?_
  rintro rfl
  cases hg

theorem sofar_unwritten (h : Sofar q p₀ A p held s) : ∀ r, (r, Mode.wr) ∉ held → s r = A r := by
  induction h with
  | start => intro r _; rfl
  | lock _ _ _ ih => intro r h; exact ih r (fun h' => h (List.mem_cons_of_mem _ h'))
  | poisoned _ _ _ ih => exact ih
  | put _ hm ih =>
    intro r h
    rw [put_ne _ (fun e => h (by rw [e]; exact hm)), ih r h]
  | drop _ _ hg _ ih =>
    intro r h
    exact ih r (fun h' => h ((mem_erase_wr hg).2 h'))

theorem sofar_flags (h : Sofar q p₀ A p held s) : ∀ r, (s r).poisoned = (A r).poisoned := by
  induction h with
  | start => intro r; rfl
  | lock _ _ _ ih => exact ih
  | poisoned _ _ _ ih => exact ih
  | @put r v _ _ s _ _ ih =>
    intro r'
    by_cases e : r' = r
    · subst e; rw [put_self]; exact ih r'
    · rw [put_ne _ e]; exact ih r'
  | drop _ _ _ _ ih => exact ih

/-- What was done so far does not depend on buffers that are neither held nor quiet. -/
theorem sofar_replay (h : Sofar q p₀ A p held s)
    (ha : ∀ r, ((∃ m, (r, m) ∈ held) ∨ q r) → A' r = A r)
    (hp : ∀ r, (A r).poisoned = true → (A' r).poisoned = true) :
    ∃ s', Sofar q p₀ A' p held s' ∧ ∀ r, (∃ m, (r, m) ∈ held) → s' r = s r := by
  suffices h' : ∃ s', Sofar q p₀ A' p held s' ∧ ∀ r, ((∃ m, (r, m) ∈ held) ∨ q r) → s' r = s r by
    obtain ⟨s', h1, h2⟩ := h'
    exact ⟨s', h1, fun r h => h2 r (.inl h)⟩
  induction h with
  | start => exact ⟨A', .start, ha⟩
  | @lock r m k held s h hr hf ih =>
    obtain ⟨s', h1, h2⟩ := ih (fun r' h' => ha r' (h'.imp_left fun ⟨m, h⟩ => ⟨m, List.mem_cons_of_mem _ h⟩))
    have hw : (r, Mode.wr) ∉ held := fun hm => hr _ hm rfl (.inr rfl)
    have e : s' r = s r := by
      rw [sofar_unwritten h1 r hw, sofar_unwritten h r hw]
      exact ha r (.inl ⟨m, List.mem_cons_self⟩)
    refine ⟨s', ?_, ?_⟩
    · have := Sofar.lock h1 hr (by rw [e]; exact hf)
      rwa [e] at this
    · rintro r' (⟨m', h'⟩ | h')
      · rcases List.mem_cons.1 h' with h' | h'
        · cases h'; exact e
        · exact h2 r' (.inl ⟨m', h'⟩)
      · exact h2 r' (.inr h')
  | @poisoned r m k held s h hr hf ih =>
    obtain ⟨s', h1, h2⟩ := ih ha
    have hw : (r, Mode.wr) ∉ held := fun hm => hr _ hm rfl (.inr rfl)
    refine ⟨s', .poisoned h1 hr ?_, h2⟩
    rw [sofar_unwritten h1 r hw]
    refine hp r ?_
    rw [← sofar_unwritten h r hw]
    exact hf
  | @put r v k held s h hm ih =>
    obtain ⟨s', h1, h2⟩ := ih ha
    refine ⟨_, .put h1 hm, ?_⟩
    intro r' h'
    by_cases e : r' = r
    · subst e
      rw [put_self, put_self, h2 r' (.inl ⟨_, hm⟩)]
    · rw [put_ne _ e, put_ne _ e, h2 r' h']
  | @drop g k held s h hm hg hq ih =>
    have hsub : ∀ r', ((∃ m, (r', m) ∈ held) ∨ q r') → (∃ m, (r', m) ∈ held.erase g) ∨ q r' := by
      rintro r' (⟨m, h'⟩ | h')
      · by_cases e : (r', m) = g
        · right
          rw [← e] at hq
          exact hq
        · exact .inl ⟨m, (List.mem_erase_of_ne e).2 h'⟩
      · exact .inr h'
    obtain ⟨s', h1, h2⟩ := ih (fun r' h' => ha r' (hsub r' h'))
    refine ⟨s', .drop h1 hm hg hq, ?_⟩
    rintro r' (⟨m, h'⟩ | h')
    · exact h2 r' (.inl ⟨m, List.mem_of_mem_erase h'⟩)
    · exact h2 r' (.inr h')

/-- The value a closing program returns. -/
def Yields (x : X) : Prog E X → Prop
  | .drop _ k => Yields x k
  | .ret x' => x' = x
  | _ => False

theorem closing_exec {p : Prog E X} : ∀ {held : List (Guard R)}, Closing p held →
    ∃ x, Yields x p ∧ ∀ s : Store E, exec false p held s = .done x s := by
  induction p with
  | drop g k ih =>
    intro held h
    obtain ⟨x, h1, h2⟩ := ih h.2
    exact ⟨x, h1, fun s => by rw [exec, if_pos h.1, h2]⟩
  | ret x =>
    intro held h
    have : held = [] := h
    subst this
    exact ⟨x, rfl, fun s => rfl⟩
  | lock => intro held h; exact h.elim
  | put => intro held h; exact h.elim
  | panic => intro held h; exact h.elim

/-! ### The effect of unwinding -/

theorem unwind_data (s : Store E) (g : Guard R) (r : R) : (s.unwind g r).data = (s r).data := by
  unfold Store.unwind
  split
  · by_cases e : r = g.1
    · subst e; simp [Store.poison]
    · simp [Store.poison, Function.update_of_ne e]
  · rfl

theorem unwind_other (s : Store E) {g : Guard R} {r : R} (h : g ≠ (r, .wr)) : s.unwind g r = s r := by
  unfold Store.unwind
  split
  · rename_i hw
    have e : r ≠ g.1 := fun e => h (by rw [e, ← hw])
    simp [Store.poison, Function.update_of_ne e]
  · rfl

theorem unwind_self (s : Store E) (r : R) : s.unwind (r, .wr) r = ⟨(s r).data, true⟩ := by
  simp [Store.unwind, Store.poison]

theorem unwind_keeps (s : Store E) (g : Guard R) {r : R} (h : (s r).poisoned = true) :
    (s.unwind g r).poisoned = true := by
  by_cases e : g = (r, .wr)
  · subst e; rw [unwind_self]
  · rw [unwind_other _ e]; exact h

theorem unwindAll_other (held : List (Guard R)) (s : Store E) {r : R} (h : (r, Mode.wr) ∉ held) :
    held.foldl Store.unwind s r = s r := by
  induction held generalizing s with
  | nil => rfl
  | cons g held ih =>
    rw [List.foldl_cons, ih _ (fun h' => h (List.mem_cons_of_mem _ h'))]
    exact unwind_other _ (fun e => h (by rw [e]; exact List.mem_cons_self))

theorem unwindAll_keeps (held : List (Guard R)) (s : Store E) {r : R} (h : (s r).poisoned = true) :
    (held.foldl Store.unwind s r).poisoned = true := by
  induction held generalizing s with
  | nil => exact h
  | cons g held ih => exact ih _ (unwind_keeps _ _ h)

theorem unwindAll_data (held : List (Guard R)) (s : Store E) (r : R) :
    (held.foldl Store.unwind s r).data = (s r).data := by
  induction held generalizing s with
  | nil => rfl
  | cons g held ih => rw [List.foldl_cons, ih, unwind_data]

theorem unwindAll_self (held : List (Guard R)) (s : Store E) {r : R} (h : (r, Mode.wr) ∈ held) :
    held.foldl Store.unwind s r = ⟨(s r).data, true⟩ := by
  have hd := unwindAll_data held s r
  have hp : (held.foldl Store.unwind s r).poisoned = true := by
    clear hd
    induction held generalizing s with
    | nil => cases h
    | cons g held ih =>
      rw [List.foldl_cons]
      by_cases e : g = (r, .wr)
      · subst e
        exact unwindAll_keeps _ _ (by rw [unwind_self])
      · exact ih _ ((List.mem_cons.1 h).resolve_left (fun h => e h.symm))
  rcases hx : held.foldl Store.unwind s r with ⟨d, b⟩
  rw [hx] at hd hp
  cases hd
  cases hp
  rfl

/-! ### The invariant -/

/-- How far a thread is, compared with the programs run one after the other up to `A`. `C` are the
buffers. -/
inductive Phase (next : T → X → Option (Prog E X)) (A C : Store E) (t : T) : Thread E X → Option X → Prop
  | growing {x : X} {p₀ p : Prog E X} {held : List (Guard R)} {s : Store E} : next t x = some p₀ → Sofar (Quiet next t) p₀ A p held s →
      TwoPhase (Quiet next t) p held → (∀ x', p ≠ .ret x') → (∀ r m, (r, m) ∈ held → C r = s r) →
      Phase next A C t ⟨.run p, held⟩ (some x)
  | closing {x : X} {p : Prog E X} {held : List (Guard R)} : Closing p held → Yields x p → (∀ r, (r, Mode.wr) ∈ held → C r = A r) →
      Phase next A C t ⟨.run p, held⟩ (some x)
  | unwinding {held : List (Guard R)} : (∀ r, (r, Mode.wr) ∈ held → A r = ⟨(C r).data, true⟩) →
      Phase next A C t ⟨.dead, held⟩ none

theorem phase_move {A' C C' : Store E} {th : Thread E X} {x : Option X} (h : Phase next A C t th x)
    (ha : ∀ r, ((∃ m, (r, m) ∈ th.held) ∨ Quiet next t r) → A' r = A r)
    (hp : ∀ r, (A r).poisoned = true → (A' r).poisoned = true)
    (hc : ∀ r m, (r, m) ∈ th.held → C' r = C r) : Phase next A' C' t th x := by
  cases h with
  | growing hn hs ht hr hh =>
    obtain ⟨s', h1, h2⟩ := sofar_replay hs ha hp
    exact .growing hn h1 ht hr (fun r m hm => by rw [hc r m hm, hh r m hm, h2 r ⟨m, hm⟩])
  | closing h1 h2 h3 =>
    exact .closing h1 h2 (fun r hm => by rw [hc r _ hm, h3 r hm, ha r (.inl ⟨_, hm⟩)])
  | unwinding h1 =>
    exact .unwinding (fun r hm => by rw [ha r (.inl ⟨_, hm⟩), h1 r hm, hc r _ hm])

/-- Thread `t` has a program that writes to `r`. -/
def MayWrite (next : T → X → Option (Prog E X)) (t : T) (r : R) : Prop :=
  ∃ x p, next t x = some p ∧ Writes r p

/-- Threads only write where their programs say. -/
def Declared (next : T → X → Option (Prog E X)) (t : T) (th : Thread E X) : Prop :=
  (∀ r, (r, Mode.wr) ∈ th.held → MayWrite next t r) ∧
  ∀ p, th.status = .run p → ∀ r, Writes r p → MayWrite next t r

theorem step_declared (h : Step next S t S') (hP : ∀ t, Declared next t (S.threads t)) :
    ∀ t, Declared next t (S'.threads t) := by
  refine step_threads (P := Declared next) h hP ?_ ?_ ?_ ?_ ?_ ?_ ?_
  · intro r m k held v ⟨h1, h2⟩ _
    refine ⟨?_, ?_⟩
    · intro r' hm
      rcases List.mem_cons.1 hm with e | hm
      · cases e
        exact h2 _ rfl _ (.inl ⟨rfl, rfl⟩)
      · exact h1 r' hm
    · intro p e r' hw
      cases e
      exact h2 _ rfl _ (.inr ⟨_, hw⟩)
  · intro r m k held ⟨h1, h2⟩
    exact ⟨h1, fun p e r' hw => by cases e; exact h2 _ rfl _ (.inr ⟨_, hw⟩)⟩
  · intro r v k held ⟨h1, h2⟩
    exact ⟨h1, fun p e r' hw => by cases e; exact h2 _ rfl _ hw⟩
  · intro g k held ⟨h1, h2⟩ _
    exact ⟨fun r hm => h1 r (List.mem_of_mem_erase hm), fun p e r' hw => by cases e; exact h2 _ rfl _ hw⟩
  · intro x p _ hn
    exact ⟨fun r hm => (by cases hm), fun p' e r hw => by cases e; exact ⟨x, _, hn, hw⟩⟩
  · intro held ⟨h1, _⟩
    exact ⟨h1, fun p e => by cases e⟩
  · intro g held ⟨h1, _⟩
    exact ⟨fun r hm => h1 r (List.mem_cons_of_mem _ hm), fun p e => by cases e⟩

theorem start_declared (s : Store E) (x : T → X) (t : T) : Declared next t ((Sys.start s x).threads t) := by
  refine ⟨fun r hm => (by cases hm), fun p e r hw => ?_⟩
  cases e
  exact hw.elim

/-- The invariant of executions. -/
structure Inv (next : T → X → Option (Prog E X)) (s₀ : Store E) (x₀ : T → X) (S : Sys E X T)
    (l : List T) (A : Store E) (v : T → Option X) : Prop where
  serial : Serial next s₀ x₀ l A v
  phase : ∀ t, Phase next A S.store t (S.threads t) (v t)
  store : ∀ r, (∀ t, (r, Mode.wr) ∉ (S.threads t).held) → S.store r = A r

variable {s₀ : Store E} {x₀ : T → X} {l : List T} {v : T → Option X}

/-- Another thread is not touched by a change at buffers `t` writes to. -/
theorem others_move {A' C' : Store E} (hx : Exclusive S) (hd : ∀ t, Declared next t (S.threads t))
    (hA : ∀ r, A' r ≠ A r → (r, Mode.wr) ∈ (S.threads t).held)
    (hC : ∀ r, C' r ≠ S.store r → (r, Mode.wr) ∈ (S.threads t).held)
    (hp : ∀ r, (A r).poisoned = true → (A' r).poisoned = true)
    {t' : T} (ne : t' ≠ t) {x : Option X} (h : Phase next A S.store t' (S.threads t') x) :
    Phase next A' C' t' (S.threads t') x := by
  have key : ∀ r, (∃ m, (r, m) ∈ (S.threads t').held) → (r, Mode.wr) ∉ (S.threads t).held := by
    rintro r ⟨m, hm⟩ hw
    have := (hx t' t _ _ hm hw ne rfl).2
    cases this
  refine phase_move h ?_ hp ?_
  · rintro r (hm | hq)
    · by_contra hne
      exact key r hm (hA r hne)
    · by_contra hne
      obtain ⟨x, p, hn, hw⟩ := (hd t).1 r (hA r hne)
      exact hq t ne.symm x p hn hw
  · intro r m hm
    by_contra hne
    exact key r ⟨m, hm⟩ (hC r hne)

/-- After a local step the thread goes on, or has returned without holding anything. -/
theorem settle {C : Store E} {x : X} (hser : Serial next s₀ x₀ l A v) (hv : v t = some x) (hn : next t x = some p₀)
    (hs : Sofar (Quiet next t) p₀ A p held s) (ht : TwoPhase (Quiet next t) p held)
    (hh : ∀ r m, (r, m) ∈ held → C r = s r) :
    ∃ l' v', l <+: l' ∧ Serial next s₀ x₀ l' A v' ∧ Phase next A C t ⟨.run p, held⟩ (v' t) ∧
      ∀ t', t' ≠ t → v' t' = v t' := by
  by_cases hr : ∃ x', p = .ret x'
  · obtain ⟨x', rfl⟩ := hr
    have : held = [] := ht
    subst this
    have hsA : s = A := funext fun r => sofar_unwritten hs r (by simp)
    have hex := sofar_exec hs
    rw [hsA] at hex
    refine ⟨l ++ [t], _, List.prefix_append _ _, .done hser hv hn (hex.trans rfl), ?_, ?_⟩
    · rw [Function.update_self]
      exact .closing rfl rfl (fun r hm => by cases hm)
    · intro t' ne
      rw [Function.update_of_ne ne]
  · refine ⟨l, v, List.prefix_rfl, hser, ?_, fun _ _ => rfl⟩
    rw [hv]
    exact .growing hn hs ht (fun x' e => hr ⟨x', e⟩) hh

theorem step_inv (hn : ∀ t x p, next t x = some p → TwoPhase (Quiet next t) p [])
    (hx : Exclusive S) (hd : ∀ t, Declared next t (S.threads t)) (hi : Inv next s₀ x₀ S l A v)
    (h : Step next S t S') : ∃ l' A' v', l <+: l' ∧ Inv next s₀ x₀ S' l' A' v' := by
  have hph := hi.phase t
  have hst := hi.store
  cases h with
  | @lock r m k held h f hp =>
    rw [h] at hph
    generalize hvt : v t = vt at hph
    cases hph with
    | closing hc _ _ => exact hc.elim
    | @growing x p₀ _ _ s h1 h2 h3 h4 h5 =>
      have hroom : Room r m held := by have := f t; rwa [h] at this
      have hw : (r, Mode.wr) ∉ held := fun hm => hroom _ hm rfl (.inr rfl)
      have hfree : S.store r = A r := hst r (fun t' hm => f t' _ hm rfl (.inr rfl))
      have e : S.store r = s r := by rw [hfree, sofar_unwritten h2 r hw]
      have h2' := Sofar.lock h2 hroom (by rw [← e]; exact hp)
      rw [← e] at h2'
      obtain ⟨l', v', hl, hser, hph', hv'⟩ := settle (C := S.store) hi.serial hvt h1 h2' (h3.1 _) (by
        intro r' m' hm
        rcases List.mem_cons.1 hm with hm | hm
        · cases hm; exact e
        · exact h5 r' m' hm)
      refine ⟨l', A, v', hl, hser, ?_, ?_⟩
      · intro t'
        by_cases ne : t' = t
        · subst ne; rw [threads_set_self]; exact hph'
        · rw [threads_set_ne _ ne, hv' t' ne]; exact hi.phase t'
      · intro r' hr'
        refine hst r' (fun t' hm => ?_)
        by_cases ne : t' = t
        · subst ne
          have := hr' t'
          rw [threads_set_self] at this
          rw [h] at hm
          exact this (List.mem_cons_of_mem _ hm)
        · have := hr' t'
          rw [threads_set_ne _ ne] at this
          exact this hm
  | @poisoned r m k held h f hp =>
    rw [h] at hph
    generalize hvt : v t = vt at hph
    cases hph with
    | closing hc _ _ => exact hc.elim
    | @growing x p₀ _ _ s h1 h2 h3 h4 h5 =>
      have hroom : Room r m held := by have := f t; rwa [h] at this
      have hw : (r, Mode.wr) ∉ held := fun hm => hroom _ hm rfl (.inr rfl)
      have hfree : S.store r = A r := hst r (fun t' hm => f t' _ hm rfl (.inr rfl))
      have e : S.store r = s r := by rw [hfree, sofar_unwritten h2 r hw]
      obtain ⟨l', v', hl, hser, hph', hv'⟩ := settle (C := S.store) hi.serial hvt h1
        (Sofar.poisoned h2 hroom (by rw [← e]; exact hp)) h3.2 h5
      refine ⟨l', A, v', hl, hser, ?_, ?_⟩
      · intro t'
        by_cases ne : t' = t
        · subst ne; rw [threads_set_self]; exact hph'
        · rw [threads_set_ne _ ne, hv' t' ne]; exact hi.phase t'
      · intro r' hr'
        refine hst r' (fun t' hm => ?_)
        have := hr' t'
        by_cases ne : t' = t
        · subst ne
          rw [threads_set_self] at this
          rw [h] at hm
          exact this hm
        · rw [threads_set_ne _ ne] at this
          exact this hm
  | @put r w k held h hm =>
    rw [h] at hph
    generalize hvt : v t = vt at hph
    cases hph with
    | closing hc _ _ => exact hc.elim
    | @growing x p₀ _ _ s h1 h2 h3 h4 h5 =>
      obtain ⟨l', v', hl, hser, hph', hv'⟩ := settle (C := S.store.put r w) hi.serial hvt h1
        (Sofar.put h2 hm) h3.2 (by
        intro r' m' hm'
        by_cases e : r' = r
        · subst e; rw [put_self, put_self, h5 r' _ hm]
        · rw [put_ne _ e, put_ne _ e, h5 r' _ hm'])
      refine ⟨l', A, v', hl, hser, ?_, ?_⟩
      · intro t'
        by_cases ne : t' = t
        · subst ne; rw [threads_set_self]; exact hph'
        · rw [threads_set_ne _ ne, hv' t' ne]
          refine others_move (t := t) hx hd (fun r h => absurd rfl h) ?_ (fun _ h => h) ne (hi.phase t')
          intro r' hr'
          have : r' = r := by by_contra e; exact hr' (put_ne _ e _)
          subst this
          rw [h]; exact hm
      · intro r' hr'
        have e : r' ≠ r := by
          rintro rfl
          have := hr' t
          rw [threads_set_self] at this
          exact this hm
        show S.store.put r w r' = A r'
        rw [put_ne _ e]
        refine hst r' (fun t' hm' => ?_)
        have := hr' t'
        by_cases ne : t' = t
        · subst ne
          rw [threads_set_self] at this
          rw [h] at hm'
          exact this hm'
        · rw [threads_set_ne _ ne] at this
          exact this hm'
  | @drop g k held h hm =>
    rw [h] at hph
    generalize hvt : v t = vt at hph
    cases hph with
    | @closing x _ _ h1 h2 h3 =>
      refine ⟨l, A, v, List.prefix_rfl, hi.serial, ?_, ?_⟩
      · intro t'
        by_cases ne : t' = t
        · subst ne
          rw [threads_set_self, hvt]
          exact .closing h1.2 h2 (fun r hm => h3 r (List.mem_of_mem_erase hm))
        · rw [threads_set_ne _ ne]; exact hi.phase t'
      · intro r' hr'
        by_cases hw : (r', Mode.wr) ∈ held
        · exact h3 r' hw
        · refine hst r' (fun t' hm' => ?_)
          have := hr' t'
          by_cases ne : t' = t
          · subst ne
            rw [h] at hm'
            exact hw hm'
          · rw [threads_set_ne _ ne] at this
            exact this hm'
    | @growing x p₀ _ _ s h1 h2 h3 h4 h5 =>
      obtain ⟨_, ⟨hg, hq, h3⟩ | hcl⟩ := h3
      · obtain ⟨l', v', hl, hser, hph', hv'⟩ := settle (C := S.store) hi.serial hvt h1
          (Sofar.drop h2 hm hg hq) h3 (fun r m hm' => h5 r m (List.mem_of_mem_erase hm'))
        refine ⟨l', A, v', hl, hser, ?_, ?_⟩
        · intro t'
          by_cases ne : t' = t
          · subst ne; rw [threads_set_self]; exact hph'
          · rw [threads_set_ne _ ne, hv' t' ne]; exact hi.phase t'
        · intro r' hr'
          refine hst r' (fun t' hm' => ?_)
          have := hr' t'
          by_cases ne : t' = t
          · subst ne
            rw [threads_set_self] at this
            rw [h] at hm'
            exact this ((mem_erase_wr hg).2 hm')
          · rw [threads_set_ne _ ne] at this
            exact this hm'
      · -- the program takes effect
        obtain ⟨x', hret, hex⟩ := closing_exec hcl
        have hdone : exec false p₀ [] A = .done x' s := by
          rw [sofar_exec h2, exec, if_pos hm, hex]
        have hA : ∀ r, s r ≠ A r → (r, Mode.wr) ∈ (S.threads t).held := by
          intro r hne
          by_contra hw
          rw [h] at hw
          exact hne (sofar_unwritten h2 r hw)
        refine ⟨l ++ [t], s, _, List.prefix_append _ _, .done hi.serial hvt h1 hdone, ?_, ?_⟩
        · intro t'
          by_cases ne : t' = t
          · subst ne
            rw [threads_set_self, Function.update_self]
            exact .closing hcl hret (fun r hm' => h5 r _ (List.mem_of_mem_erase hm'))
          · rw [threads_set_ne _ ne, Function.update_of_ne ne]
            refine others_move hx hd hA (fun r h => absurd rfl h) ?_ ne (hi.phase t')
            intro r hp
            rw [sofar_flags h2]; exact hp
        · intro r' hr'
          by_cases hw : (r', Mode.wr) ∈ held
          · exact h5 r' _ hw
          · rw [sofar_unwritten h2 r' hw]
            refine hst r' (fun t' hm' => ?_)
            have := hr' t'
            by_cases ne : t' = t
            · subst ne
              rw [h] at hm'
              exact hw hm'
            · rw [threads_set_ne _ ne] at this
              exact this hm'
  | @begin x p h hnext =>
    rw [h] at hph
    generalize hvt : v t = vt at hph
    cases hph with
    | growing _ _ _ h4 _ => exact absurd rfl (h4 x)
    | @closing x' _ _ h1 h2 h3 =>
      cases h2
      obtain ⟨l', v', hl, hser, hph', hv'⟩ := settle (C := S.store) hi.serial hvt hnext
        .start (hn _ _ _ hnext) (fun r m hm => by cases hm)
      refine ⟨l', A, v', hl, hser, ?_, ?_⟩
      · intro t'
        by_cases ne : t' = t
        · subst ne; rw [threads_set_self]; exact hph'
        · rw [threads_set_ne _ ne, hv' t' ne]; exact hi.phase t'
      · intro r' hr'
        refine hst r' (fun t' hm => ?_)
        have := hr' t'
        by_cases ne : t' = t
        · subst ne
          rw [h] at hm
          cases hm
        · rw [threads_set_ne _ ne] at this
          exact this hm
  | @panic held h =>
    rw [h] at hph
    generalize hvt : v t = vt at hph
    cases hph with
    | closing hc _ _ => exact hc.elim
    | @growing x p₀ _ _ s h1 h2 h3 h4 h5 =>
      have hdied : exec false p₀ [] A = .died (held.foldl Store.unwind s) := by
        rw [sofar_exec h2, exec]; rfl
      refine ⟨l ++ [t], _, _, List.prefix_append _ _, .died hi.serial hvt h1 hdied, ?_, ?_⟩
      · intro t'
        by_cases ne : t' = t
        · subst ne
          rw [threads_set_self, Function.update_self]
          exact .unwinding (fun r hm => by rw [unwindAll_self _ _ hm]; show _ = Slot.mk (S.store r).data true; rw [h5 r _ hm])
        · rw [threads_set_ne _ ne, Function.update_of_ne ne]
          refine others_move hx hd (t := t) ?_ (fun r h => absurd rfl h) ?_ ne (hi.phase t')
          · intro r hne
            by_contra hw
            rw [h] at hw
            exact hne (by rw [unwindAll_other _ _ hw, sofar_unwritten h2 r hw])
          · intro r hp
            refine unwindAll_keeps _ _ ?_
            rw [sofar_flags h2]; exact hp
      · intro r' hr'
        have hw : (r', Mode.wr) ∉ held := by
          have := hr' t
          rwa [threads_set_self] at this
        rw [unwindAll_other _ _ hw, sofar_unwritten h2 r' hw]
        refine hst r' (fun t' hm' => ?_)
        have := hr' t'
        by_cases ne : t' = t
        · subst ne
          rw [h] at hm'
          exact hw hm'
        · rw [threads_set_ne _ ne] at this
          exact this hm'
  | @unwind g held h =>
    rw [h] at hph
    generalize hvt : v t = vt at hph
    cases hph with
    | unwinding h1 =>
      have hC : ∀ r, S.store.unwind g r ≠ S.store r → (r, Mode.wr) ∈ (S.threads t).held := by
        intro r hne
        rw [h]
        by_contra hw
        exact hne (unwind_other _ (fun e => hw (by rw [e]; exact List.mem_cons_self)))
      refine ⟨l, A, v, List.prefix_rfl, hi.serial, ?_, ?_⟩
      · intro t'
        by_cases ne : t' = t
        · subst ne
          rw [threads_set_self, hvt]
          exact .unwinding (fun r hm => by
            rw [h1 r (List.mem_cons_of_mem _ hm)]
            show _ = Slot.mk (S.store.unwind g r).data true
            rw [unwind_data])
        · rw [threads_set_ne _ ne]
          exact others_move (t := t) hx hd (fun r h => absurd rfl h) hC (fun _ h => h) ne (hi.phase t')
      · intro r' hr'
        show S.store.unwind g r' = A r'
        by_cases e : g = (r', .wr)
        · subst e
          rw [unwind_self, h1 r' List.mem_cons_self]
        · rw [unwind_other _ e]
          refine hst r' (fun t' hm' => ?_)
          have := hr' t'
          by_cases ne : t' = t
          · subst ne
            rw [threads_set_self] at this
            rw [h] at hm'
            exact this ((List.mem_cons.1 hm').resolve_left (fun h => e h.symm))
          · rw [threads_set_ne _ ne] at this
            exact this hm'

theorem start_inv : Inv next s₀ x₀ (Sys.start s₀ x₀) [] s₀ (fun t => some (x₀ t)) where
  serial := .nil
  phase t := .closing rfl rfl (fun r hm => by cases hm)
  store r _ := rfl

theorem inv_looks (hi : Inv next s₀ x₀ S l A v) : LooksLike S A v where
  store := hi.store
  idle t x h := by
    have hp := hi.phase t
    rw [h] at hp
    generalize v t = vt at hp
    cases hp with
    | growing _ _ _ h4 _ => exact absurd rfl (h4 x)
    | closing _ h2 _ => cases h2; rfl
  dead t h := by
    have hp := hi.phase t
    generalize hth : S.threads t = th at hp h
    generalize v t = vt at hp
    cases hp with
    | growing => cases h
    | closing => cases h
    | unwinding => rfl

/-- Executions look like programs run one after the other, in an order that only grows. -/
theorem execution_serial (hn : ∀ t x p, next t x = some p → TwoPhase (Quiet next t) p [])
    {e : Nat → Sys E X T} (h : Execution next s₀ x₀ e) :
    ∃ l : Nat → List T, (∀ i, l i <+: l (i + 1)) ∧
      ∀ i, ∃ A v, Serial next s₀ x₀ (l i) A v ∧ LooksLike (e i) A v := by
  classical
  have hx : ∀ i, Exclusive (e i) := execution_induct h (start_exclusive _ _) (fun S t S' hP hs => step_exclusive hs hP)
  have hd : ∀ i, ∀ t, Declared next t ((e i).threads t) :=
    execution_induct (P := fun S => ∀ t, Declared next t (S.threads t)) h (start_declared _ _) (fun S t S' hP hs => step_declared hs hP)
  have grow : ∀ i l, (∃ A v, Inv next s₀ x₀ (e i) l A v) →
      ∃ l', l <+: l' ∧ ∃ A v, Inv next s₀ x₀ (e (i + 1)) l' A v := by
    rintro i l ⟨A, v, hi⟩
    rcases h.step i with he | ⟨t, hs⟩
    · exact ⟨l, List.prefix_rfl, A, v, by rw [he]; exact hi⟩
    · obtain ⟨l', A', v', hl, hi'⟩ := step_inv hn (hx i) (hd i) hi hs
      exact ⟨l', hl, A', v', hi'⟩
  have h0 : ∃ A v, Inv next s₀ x₀ (e 0) [] A v := ⟨_, _, by rw [h.start]; exact start_inv⟩
  let L : (i : Nat) → {l : List T // ∃ A v, Inv next s₀ x₀ (e i) l A v} := fun i =>
    Nat.rec ⟨[], h0⟩ (fun i l => ⟨(grow i l.1 l.2).choose, (grow i l.1 l.2).choose_spec.2⟩) i
  refine ⟨fun i => (L i).1, ?_, ?_⟩
  · intro i
    exact (grow i (L i).1 (L i).2).choose_spec.1
  · intro i
    obtain ⟨A, v, hi⟩ := (L i).2
    exact ⟨A, v, hi.serial, inv_looks hi⟩

end Ozz.Shared
