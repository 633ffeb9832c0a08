import Verif.Spec.Shared
import Mathlib.Data.Fintype.Card
import Mathlib.Data.Finset.Max
import Mathlib.Data.Set.Finite.Lemmas
import Mathlib.Data.Set.Finite.Range

/-! Helper lemmas about threads and locks: exclusion and absence of deadlocks. -/

namespace Ozz.Shared

open Spec.Shared

variable {R : Type} {E : R → Type} {X T : Type} [DecidableEq R] [DecidableEq T]
variable {next : T → X → Option (Prog E X)} {S S' : Sys E X T} {t : T}

theorem threads_set_self (S : Sys E X T) (t : T) (th : Thread E X) : (S.set t th).threads t = th := by
  simp [Sys.set]

theorem threads_set_ne (S : Sys E X T) {t t' : T} (h : t' ≠ t) (th : Thread E X) :
    (S.set t th).threads t' = S.threads t' := by
  simp [Sys.set, Function.update_of_ne h]

/-- An invariant of every thread's status and guards is kept by all steps if it is kept by the local
ones. -/
theorem step_threads {P : T → Thread E X → Prop} (h : Step next S t S')
    (hP : ∀ t, P t (S.threads t))
    (hlock : ∀ r m k held v, P t ⟨.run (.lock r m k), held⟩ → Room r m held →
      P t ⟨.run (k (some v)), (r, m) :: held⟩)
    (hpois : ∀ r m k held, P t ⟨.run (.lock r m k), held⟩ → P t ⟨.run (k none), held⟩)
    (hput : ∀ r v k held, P t ⟨.run (.put r v k), held⟩ → P t ⟨.run k, held⟩)
    (hdrop : ∀ g k held, P t ⟨.run (.drop g k), held⟩ → g ∈ held → P t ⟨.run k, held.erase g⟩)
    (hbegin : ∀ x p, P t ⟨.run (.ret x), []⟩ → next t x = some p → P t ⟨.run p, []⟩)
    (hpanic : ∀ held, P t ⟨.run .panic, held⟩ → P t ⟨.dead, held⟩)
    (hunwind : ∀ g held, P t ⟨.dead, g :: held⟩ → P t ⟨.dead, held⟩) :
    ∀ t', P t' (S'.threads t') := by
  intro t'
  have ht := hP t
  by_cases e : t' = t
  · subst e
    cases h with
    | lock h f p => rw [threads_set_self]; rw [h] at ht; refine hlock _ _ _ _ _ ht ?_; have := f t'; rwa [h] at this
    | poisoned h f p => rw [threads_set_self]; rw [h] at ht; exact hpois _ _ _ _ ht
    | put h m => rw [threads_set_self]; rw [h] at ht; exact hput _ _ _ _ ht
    | drop h m => rw [threads_set_self]; rw [h] at ht; exact hdrop _ _ _ ht m
    | begin h n => rw [threads_set_self]; rw [h] at ht; exact hbegin _ _ ht n
    | panic h => rw [threads_set_self]; rw [h] at ht; exact hpanic _ ht
    | unwind h => rw [threads_set_self]; rw [h] at ht; exact hunwind _ _ ht
  · cases h <;> rw [threads_set_ne _ e] <;> exact hP t'

/-- The guards of other threads are not changed by a step. -/
theorem step_other (h : Step next S t S') {t' : T} (e : t' ≠ t) : S'.threads t' = S.threads t' := by
  cases h <;> rw [threads_set_ne _ e]

/-- A guard that appears was free. -/
theorem step_guard (h : Step next S t S') {g : Guard R} (hg : g ∈ (S'.threads t).held) :
    g ∈ (S.threads t).held ∨ Free S g.1 g.2 := by
  cases h with
  | lock h f p =>
    rw [threads_set_self] at hg
    rw [h]
    rcases List.mem_cons.1 hg with rfl | hg
    · exact .inr f
    · exact .inl hg
  | poisoned h f p => rw [threads_set_self] at hg; rw [h]; exact .inl hg
  | put h m => rw [threads_set_self] at hg; rw [h]; exact .inl hg
  | drop h m => rw [threads_set_self] at hg; rw [h]; exact .inl (List.mem_of_mem_erase hg)
  | begin h n => rw [threads_set_self] at hg; cases hg
  | panic h => rw [threads_set_self] at hg; rw [h]; exact .inl hg
  | unwind h => rw [threads_set_self] at hg; rw [h]; exact .inl (List.mem_cons_of_mem _ hg)

theorem not_clash {m m' : Mode} (h : ¬ Clash m m') : m = .rd ∧ m' = .rd := by
  cases m <;> cases m' <;> simp_all [Clash]

/-- Exclusion is kept. -/
theorem step_exclusive (h : Step next S t S') (hx : Exclusive S) : Exclusive S' := by
  intro a b g g' hg hg' ne e
  by_cases ha : a = t
  · subst ha
    rw [step_other h (Ne.symm ne)] at hg'
    rcases step_guard h hg with hg | hf
    · exact hx _ _ _ _ hg hg' ne e
    · exact not_clash (hf b g' hg' e.symm)
  · rw [step_other h ha] at hg
    by_cases hb : b = t
    · subst hb
      rcases step_guard h hg' with hg' | hf
      · exact hx _ _ _ _ hg hg' ne e
      · exact (not_clash (hf a g hg e)).symm
    · rw [step_other h hb] at hg'
      exact hx _ _ _ _ hg hg' ne e

theorem start_exclusive (s : Store E) (x : T → X) : Exclusive (Sys.start s x) := by
  intro a b g g' hg
  simp [Sys.start] at hg

theorem execution_induct {s : Store E} {x : T → X} {e : Nat → Sys E X T} (h : Execution next s x e)
    {P : Sys E X T → Prop} (h0 : P (Sys.start s x)) (hs : ∀ S t S', P S → Step next S t S' → P S') :
    ∀ i, P (e i) := by
  intro i
  induction i with
  | zero => rw [h.start]; exact h0
  | succ i ih =>
    rcases h.step i with e | ⟨t, e⟩
    · rw [e]; exact ih
    · exact hs _ _ _ ih e

/-! ### Deadlocks -/

/-- The thread's program is ordered given the guards it holds. -/
def OrderedThread {ι : Type} [LT ι] (rank : R → ι) (th : Thread E X) : Prop :=
  ∀ p, th.status = .run p → Ordered rank p th.held

theorem step_ordered {ι : Type} [LT ι] {rank : R → ι} (hn : ∀ t x p, next t x = some p → Ordered rank p [])
    (h : Step next S t S') (hP : ∀ t, OrderedThread rank (S.threads t)) :
    ∀ t, OrderedThread rank (S'.threads t) := by
  refine step_threads (P := fun _ th => OrderedThread rank th) h hP ?_ ?_ ?_ ?_ ?_ ?_ ?_
  · intro r m k held v h _ p e
    cases e
    exact (h _ rfl).2.1 v
  · intro r m k held h p e
    cases e
    exact (h _ rfl).2.2
  · intro r v k held h p e
    cases e
    exact (h _ rfl).2
  · intro g k held h _ p e
    cases e
    exact (h _ rfl).2
  · intro x p _ n p' e
    cases e
    exact hn _ _ _ n
  · intro held _ p e
    cases e
  · intro g held _ p e
    cases e

/-- An ordered thread that holds a guard and waits for nothing at or above it can go on. -/
theorem holder_goes {ι : Type} [LinearOrder ι] {rank : R → ι} {g : Guard R}
    (hP : OrderedThread rank (S.threads t)) (hg : g ∈ (S.threads t).held)
    (hw : ∀ r m, Waits S t r m → ¬ rank g.1 < rank r) : CanGoOn next S t := by
  rcases hth : S.threads t with ⟨st, held⟩
  rw [hth] at hP hg
  cases st with
  | dead =>
    cases held with
    | nil => cases hg
    | cons g' held =>
      exact ⟨⟨_, .unwind hth⟩, fun r ⟨k, h', e⟩ => by rw [hth] at e; cases e⟩
  | run p =>
    have hp := hP p rfl
    cases p with
    | lock r m k => exact absurd (hp.1 g hg) (hw r m ⟨k, held, hth⟩)
    | put r v k => exact ⟨⟨_, .put hth hp.1⟩, fun r ⟨k, h', e⟩ => by rw [hth] at e; cases e⟩
    | drop g k => exact ⟨⟨_, .drop hth hp.1⟩, fun r ⟨k, h', e⟩ => by rw [hth] at e; cases e⟩
    | ret x =>
      have : held = [] := hp
      subst this
      cases hg
    | panic => exact ⟨⟨_, .panic hth⟩, fun r ⟨k, h', e⟩ => by rw [hth] at e; cases e⟩

theorem waiter_step {r : R} {m : Mode} (hw : Waits S t r m) (hf : Free S r m) : ∃ S', Step next S t S' := by
  obtain ⟨k, held, h⟩ := hw
  cases hp : (S.store r).poisoned with
  | false => exact ⟨_, .lock h hf hp⟩
  | true => exact ⟨_, .poisoned h hf hp⟩

theorem waits_unique {r r' : R} {m m' : Mode} (h : Waits S t r m) (h' : Waits S t r' m') : r = r' ∧ m = m' := by
  obtain ⟨k, held, h⟩ := h
  obtain ⟨k', held', h'⟩ := h'
  rw [h] at h'
  cases h'
  exact ⟨rfl, rfl⟩

/-- Among ordered threads one can go on or all are finished. -/
theorem no_deadlock [Finite T] {ι : Type} [LinearOrder ι] {rank : R → ι}
    (hP : ∀ t, OrderedThread rank (S.threads t)) :
    (∀ t, Finished next S t) ∨ ∃ t, CanGoOn next S t := by
  by_cases hw : ∃ t r m, Waits S t r m
  · right
    -- a waiting thread whose buffer ranks highest
    obtain ⟨t, ⟨r, m, h⟩, hmax⟩ : ∃ t, (∃ r m, Waits S t r m) ∧
        ∀ r m, Waits S t r m → ∀ t' r' m', Waits S t' r' m' → ¬ rank r < rank r' := by
      classical
      let A : Set R := {r | ∃ t m, Waits S t r m}
      have hA : A.Finite := by
        have : A ⊆ Set.range (fun t : T => if h : ∃ r m, Waits S t r m then h.choose else
            hw.choose_spec.choose) := by
          rintro r ⟨t, m, h⟩
          refine ⟨t, ?_⟩
          have hx : ∃ r m, Waits S t r m := ⟨r, m, h⟩
          simp only [dif_pos hx]
          exact (waits_unique hx.choose_spec.choose_spec h).1
        exact (Set.finite_range _).subset this
      obtain ⟨t₀, r₀, m₀, h₀⟩ := hw
      obtain ⟨r, ⟨t, m, h⟩, hr⟩ := Set.exists_max_image A rank hA ⟨r₀, t₀, m₀, h₀⟩
      refine ⟨t, ⟨r, m, h⟩, ?_⟩
      intro r₁ m₁ h₁ t' r' m' h' lt
      obtain ⟨rfl, rfl⟩ := waits_unique h h₁
      exact absurd (hr r' ⟨t', m', h'⟩) (not_le.2 lt)
    have holders : ∀ t' g, g ∈ (S.threads t').held → g.1 = r → CanGoOn next S t' := by
      intro t' g hg e
      refine holder_goes (hP t') hg ?_
      intro r' m' h'
      rw [e]
      exact hmax r m h t' r' m' h'
    by_cases hold : ∃ t' g, g ∈ (S.threads t').held ∧ g.1 = r
    · obtain ⟨t', g, hg, e⟩ := hold
      exact ⟨t', holders t' g hg e⟩
    · have free : ∀ m, Free S r m := fun m t' g hg e => absurd ⟨t', g, hg, e⟩ hold
      by_cases hwr : ∃ t', Waits S t' r .wr
      · obtain ⟨t', h'⟩ := hwr
        refine ⟨t', waiter_step h' (free _), ?_⟩
        intro r'' h''
        have := (waits_unique h' h'').2
        cases this
      · refine ⟨t, waiter_step h (free _), ?_⟩
        intro r'' h'' t' ht'
        rw [(waits_unique h'' h).1] at ht'
        exact hwr ⟨t', ht'⟩
  · by_cases hf : ∀ t, Finished next S t
    · exact .inl hf
    · right
      simp only [not_forall] at hf
      obtain ⟨t, hf⟩ := hf
      refine ⟨t, ?_, fun r h => absurd ⟨t, r, _, h⟩ hw⟩
      rcases hth : S.threads t with ⟨st, held⟩
      cases st with
      | dead =>
        cases held with
        | nil => exact absurd (.inr hth) hf
        | cons g held => exact ⟨_, .unwind hth⟩
      | run p =>
        have hp := hP t p (by rw [hth])
        rw [hth] at hp
        cases p with
        | lock r m k => exact absurd ⟨t, r, m, k, held, hth⟩ hw
        | put r v k => exact ⟨_, .put hth hp.1⟩
        | drop g k => exact ⟨_, .drop hth hp.1⟩
        | ret x =>
          have : held = [] := hp
          subst this
          cases hx : next t x with
          | none => exact absurd (.inl ⟨x, hth, hx⟩) hf
          | some p => exact ⟨_, .begin hth hx⟩
        | panic => exact ⟨_, .panic hth⟩

end Ozz.Shared
