import Verif.Proofs.Shared
import Mathlib.Order.OrderIsoNat
import Mathlib.Data.Fintype.Pigeonhole

/-! Helper lemmas: threads that run finitely many programs come to an end. -/

namespace Ozz.Shared

open Spec.Shared

variable {R : Type} {E : R → Type} {X T : Type} [DecidableEq R] [DecidableEq T]
variable {next : T → X → Option (Prog E X)} {fuel : T → X → Nat}

/-- `th'` comes after `th` in thread `t`. -/
inductive After (next : T → X → Option (Prog E X)) (t : T) : Thread E X → Thread E X → Prop
  | lock {r m k held v} : After next t ⟨.run (k (some v)), (r, m) :: held⟩ ⟨.run (.lock r m k), held⟩
  | poisoned {r m k held} : After next t ⟨.run (k none), held⟩ ⟨.run (.lock r m k), held⟩
  | put {r v k held} : After next t ⟨.run k, held⟩ ⟨.run (.put r v k), held⟩
  | drop {g k held} : After next t ⟨.run k, held.erase g⟩ ⟨.run (.drop g k), held⟩
  | begin {x p} : next t x = some p → After next t ⟨.run p, []⟩ ⟨.run (.ret x), []⟩
  | panic {held} : After next t ⟨.dead, held⟩ ⟨.run .panic, held⟩
  | unwind {g held} : After next t ⟨.dead, held⟩ ⟨.dead, g :: held⟩

theorem step_after {S S' : Sys E X T} {t : T} (h : Step next S t S') : After next t (S'.threads t) (S.threads t) := by
  cases h with
  | lock e _ _ => rw [threads_set_self, e]; exact .lock
  | poisoned e _ _ => rw [threads_set_self, e]; exact .poisoned
  | put e _ => rw [threads_set_self, e]; exact .put
  | drop e _ => rw [threads_set_self, e]; exact .drop
  | begin e h => rw [threads_set_self, e]; exact .begin h
  | panic e => rw [threads_set_self, e]; exact .panic
  | unwind e => rw [threads_set_self, e]; exact .unwind

theorem acc_dead (t : T) : ∀ held, Acc (After next t) ⟨.dead, held⟩ := by
  intro held
  induction held with
  | nil => exact ⟨_, fun th h => by cases h⟩
  | cons g held ih => exact ⟨_, fun th h => by cases h; exact ih⟩

theorem acc_run (hf : CountsDown next fuel) (t : T) : ∀ n (p : Prog E X), (∀ x, Returns x p → fuel t x < n) →
    ∀ held, Acc (After next t) ⟨.run p, held⟩ := by
  intro n
  induction n using Nat.strong_induction_on with
  | _ n ihn =>
    intro p
    induction p with
    | lock r m k ih =>
      intro hr held
      refine ⟨_, fun th h => ?_⟩
      cases h with
      | lock => exact ih _ (fun x hx => hr x ⟨_, hx⟩) _
      | poisoned => exact ih _ (fun x hx => hr x ⟨_, hx⟩) _
    | put r v k ih =>
      intro hr held
      exact ⟨_, fun th h => by cases h; exact ih hr _⟩
    | drop g k ih =>
      intro hr held
      exact ⟨_, fun th h => by cases h; exact ih hr _⟩
    | ret x =>
      intro hr held
      refine ⟨_, fun th h => ?_⟩
      cases h with
      | @begin _ p hn => exact ihn _ (hr x rfl) p (hf t x p hn) _
    | panic =>
      intro _ held
      exact ⟨_, fun th h => by cases h; exact acc_dead t held⟩

/-- An infinite sequence in which thread states only stay or go on, going on again and again. -/
theorem no_descent {t : T} {f : Nat → Thread E X} (h0 : Acc (After next t) (f 0))
    (hs : ∀ i, f (i + 1) = f i ∨ After next t (f (i + 1)) (f i))
    (hi : ∀ i, ∃ j ≥ i, After next t (f (j + 1)) (f j)) : False := by
  have key : ∀ th, Acc (After next t) th → ∀ i, f i = th → False := by
    intro th hacc
    induction hacc with
    | intro th _ ih =>
      intro i e
      classical
      have hex := hi i
      let j := Nat.find hex
      have hj : j ≥ i ∧ After next t (f (j + 1)) (f j) := Nat.find_spec hex
      have hsame : ∀ k, i ≤ k → k ≤ j → f k = th := by
        intro k hk
        induction k, hk using Nat.le_induction with
        | base => intro _; exact e
        | succ k hk ihk =>
          intro hkj
          have hlt : k < j := hkj
          rcases hs k with h | h
          · rw [h]; exact ihk (Nat.le_of_succ_le hkj)
          · exact absurd ⟨hk, h⟩ (Nat.find_min hex hlt)
      have := hj.2
      rw [hsame j hj.1 le_rfl] at this
      exact ih _ this (j + 1) rfl
  exact key _ h0 0 rfl

theorem not_forever [Finite T] (hf : CountsDown next fuel) {s : Store E} {x : T → X} {e : Nat → Sys E X T}
    (h0 : e 0 = Sys.start s x) (hs : ∀ i, ∃ t, Step next (e i) t (e (i + 1))) : False := by
  choose who hwho using hs
  obtain ⟨t, ht⟩ := Finite.exists_infinite_fiber who
  refine no_descent (t := t) (f := fun i => (e i).threads t) (next := next) ?_ ?_ ?_
  · rw [h0]
    exact acc_run hf t (fuel t (x t) + 1) (.ret (x t)) (fun y hy => by cases hy; exact Nat.lt_succ_self _) []
  · intro i
    by_cases h : t = who i
    · right
      have := hwho i
      rw [← h] at this
      exact step_after this
    · exact .inl (step_other (hwho i) h)
  · intro i
    have hinf : (who ⁻¹' {t}).Infinite := Set.infinite_coe_iff.1 ht
    obtain ⟨j, hj, hij⟩ := hinf.exists_gt i
    have hj : who j = t := hj
    refine ⟨j, hij.le, ?_⟩
    have := hwho j
    rw [hj] at this
    exact step_after this

/-- A busy execution of threads with finitely many programs reaches a state in which no thread can
make a step. -/
theorem busy_stops [Finite T] (hf : CountsDown next fuel) {s : Store E} {x : T → X} {e : Nat → Sys E X T}
    (h : Execution next s x e) (hb : Busy next e) : ∃ i, ¬ ∃ t S', Step next (e i) t S' := by
  by_contra hno
  push Not at hno
  exact not_forever hf h.start (fun i => hb i (hno i))

end Ozz.Shared
