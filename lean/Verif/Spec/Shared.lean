import Verif.Model.Shared

/-! What programs over shared buffers should satisfy, and what executions should look like. -/

namespace Ozz.Spec.Shared

open Ozz.Shared

variable {R : Type} {E : R → Type} {X T : Type}

/-- No two guards on a buffer exclude each other. -/
def Exclusive (S : Sys E X T) : Prop :=
  ∀ t t' g g', g ∈ (S.threads t).held → g' ∈ (S.threads t').held → t ≠ t' → g.1 = g'.1 →
    g.2 = .rd ∧ g'.2 = .rd

/-- The program asks for writing access to `r` on some path. -/
def Writes (r : R) : Prog E X → Prop
  | .lock r' m k => (r' = r ∧ m = .wr) ∨ ∃ v, Writes r (k v)
  | .put _ _ k => Writes r k
  | .drop _ k => Writes r k
  | .ret _ => False
  | .panic => False

/-- The program returns `x` on some path. -/
def Returns (x : X) : Prog E X → Prop
  | .lock _ _ k => ∃ v, Returns x (k v)
  | .put _ _ k => Returns x k
  | .drop _ k => Returns x k
  | .ret y => y = x
  | .panic => False

/-- Threads run only finitely many programs: what they return counts down. -/
def CountsDown (next : T → X → Option (Prog E X)) (fuel : T → X → Nat) : Prop :=
  ∀ t x p, next t x = some p → ∀ x', Returns x' p → fuel t x' < fuel t x

/-- Only thread `t` ever writes to `r`. -/
def Quiet (next : T → X → Option (Prog E X)) (t : T) (r : R) : Prop :=
  ∀ t', t' ≠ t → ∀ x p, next t' x = some p → ¬ Writes r p

variable [DecidableEq R] [DecidableEq T]

/-- Only drops of the guards held, then the return. -/
def Closing : Prog E X → List (Guard R) → Prop
  | .drop g k, held => g ∈ held ∧ Closing k (held.erase g)
  | .ret _, held => held = []
  | _, _ => False

/-- The program takes all its guards before it drops the first one; guards for reading buffers in `q`
may be dropped earlier. -/
def TwoPhase (q : R → Prop) : Prog E X → List (Guard R) → Prop
  | .lock r m k, held => (∀ v, TwoPhase q (k (some v)) ((r, m) :: held)) ∧ TwoPhase q (k none) held
  | .put r _ k, held => (r, Mode.wr) ∈ held ∧ TwoPhase q k held
  | .drop g k, held =>
    g ∈ held ∧ ((g.2 = .rd ∧ q g.1 ∧ TwoPhase q k (held.erase g)) ∨ Closing k (held.erase g))
  | .ret _, held => held = []
  | .panic, _ => True

/-- The program takes a guard only if its buffer ranks above those of the guards it holds. -/
def Ordered {ι : Type} [LT ι] (rank : R → ι) : Prog E X → List (Guard R) → Prop
  | .lock r m k, held => (∀ g ∈ held, rank g.1 < rank r) ∧
      (∀ v, Ordered rank (k (some v)) ((r, m) :: held)) ∧ Ordered rank (k none) held
  | .put r _ k, held => (r, Mode.wr) ∈ held ∧ Ordered rank k held
  | .drop g k, held => g ∈ held ∧ Ordered rank k (held.erase g)
  | .ret _, held => held = []
  | .panic, _ => True

/-- An execution: from the start, at every time one thread makes a step or nothing happens. -/
structure Execution (next : T → X → Option (Prog E X)) (s : Store E) (x : T → X)
    (e : Nat → Sys E X T) : Prop where
  start : e 0 = Sys.start s x
  step : ∀ i, e (i + 1) = e i ∨ ∃ t, Step next (e i) t (e (i + 1))

/-- Programs run one after the other, each alone, in the order of the list: the buffers and what
the threads returned last (`none` for a thread that has panicked). -/
inductive Serial (next : T → X → Option (Prog E X)) (s₀ : Store E) (x₀ : T → X) :
    List T → Store E → (T → Option X) → Prop
  | nil : Serial next s₀ x₀ [] s₀ (fun t => some (x₀ t))
  | done {l s v t x p x' s'} : Serial next s₀ x₀ l s v → v t = some x → next t x = some p →
      exec false p [] s = .done x' s' →
      Serial next s₀ x₀ (l ++ [t]) s' (Function.update v t (some x'))
  | died {l s v t x p s'} : Serial next s₀ x₀ l s v → v t = some x → next t x = some p →
      exec false p [] s = .died s' →
      Serial next s₀ x₀ (l ++ [t]) s' (Function.update v t none)

omit [DecidableEq R] [DecidableEq T] in
/-- The state looks as if the threads had done what the buffers `s` and values `v` say: buffers
nobody is writing to, results of threads between programs, threads that have panicked. -/
structure LooksLike (S : Sys E X T) (s : Store E) (v : T → Option X) : Prop where
  store : ∀ r, (∀ t, (r, Mode.wr) ∉ (S.threads t).held) → S.store r = s r
  idle : ∀ t x, S.threads t = ⟨.run (.ret x), []⟩ → v t = some x
  dead : ∀ t, (S.threads t).status = .dead → v t = none

omit [DecidableEq R] [DecidableEq T] in
/-- Thread `t` waits for access `m` to `r`. -/
def Waits (S : Sys E X T) (t : T) (r : R) (m : Mode) : Prop :=
  ∃ k held, S.threads t = ⟨.run (.lock r m k), held⟩

/-- Thread `t` can go on, even if the lock lets no reader pass a waiting writer. -/
def CanGoOn (next : T → X → Option (Prog E X)) (S : Sys E X T) (t : T) : Prop :=
  (∃ S', Step next S t S') ∧ ∀ r, Waits S t r .rd → ∀ t', ¬ Waits S t' r .wr

/-- Thread `t` has nothing more to do. -/
def Finished (next : T → X → Option (Prog E X)) (S : Sys E X T) (t : T) : Prop :=
  (∃ x, S.threads t = ⟨.run (.ret x), []⟩ ∧ next t x = none) ∨ S.threads t = ⟨.dead, []⟩

/-- As long as some thread can make a step, one does. -/
def Busy (next : T → X → Option (Prog E X)) (e : Nat → Sys E X T) : Prop :=
  ∀ i, (∃ t S', Step next (e i) t S') → ∃ t, Step next (e i) t (e (i + 1))

omit [DecidableEq R] [DecidableEq T] in
/-- The numbers present increase. -/
def Ascending (l : List (Option Nat)) : Prop := l.Pairwise (fun a b => ∀ m ∈ a, ∀ n ∈ b, m < n)

end Ozz.Spec.Shared

namespace Ozz.Spec.Shared

open Ozz.Shared

/-- What `buf()` gives when nobody is in the way. -/
def bufOf {R : Type} {E : R → Type} (s : Store E) (r : R) : Except OzzError (E r) :=
  if (s r).poisoned then .error .lockPoison else .ok (s r).data

end Ozz.Spec.Shared
