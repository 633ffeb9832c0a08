import Verif.Model.Basic
import Mathlib.Logic.Function.Basic
import Mathlib.Data.List.Basic

/-!
Buffers shared between jobs and threads: `Rc<RefCell<Vec<T>>>` and `Arc<RwLock<Vec<T>>>`,
/repo/src/base.rs:312-426.

`R` names the buffers and `E r` is the content of buffer `r`. A program is what a thread does with the
buffers: `buf()`/`mut_buf()` calls, changes through a guard, drops of guards. The behaviour of
`RefCell` and `RwLock` is the one documented by the standard library; it is part of the trusted base.
-/

namespace Ozz.Shared

/-- Reading or writing access. -/
inductive Mode
  | rd | wr
  deriving DecidableEq, Repr

/-- A guard (`Ref`, `RefMut`, `RwLockReadGuard`, `RwLockWriteGuard`) on a buffer. -/
abbrev Guard (R : Type) := R × Mode

/-- A program over buffers with result `X`. -/
inductive Prog {R : Type} (E : R → Type) (X : Type) : Type
  /-- `buf()` or `mut_buf()`; continues with `none` if the lock is poisoned (base.rs:361-366, 387-392). -/
  | lock (r : R) (m : Mode) (k : Option (E r) → Prog E X)
  /-- Changing the content through a writing guard. -/
  | put (r : R) (v : E r) (k : Prog E X)
  /-- Dropping a guard. -/
  | drop (g : Guard R) (k : Prog E X)
  /-- Returning; all guards were dropped. -/
  | ret (x : X)
  /-- A panic; the guards are dropped by unwinding. -/
  | panic

/-- A buffer: its content and whether its lock is poisoned. -/
structure Slot (β : Type) where
  data : β
  poisoned : Bool

variable {R : Type} {E : R → Type} {X T : Type}

/-- All buffers. -/
abbrev Store (E : R → Type) := (r : R) → Slot (E r)

/-- A thread runs a program or has panicked. -/
inductive Status (E : R → Type) (X : Type)
  | run (p : Prog E X)
  | dead

/-- A thread and the guards it holds, the latest first. -/
structure Thread (E : R → Type) (X : Type) where
  status : Status E X
  held : List (Guard R)

/-- All threads (named by `T`) and buffers. -/
structure Sys (E : R → Type) (X T : Type) where
  store : Store E
  threads : T → Thread E X

/-- Two accesses to the same buffer exclude each other unless both are reading. -/
def Clash (m m' : Mode) : Prop := m = .wr ∨ m' = .wr

instance (m m' : Mode) : Decidable (Clash m m') := inferInstanceAs (Decidable (_ ∨ _))

/-- No guard in the list excludes an access to `r`. -/
def Room (r : R) (m : Mode) (held : List (Guard R)) : Prop := ∀ g ∈ held, g.1 = r → ¬ Clash m g.2

instance [DecidableEq R] (r : R) (m : Mode) (held : List (Guard R)) : Decidable (Room r m held) :=
  inferInstanceAs (Decidable (∀ g ∈ held, g.1 = r → ¬ Clash m g.2))

/-- No thread holds a guard that excludes an access to `r`. -/
def Free (S : Sys E X T) (r : R) (m : Mode) : Prop := ∀ t, Room r m (S.threads t).held

variable [DecidableEq R] [DecidableEq T]

/-- Replaces a thread. -/
def Sys.set (S : Sys E X T) (t : T) (th : Thread E X) : Sys E X T :=
  ⟨S.store, Function.update S.threads t th⟩

/-- Changes the content of a buffer. -/
def Store.put (s : Store E) (r : R) (v : E r) : Store E := Function.update s r ⟨v, (s r).poisoned⟩

/-- Poisons a lock. -/
def Store.poison (s : Store E) (r : R) : Store E := Function.update s r ⟨(s r).data, true⟩

/-- What dropping a guard does to the buffers when the thread is panicking: writing guards of
`RwLock` poison the lock. -/
def Store.unwind (s : Store E) (g : Guard R) : Store E := if g.2 = .wr then s.poison g.1 else s

/-- One step of thread `t`. A thread that returned `x` goes on with the program `next t x`, if any.
`RwLock::read` and `RwLock::write` wait until no guard excludes them. -/
inductive Step (next : T → X → Option (Prog E X)) (S : Sys E X T) (t : T) : Sys E X T → Prop
  | lock {r m k held} : S.threads t = ⟨.run (.lock r m k), held⟩ → Free S r m →
      (S.store r).poisoned = false →
      Step next S t (S.set t ⟨.run (k (some (S.store r).data)), (r, m) :: held⟩)
  | poisoned {r m k held} : S.threads t = ⟨.run (.lock r m k), held⟩ → Free S r m →
      (S.store r).poisoned = true →
      Step next S t (S.set t ⟨.run (k none), held⟩)
  | put {r v k held} : S.threads t = ⟨.run (.put r v k), held⟩ → (r, Mode.wr) ∈ held →
      Step next S t (Sys.set ⟨S.store.put r v, S.threads⟩ t ⟨.run k, held⟩)
  | drop {g k held} : S.threads t = ⟨.run (.drop g k), held⟩ → g ∈ held →
      Step next S t (S.set t ⟨.run k, held.erase g⟩)
  | begin {x p} : S.threads t = ⟨.run (.ret x), []⟩ → next t x = some p →
      Step next S t (S.set t ⟨.run p, []⟩)
  | panic {held} : S.threads t = ⟨.run .panic, held⟩ →
      Step next S t (S.set t ⟨.dead, held⟩)
  | unwind {g held} : S.threads t = ⟨.dead, g :: held⟩ →
      Step next S t (Sys.set ⟨S.store.unwind g, S.threads⟩ t ⟨.dead, held⟩)

/-- The state before any thread does anything. -/
def Sys.start (s : Store E) (x : T → X) : Sys E X T := ⟨s, fun t => ⟨.run (.ret (x t)), []⟩⟩

/-- How a program ends that runs alone. `blocked`: it waits for itself. -/
inductive End (E : R → Type) (X : Type)
  | done (x : X) (s : Store E)
  | died (s : Store E)
  | blocked

/-- A program running alone. `cell` says whether the buffers are `RefCell`s, where an access that
is excluded panics, or `RwLock`s, where it waits. `RefCell`s are never poisoned by unwinding. -/
def exec (cell : Bool) : Prog E X → List (Guard R) → Store E → End E X
  | .lock r m k, held, s =>
    if Room r m held then
      if (s r).poisoned then exec cell (k none) held s
      else exec cell (k (some (s r).data)) ((r, m) :: held) s
    else if cell then .died s else .blocked
  | .put r v k, held, s => if (r, Mode.wr) ∈ held then exec cell k held (s.put r v) else .blocked
  | .drop g k, held, s => if g ∈ held then exec cell k (held.erase g) s else .blocked
  | .ret x, held, s => if held = [] then .done x s else .blocked
  | .panic, held, s => .died (if cell then s else held.foldl Store.unwind s)

/-- Changing the result of a program. -/
def Prog.map {Y : Type} (f : X → Y) : Prog E X → Prog E Y
  | .lock r m k => .lock r m (fun v => (k v).map f)
  | .put r v k => .put r v (k.map f)
  | .drop g k => .drop g (k.map f)
  | .ret x => .ret (f x)
  | .panic => .panic

end Ozz.Shared
