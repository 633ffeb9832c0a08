import Verif.Model.Track

/-!
Track triggering, /repo/src/track_triggering_job.rs.

Numbers have an arbitrary type `α` with the operations used on `f32`; no law is assumed here.
The lazily evaluated iterator is modelled by its steps: one step is one turn of the inner or the
outer `while` loop of `next` (lines 246-300), or the end of the iteration.
-/

namespace Ozz.Triggering

/-- `Edge`, lines 17-22. -/
structure Edge (α : Type) where
  ratio : α
  rising : Bool
  deriving DecidableEq

/-- `TrackTriggeringJob`, lines 43-51, with its track set. -/
structure Job (α : Type) where
  track : Track α α
  from_ : α
  to_ : α
  threshold : α

/-- `TrackTriggeringIter`, lines 175-183. `active = false` is `track: None`. -/
structure Iter (α : Type) where
  active : Bool
  outer : α
  inner : Int
  deriving DecidableEq

variable {α : Type} [Add α] [Sub α] [Mul α] [Div α] [LE α] [LT α] [DecidableLE α] [DecidableLT α]
  [Zero α] [One α] [FloorOp α]

/-- `TrackTriggeringIter::new`, lines 189-202. -/
def Iter.new (j : Job α) : Iter α where
  active := !(feq j.from_ j.to_)
  outer := FloorOp.floor j.from_
  inner := if j.from_ < j.to_ then 0 else (j.track.keyCount : Int) - 1

/-- Ratio of the edge found by `detect_edge`, lines 224-235. -/
def edgeRatio (j : Job α) (it0 it1 : Nat) (val0 val1 : α) : Res α := do
  if ← j.track.step it0 then
    getIdx j.track.ratios it1
  else if it1 = 0 then
    return 0
  else do
    let alpha := (j.threshold - val0) / (val1 - val0)
    let ratio0 ← getIdx j.track.ratios it0
    let ratio1 ← getIdx j.track.ratios it1
    return ratio0 + (ratio1 - ratio0) * alpha

/-- `detect_edge`, lines 204-237. -/
def detectEdge (j : Job α) (it0 it1 : Nat) (forward : Bool) : Res (Option (Edge α)) := do
  let val0 ← getIdx j.track.values it0
  let val1 ← getIdx j.track.values it1
  if val0 ≤ j.threshold ∧ j.threshold < val1 then do
    let r ← edgeRatio j it0 it1 val0 val1
    return some { ratio := r, rising := forward }
  else if j.threshold < val0 ∧ val1 ≤ j.threshold then do
    let r ← edgeRatio j it0 it1 val0 val1
    return some { ratio := r, rising := !forward }
  else return none

/-- What one loop turn does. -/
inductive Step (α : Type) where
  | emit (e : Edge α) (s : Iter α)
  | cont (s : Iter α)
  | stop
  deriving DecidableEq

/-- `it0`, lines 254 and 276. -/
def prevKey (keyCount inner : Int) : Int := if inner = 0 then keyCount - 1 else inner - 1

/-- Forward inner loop body, lines 254-268. -/
def stepForward (j : Job α) (s : Iter α) : Res (Step α) := do
  let it0 := prevKey j.track.keyCount s.inner
  let found ← detectEdge j it0.toNat s.inner.toNat true
  let accepted := match found with
    | some e =>
      let r := e.ratio + s.outer
      if j.from_ ≤ r ∧ (r < j.to_ ∨ 1 + s.outer ≤ j.to_) then some { e with ratio := r } else none
    | none => none
  match accepted with
  | some e => return .emit e { s with inner := s.inner + 1 }
  | none => do
    let r ← getIdx j.track.ratios s.inner.toNat
    if j.to_ ≤ r + s.outer then
      return .cont { s with inner := 0, outer := s.outer + 1 }
    else return .cont { s with inner := s.inner + 1 }

/-- Backward inner loop body, lines 276-292. -/
def stepBackward (j : Job α) (s : Iter α) : Res (Step α) := do
  let it0 := prevKey j.track.keyCount s.inner
  let found ← detectEdge j it0.toNat s.inner.toNat false
  let accepted := match found with
    | some e =>
      let r := e.ratio + s.outer
      if j.to_ ≤ r ∧ (r < j.from_ ∨ 1 + s.outer ≤ j.from_) then some { e with ratio := r } else none
    | none => none
  match accepted with
  | some e => return .emit e { s with inner := s.inner - 1 }
  | none => do
    let r ← getIdx j.track.ratios s.inner.toNat
    if r + s.outer ≤ j.to_ then
      return .cont { s with inner := (j.track.keyCount : Int) - 1, outer := s.outer - 1 }
    else return .cont { s with inner := s.inner - 1 }

/-- One loop turn of `next`, lines 246-300. -/
def step (j : Job α) (s : Iter α) : Res (Step α) :=
  if s.active = false then .ok .stop
  else if j.from_ < j.to_ then
    if s.outer < j.to_ then
      if s.inner < (j.track.keyCount : Int) then stepForward j s
      else .ok (.cont { s with inner := 0, outer := s.outer + 1 })
    else .ok .stop
  else
    if j.to_ < s.outer + 1 then
      if 0 ≤ s.inner then stepBackward j s
      else .ok (.cont { s with inner := (j.track.keyCount : Int) - 1, outer := s.outer - 1 })
    else .ok .stop

/-- `Collects j s l`: iterating from state `s` terminates, without a panic, and yields exactly `l`. -/
inductive Collects (j : Job α) : Iter α → List (Edge α) → Prop
  | stop {s} : step j s = .ok .stop → Collects j s []
  | cont {s s' l} : step j s = .ok (.cont s') → Collects j s' l → Collects j s l
  | emit {s e s' l} : step j s = .ok (.emit e s') → Collects j s' l → Collects j s (e :: l)

/-- `run()` followed by collecting the iterator (lines 165-170): the job yields `l`. -/
def Yields (j : Job α) (l : List (Edge α)) : Prop := Collects j (Iter.new j) l

end Ozz.Triggering
