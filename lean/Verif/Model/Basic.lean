/-!
Common vocabulary of the model: error values, checked indexing, machine casts.
-/

namespace Ozz

/-- `OzzError`, /repo/src/base.rs:16-44. `IO` carries no kind: every I/O failure the readers can
produce on a byte stream is "unexpected end of file". -/
inductive OzzError
  | lockPoison | invalidJob | invalidIndex | io | utf8 (validUpTo : Nat)
  | invalidTag | invalidVersion | unexcepted
  deriving DecidableEq, Repr

/-- How a call can end other than normally: an `Err(..)` value or a panic (failed assertion,
out-of-bounds index, length mismatch in `copy_from_slice`, `unwrap` of `None`, overflow check). -/
inductive Fault
  | err (e : OzzError)
  | panic
  deriving DecidableEq, Repr

/-- Result of a modelled Rust call. -/
abbrev Res (α : Type _) := Except Fault α

deriving instance DecidableEq for Except

/-- Slice read `xs[i]` (panics out of bounds). -/
def getIdx {α} (xs : List α) (i : Nat) : Res α :=
  match xs[i]? with
  | some x => .ok x
  | none => .error .panic

/-- Slice write `xs[i] = v` (panics out of bounds). -/
def setIdx {α} (xs : List α) (i : Nat) (v : α) : Res (List α) :=
  if i < xs.length then .ok (xs.set i v) else .error .panic

/-- `assert!(b)`. -/
def assertB (b : Bool) : Res Unit := if b then .ok () else .error .panic

/-- Checked unsigned subtraction: panics on underflow. (Without overflow checks the wrapped value is
used as an index and panics there.) -/
def subU (a b : Nat) : Res Nat := if b ≤ a then .ok (a - b) else .error .panic

/-- How a job's `run` ends, with the state the caller observes afterwards (an `Err` may be returned
after part of the state was changed). -/
inductive Outcome (σ : Type _)
  | ok (s : σ)
  | err (e : OzzError) (s : σ)
  | panic
  deriving DecidableEq, Repr

/-- `n as i16` for a `usize` value. -/
def asI16 (n : Nat) : Int := (BitVec.ofNat 16 n).toInt

/-- Checked (debug) `i32` addition: panics on overflow. -/
def addI32 (a b : Int) : Res Int :=
  if -(2:Int)^31 ≤ a + b ∧ a + b < 2^31 then .ok (a + b) else .error .panic

/-- Wrapping (release) `i32` addition. -/
def addI32Wrap (a b : Int) : Int := (BitVec.ofInt 32 (a + b)).toInt

end Ozz
