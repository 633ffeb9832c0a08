import Verif.Model.Basic
import Verif.Model.Math
import Verif.Model.Blending

/-!
/repo/src/skinning_job.rs over any number type. The macros `skinning_1!` and `skinning_impl!` are modelled
once with the number of influences and the attribute set as arguments; `run` picks them through the table
of the source. `ck` says whether overflow checks are on (debug) or `usize` arithmetic wraps (release).
`Mat4`, `Vec3` and `Vec4` are glam's; its optional assertions (`glam-assert`) are off. A buffer is an
`Except`: `buf()` fails when its lock is poisoned. All buffers are distinct.
-/

namespace Ozz.Skinning

/-- The three components of a `Vec3`. -/
abbrev P3 (α : Type) := Fin 3 → α

/-- An optional shared buffer. -/
abbrev Buf (A : Type) := Option (Except OzzError (List A))

/-- `SkinningJob`, skinning_job.rs:17-44, without the outputs. Joint indices are `u16` in the code. -/
structure Job (α : Type) where
  vertexCount : Nat
  influences : Nat
  matrices : Buf (Mat4 α)
  itMatrices : Buf (Mat4 α)
  indices : Buf Nat
  weights : Buf α
  inPositions : Buf (P3 α)
  inNormals : Buf (P3 α)
  inTangents : Buf (P3 α)

/-- The outputs. -/
structure State (α : Type) where
  positions : Buf (P3 α)
  normals : Buf (P3 α)
  tangents : Buf (P3 α)

/-- `usize` multiplication. -/
def mulU (ck : Bool) (a b : Nat) : Res Nat :=
  if a * b < 2 ^ 64 then .ok (a * b) else if ck then .error .panic else .ok (a * b % 2 ^ 64)

/-- `usize` addition. -/
def addU (ck : Bool) (a b : Nat) : Res Nat :=
  if a + b < 2 ^ 64 then .ok (a + b) else if ck then .error .panic else .ok ((a + b) % 2 ^ 64)

/-- `.as_ref()?.buf().ok()?.len()`. -/
def lenOf {A : Type} (b : Buf A) : Option Nat :=
  match b with
  | some (.ok xs) => some xs.length
  | _ => none

variable {α : Type} [Add α] [Sub α] [Mul α] [Div α] [Neg α] [NumOps α]

omit [Add α] [Sub α] [Mul α] [Div α] [Neg α] [NumOps α] in
/-- The part of `validate` about weights, skinning_job.rs:348-351; `none` when they cannot be read. -/
def checkWeights (ck : Bool) (j : Job α) (ok : Bool) : Res (Option Bool) :=
  if 1 < j.influences then do
    let some nw := lenOf j.weights | return none
    let need ← mulU ck j.vertexCount (j.influences - 1)
    return some (ok && decide (need ≤ nw))
  else return some ok

omit [Add α] [Sub α] [Mul α] [Div α] [Neg α] [NumOps α] in
/-- `validate`, skinning_job.rs:340-371. -/
def validate (ck : Bool) (j : Job α) (s : State α) : Res Bool := do
  let ok := decide (0 < j.influences)
  let some m := lenOf j.matrices | return false
  let ok := ok && m != 0
  let some ni := lenOf j.indices | return false
  let need ← mulU ck j.vertexCount j.influences
  let ok := ok && decide (need ≤ ni)
  let some ok ← checkWeights ck j ok | return false
  let some a := lenOf j.inPositions | return false
  let some b := lenOf s.positions | return false
  let ok := ok && decide (j.vertexCount ≤ a) && decide (j.vertexCount ≤ b)
  if j.inNormals.isSome then do
    let some a := lenOf j.inNormals | return false
    let some b := lenOf s.normals | return false
    let ok := ok && decide (j.vertexCount ≤ a) && decide (j.vertexCount ≤ b)
    if j.inTangents.isSome then do
      let some a := lenOf j.inTangents | return false
      let some b := lenOf s.tangents | return false
      return ok && decide (j.vertexCount ≤ a) && decide (j.vertexCount ≤ b)
    else return ok
  else return ok && j.inTangents.isNone

/-- `unpack_buf`, `unpack_mut_buf`, skinning_job.rs:374-396. -/
def unpack {A : Type} (b : Buf A) (size : Nat) : Res (List A) :=
  match b with
  | none => .error (.err .invalidJob)
  | some (.error e) => .error (.err e)
  | some (.ok xs) => if xs.length < size then .error (.err .invalidJob) else .ok xs

/-- `.as_ref().ok_or(InvalidJob)?.buf()?` -/
def open' {A : Type} (b : Buf A) : Res (List A) :=
  match b with
  | none => .error (.err .invalidJob)
  | some (.error e) => .error (.err e)
  | some (.ok xs) => .ok xs

/-- `.as_ref().unwrap().buf()?` -/
def unwrapBuf {A : Type} (b : Buf A) : Res (List A) :=
  match b with
  | none => .error .panic
  | some (.error e) => .error (.err e)
  | some (.ok xs) => .ok xs

omit [Add α] [Sub α] [Mul α] [Div α] [Neg α] [NumOps α] in
/-- `matrices.get(joint_index).ok_or(InvalidIndex)?` -/
def matAt (ms : List (Mat4 α)) (i : Nat) : Res (Mat4 α) :=
  match ms[i]? with
  | some m => .ok m
  | none => .error (.err .invalidIndex)

/-- `mat4_col_mul`, skinning_job.rs:500-502. -/
def colMul (m : Mat4 α) (v : F4 α) : Mat4 α := fun c => m c * v

/-- `Mat4::transform_point3` of glam. -/
def point (m : Mat4 α) (p : P3 α) : P3 α := fun r =>
  let r := r.castSucc
  m 3 r + (m 2 r * p 2 + (m 1 r * p 1 + m 0 r * p 0))

/-- `Mat4::transform_vector3` of glam. -/
def vector (m : Mat4 α) (p : P3 α) : P3 α := fun r =>
  let r := r.castSucc
  m 2 r * p 2 + (m 1 r * p 1 + m 0 r * p 0)

/-- One lookup in the inverse-transpose matrices, if they are used (`it!`). -/
def itAt (its : Option (List (Mat4 α))) (ji : Nat) (weight : F4 α) (old : Option (Mat4 α)) : Res (Option (Mat4 α)) :=
  match its with
  | none => .ok none
  | some ms => do
    let m ← matAt ms ji
    match old with
    | none => return some (colMul m weight)
    | some t => return some (t + colMul m weight)

/-- The matrices of vertex `i`, skinning_job.rs:467-487. -/
def gather (ck : Bool) (n : Nat) (ms : List (Mat4 α)) (its : Option (List (Mat4 α))) (indices : List Nat)
    (weights : List α) (i : Nat) : Res (Mat4 α × Option (Mat4 α)) := do
  let wo ← mulU ck i (n - 1)
  let io ← mulU ck i n
  let w ← getIdx weights wo
  let weight := splat w
  let ji ← getIdx indices io
  let m ← matAt ms ji
  let it ← itAt its ji weight none
  let (ws, t, it) ← forFrom (fun j (ws, t, it) => do
    let k ← addU ck wo j
    let w ← getIdx weights k
    let weight := splat w
    let k ← addU ck io j
    let ji ← getIdx indices k
    let m ← matAt ms ji
    let it ← itAt its ji weight it
    return (ws + weight, t + colMul m weight, it)) (max (n - 1) 1 - 1) 1 (weight, colMul m weight, it)
  let weight := one4 - ws
  let k ← addU ck io n
  let k ← subU k 1
  let ji ← getIdx indices k
  let m ← matAt ms ji
  let it ← itAt its ji weight it
  return (t + colMul m weight, it)

omit [Add α] [Sub α] [Mul α] [Div α] [Neg α] [NumOps α] in
/-- The matrices of vertex `i` with one influence, skinning_job.rs:432-435. -/
def gather1 (ms : List (Mat4 α)) (its : Option (List (Mat4 α))) (indices : List Nat) (i : Nat) :
    Res (Mat4 α × Option (Mat4 α)) := do
  let ji ← getIdx indices i
  let m ← matAt ms ji
  match its with
  | none => return (m, none)
  | some its => do
    let t ← matAt its ji
    return (m, some t)

/-- The output slices during the loop; those of attributes that are not written are empty. -/
structure Outs (α : Type) where
  positions : List (P3 α)
  normals : List (P3 α)
  tangents : List (P3 α)

/-- The statements selected by `pnt!`. -/
structure Attrs where
  normals : Bool
  tangents : Bool
  deriving DecidableEq, Repr

/-- The opened inputs. -/
structure Ins (α : Type) where
  positions : List (P3 α)
  normals : List (P3 α)
  tangents : List (P3 α)

/-- Writing vertex `i`, skinning_job.rs:437-441 and 489-493. -/
def write (a : Attrs) (ins : Ins α) (t : Mat4 α) (it : Option (Mat4 α)) (i : Nat) (o : Outs α) : Res (Outs α) := do
  let t' := it.getD t
  let p ← getIdx ins.positions i
  let ps ← setIdx o.positions i (point t p)
  if a.normals then do
    let n ← getIdx ins.normals i
    let ns ← setIdx o.normals i (vector t' n)
    if a.tangents then do
      let g ← getIdx ins.tangents i
      let ts ← setIdx o.tangents i (vector t' g)
      return ⟨ps, ns, ts⟩
    else return ⟨ps, ns, o.tangents⟩
  else return ⟨ps, o.normals, o.tangents⟩

omit [Add α] [Sub α] [Mul α] [Div α] [Neg α] [NumOps α] in
/-- `for i in 0..vertex_count` with `?` inside: an error keeps what was written. -/
def vertexLoop (f : Nat → Outs α → Res (Outs α)) : (k : Nat) → (i : Nat) → Outs α → Outcome (Outs α)
  | 0, _, o => .ok o
  | k + 1, i, o =>
    match f i o with
    | .ok o => vertexLoop f k (i + 1) o
    | .error (.err e) => .err e o
    | .error .panic => .panic

/-- The buffers opened before the loop. -/
structure Opened (α : Type) where
  matrices : List (Mat4 α)
  itMatrices : Option (List (Mat4 α))
  indices : List Nat
  weights : List α
  ins : Ins α
  outs : Outs α

/-- A buffer opened only if the macro keeps the statement. -/
def unpackIf {A : Type} (c : Bool) (b : Buf A) (n : Nat) : Res (List A) :=
  if c then unpack b n else .ok []

omit [Add α] [Sub α] [Mul α] [Div α] [Neg α] [NumOps α] in
/-- The inverse-transpose matrices (`it!`), skinning_job.rs:418 and 451. -/
def openIt (it : Bool) (j : Job α) : Res (Option (List (Mat4 α))) :=
  if it then (do let x ← open' j.itMatrices; return some x) else .ok none

omit [Add α] [Sub α] [Mul α] [Div α] [Neg α] [NumOps α] in
/-- The `pnt!` blocks opening inputs and outputs, skinning_job.rs:420-429 and 455-464. -/
def openAttrs (a : Attrs) (j : Job α) (s : State α) : Res (Ins α × Outs α) := do
  let ip ← unpack j.inPositions j.vertexCount
  let inn ← unpackIf a.normals j.inNormals j.vertexCount
  let it ← unpackIf (a.normals && a.tangents) j.inTangents j.vertexCount
  let op ← unpack s.positions j.vertexCount
  let on ← unpackIf a.normals s.normals j.vertexCount
  let ot ← unpackIf (a.normals && a.tangents) s.tangents j.vertexCount
  return (⟨ip, inn, it⟩, ⟨op, on, ot⟩)

omit [Add α] [Sub α] [Mul α] [Div α] [Neg α] [NumOps α] in
/-- The head of `skinning_1!`, skinning_job.rs:416-429. -/
def open1 (it : Bool) (a : Attrs) (j : Job α) (s : State α) : Res (Opened α) := do
  let ms ← open' j.matrices
  let its ← openIt it j
  let indices ← unpack j.indices j.vertexCount
  let (ins, outs) ← openAttrs a j s
  return ⟨ms, its, indices, [], ins, outs⟩

omit [Add α] [Sub α] [Mul α] [Div α] [Neg α] [NumOps α] in
/-- The head of `skinning_impl!`, skinning_job.rs:450-464. -/
def openN (ck : Bool) (n : Nat) (it : Bool) (a : Attrs) (j : Job α) (s : State α) : Res (Opened α) := do
  let ms ← unwrapBuf j.matrices
  let its ← openIt it j
  let need ← mulU ck j.vertexCount n
  let indices ← unpack j.indices need
  let need ← mulU ck j.vertexCount (n - 1)
  let weights ← unpack j.weights need
  let (ins, outs) ← openAttrs a j s
  return ⟨ms, its, indices, weights, ins, outs⟩

/-- Which function a branch calls: `skinning_1!`, `skinning_c!` with a constant or `skinning_n!`. -/
inductive Kind
  | one | const (n : Nat) | any
  deriving DecidableEq, Repr

omit [Add α] [Sub α] [Mul α] [Div α] [Neg α] [NumOps α] in
/-- Puts the output slices back into the job. -/
def putBack (a : Attrs) (s : State α) (o : Outs α) : State α :=
  { positions := some (.ok o.positions)
    normals := if a.normals then some (.ok o.normals) else s.normals
    tangents := if a.normals && a.tangents then some (.ok o.tangents) else s.tangents }

/-- The loop after the buffers were opened. -/
def process (g : Opened α → Nat → Res (Mat4 α × Option (Mat4 α))) (a : Attrs) (j : Job α) (s : State α)
    (opened : Res (Opened α)) : Outcome (State α) :=
  match opened with
  | .error .panic => .panic
  | .error (.err e) => .err e s
  | .ok x =>
    match vertexLoop (fun i o => do
        let (t, it) ← g x i
        write a x.ins t it i o) j.vertexCount 0 x.outs with
    | .panic => .panic
    | .err e o => .err e (putBack a s o)
    | .ok o => .ok (putBack a s o)

/-- One of the functions generated by the macros. -/
def call (ck : Bool) (k : Kind) (it : Bool) (a : Attrs) (j : Job α) (s : State α) : Outcome (State α) :=
  match k with
  | .one => process (fun x i => gather1 x.matrices x.itMatrices x.indices i) a j s (open1 it a j s)
  | .const n => process (fun x i => gather ck n x.matrices x.itMatrices x.indices x.weights i) a j s (openN ck n it a j s)
  | .any =>
    let n := j.influences
    process (fun x i => gather ck n x.matrices x.itMatrices x.indices x.weights i) a j s (openN ck n it a j s)

/-- The match of `run` (skinning_job.rs:547-574) with the instantiations (577-601):
kind, whether inverse-transpose matrices are used, attributes; `none` is `unreachable!()`. -/
def table : Nat → Option (Kind × Bool × Attrs)
  | 0 => some (.one, false, ⟨false, false⟩)
  | 1 => some (.one, false, ⟨true, false⟩)
  | 2 => some (.one, false, ⟨true, true⟩)
  | 3 => some (.one, true, ⟨true, false⟩)
  | 4 => some (.one, true, ⟨true, true⟩)
  | 5 => some (.const 2, false, ⟨false, false⟩)
  | 6 => some (.const 2, false, ⟨true, false⟩)
  | 7 => some (.const 2, false, ⟨true, true⟩)
  | 8 => some (.const 2, true, ⟨true, false⟩)
  | 9 => some (.const 2, true, ⟨true, true⟩)
  | 10 => some (.const 3, false, ⟨false, false⟩)
  | 11 => some (.const 3, false, ⟨true, false⟩)
  | 12 => some (.const 3, false, ⟨true, true⟩)
  | 13 => some (.const 3, true, ⟨true, false⟩)
  | 14 => some (.const 3, true, ⟨true, true⟩)
  | 15 => some (.const 4, false, ⟨false, false⟩)
  | 16 => some (.const 4, false, ⟨true, false⟩)
  | 17 => some (.const 4, false, ⟨true, true⟩)
  | 18 => some (.const 4, true, ⟨true, false⟩)
  | 19 => some (.const 4, true, ⟨true, true⟩)
  | 20 => some (.any, false, ⟨false, false⟩)
  | 21 => some (.any, false, ⟨true, false⟩)
  | 22 => some (.any, false, ⟨true, true⟩)
  | 23 => some (.any, true, ⟨true, false⟩)
  | 24 => some (.any, true, ⟨true, true⟩)
  | _ => none

omit [Add α] [Sub α] [Mul α] [Div α] [Neg α] [NumOps α] in
/-- The branch number, skinning_job.rs:536-545. -/
def branchOf (j : Job α) : Nat :=
  let branch := min (j.influences - 1) 4 * 5
  if j.inNormals.isSome then
    branch + 1 + (if j.inTangents.isSome then 1 else 0) + (if j.itMatrices.isSome then 2 else 0)
  else branch

/-- `run`, skinning_job.rs:531-575. -/
def run (ck : Bool) (j : Job α) (s : State α) : Outcome (State α) :=
  if j.influences = 0 then .err .invalidJob s
  else
    match table (branchOf j) with
    | none => .panic
    | some (k, it, a) => call ck k it a j s

end Ozz.Skinning
