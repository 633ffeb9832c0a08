import Verif.Model.Shared
import Verif.Model.LocalToModelCode
import Verif.Model.Sampling
import Verif.Model.Skinning

/-!
The `run` functions of the jobs as programs over shared buffers: which guards they take, in which order,
what they do in between, and when the guards are dropped. The computations are those of the models of the
single jobs. Guards bound to variables of a function are dropped in reverse order when it returns.

`torn` is what a panicking job leaves in its output; nothing is assumed about it.
-/

namespace Ozz.Shared

/-- Names of shared buffers, by the type of their elements. -/
inductive Ref
  /-- `SoaTransform` -/
  | soa (n : Nat)
  /-- `Mat4` -/
  | mat (n : Nat)
  /-- `u16` -/
  | idx (n : Nat)
  /-- `f32` -/
  | num (n : Nat)
  /-- `Vec3` -/
  | vec (n : Nat)
  deriving DecidableEq, Repr

/-- What a buffer holds. -/
@[reducible] def Elem (α : Type) : Ref → Type
  | .soa _ => List (SoaTransform α)
  | .mat _ => List (Mat4 α)
  | .idx _ => List Nat
  | .num _ => List α
  | .vec _ => List (Skinning.P3 α)

/-- What a job returns. -/
abbrev Reply := Except OzzError Unit

/-- Drops guards in the given order. -/
def dropAll {R X : Type} {E : R → Type} : List (Guard R) → Prog E X → Prog E X
  | [], k => k
  | g :: held, k => .drop g (dropAll held k)

/-- Returns, dropping the guards. -/
def give {R X : Type} {E : R → Type} (held : List (Guard R)) (x : X) : Prog E X := dropAll held (.ret x)

/-- `?` on an error, or a panic. -/
def stop {R : Type} {E : R → Type} (held : List (Guard R)) : Fault → Prog E Reply
  | .err e => give held (.error e)
  | .panic => .panic

/-! ### `SamplingJob::run`, sampling_job.rs:1099-1133 -/

section
variable {α K3 KQ V3 VQ : Type} [Sampling.RatioOps α]

/-- `SamplingJob` with the name of its output. The animation comes with its address. -/
structure SamJob (α K3 KQ : Type) where
  animation : Option (Sampling.Animation α K3 KQ × Nat)
  ratio : α
  output : Option Nat

/-- `SamplingJob::run`; returns the context too. -/
def samProg (N : Sampling.Numerics α K3 KQ V3 VQ (SoaTransform α))
    (torn : List (SoaTransform α) → List (SoaTransform α)) (j : SamJob α K3 KQ)
    (context : Option (Sampling.Context α V3 VQ)) :
    Prog (Elem α) (Reply × Option (Sampling.Context α V3 VQ)) :=
  match j.animation, context, j.output with
  | some (anim, addr), some ctx, some o => .lock (.soa o) .wr fun
    | none => .ret (.error .lockPoison, some ctx)
    | some out =>
      match Sampling.run N anim addr j.ratio ctx out with
      | .ok (ctx', out') => .put (.soa o) out' (give [(.soa o, .wr)] (.ok (), some ctx'))
      | .err e (ctx', out') => .put (.soa o) out' (give [(.soa o, .wr)] (.error e, some ctx'))
      | .panic => .put (.soa o) (torn out) .panic
  | _, _, _ => .ret (.error .invalidJob, context)

end

section
variable {α : Type} [Add α] [Sub α] [Mul α] [Div α] [Neg α] [NumOps α]

/-! ### `LocalToModelJob::run`, local_to_model_job.rs:221-257 -/

/-- `LocalToModelJob` with the names of its buffers. -/
structure LtmJob (α : Type) where
  /-- `joint_parents` of the skeleton -/
  skeleton : Option (List Int)
  input : Option Nat
  output : Option Nat
  root : Mat4 α
  from_ : Int
  to_ : Int
  fromExcluded : Bool

/-- The job on the content of its input. -/
def LtmJob.view (j : LtmJob α) (parents : List Int) (input : List (SoaTransform α)) :
    LocalToModel.Job (SoaTransform α) (Mat4 α) :=
  ⟨parents, input, j.root, j.from_, j.to_, j.fromExcluded⟩

/-- `LocalToModelJob::run`; `add` is the `i32` addition of the build profile. -/
def ltmProg (add : Int → Int → Res Int) (torn : List (Mat4 α) → List (Mat4 α)) (j : LtmJob α) :
    Prog (Elem α) Reply :=
  match j.skeleton with
  | none => .ret (.error .invalidJob)
  | some parents =>
    match j.input with
    | none => .ret (.error .invalidJob)
    | some i => .lock (.soa i) .rd fun
      | none => .ret (.error .lockPoison)
      | some input =>
        match j.output with
        | none => give [(.soa i, .rd)] (.error .invalidJob)
        | some o => .lock (.mat o) .wr fun
          | none => give [(.soa i, .rd)] (.error .lockPoison)
          | some out =>
            match LocalToModel.runWith add Mat4.mul LocalToModel.localMatrices (j.view parents input) out with
            | .ok out' => .put (.mat o) out' (give [(.mat o, .wr), (.soa i, .rd)] (.ok ()))
            | .error (.err e) => give [(.mat o, .wr), (.soa i, .rd)] (.error e)
            | .error .panic => .put (.mat o) (torn out) .panic

/-! ### `BlendingJob::run`, blending_job.rs:302-325 -/

/-- `BlendingLayer` with the name of its buffer. -/
structure BlendLayer (α : Type) where
  transform : Nat
  weight : α
  jointWeights : List (F4 α)

/-- `BlendingJob` with the names of its buffers. `skeleton` holds the rest poses. -/
structure BlendJob (α : Type) where
  skeleton : Option (List (SoaTransform α))
  threshold : α
  layers : List (BlendLayer α)
  additiveLayers : List (BlendLayer α)
  output : Option Nat

/-- The layer with the content of its buffer. -/
def BlendLayer.view (l : BlendLayer α) (transform : Except OzzError (List (SoaTransform α))) :
    Blending.Layer α := ⟨transform, l.weight, l.jointWeights⟩

/-- What `run` returns: the context goes with it. -/
abbrev BlendReply (α : Type) := Reply × Option (Blending.Context α)

/-- `blend_layers`, blending_job.rs:327-383, on the output `o`. The guard on a layer lives for one
round of the loop. -/
def blendLayersProg (o n : Nat) (torn : List (SoaTransform α) → List (SoaTransform α)) :
    List (BlendLayer α) → Blending.Context α → List (SoaTransform α) →
    (Blending.Context α → List (SoaTransform α) → Prog (Elem α) (BlendReply α)) →
    Prog (Elem α) (BlendReply α)
  | [], c, out, k => k c out
  | l :: ls, c, out, k => .lock (.soa l.transform) .rd fun
    | none => give [(.soa o, .wr)] (.error .lockPoison, some c)
    | some data =>
      match Blending.checkLayer n (l.view (.ok data)) with
      | .error e => give [(.soa l.transform, .rd), (.soa o, .wr)] (.error e, some c)
      | .ok transform =>
        if NumOps.le l.weight NumOps.zero then
          .drop (.soa l.transform, .rd) (blendLayersProg o n torn ls c out k)
        else
          match Blending.layerPass n (l.view (.ok data)) transform c out with
          | .error _ => .put (.soa o) (torn out) .panic
          | .ok (c, out) => .put (.soa o) out
              (.drop (.soa l.transform, .rd) (blendLayersProg o n torn ls c out k))

/-- `add_layers`, blending_job.rs:432-481. -/
def addLayersProg (o n : Nat) (torn : List (SoaTransform α) → List (SoaTransform α)) (c : Blending.Context α) :
    List (BlendLayer α) → List (SoaTransform α) → Prog (Elem α) (BlendReply α)
  | [], _ => give [(.soa o, .wr)] (.ok (), some c)
  | l :: ls, out => .lock (.soa l.transform) .rd fun
    | none => give [(.soa o, .wr)] (.error .lockPoison, some c)
    | some data =>
      match Blending.checkLayer n (l.view (.ok data)) with
      | .error e => give [(.soa l.transform, .rd), (.soa o, .wr)] (.error e, some c)
      | .ok transform =>
        let r :=
          if NumOps.lt NumOps.zero l.weight then
            Blending.additivePass n (l.view (.ok data)) transform Blending.blendAdd (splat l.weight) out
          else if NumOps.lt l.weight NumOps.zero then
            Blending.additivePass n (l.view (.ok data)) transform Blending.blendSub (splat (-l.weight)) out
          else .ok out
        match r with
        | .error _ => .put (.soa o) (torn out) .panic
        | .ok out => .put (.soa o) out (.drop (.soa l.transform, .rd) (addLayersProg o n torn c ls out))

/-- `BlendingJob::run`. -/
def blendProg (torn : List (SoaTransform α) → List (SoaTransform α)) (j : BlendJob α)
    (context : Option (Blending.Context α)) : Prog (Elem α) (BlendReply α) :=
  match j.skeleton, context, j.output with
  | some rest, some c, some o => .lock (.soa o) .wr fun
    | none => .ret (.error .lockPoison, some c)
    | some out =>
      if NumOps.lt NumOps.zero j.threshold && decide (rest.length ≤ out.length) then
        blendLayersProg o rest.length torn j.layers (Blending.resetContext rest.length c) out fun c out =>
          match Blending.blendRestPose rest j.threshold c out with
          | .error _ => .put (.soa o) (torn out) .panic
          | .ok (c, out) =>
            match Blending.normalize rest c out with
            | .error _ => .put (.soa o) (torn out) .panic
            | .ok out => .put (.soa o) out (addLayersProg o rest.length torn c j.additiveLayers out)
      else give [(.soa o, .wr)] (.error .invalidJob, some c)
  | _, _, _ => .ret (.error .invalidJob, context)

/-! ### `SkinningJob::run`, skinning_job.rs:374-602 -/

/-- `SkinningJob` with the names of its buffers. -/
structure SkinJob where
  vertexCount : Nat
  influences : Nat
  matrices : Option Nat
  itMatrices : Option Nat
  indices : Option Nat
  weights : Option Nat
  inPositions : Option Nat
  inNormals : Option Nat
  inTangents : Option Nat
  outPositions : Option Nat
  outNormals : Option Nat
  outTangents : Option Nat

omit [Add α] [Sub α] [Mul α] [Div α] [Neg α] [NumOps α] in
/-- `.as_ref()` with the fault for a missing buffer, then `.buf()?` or `.mut_buf()?`. -/
def openBuf {A : Type} (c : Nat → Ref) (get : ∀ n, Elem α (c n) → List A) (m : Mode) (miss : Fault)
    (b : Option Nat) (held : List (Guard Ref)) (k : List A → List (Guard Ref) → Prog (Elem α) Reply) :
    Prog (Elem α) Reply :=
  match b with
  | none => stop held miss
  | some n => .lock (c n) m fun
    | none => give held (.error .lockPoison)
    | some v => k (get n v) ((c n, m) :: held)

omit [Add α] [Sub α] [Mul α] [Div α] [Neg α] [NumOps α] in
/-- `unpack_buf`, `unpack_mut_buf`, skinning_job.rs:374-396. -/
def unpackBuf {A : Type} (c : Nat → Ref) (get : ∀ n, Elem α (c n) → List A) (m : Mode)
    (b : Option Nat) (size : Nat) (held : List (Guard Ref))
    (k : List A → List (Guard Ref) → Prog (Elem α) Reply) : Prog (Elem α) Reply :=
  openBuf c get m (.err .invalidJob) b held fun xs held =>
    if xs.length < size then give held (.error .invalidJob) else k xs held

omit [Add α] [Sub α] [Mul α] [Div α] [Neg α] [NumOps α] in
/-- A statement kept by the macros or not. -/
def unpackBufIf {A : Type} (on : Bool) (c : Nat → Ref) (get : ∀ n, Elem α (c n) → List A) (m : Mode)
    (b : Option Nat) (size : Nat) (held : List (Guard Ref))
    (k : List A → List (Guard Ref) → Prog (Elem α) Reply) : Prog (Elem α) Reply :=
  if on then unpackBuf c get m b size held k else k [] held

omit [Add α] [Sub α] [Mul α] [Div α] [Neg α] [NumOps α] in
/-- A computation that may fail. -/
def attempt {β : Type} (r : Res β) (held : List (Guard Ref))
    (k : β → Prog (Elem α) Reply) : Prog (Elem α) Reply :=
  match r with
  | .error f => stop held f
  | .ok b => k b

omit [Add α] [Sub α] [Mul α] [Div α] [Neg α] [NumOps α] in
/-- The inverse-transpose matrices (`it!`). -/
def itBuf (it : Bool) (b : Option Nat) (held : List (Guard Ref))
    (k : Option (List (Mat4 α)) → List (Guard Ref) → Prog (Elem α) Reply) : Prog (Elem α) Reply :=
  if it then openBuf .mat (fun _ v => v) .rd (.err .invalidJob) b held fun xs held => k (some xs) held
  else k none held

omit [Add α] [Sub α] [Mul α] [Div α] [Neg α] [NumOps α] in
/-- The `pnt!` blocks opening inputs and outputs, skinning_job.rs:420-429 and 455-464. -/
def attrBufs (a : Skinning.Attrs) (j : SkinJob) (held : List (Guard Ref))
    (k : Skinning.Ins α → Skinning.Outs α → List (Guard Ref) → Prog (Elem α) Reply) : Prog (Elem α) Reply :=
  unpackBuf .vec (fun _ v => v) .rd j.inPositions j.vertexCount held fun ip held =>
  unpackBufIf a.normals .vec (fun _ v => v) .rd j.inNormals j.vertexCount held fun inn held =>
  unpackBufIf (a.normals && a.tangents) .vec (fun _ v => v) .rd j.inTangents j.vertexCount held fun it held =>
  unpackBuf .vec (fun _ v => v) .wr j.outPositions j.vertexCount held fun op held =>
  unpackBufIf a.normals .vec (fun _ v => v) .wr j.outNormals j.vertexCount held fun on held =>
  unpackBufIf (a.normals && a.tangents) .vec (fun _ v => v) .wr j.outTangents j.vertexCount held fun ot held =>
  k ⟨ip, inn, it⟩ ⟨op, on, ot⟩ held

omit [Add α] [Sub α] [Mul α] [Div α] [Neg α] [NumOps α] in
/-- Puts a slice back if the macros write it. -/
def putIf (on : Bool) (b : Option Nat) (v : List (Skinning.P3 α)) (k : Prog (Elem α) Reply) : Prog (Elem α) Reply :=
  match on, b with
  | true, some n => .put (.vec n) v k
  | _, _ => k

omit [Add α] [Sub α] [Mul α] [Div α] [Neg α] [NumOps α] in
/-- The outputs as written. -/
def putOuts (a : Skinning.Attrs) (j : SkinJob) (o : Skinning.Outs α) (k : Prog (Elem α) Reply) :
    Prog (Elem α) Reply :=
  putIf true j.outPositions o.positions <|
  putIf a.normals j.outNormals o.normals <|
  putIf (a.normals && a.tangents) j.outTangents o.tangents k

/-- The loop after the buffers were opened. -/
def skinLoop (torn : Skinning.Outs α → Skinning.Outs α)
    (g : Skinning.Opened α → Nat → Res (Mat4 α × Option (Mat4 α))) (a : Skinning.Attrs) (j : SkinJob)
    (x : Skinning.Opened α) (held : List (Guard Ref)) : Prog (Elem α) Reply :=
  match Skinning.vertexLoop (fun i o => do
      let (t, it) ← g x i
      Skinning.write a x.ins t it i o) j.vertexCount 0 x.outs with
  | .panic => putOuts a j (torn x.outs) .panic
  | .err e o => putOuts a j o (give held (.error e))
  | .ok o => putOuts a j o (give held (.ok ()))

/-- `skinning_1!`, skinning_job.rs:413-446. -/
def skin1Prog (torn : Skinning.Outs α → Skinning.Outs α) (it : Bool) (a : Skinning.Attrs) (j : SkinJob) :
    Prog (Elem α) Reply :=
  openBuf .mat (fun _ v => v) .rd (.err .invalidJob) j.matrices [] fun ms held =>
  itBuf it j.itMatrices held fun its held =>
  unpackBuf .idx (fun _ v => v) .rd j.indices j.vertexCount held fun indices held =>
  attrBufs a j held fun ins outs held =>
  skinLoop torn (fun x i => Skinning.gather1 x.matrices x.itMatrices x.indices i) a j
    ⟨ms, its, indices, [], ins, outs⟩ held

/-- `skinning_impl!`, skinning_job.rs:448-497. -/
def skinNProg (ck : Bool) (torn : Skinning.Outs α → Skinning.Outs α) (n : Nat) (it : Bool)
    (a : Skinning.Attrs) (j : SkinJob) : Prog (Elem α) Reply :=
  openBuf .mat (fun _ v => v) .rd .panic j.matrices [] fun ms held =>
  itBuf it j.itMatrices held fun its held =>
  attempt (Skinning.mulU ck j.vertexCount n) held fun need =>
  unpackBuf .idx (fun _ v => v) .rd j.indices need held fun indices held =>
  attempt (Skinning.mulU ck j.vertexCount (n - 1)) held fun need =>
  unpackBuf .num (fun _ v => v) .rd j.weights need held fun weights held =>
  attrBufs a j held fun ins outs held =>
  skinLoop torn (fun x i => Skinning.gather ck n x.matrices x.itMatrices x.indices x.weights i) a j
    ⟨ms, its, indices, weights, ins, outs⟩ held

/-- The branch number, skinning_job.rs:536-545. -/
def SkinJob.branch (j : SkinJob) : Nat :=
  let branch := min (j.influences - 1) 4 * 5
  if j.inNormals.isSome then
    branch + 1 + (if j.inTangents.isSome then 1 else 0) + (if j.itMatrices.isSome then 2 else 0)
  else branch

/-- `SkinningJob::run`, skinning_job.rs:531-575. -/
def skinProg (ck : Bool) (torn : Skinning.Outs α → Skinning.Outs α) (j : SkinJob) : Prog (Elem α) Reply :=
  if j.influences = 0 then .ret (.error .invalidJob)
  else
    match Skinning.table j.branch with
    | none => .panic
    | some (.one, it, a) => skin1Prog torn it a j
    | some (.const n, it, a) => skinNProg ck torn n it a j
    | some (.any, it, a) => skinNProg ck torn j.influences it a j

end

end Ozz.Shared
