import Verif.Model.SharedJobs
import Verif.Spec.Shared
import Mathlib.Data.Prod.Lex

/-! What the jobs on shared buffers should do, and what is asked of threads running them. -/

namespace Ozz.Shared

open Spec.Shared

section
variable {α : Type} [Add α] [Sub α] [Mul α] [Div α] [Neg α] [NumOps α]

/-- What a panicking job leaves: `RwLock`s are poisoned, `RefCell`s are not. -/
def fallen (cell : Bool) (r : Ref) (s : Store (Elem α)) : Store (Elem α) := if cell then s else s.poison r

/-- The layer with the content of its buffer. -/
def BlendLayer.see (l : BlendLayer α) (s : Store (Elem α)) : Blending.Layer α := l.view (bufOf s (.soa l.transform))

/-- The job as the model of blending sees it. -/
def BlendJob.see (j : BlendJob α) (s : Store (Elem α)) : Blending.Job α :=
  ⟨j.skeleton, j.threshold, j.layers.map (·.see s), j.additiveLayers.map (·.see s)⟩

/-- The output of the job as the model of blending sees it. -/
def BlendJob.out (j : BlendJob α) (s : Store (Elem α)) : Option (Except OzzError (List (SoaTransform α))) :=
  j.output.map fun o => bufOf s (.soa o)

/-- The program ended as the model says, having changed only the output of the job. -/
def BlendMeets (s : Store (Elem α)) (j : BlendJob α) (oc : Outcome (Blending.State α))
    (e : End (Elem α) (BlendReply α)) : Prop :=
  match oc with
  | .ok st => ∃ s', e = .done (.ok (), st.context) s' ∧ j.out s' = st.output ∧
      ∀ r, (∀ o, j.output = some o → r ≠ .soa o) → s' r = s r
  | .err er st => ∃ s', e = .done (.error er, st.context) s' ∧ j.out s' = st.output ∧
      ∀ r, (∀ o, j.output = some o → r ≠ .soa o) → s' r = s r
  | .panic => ∃ s', e = .died s' ∧ ∀ r, (∀ o, j.output = some o → r ≠ .soa o) → s' r = s r

/-- The inputs of the job as the model of skinning sees them. -/
def SkinJob.see (j : SkinJob) (s : Store (Elem α)) : Skinning.Job α where
  vertexCount := j.vertexCount
  influences := j.influences
  matrices := j.matrices.map fun n => bufOf s (.mat n)
  itMatrices := j.itMatrices.map fun n => bufOf s (.mat n)
  indices := j.indices.map fun n => bufOf s (.idx n)
  weights := j.weights.map fun n => bufOf s (.num n)
  inPositions := j.inPositions.map fun n => bufOf s (.vec n)
  inNormals := j.inNormals.map fun n => bufOf s (.vec n)
  inTangents := j.inTangents.map fun n => bufOf s (.vec n)

/-- The outputs of the job as the model of skinning sees them. -/
def SkinJob.outs (j : SkinJob) (s : Store (Elem α)) : Skinning.State α where
  positions := j.outPositions.map fun n => bufOf s (.vec n)
  normals := j.outNormals.map fun n => bufOf s (.vec n)
  tangents := j.outTangents.map fun n => bufOf s (.vec n)

/-- The buffer is an output of the job. -/
def SkinJob.IsOut (j : SkinJob) (r : Ref) : Prop :=
  ∃ n, r = .vec n ∧ (j.outPositions = some n ∨ j.outNormals = some n ∨ j.outTangents = some n)

/-- No buffer is used both for an output and for something else. -/
structure SkinJob.Apart (j : SkinJob) : Prop where
  pIn : ∀ n, j.outPositions = some n → j.inPositions ≠ some n ∧ j.inNormals ≠ some n ∧ j.inTangents ≠ some n
  nIn : ∀ n, j.outNormals = some n → j.inPositions ≠ some n ∧ j.inNormals ≠ some n ∧ j.inTangents ≠ some n
  tIn : ∀ n, j.outTangents = some n → j.inPositions ≠ some n ∧ j.inNormals ≠ some n ∧ j.inTangents ≠ some n
  pn : ∀ n, j.outPositions = some n → j.outNormals ≠ some n
  pt : ∀ n, j.outPositions = some n → j.outTangents ≠ some n
  nt : ∀ n, j.outNormals = some n → j.outTangents ≠ some n

/-- The program ended as the model says, having changed only the outputs of the job. -/
def SkinMeets (s : Store (Elem α)) (j : SkinJob) (oc : Outcome (Skinning.State α)) (e : End (Elem α) Reply) : Prop :=
  match oc with
  | .ok st => ∃ s', e = .done (.ok ()) s' ∧ j.outs s' = st ∧ ∀ r, ¬ j.IsOut r → s' r = s r
  | .err er st => ∃ s', e = .done (.error er) s' ∧ j.outs s' = st ∧ ∀ r, ¬ j.IsOut r → s' r = s r
  | .panic => ∃ s', e = .died s' ∧ ∀ r, ¬ j.IsOut r → s' r = s r

/-- The job writes an attribute to the buffer it reads it from. -/
def SkinJob.OnItself (j : SkinJob) : Prop :=
  (∃ n, j.inPositions = some n ∧ j.outPositions = some n) ∨
  (∃ n, j.inNormals = some n ∧ j.outNormals = some n) ∨
  (j.inNormals.isSome = true ∧ ∃ n, j.inTangents = some n ∧ j.outTangents = some n)

/-- The program did not return `Ok`. -/
def NotOk {X : Type} (ok : X → Prop) (e : End (Elem α) X) : Prop := ∀ x s', e = .done x s' → ¬ ok x

/-- The first component is `Ok`. -/
def fstOk (x : BlendReply α) : Prop := x.1 = .ok ()

/-- The reply is `Ok`. -/
def isOk (x : Reply) : Prop := x = .ok ()

/-- The buffers of each type are numbered in the order in which the job takes them. -/
def SkinOrdered (j : SkinJob) : Prop :=
  Ascending [j.matrices, j.itMatrices] ∧
  Ascending [j.inPositions, j.inNormals, j.inTangents, j.outPositions, j.outNormals, j.outTangents]

/-- What threads run: jobs, with any treatment of their result, and two-phase programs of the
application. A blending job may read only buffers satisfying `q`. -/
inductive JobProg {X : Type} (q : Ref → Prop) : Prog (Elem α) X → Prop
  | ltm (add : Int → Int → Res Int) (torn : List (Mat4 α) → List (Mat4 α)) (j : LtmJob α) (f : Reply → X) :
      JobProg q ((ltmProg add torn j).map f)
  | sam {K3 KQ V3 VQ : Type} (ops : Sampling.RatioOps α) (N : Sampling.Numerics α K3 KQ V3 VQ (SoaTransform α))
      (torn : List (SoaTransform α) → List (SoaTransform α)) (j : SamJob α K3 KQ)
      (context : Option (Sampling.Context α V3 VQ)) (f : Reply × Option (Sampling.Context α V3 VQ) → X) :
      JobProg q ((samProg N torn j context).map f)
  | blend (torn : List (SoaTransform α) → List (SoaTransform α)) (j : BlendJob α)
      (context : Option (Blending.Context α)) (f : BlendReply α → X) :
      (∀ l, l ∈ j.layers ∨ l ∈ j.additiveLayers → q (.soa l.transform)) →
      JobProg q ((blendProg torn j context).map f)
  | skin (ck : Bool) (torn : Skinning.Outs α → Skinning.Outs α) (j : SkinJob) (f : Reply → X) :
      JobProg q ((skinProg ck torn j).map f)
  | other (p : Prog (Elem α) X) : TwoPhase q p [] → JobProg q p

/-- Buffers are ranked by type first, then by number. -/
def Ref.rank : Ref → ℕ ×ₗ ℕ
  | .soa n => toLex (0, n)
  | .mat n => toLex (1, n)
  | .idx n => toLex (2, n)
  | .num n => toLex (3, n)
  | .vec n => toLex (4, n)

/-- What threads run in an orderly way: blending jobs whose output is numbered below their layers,
skinning jobs whose buffers are numbered in order, any other job, and programs of the application that
respect the ranking. -/
inductive OrderlyProg {X : Type} : Prog (Elem α) X → Prop
  | ltm (add : Int → Int → Res Int) (torn : List (Mat4 α) → List (Mat4 α)) (j : LtmJob α) (f : Reply → X) :
      OrderlyProg ((ltmProg add torn j).map f)
  | sam {K3 KQ V3 VQ : Type} (ops : Sampling.RatioOps α) (N : Sampling.Numerics α K3 KQ V3 VQ (SoaTransform α))
      (torn : List (SoaTransform α) → List (SoaTransform α)) (j : SamJob α K3 KQ)
      (context : Option (Sampling.Context α V3 VQ)) (f : Reply × Option (Sampling.Context α V3 VQ) → X) :
      OrderlyProg ((samProg N torn j context).map f)
  | blend (torn : List (SoaTransform α) → List (SoaTransform α)) (j : BlendJob α)
      (context : Option (Blending.Context α)) (f : BlendReply α → X) :
      (∀ o l, j.output = some o → l ∈ j.layers ∨ l ∈ j.additiveLayers → o < l.transform) →
      OrderlyProg ((blendProg torn j context).map f)
  | skin (ck : Bool) (torn : Skinning.Outs α → Skinning.Outs α) (j : SkinJob) (f : Reply → X) :
      SkinOrdered j → OrderlyProg ((skinProg ck torn j).map f)
  | other (p : Prog (Elem α) X) : Ordered Ref.rank p [] → OrderlyProg p

end

end Ozz.Shared
