import Verif.Model.Basic
import Verif.Model.Math

/-!
/repo/src/blending_job.rs, over any number type with its operations and without any law.

The skeleton enters only through `joint_rest_poses()`, whose length is `num_soa_joints()`. A buffer is
an `Except`: `buf()` fails when its lock is poisoned (base.rs). The pass counters are `u32` in the code
and natural numbers here; they would wrap only after 2^32 layers.
-/

namespace Ozz

/-- `for idx in 0..n { f }` with an early exit on panic. -/
def forFrom {σ : Type} (f : Nat → σ → Res σ) : (k : Nat) → (i : Nat) → σ → Res σ
  | 0, _, s => .ok s
  | k + 1, i, s => do
    let s ← f i s
    forFrom f k (i + 1) s

def forRange {σ : Type} (n : Nat) (f : Nat → σ → Res σ) (s : σ) : Res σ := forFrom f n 0 s

namespace Blending

/-- `BlendingLayer`, blending_job.rs:17-37. -/
structure Layer (α : Type) where
  transform : Except OzzError (List (SoaTransform α))
  weight : α
  jointWeights : List (F4 α)

/-- `BlendingContext`, blending_job.rs:71-76. -/
structure Context (α : Type) where
  numPasses : Nat
  numPartialPasses : Nat
  accumulatedWeight : α
  accumulatedWeights : List (F4 α)

/-- `BlendingJob`, blending_job.rs:121-141, without what `run` changes. `skeleton` holds the rest poses. -/
structure Job (α : Type) where
  skeleton : Option (List (SoaTransform α))
  threshold : α
  layers : List (Layer α)
  additiveLayers : List (Layer α)

/-- What `run` changes. -/
structure State (α : Type) where
  context : Option (Context α)
  output : Option (Except OzzError (List (SoaTransform α)))

variable {α : Type} [Add α] [Sub α] [Mul α] [Div α] [Neg α] [NumOps α]

/-- `blend_1st_pass`, blending_job.rs:484-488. -/
def blend1 (input : SoaTransform α) (weight : F4 α) : SoaTransform α :=
  { translation := input.translation.mulNum weight
    rotation := input.rotation.mulNum weight
    scale := input.scale.mulNum weight }

/-- `blend_n_pass`, blending_job.rs:491-497. -/
def blendN (input : SoaTransform α) (weight : F4 α) (output : SoaTransform α) : SoaTransform α :=
  let dot := output.rotation.dot input.rotation
  let rotation := input.rotation.xorNum (sign4 dot)
  { translation := output.translation.add (input.translation.mulNum weight)
    rotation := output.rotation.add (rotation.mulNum weight)
    scale := output.scale.add (input.scale.mulNum weight) }

/-- The interpolated rotation of an additive layer, blending_job.rs:503-509 and 523-529. -/
def interpQuat (q : SoaQuat α) (weight : F4 α) : SoaQuat α :=
  let rotation := q.positiveW
  ⟨rotation.x * weight, rotation.y * weight, rotation.z * weight, (rotation.w - one4) * weight + one4⟩

/-- `blend_add_pass`, blending_job.rs:500-517. -/
def blendAdd (input : SoaTransform α) (weight oneMinusWeight : F4 α) (output : SoaTransform α) :
    SoaTransform α :=
  { translation := output.translation.add (input.translation.mulNum weight)
    rotation := output.rotation.mul (interpQuat input.rotation weight).normalize
    scale := ⟨output.scale.x * (oneMinusWeight + input.scale.x * weight),
              output.scale.y * (oneMinusWeight + input.scale.y * weight),
              output.scale.z * (oneMinusWeight + input.scale.z * weight)⟩ }

/-- `blend_sub_pass`, blending_job.rs:520-537. -/
def blendSub (input : SoaTransform α) (weight oneMinusWeight : F4 α) (output : SoaTransform α) :
    SoaTransform α :=
  { translation := output.translation.sub (input.translation.mulNum weight)
    rotation := output.rotation.mul (interpQuat input.rotation weight).normalize.conjugate
    scale := ⟨output.scale.x * recip4 (input.scale.x * weight + oneMinusWeight),
              output.scale.y * recip4 (input.scale.y * weight + oneMinusWeight),
              output.scale.z * recip4 (input.scale.z * weight + oneMinusWeight)⟩ }

omit [Add α] [Sub α] [Mul α] [Div α] [Neg α] [NumOps α] in
/-- The checks at the head of both layer loops, blending_job.rs:336-342 and 440-446. -/
def checkLayer (n : Nat) (l : Layer α) : Except OzzError (List (SoaTransform α)) :=
  match l.transform with
  | .error e => .error e
  | .ok transform =>
    if transform.length < n then .error .invalidJob
    else if !l.jointWeights.isEmpty && decide (l.jointWeights.length < n) then .error .invalidJob
    else .ok transform

/-- One `for idx in 0..num_soa_joints` loop of `blend_layers`, with joint weights
(blending_job.rs:354-366). -/
def partialPass (n : Nat) (first : Bool) (l : Layer α) (transform : List (SoaTransform α))
    (s : List (F4 α) × List (SoaTransform α)) : Res (List (F4 α) × List (SoaTransform α)) :=
  forRange n (fun idx (aw, out) => do
    let jw ← getIdx l.jointWeights idx
    let weight := splat l.weight * max4 jw zero4
    let a ← getIdx aw idx
    let aw ← setIdx aw idx (if first then weight else a + weight)
    let t ← getIdx transform idx
    let o ← getIdx out idx
    let out ← setIdx out idx (if first then blend1 t weight else blendN t weight o)
    return (aw, out)) s

/-- The same without joint weights (blending_job.rs:369-379). -/
def fullPass (n : Nat) (first : Bool) (l : Layer α) (transform : List (SoaTransform α))
    (s : List (F4 α) × List (SoaTransform α)) : Res (List (F4 α) × List (SoaTransform α)) :=
  forRange n (fun idx (aw, out) => do
    let weight := splat l.weight
    let a ← getIdx aw idx
    let aw ← setIdx aw idx (if first then weight else a + weight)
    let t ← getIdx transform idx
    let o ← getIdx out idx
    let out ← setIdx out idx (if first then blend1 t weight else blendN t weight o)
    return (aw, out)) s

/-- The body of the loop of `blend_layers` for a layer with positive weight, blending_job.rs:347-380. -/
def layerPass (n : Nat) (l : Layer α) (transform : List (SoaTransform α)) (c : Context α)
    (out : List (SoaTransform α)) : Res (Context α × List (SoaTransform α)) := do
  let accumulatedWeight := c.accumulatedWeight + l.weight
  if !l.jointWeights.isEmpty then do
    let (aw, out) ← partialPass n (c.numPasses == 0) l transform (c.accumulatedWeights, out)
    return (⟨c.numPasses + 1, c.numPartialPasses + 1, accumulatedWeight, aw⟩, out)
  else do
    let (aw, out) ← fullPass n (c.numPasses == 0) l transform (c.accumulatedWeights, out)
    return (⟨c.numPasses + 1, c.numPartialPasses, accumulatedWeight, aw⟩, out)

/-- `blend_layers`, blending_job.rs:327-383. -/
def blendLayers (n : Nat) : List (Layer α) → Context α → List (SoaTransform α) →
    Outcome (Context α × List (SoaTransform α))
  | [], c, out => .ok (c, out)
  | l :: ls, c, out =>
    match checkLayer n l with
    | .error e => .err e (c, out)
    | .ok transform =>
      if NumOps.le l.weight NumOps.zero then blendLayers n ls c out
      else
        match layerPass n l transform c out with
        | .error _ => .panic
        | .ok (c, out) => blendLayers n ls c out

/-- `blend_rest_pose`, blending_job.rs:385-410. -/
def blendRestPose (rest : List (SoaTransform α)) (threshold : α) (c : Context α)
    (out : List (SoaTransform α)) : Res (Context α × List (SoaTransform α)) := do
  if c.numPartialPasses == 0 then
    let bp := threshold - c.accumulatedWeight
    if NumOps.lt NumOps.zero bp then
      if c.numPasses == 0 then do
        -- `output.copy_from_slice(joint_rest_poses)`
        assertB (out.length == rest.length)
        return ({ c with accumulatedWeight := NumOps.one }, rest)
      else do
        let out ← forRange rest.length (fun idx out => do
          let r ← getIdx rest idx
          let o ← getIdx out idx
          setIdx out idx (blendN r (splat bp) o)) out
        return ({ c with accumulatedWeight := threshold }, out)
    else return (c, out)
  else do
    let (aw, out) ← forRange rest.length (fun idx (aw, out) => do
      let a ← getIdx aw idx
      let bp := max4 (splat threshold - a) zero4
      let aw ← setIdx aw idx (max4 (splat threshold) a)
      let r ← getIdx rest idx
      let o ← getIdx out idx
      let out ← setIdx out idx (blendN r bp o)
      return (aw, out)) (c.accumulatedWeights, out)
    return ({ c with accumulatedWeights := aw }, out)

/-- The loop body of `normalize`, blending_job.rs:418-420 and 425-427. -/
def normalizeBy (ratio : F4 α) (dest : SoaTransform α) : SoaTransform α :=
  { translation := dest.translation.mulNum ratio
    rotation := dest.rotation.normalize
    scale := dest.scale.mulNum ratio }

/-- `normalize`, blending_job.rs:412-430. -/
def normalize (rest : List (SoaTransform α)) (c : Context α) (out : List (SoaTransform α)) :
    Res (List (SoaTransform α)) :=
  if c.numPartialPasses == 0 then
    forRange (min out.length rest.length) (fun idx out => do
      let o ← getIdx out idx
      setIdx out idx (normalizeBy (splat (recip c.accumulatedWeight)) o)) out
  else
    forRange (min out.length rest.length) (fun idx out => do
      let a ← getIdx c.accumulatedWeights idx
      let o ← getIdx out idx
      setIdx out idx (normalizeBy (recip4 a) o)) out

/-- One additive layer, blending_job.rs:448-477. -/
def additivePass (n : Nat) (l : Layer α) (transform : List (SoaTransform α))
    (pass : SoaTransform α → F4 α → F4 α → SoaTransform α → SoaTransform α) (layerWeight : F4 α)
    (out : List (SoaTransform α)) : Res (List (SoaTransform α)) :=
  if !l.jointWeights.isEmpty then
    forRange n (fun idx out => do
      let jw ← getIdx l.jointWeights idx
      let weight := layerWeight * max4 jw zero4
      let t ← getIdx transform idx
      let o ← getIdx out idx
      setIdx out idx (pass t weight (one4 - weight) o)) out
  else
    forRange n (fun idx out => do
      let t ← getIdx transform idx
      let o ← getIdx out idx
      setIdx out idx (pass t layerWeight (one4 - layerWeight) o)) out

/-- `add_layers`, blending_job.rs:432-481. -/
def addLayers (n : Nat) : List (Layer α) → List (SoaTransform α) → Outcome (List (SoaTransform α))
  | [], out => .ok out
  | l :: ls, out =>
    match checkLayer n l with
    | .error e => .err e out
    | .ok transform =>
      let r :=
        if NumOps.lt NumOps.zero l.weight then additivePass n l transform blendAdd (splat l.weight) out
        else if NumOps.lt l.weight NumOps.zero then additivePass n l transform blendSub (splat (-l.weight)) out
        else .ok out
      match r with
      | .error _ => .panic
      | .ok out => addLayers n ls out

omit [Add α] [Sub α] [Mul α] [Div α] [Neg α] [NumOps α] in
/-- The two layer loops of `validate`, blending_job.rs:281-293; `none` is a buffer that cannot be read. -/
def layersOk (n : Nat) : List (Layer α) → Option Bool
  | [] => some true
  | l :: ls =>
    match l.transform with
    | .error _ => none
    | .ok transform => do
      let ok := decide (n ≤ transform.length) &&
        (l.jointWeights.isEmpty || decide (n ≤ l.jointWeights.length))
      let rest ← layersOk n ls
      return ok && rest

/-- `validate`, blending_job.rs:272-298. -/
def validate (j : Job α) (s : State α) : Bool :=
  (do
    let rest ← j.skeleton
    let _ctx ← s.context
    let buf ← s.output
    let output ← buf.toOption
    let ok := NumOps.lt NumOps.zero j.threshold && decide (rest.length ≤ output.length)
    let a ← layersOk rest.length j.layers
    let b ← layersOk rest.length j.additiveLayers
    return ok && a && b : Option Bool).getD false

/-- `run`, blending_job.rs:313-319: the counters are reset and the weights made long enough. -/
def resetContext (n : Nat) (c : Context α) : Context α :=
  ⟨0, 0, NumOps.zero, if c.accumulatedWeights.length < n
    then c.accumulatedWeights ++ List.replicate (n - c.accumulatedWeights.length) zero4
    else c.accumulatedWeights⟩

/-- `run`, blending_job.rs:321-324. -/
def runBody (j : Job α) (rest : List (SoaTransform α)) (c : Context α) (out : List (SoaTransform α)) :
    Outcome (Context α × List (SoaTransform α)) :=
  match blendLayers rest.length j.layers (resetContext rest.length c) out with
  | .panic => .panic
  | .err e s => .err e s
  | .ok (c, out) =>
    match blendRestPose rest j.threshold c out with
    | .error _ => .panic
    | .ok (c, out) =>
      match normalize rest c out with
      | .error _ => .panic
      | .ok out =>
        match addLayers rest.length j.additiveLayers out with
        | .panic => .panic
        | .err e out => .err e (c, out)
        | .ok out => .ok (c, out)

/-- `run`, blending_job.rs:302-325. -/
def run (j : Job α) (s : State α) : Outcome (State α) :=
  match j.skeleton, s.context, s.output with
  | some rest, some c, some (.ok out) =>
    if NumOps.lt NumOps.zero j.threshold && decide (rest.length ≤ out.length) then
      match runBody j rest c out with
      | .panic => .panic
      | .err e (c, out) => .err e ⟨some c, some (.ok out)⟩
      | .ok (c, out) => .ok ⟨some c, some (.ok out)⟩
    else .err .invalidJob s
  | some _, some _, some (.error e) => .err e s
  | _, _, _ => .err .invalidJob s

end Blending

end Ozz
