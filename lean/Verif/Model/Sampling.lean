import Verif.Model.GV4

/-!
The sampling job, /repo/src/sampling_job.rs.

Numbers: ratios have an arbitrary type `α` with the operations the job applies to them, no laws.
Keys are an arbitrary type `K` with a four-lane decompression into `V`
(`Float3Key::simd_decompress`, `QuaternionKey::simd_decompress`), so the cache logic is modelled
once for the three channels (`update_cache` is shared in the code; `decompress_float3`,
lines 1293-1328, and `decompress_quat`, lines 1330-1365, are the same text with another key type).
Indices (`u32`, `usize`) are `Nat`; casts between them do not truncate for fewer than 2^32 keys.
-/

namespace Ozz.Sampling

/-- `f32` operations used on ratios. -/
class RatioOps (α : Type) extends Add α, Sub α, Div α, LE α, LT α where
  zero : α
  half : α
  two : α
  abs : α → α
  /-- `as i32` -/
  toI32 : α → Int
  decLe : DecidableLE α
  decLt : DecidableLT α

instance {α} [RatioOps α] : DecidableLE α := RatioOps.decLe
instance {α} [RatioOps α] : DecidableLT α := RatioOps.decLt

/-- `KeyframesCtrl` (animation.rs:171-179 of the accessors, lines 818-856) together with the
compressed keys of one channel. `after` is the memory following `iframe_entries`. -/
structure Chan (α K : Type) where
  keys : List K
  ratios : List Nat
  previouses : List Nat
  iframeEntries : List UInt8
  iframeDesc : List Nat
  iframeInterval : α
  after : Oob

/-- `InterpSoaFloat3` / `InterpSoaQuaternion`, sampling_job.rs:20-60: two key ratios and two key
values for four tracks. -/
structure Interp (α V : Type) where
  ratio0 : Fin 4 → α
  ratio1 : Fin 4 → α
  value0 : V
  value1 : V

/-- The context memory of one channel (sampling_job.rs:151-164). -/
structure Cache (α V : Type) where
  entries : List Nat
  outdated : List (BitVec 8)
  values : List (Interp α V)
  next : Nat

variable {α K V : Type} [RatioOps α]

/-- `key_ratio`, line 1279. -/
def keyRatio (tps : List α) (ch : Chan α K) (at_ : Nat) : Res α := do
  let r ← getIdx ch.ratios at_
  getIdx tps r

/-- `k - previouses[k]`. -/
def prevKey (ch : Chan α K) (k : Nat) : Res Nat := do
  let p ← getIdx ch.previouses k
  subU k p

/-- First loop of `track_forward`, lines 1246-1250: `for entry in entry..stop`. -/
def scanUp (cache : List Nat) (target stop entry : Nat) : Res (Option Nat) :=
  if entry < stop then do
    let c ← getIdx cache entry
    if c = target then return some entry else scanUp cache target stop (entry + 1)
  else return none
termination_by stop - entry

/-- Second loop of `track_forward`, lines 1251-1256, with its assertion. -/
def scanUpAssert (cache : List Nat) (target stop lastTrack entry : Nat) : Res (Option Nat) :=
  if entry < stop then do
    let c ← getIdx cache entry
    if c = target then return some entry
    else do
      assertB (decide (entry < lastTrack))
      scanUpAssert cache target stop lastTrack (entry + 1)
  else return none
termination_by stop - entry

/-- `track_forward`, lines 1240-1258. -/
def trackForward (cache : List Nat) (ch : Chan α K) (key lastTrack numTracks : Nat) : Res Nat := do
  assertB (decide (key < ch.previouses.length))
  assertB (decide (lastTrack < numTracks))
  let target ← prevKey ch key
  match ← scanUp cache target numTracks lastTrack with
  | some e => return e
  | none =>
    match ← scanUpAssert cache target numTracks lastTrack 0 with
    | some e => return e
    | none => return 0

/-- First loop of `track_backward`, lines 1264-1268: entries `n-1, .., 0`. -/
def scanDown (cache : List Nat) (target : Nat) : (n : Nat) → Res (Option Nat)
  | 0 => return none
  | n + 1 => do
    let c ← getIdx cache n
    if c = target then return some n else scanDown cache target n

/-- Second loop of `track_backward`, lines 1269-1274, with its assertion. -/
def scanDownAssert (cache : List Nat) (target lastTrack : Nat) : (n : Nat) → Res (Option Nat)
  | 0 => return none
  | n + 1 => do
    let c ← getIdx cache n
    if c = target then return some n
    else do
      assertB (decide (n > lastTrack))
      scanDownAssert cache target lastTrack n

/-- `track_backward`, lines 1261-1276. -/
def trackBackward (cache : List Nat) (target lastTrack numTracks : Nat) : Res Nat := do
  assertB (decide (lastTrack < numTracks))
  match ← scanDown cache target (lastTrack + 1) with
  | some e => return e
  | none =>
    match ← scanDownAssert cache target lastTrack numTracks with
    | some e => return e
    | none => return 0

/-- `outdated[track / 32] |= 1 << ((track & 0x1F) / 4)`, lines 1187 and 1203. -/
def markOutdated (outdated : List (BitVec 8)) (track : Nat) : Res (List (BitVec 8)) := do
  let b ← getIdx outdated (track / 32)
  setIdx outdated (track / 32) (b ||| (1#8 <<< (track % 32 / 4)))

/-- `outdate_cache`, lines 1229-1237: the `while` loop from `i`, then the last byte. -/
def outdateLoop (flags : Nat) (outdated : List (BitVec 8)) (i : Nat) : Res (List (BitVec 8) × Nat) :=
  if i < flags - 1 then do
    let outdated ← setIdx outdated i 0xFF#8
    outdateLoop flags outdated (i + 1)
  else return (outdated, i)
termination_by flags - i

/-- `outdate_cache`, lines 1229-1237. -/
def outdateCache (outdated : List (BitVec 8)) (numSoa : Nat) : Res (List (BitVec 8)) := do
  let flags := (numSoa + 7) / 8
  let _ ← subU flags 1
  let (outdated, i) ← outdateLoop flags outdated 0
  setIdx outdated i (0xFF#8 >>> (flags * 8 - numSoa))

/-- `initialize_cache`, lines 1213-1226, for an entry slice of length `len`; all entries are
overwritten. Returns entries and the new cursor. `(d + 1)` is a `u32` addition. -/
def initializeCache (ch : Chan α K) (iframe len : Nat) : Res (List Nat × Nat) :=
  if iframe > 0 then do
    let i := (iframe - 1) * 2
    let offset ← getIdx ch.iframeDesc i
    let buf ← sliceFrom ch.iframeEntries offset
    let (entries, _) ← decodeGv4Stream ch.after buf len
    let d ← getIdx ch.iframeDesc (i + 1)
    if d + 1 < 2^32 then return (entries, d + 1) else .error .panic
  else
    return ((List.range len).map (fun i => i + len), len * 2)

/-- Forward loop of `update_cache`, lines 1180-1190. -/
def forwardLoop (tps : List α) (ch : Chan α K) (numTracks : Nat) (ratio : α)
    (next track : Nat) (entries : List Nat) (outdated : List (BitVec 8)) :
    Res (Nat × Nat × List Nat × List (BitVec 8)) :=
  if next < ch.previouses.length then do
    let p ← prevKey ch next
    let kr ← keyRatio tps ch p
    if kr ≤ ratio then do
      let track ← trackForward entries ch next track numTracks
      let e ← getIdx entries track
      let p ← prevKey ch next
      assertB (decide (e = p))
      let outdated ← markOutdated outdated track
      let entries ← setIdx entries track next
      forwardLoop tps ch numTracks ratio (next + 1) track entries outdated
    else return (next, track, entries, outdated)
  else return (next, track, entries, outdated)
termination_by ch.previouses.length - next

/-- Rewind loop of `update_cache`, lines 1193-1207. -/
def rewindLoop (tps : List α) (ch : Chan α K) (numTracks : Nat) (ratio : α) :
    (next track : Nat) → (entries : List Nat) → (outdated : List (BitVec 8)) →
    Res (Nat × Nat × List Nat × List (BitVec 8))
  | 0, _, _, _ => .error .panic
  | n + 1, track, entries, outdated => do
    let p ← prevKey ch n
    let kr ← keyRatio tps ch p
    if ratio < kr then do
      assertB (decide (n + 1 > numTracks * 2))
      let track ← trackBackward entries n track numTracks
      let outdated ← markOutdated outdated track
      let e ← getIdx entries track
      assertB (decide (e = n))
      let previous ← getIdx ch.previouses e
      assertB (decide (e ≥ previous + numTracks))
      let e' ← subU e previous
      let entries ← setIdx entries track e'
      rewindLoop tps ch numTracks ratio n track entries outdated
    else return (n + 1, track, entries, outdated)

/-- The "Initialize" part of `update_cache`, lines 1160-1176: which interval frame to load, if any
(`-1` for none). -/
def chooseIframe (ch : Chan α K) (next : Nat) (ratio prevRatio : α) : Int :=
  let delta := ratio - prevRatio
  if next = 0 ∨ ch.iframeInterval / RatioOps.two < RatioOps.abs delta then
    if ch.iframeDesc ≠ [] then RatioOps.toI32 (RatioOps.half + ratio / ch.iframeInterval)
    else if next = 0 ∨ delta < RatioOps.zero then 0
    else -1
  else -1

/-- Lines 1170-1174 of `update_cache`: load the chosen interval frame. Returns cursor, entries and
flags. -/
def resetCache (numTracks numSoa : Nat) (ch : Chan α K) (iframe : Int) (c : Cache α V) :
    Res (Nat × List Nat × List (BitVec 8)) :=
  if iframe ≥ 0 then do
    let (entries, next) ← initializeCache ch iframe.toNat c.entries.length
    assertB (decide (next ≥ numTracks * 2 ∧ next ≤ ch.previouses.length))
    let outdated ← outdateCache c.outdated numSoa
    pure (next, entries, outdated)
  else pure (c.next, c.entries, c.outdated)

/-- `update_cache`, lines 1149-1210. -/
def updateCache (numTracks numSoa : Nat) (tps : List α) (ch : Chan α K) (ratio prevRatio : α)
    (c : Cache α V) : Res (Cache α V) := do
  assertB (decide (ch.previouses.length ≥ numTracks * 2))
  let numKeys := ch.previouses.length
  assertB (decide (c.next = 0 ∨ (c.next ≥ numTracks * 2 ∧ c.next ≤ numKeys)))
  let (next, entries, outdated) ←
    resetCache numTracks numSoa ch (chooseIframe ch c.next ratio prevRatio) c
  let (next, track, entries, outdated) ←
    forwardLoop tps ch numTracks ratio next 0 entries outdated
  let (next, _, entries, outdated) ←
    rewindLoop tps ch numTracks ratio next track entries outdated
  assertB (decide (next ≥ numTracks * 2 ∧ next ≤ numKeys))
  return { c with entries := entries, outdated := outdated, next := next }

/-- The content computed for SoA element `i` in `decompress_*`, lines 1303-1323:
right keys are the cached entries, left keys their predecessors. -/
def loadSoa (tps : List α) (ch : Chan α K) (dec : K → K → K → K → V) (entries : List Nat)
    (i : Nat) : Res (Interp α V) := do
  let r0 ← getIdx entries (i * 4)
  let r1 ← getIdx entries (i * 4 + 1)
  let r2 ← getIdx entries (i * 4 + 2)
  let r3 ← getIdx entries (i * 4 + 3)
  let l0 ← prevKey ch r0
  let l1 ← prevKey ch r1
  let l2 ← prevKey ch r2
  let l3 ← prevKey ch r3
  let k00 ← getIdx ch.keys l0
  let k10 ← getIdx ch.keys l1
  let k20 ← getIdx ch.keys l2
  let k30 ← getIdx ch.keys l3
  let a0 ← keyRatio tps ch l0
  let a1 ← keyRatio tps ch l1
  let a2 ← keyRatio tps ch l2
  let a3 ← keyRatio tps ch l3
  let k01 ← getIdx ch.keys r0
  let k11 ← getIdx ch.keys r1
  let k21 ← getIdx ch.keys r2
  let k31 ← getIdx ch.keys r3
  let b0 ← keyRatio tps ch r0
  let b1 ← keyRatio tps ch r1
  let b2 ← keyRatio tps ch r2
  let b3 ← keyRatio tps ch r3
  return { ratio0 := vec4 a0 a1 a2 a3, ratio1 := vec4 b0 b1 b2 b3
           value0 := dec k00 k10 k20 k30, value1 := dec k01 k11 k21 k31 }
where
  /-- four lanes -/
  vec4 (a b c d : α) : Fin 4 → α := fun i => match i with | 0 => a | 1 => b | 2 => c | 3 => d

/-- Inner loop of `decompress_*`, lines 1300-1326: `n` remaining bits of the flag byte. -/
def decompressByte (tps : List α) (ch : Chan α K) (dec : K → K → K → K → V) (entries : List Nat) :
    (n i : Nat) → BitVec 8 → List (Interp α V) → Res (List (Interp α V))
  | 0, _, _, values => return values
  | n + 1, i, flags, values => do
    let values ←
      if flags &&& 1#8 ≠ 0#8 then do
        let v ← loadSoa tps ch dec entries i
        setIdx values i v
      else pure values
    decompressByte tps ch dec entries n (i + 1) (flags >>> 1) values

/-- `decompress_float3` / `decompress_quat`: outer loop over flag bytes, `j` their index. -/
def decompressLoop (tps : List α) (ch : Chan α K) (dec : K → K → K → K → V) (entries : List Nat) :
    (j : Nat) → List (BitVec 8) → List (Interp α V) → Res (List (Interp α V))
  | _, [], values => return values
  | j, b :: bs, values => do
    let values ← decompressByte tps ch dec entries 8 (8 * j) b values
    decompressLoop tps ch dec entries (j + 1) bs values

/-- `decompress_float3` / `decompress_quat` on one channel's cache. Flags are not cleared. -/
def decompress (tps : List α) (ch : Chan α K) (dec : K → K → K → K → V) (c : Cache α V) :
    Res (Cache α V) := do
  let values ← decompressLoop tps ch dec c.entries 0 c.outdated c.values
  return { c with values := values }

/-! ### The whole job -/

/-- Key and value types and the number functions of the three channels; `interp` is the per-element
interpolation of lines 1375-1385 writing the three fields of the output transform. -/
structure Numerics (α K3 KQ V3 VQ O : Type) where
  dec3 : K3 → K3 → K3 → K3 → V3
  decQ : KQ → KQ → KQ → KQ → VQ
  interp : Interp α V3 → Interp α VQ → Interp α V3 → α → O

/-- `Animation` as used by sampling (animation.rs:184-222). -/
structure Animation (α K3 KQ : Type) where
  numTracks : Nat
  timepoints : List α
  translations : Chan α K3
  rotations : Chan α KQ
  scales : Chan α K3

/-- `Animation::num_soa_tracks`, animation.rs:642. -/
def Animation.numSoa {α K3 KQ} (a : Animation α K3 KQ) : Nat := (a.numTracks + 3) / 4

/-- `SamplingContextInner`, sampling_job.rs:143-165. The slice lengths are those of the lists. -/
structure Context (α V3 VQ : Type) where
  maxSoa : Nat
  animationId : Nat
  ratio : α
  translations : Cache α V3
  rotations : Cache α VQ
  scales : Cache α V3

variable {K3 KQ V3 VQ O : Type}

/-- `step_context`, lines 1136-1147: returns the context and the previous ratio. `addr` is the
address of the animation object. -/
def stepContext (ctx : Context α V3 VQ) (addr : Nat) (ratio : α) : Context α V3 VQ × α :=
  let ctx := if ctx.animationId ≠ addr then
      { ctx with animationId := addr
                 translations := { ctx.translations with next := 0 }
                 rotations := { ctx.rotations with next := 0 }
                 scales := { ctx.scales with next := 0 } }
    else ctx
  ({ ctx with ratio := ratio }, ctx.ratio)

/-- `interpolates`, lines 1367-1388: overwrites output elements `idx, .., ` up to `n` of them. -/
def interpolateLoop (N : Numerics α K3 KQ V3 VQ O) (ctx : Context α V3 VQ) (ratio : α) :
    (n idx : Nat) → List O → Res (List O)
  | 0, _, out => return out
  | _ + 1, _, [] => return []
  | n + 1, idx, _ :: out => do
    let t ← getIdx ctx.translations.values idx
    let r ← getIdx ctx.rotations.values idx
    let s ← getIdx ctx.scales.values idx
    let rest ← interpolateLoop N ctx ratio n (idx + 1) out
    return N.interp t r s ratio :: rest

/-- `SamplingJob::validate`, lines 1084-1095, for present animation, context and output. -/
def validate (anim : Animation α K3 KQ) (ctx : Context α V3 VQ) (out : List O) : Bool :=
  decide (ctx.maxSoa ≥ anim.numSoa) && decide (out.length ≥ anim.numSoa)

/-- Lines 1115-1131 of `run`. -/
def runBody (N : Numerics α K3 KQ V3 VQ O) (anim : Animation α K3 KQ) (addr : Nat) (ratio : α)
    (ctx : Context α V3 VQ) (out : List O) : Res (Context α V3 VQ × List O) := do
  let (ctx, prevRatio) := stepContext ctx addr ratio
  let t ← updateCache anim.numTracks anim.numSoa anim.timepoints anim.translations ratio prevRatio
    ctx.translations
  let t ← decompress anim.timepoints anim.translations N.dec3 t
  let r ← updateCache anim.numTracks anim.numSoa anim.timepoints anim.rotations ratio prevRatio
    ctx.rotations
  let r ← decompress anim.timepoints anim.rotations N.decQ r
  let s ← updateCache anim.numTracks anim.numSoa anim.timepoints anim.scales ratio prevRatio
    ctx.scales
  let s ← decompress anim.timepoints anim.scales N.dec3 s
  let ctx := { ctx with translations := t, rotations := r, scales := s }
  let out ← interpolateLoop N ctx ratio anim.numSoa 0 out
  return (ctx, out)

/-- `SamplingJob::run`, lines 1099-1133. -/
def run (N : Numerics α K3 KQ V3 VQ O) (anim : Animation α K3 KQ) (addr : Nat) (ratio : α)
    (ctx : Context α V3 VQ) (out : List O) : Outcome (Context α V3 VQ × List O) :=
  if ¬ (validate anim ctx out = true) then .err .invalidJob (ctx, out)
  else if anim.numSoa = 0 then .ok (ctx, out)
  else match runBody N anim addr ratio ctx out with
    | .ok s => .ok s
    | .error (.err e) => .err e (ctx, out)
    | .error .panic => .panic

/-- Contents of the freshly allocated, uninitialised memory of one channel. -/
structure Mem (α V : Type) where
  entries : Nat → Nat
  outdated : Nat → BitVec 8
  values : Nat → Interp α V

/-- One channel in `SamplingContext::new`, lines 318-346: `soa` interpolation elements, `4 * soa`
entries, `div_ceil(soa, 8)` flag bytes with whatever the allocation held, cursor 0. -/
def Cache.new (soa : Nat) (m : Mem α V) : Cache α V where
  entries := (List.range (soa * 4)).map m.entries
  outdated := (List.range ((soa + 7) / 8)).map m.outdated
  values := (List.range soa).map m.values
  next := 0

/-- `SamplingContext::new`, lines 289-351 (pointer layout apart). -/
def Context.new (maxTracks : Nat) (mt : Mem α V3) (mr : Mem α VQ) (ms : Mem α V3) :
    Context α V3 VQ where
  maxSoa := (maxTracks + 3) / 4
  animationId := 0
  ratio := RatioOps.zero
  translations := Cache.new ((maxTracks + 3) / 4) mt
  rotations := Cache.new ((maxTracks + 3) / 4) mr
  scales := Cache.new ((maxTracks + 3) / 4) ms

/-- `SamplingContext::from_animation`, lines 356-360. -/
def Context.fromAnimation (anim : Animation α K3 KQ) (addr : Nat) (mt : Mem α V3) (mr : Mem α VQ)
    (ms : Mem α V3) : Context α V3 VQ :=
  { Context.new anim.numTracks mt mr ms with animationId := addr }

/-- `dst.copy_from_slice(src)`: panics when the lengths differ. -/
def copyFromSlice {β} (dst src : List β) : Res (List β) :=
  if dst.length = src.length then .ok src else .error .panic

/-- One channel of `Clone::clone`, e.g. lines 221-226. -/
def Cache.copyFrom (dst src : Cache α V) : Res (Cache α V) := do
  let values ← copyFromSlice dst.values src.values
  let entries ← copyFromSlice dst.entries src.entries
  let outdated ← copyFromSlice dst.outdated src.outdated
  return { entries := entries, outdated := outdated, values := values, next := src.next }

/-- `Clone::clone`, lines 215-239. `max_tracks()` is `4 * max_soa_tracks` (line 291). -/
def Context.clone (ctx : Context α V3 VQ) (mt : Mem α V3) (mr : Mem α VQ) (ms : Mem α V3) :
    Res (Context α V3 VQ) := do
  let new : Context α V3 VQ := Context.new (ctx.maxSoa * 4) mt mr ms
  let t ← new.translations.copyFrom ctx.translations
  let r ← new.rotations.copyFrom ctx.rotations
  let s ← new.scales.copyFrom ctx.scales
  return { new with animationId := ctx.animationId, ratio := ctx.ratio
                    translations := t, rotations := r, scales := s }

/-- `SamplingContext::clear`, lines 364-370. -/
def Context.clear (ctx : Context α V3 VQ) : Context α V3 VQ :=
  { ctx with animationId := 0, ratio := RatioOps.zero
             translations := { ctx.translations with next := 0 }
             rotations := { ctx.rotations with next := 0 }
             scales := { ctx.scales with next := 0 } }

/-- `SamplingContext::clone_without_animation_id`, lines 374-378. -/
def Context.cloneWithoutAnimationId (ctx : Context α V3 VQ) (mt : Mem α V3) (mr : Mem α VQ)
    (ms : Mem α V3) : Res (Context α V3 VQ) := do
  let ctx ← ctx.clone mt mr ms
  return { ctx with animationId := 0 }

/-! ### Serialised contexts (serde), lines 793-903 -/

/-- An entry of the serialised map: key and value. -/
inductive Field (α V3 VQ : Type) where
  | size (n : Nat)
  | maxTracks (n : Nat)
  | maxSoaTracks (n : Nat)
  | maxOutdated (n : Nat)
  | animationId (n : Nat)
  | ratio (r : α)
  | translations (v : List (Interp α V3))
  | rotations (v : List (Interp α VQ))
  | scales (v : List (Interp α V3))
  | translationEntries (v : List Nat)
  | translationOutdated (v : List (BitVec 8))
  | translationNext (n : Nat)
  | rotationEntries (v : List Nat)
  | rotationOutdated (v : List (BitVec 8))
  | rotationNext (n : Nat)
  | scaleEntries (v : List Nat)
  | scaleOutdated (v : List (BitVec 8))
  | scaleNext (n : Nat)

/-- `Serialize::serialize`, lines 799-821; `size` is the byte size of the allocation. -/
def Context.serialize (ctx : Context α V3 VQ) (size : Nat) : List (Field α V3 VQ) :=
  [.size size, .maxTracks (ctx.maxSoa * 4), .maxSoaTracks ctx.maxSoa,
   .maxOutdated ((ctx.maxSoa + 7) / 8), .animationId ctx.animationId, .ratio ctx.ratio,
   .translations ctx.translations.values, .rotations ctx.rotations.values, .scales ctx.scales.values,
   .translationEntries ctx.translations.entries, .translationOutdated ctx.translations.outdated,
   .translationNext ctx.translations.next,
   .rotationEntries ctx.rotations.entries, .rotationOutdated ctx.rotations.outdated,
   .rotationNext ctx.rotations.next,
   .scaleEntries ctx.scales.entries, .scaleOutdated ctx.scales.outdated, .scaleNext ctx.scales.next]

/-- First loop of `visit_map`, lines 840-848: entries before `max_tracks` are dropped. -/
def seekMaxTracks : List (Field α V3 VQ) → Option (Nat × List (Field α V3 VQ))
  | [] => none
  | .maxTracks n :: rest => some (n, rest)
  | _ :: rest => seekMaxTracks rest

/-- Body of the second loop of `visit_map`, lines 854-899. -/
def Context.setField (ctx : Context α V3 VQ) : Field α V3 VQ → Res (Context α V3 VQ)
  | .animationId n => return { ctx with animationId := n }
  | .ratio r => return { ctx with ratio := r }
  | .translations v => do
    let v ← copyFromSlice ctx.translations.values v
    return { ctx with translations := { ctx.translations with values := v } }
  | .translationEntries v => do
    let v ← copyFromSlice ctx.translations.entries v
    return { ctx with translations := { ctx.translations with entries := v } }
  | .translationOutdated v => do
    let v ← copyFromSlice ctx.translations.outdated v
    return { ctx with translations := { ctx.translations with outdated := v } }
  | .translationNext n => return { ctx with translations := { ctx.translations with next := n } }
  | .rotations v => do
    let v ← copyFromSlice ctx.rotations.values v
    return { ctx with rotations := { ctx.rotations with values := v } }
  | .rotationEntries v => do
    let v ← copyFromSlice ctx.rotations.entries v
    return { ctx with rotations := { ctx.rotations with entries := v } }
  | .rotationOutdated v => do
    let v ← copyFromSlice ctx.rotations.outdated v
    return { ctx with rotations := { ctx.rotations with outdated := v } }
  | .rotationNext n => return { ctx with rotations := { ctx.rotations with next := n } }
  | .scales v => do
    let v ← copyFromSlice ctx.scales.values v
    return { ctx with scales := { ctx.scales with values := v } }
  | .scaleEntries v => do
    let v ← copyFromSlice ctx.scales.entries v
    return { ctx with scales := { ctx.scales with entries := v } }
  | .scaleOutdated v => do
    let v ← copyFromSlice ctx.scales.outdated v
    return { ctx with scales := { ctx.scales with outdated := v } }
  | .scaleNext n => return { ctx with scales := { ctx.scales with next := n } }
  | .size _ | .maxTracks _ | .maxSoaTracks _ | .maxOutdated _ => return ctx

/-- Second loop of `visit_map`. -/
def Context.setFields (ctx : Context α V3 VQ) : List (Field α V3 VQ) → Res (Context α V3 VQ)
  | [] => return ctx
  | f :: fs => do
    let ctx ← ctx.setField f
    ctx.setFields fs

/-- `Deserialize::deserialize` / `visit_map`, lines 838-901; `none` is serde's error "Miss field
max_tracks". -/
def Context.deserialize (fields : List (Field α V3 VQ)) (mt : Mem α V3) (mr : Mem α VQ)
    (ms : Mem α V3) : Option (Res (Context α V3 VQ)) :=
  match seekMaxTracks fields with
  | none => none
  | some (n, rest) => some ((Context.new n mt mr ms).setFields rest)

end Ozz.Sampling
