# Formal model of ozz-animation-rs: design

Source modelled: `/repo` (SlimeYummy/ozz-animation-rs, pinned checkout), read as text.
Everything below lives in `/verif/lean` (Lake project, Lean 4.33.0, single Mathlib modules).

## Layout

* `Verif/Model/*`   – the model, function by function; each definition cites file and lines of `/repo/src`.
* `Verif/Spec/*`    – small independent specifications (no model helper used).
* `Verif/Proofs/*`  – helper lemmas.
* `Verif/Props/*`   – the property theorems (the ones listed in `MANIFEST.json`), each followed by
  an `example` showing that its hypotheses are met by a concrete non-trivial case.

## Modelling conventions

* `Result`/`Option` stay data. A panic (assertion, slice index, `copy_from_slice` length mismatch,
  `unwrap` of `None`, checked overflow) is an explicit error value, so "does not panic" is a theorem.
* Functions mutating through `&mut` return the new value. Loops are structural recursion or
  recursion with a decreasing measure.
* **Numbers.** Model code that touches floats is written over an arbitrary type `α` with the
  operation symbols (`+ - * / < ≤ sqrt floor`) and no laws. Consequences:
  - theorems that need no arithmetic law (local-to-model chain, sampling cache, skinning data flow,
    dispatch, buffer frames, error handling) hold for *every* interpretation of the operations,
    in particular for IEEE-754 `f32` with its rounding;
  - theorems that need laws are stated for a linearly ordered field or for `ℝ` ("exact
    arithmetic" in the property text). Rounding is then outside the theorem. This is said in each
    claim's note.
  - comparisons used by the sampling cache need only what `f32` has, NaNs included (`RatioOrder`).
* **Exact f32.** Where bits matter (keys, half floats, ratio clamping) floats are `F32`: 32-bit
  patterns with IEEE-754 round-to-nearest-even arithmetic written on integers (`Model/Float`). What a
  bit pattern denotes is specified separately from the standard (`Spec/Float`) and the two are proved to
  agree. C61 proves the arithmetic correct: nearest, ties to even, zeros, overflow, NaNs, infinities,
  against a specification over ℝ (`Spec/Rounding`). It was also compared with hardware results on 30000 random cases (a test, not a
  proof), and the crate's own quaternion test values come out bit for bit (example in `Props/Keys`).
* **Bits.** Packed keys, half floats, byte order, group varint are modelled on `BitVec`/`Nat`.
* SIMD vectors `f32x4` are functions `Fin 4 → α`; `simd_swizzle!` is precomposition.

## Trusted base

* Lean 4.33.0 kernel and the axioms `propext`, `Classical.choice`, `Quot.sound`
  (checked with `#print axioms` by `vcheck`; no other axiom, no `sorry`, no `native_decide`).
* The reading of the Rust source: model definitions are hand-written from `/repo/src`.
* Rust semantics assumed: slices index-checked, `copy_from_slice` panics on unequal lengths,
  `as` conversions truncate, `Vec`/`HashMap`-like containers behave as lists/maps.
* `rkyv` 0.7 (C74, C75): the serializer pads and appends; slices, vectors, relative pointers and `usize` are written as
  described at the head of `Model/Rkyv`; archived strings are any `StrOk` representation, struct layouts any `Fits`
  layout (fields inside, apart, aligned), the same when writing and reading. Reading outside the archive or misaligned
  is `none`. `archived_root`, `check_archived_root` look at the end of the archive.
* glam 0.29 (C88): `Vec3A::length`, `Vec4::dot` and `Quat::normalize` are parameters (`Glam`), assumed to be `Accurate` (within 4, 5
  and 7 units in the last place, zero for zero); `Model/Glam` has three ways of computing them for which that is proved. Sums and
  products of vectors are componentwise. `lerp` (C89) mixes componentwise by any `AccurateMix` (two formulas are proved to be),
  for quaternions after negating the end by any test that `TellsSign`, and normalizes. The product of quaternions (C91) is any function
  that is Hamilton's product.
* Not modelled at all: `nodejs.rs`,
  allocator failure, actual memory (raw pointers are modelled as addresses).
* `RefCell` and `RwLock` behave as the standard library documents (C71–C73): guards for writing exclude all others,
  an excluded `RefCell` access panics, an excluded `RwLock` access waits, a writing guard dropped by unwinding poisons its
  lock. Steps of threads are interleaved; a guarded buffer is only touched through its guard.

## Plan per property

| id | model | proof idea |
|----|-------|-----------|
| C01 | byte readers over `List UInt8`, host order and archive order as parameters | value read = big/little-endian decode of the bytes, independent of host |
| C02 | recursive NUL scan, UTF-8 validity as Lean's own `String` validation | induction on stream |
| C03–C05 | `from_archive` as a state-passing reader; encoder written separately from the format | parser combinator round-trip lemmas |
| C06 | same readers | "read consumes a prefix and is monotone": if it succeeds on `p ++ s` consuming all of `p ++ s`, it fails on `p` |
| C07 | same readers | unfolding; nothing after tag/version is inspected |
| C08–C10 | pointer walk as list of (offset, size, align) regions | `omega` on alignment arithmetic |
| C11 | `unpack` on `BitVec 16 ×3`; independent `pack` | bit-extensionality |
| C12 | `decompress` over `ℝ` | algebra; lane equality by cases |
| C13 | both conversions on bits, exact dyadic values | whole-table `decide +kernel` over 2^16, lifted; **expected to fail for the SIMD variant at 0x7BFF/0xFBFF: `>=` instead of `>`**, negation to be proved |
| C14 | `decode_gv4` with an oracle for out-of-slice bytes; independent encoder | round-trip, oracle independence |
| C15–C19, C21, C55 | full sampling state machine (`update_cache`, `decompress`, `interpolates`) over abstract keys | invariant: entries are the last key of each track before the cursor; cursor is determined by the ratio |
| C20 | same | **expected false**: `initialize_cache` uses the context capacity instead of the animation's; witness + `_partial` for equal capacity |
| C22 | `min`/`max` with IEEE NaN rules over a type with NaN | cases |
| C23 | interpolation over ordered field | algebra |
| C24–C26 | traversals on parent arrays | depth-first order characterisation |
| C27 | bimap insertion fold | induction |
| C28–C30 | `run` loop over any product | induction on the loop, subtree lemma from C24 |
| C31–C36 | blending job over `α`; ℝ for the algebra | per-joint fold = weighted sum; **C35 expected false** (`copy_from_slice` with a longer output), **C36 expected false** (layers checked while blending) |
| C37, C38 | `run` over ℝ | algebra |
| C39, C40 | `run` over ordered field | list search lemmas |
| C41–C45 | iterator state machine over ordered field with floor | forward = filtered list of per-loop crossings |
| C46–C48 | all 25 specialisations from one macro model | loop lemmas; **C48 expected false** (`unwrap` on missing matrices; tangents without normals) |
| C49–C51 | AoS/SoA math over fields / ℝ | `ring`, `field_simp` |
| C52–C54 | IK jobs over ℝ with ideal trig | geometry |
| C58–C60 | IK jobs over ℝ with ideal trig | rotations in the plane at a right angle to the target; triple products for sides |
| C61 | `Model/Float` | rounding the integer quotient keeps the parity and the nearest of all finite patterns |
| C62 | `Model/Sampling` with `Model/SamplingCode` | `RatioOrder F32`; monotone rounding of the steps of `lerp`; error analysis |
| C63 | same, `QuatKey.decompress` over `F32` | error analysis of norm, root, reciprocal; Minkowski |
| C64, C65 | `Model/LocalToModel` with `Model/LocalToModelCode`, `Model/Math`, `Model/Skinning` | induction on the path; products and inverses of Mathlib's matrices |
| C66, C67 | `Model/Trig` over `F32` | Taylor remainders; polynomials bounded by Bernstein coefficients; error of each rounding; exactness of the reduction to a quadrant and of `1 - a` |
| C68 | `Model/Math`, `Model/Trig` over `F32` | C66, then error analysis |
| C69, C70 | `Model/Serde` with `Model/Layout`, `Model/Sampling` | combinators with one round-trip lemma each; C55, C56 |
| C71 | `Model/Shared`, `Model/SharedJobs` | every prefix of an execution is equivalent to a serial one: simulation with a program "in progress" per thread |
| C72 | same | highest waiting thread; well-founded thread states |
| C73 | same, with the models of the jobs | running a program alone (`exec`) against the model of the job |
| C74, C75 | `Model/Rkyv` with `Model/Layout`, `Model/Sampling` | writers that only append and what holds of every archive that continues theirs; fields of a layout lie apart; **C75 expected false**: the check asks for 16-byte alignment of a struct aligned to 8 and looks at nothing else |
| C76–C78 | `Model/TrackSampling`, `Model/Triggering` on `Model/TrackCode` (f32) | rounding lemmas of C61–C64; the iteration is a scan over loops and keys without arithmetic laws (`Proofs/TriggeringScan`), its times are monotone in the loop; **splitting and mirroring expected false** without gaps between keys |
| C79 | `Model/LocalToModelCode`, `Model/Math` on f32 | rows of the product: induction along the path with a relative error for the linear part and for the translation; rotation matrices keep lengths of rows, so the error grows like (1+κ)^n and not like 3^n |
| C80 | `Model/Skinning` on f32 | rounding analysis of the weight chain, of the matrix sum and of the matrix times the point; every influence adds at most three roundings of at most Ωμ |
| C81 | `Model/Blending` on f32 | rounding analysis of every pass (weight known to one rounding, sums to three or four more); a sign is right when the dot product exceeds its error, so the sum is an aligned sum up to δ; a lower bound on the norm of such sums by induction (every aligned term adds at least w²\|q\|² − 2δw); one reciprocal or normalization at the end |
| C82 | `Model/Blending` on ℝ and f32 | the run with additive layers as the run without them followed by a fold, in any arithmetic; over ℝ each step is the specified one; on f32 a rounding analysis of one step (weight one rounding, normalization 80/2^24, quaternion product 11/2^24, scale factor bounded away from zero) and induction over the layers |
| C83 | `Model/SamplingCode`, `Model/LocalToModel` on f32 | C62 and C63 for the sampled pose, C79 for the matrices; nearby poses move points to nearby places (turning by nearby unit quaternions differs by at most twice their distance), by induction along the path; the two relative errors per joint add up; the exact pose (`Spec/Frame`) exists because the sampling job finds the keys around the ratio, and is unique because those keys are |
| C84 | `Model/Math` on f32 | a calculus that counts roundings (`App x X B n e`: `x` is `X` up to `n` units of `B/2^24`), run through the code of `minors` register by register; the bounds are the same code with plus signs; reciprocal and Newton step; for nearly rigid matrices the permanents of the bounds are at most about one |
| C85 | `Model/IK` (aim) and `Model/Math` on f32 with the code's trigonometry | the full turn is (a turn about the target axis) times (the turn from forward to target): unit quaternions commuting with the target do not move it, so whatever the pole and twist steps compute only has to be near such a quaternion; the turn between two vectors is analysed through the half angle, in its three branches; the joint's inverse by C84; the interpolation is never shorter than 1/√2 |
| C86 | `Model/IK` (two bones) and `Model/Math` on f32 with the code's trigonometry | points by C84; the law-of-cosines ratio is clamped, so the arc cosine always has an argument; the turn between two vectors is total (its three branches); plane and twist as in C85; both normals that are normalized are shown not to vanish |
| C87 | as C86; `Spec/FloatBend` | the turned end joint against the exact turn about the exact axis: cosine and angle of the bend from the two clamped arc cosines, the sign from the cross product; the flip is decided correctly because the bend is at least 1/32; the start correction as in C85 |
| C88 | `Model/MotionBlending` on f32 with glam's operations as parameters, `Spec/FloatMotion` | separate inductions over the used motions for weight, rotations (signs as in C81) and translations (directions against `M`, lengths against the sum of weighted lengths); the end divides nearby numbers |
| C89 | `Model/TrackLerp` on f32, `Spec/FloatTrackLerp` | the run's cases for any value type; the fraction to 2^-22 (C76); the mixture by `AccurateMix`; between keys not pointing away the squared norm of the mixture is at least 0.49, so normalizing magnifies errors by less than five |
| C90 | `Sampling`, `Blending`, `LocalToModel` on f32, `Spec/BlendedFrame` | sampled parts are within 2^-17 and 2^-19 of the exact ones (C83); signs chosen for the sampled rotations are allowed for the exact ones with a wider margin, and the two sums are W/2^17 apart; the sum is at least W/sqrt(2m) long (C81), which bounds the directions; then C79 and `along_close` |
| C91 | `Model/Corrections`, `IK`, `LocalToModel` over the reals, `Spec/Corrections` | the path to the end joint goes through start and middle joint (`path_through`); a turned joint with the same scale on all axes moves a point as the joint moves the turned point; C30 for the update; C53, C54, C58 for what the corrections do |
| C92 | `Sampling`, `Blending`, `LocalToModel`, `Skinning` on f32, `Spec/SkinnedFrame` | model matrices that take points near where bounded poses take them have bounded entries (`slope_le`, `bounded_entries`; C83 and C90 state this too); the product with an affine matrix adds 5/2^24 (`dot4_ok`); C80 for the sum; influences add up to one and their absolute values to at most 3 Omega |
| C93 | as C92, `Spec/SkinnedNormals` | exact poses take lines to lines in the same proportions (`Straight`, closed under composition), so a bound that grows with the distance from the origin bounds the slope of the difference (`slope_le`), and translations drop out; C80 for the sum |
| C94 | as C90, `Spec/AddedFrame` | the run with layers is the run without them followed by the layers (C82); exact layers commute with what is below (`layers_onTop`), so the errors of the blend are multiplied by the layers' scales only; scales of at least 2^-18 keep divisions away from zero; then C79 and `along_close` as in C90 |
| C95 | as C92 and C93, on C94 | the composition lemmas of C92 and C93 (`frame_mesh`, `frame_arrows`) with the matrices of C94; the condition on scales from the keys and the rest pose by C94_scale |
| C96 | `Model/Lanes`, `Spec/Lanes` | a write to a lane changes that lane only; induction over the writes; matrices lane by lane |
| C97 | `Model/ContextEq`, `Spec/ContextEq`, the sampling model | comparisons one by one; a run leaves decoded keys in every element (`run_values`), and decoded keys are numbers (C13, C62) |
| C98 | `Model/Blending`, `Spec/JointBlending` | every step of the blending of one SoA joint is lane by lane; induction over the layers; C57 for the old contents |
| C99 | `Model/Skinning`, `Spec/VertexSkinning` | the law-free form of a vertex matrix (`vertexMat`) depends only on the matrices and weights of that vertex |
| C100 | the blending, local-to-model and skinning models, `Spec/FrameLocality` | C98 for every joint of the path to the root, C28 (the model matrix is the product along that path), C99 for the vertices |
| C101 | the sampling model, `Spec/TrackSampled` | C16; the two keys that bracket the ratio are neighbours in the track's own list of keys, and there is only one such pair because the times increase |
| C102 | the sampling, blending, local-to-model and skinning models, `Spec/FrameTracks` | C101 for every play gives layers that agree about the joint; then C100, whose last part also gives the mesh |
| C56 | raw conversions on arrays | extensionality |

## What is modelled so far (code → Lean)

| /repo/src | Lean module | left out |
|-----------|-------------|----------|
| `skeleton.rs` queries, traversals, name map | `Model/Skeleton`, `Model/Loaders` | – |
| all `rkyv` impls | `Model/Rkyv` | the library (trusted base); reading fields in place without deserializing |
| all `serde` impls | `Model/Serde` | printing and parsing of number tokens; UTF-8 checks; structs read from JSON arrays |
| `local_to_model_job.rs` | `Model/LocalToModel` | – |
| the conversion of a pose to local matrices | `Model/LocalToModelCode` | – |
| `animation.rs` `decode_gv4*` | `Model/GV4` | – |
| `sampling_job.rs` cache, seek, decompression schedule | `Model/Sampling` | key decompression and interpolation are parameters there |
| `sampling_job.rs` `interpolates` | `Model/Interpolate` | – |
| the sampling job with its own keys and arithmetic | `Model/SamplingCode` | – |
| `track.rs`, `track_sampling_job.rs`, `track_triggering_job.rs` | `Model/Track`, `Model/TrackSampling`, `Model/Triggering` | – |
| the scalar track jobs in f32 | `Model/TrackCode` | – |
| vector and quaternion tracks in f32 | `Model/TrackLerp` | glam's `lerp` is one of two formulas, written from memory |
| `archive.rs`, `endian.rs`, all `from_archive`/`read_meta` | `Model/Archive`, `Model/ArchiveTypes`, `Model/Loaders` | opening files |
| `f16_to_f32`, `simd_f16_to_f32`, `Float3Key`, `QuaternionKey`, `set_ratio` | `Model/Float`, `Model/Keys` | which NaN an operation returns |
| `math.rs` SoA/AoS vectors, quaternions, matrices | `Model/Math` | – |
| `math.rs` lane access (`vec3`, `set_vec3`, `quat`, `set_quat`, `transform`, `set_transform`, splats) | `Model/Lanes` | – |
| `PartialEq for SamplingContext` | `Model/ContextEq` | `Debug`, `Drop` |
| `math.rs` polynomial `sin`, `cos`, `asin`, `acos` | `Model/Trig` | what `to_int_unchecked` does out of range (C66 says when that happens) |
| `ik_aim_job.rs`, `ik_two_bone_job.rs` | `Model/IK` | glam setters and getters |
| applying corrections (`tests/two_bone_ik.rs`, `SoaQuat::quat`, `set_quat`) | `Model/Corrections` | – |
| `blending_job.rs` | `Model/Blending` | wrapping of the `u32` pass counters; `u32` joint counts |
| `motion_blending_job.rs` | `Model/MotionBlending` | – |
| `skinning_job.rs` | `Model/Skinning` | `u16` joint indices |
| `base.rs` shared buffers, and how the jobs lock them | `Model/Shared`, `Model/SharedJobs` | locks taken by `validate`; buffers that are plain `Vec`s or slices need no locks |
| `Animation::new`, `Skeleton::new`, `SamplingContext::new`, `from_raw`/`to_raw` | `Model/Layout` | the allocator; 64-bit addresses assumed |

Notes on individual properties:

* C02: UTF-8 validity is *specified* from code points (`Format.utf8`), and the model has its own
  byte-level validator after `core::str::from_utf8`; theorem `C02_utf8` proves the two equivalent.
* C08–C10, C56: memory is a function `Nat → UInt8`; a raw pointer is an address. Address arithmetic
  is done on 64-bit words with the bit tricks of `align_usize`. Element sizes and alignments are the
  ones of `repr(C)` types of the source (`u16` 2/2, `f32` 4/4, `SoaTransform` 160/16, keys 6/2).
* C04: partial because the code does not have the property (see below).

* C13: partial because the four-wide conversion does not have the property (see below).
* C22: `f32::min`/`f32::max` are any functions with the documented behaviour (`IsMin`, `IsMax`).

* C49–C51: `Model/Math` is written once over any number type with its operations (`NumOps`); it is read
  over ℝ for these theorems and could be read over `F32`. `f32x4` sums are in lane order. Matrices,
  determinants and quaternions of the specification are Mathlib's.

* C31–C36, C57: `Model/Blending` follows the loops with explicit index faults over any arithmetic. One
  law-free lemma (`run_ok`) reduces a successful run to a fold per joint (`jointRun`); C35, C36, C57 and
  half of C32 are law-free, the rest reads the fold over ℝ (`jointBlend_lane`). The specification
  (`Spec/Blending`) lists the contributions of a joint: all layers, then the rest pose.

* C37, C38: glam's `normalize`, `lerp`, `dot` on `Vec3A`/`Quat` are read as their formulas; glam's optional
  assertions are off.

* C46–C48: the macros are modelled once with the influence count and the attribute set as arguments, and
  `run` selects them through the 25-entry table of the source. `usize` arithmetic checks or wraps
  (parameter `ck`). The specification (`Spec/Skinning`) averages the images of the vertex under the joints;
  it never builds a blended matrix. `Mat4::transform_point3/transform_vector3` are glam's formulas.

* C23: `Model/Interpolate` supplies the number functions of the sampling model; a decompressed key is any
  vector (its rounding is C12, C13). The curve is specified by continuity, key values, betweenness and
  straightness (`CurveThrough`), for the pose any reached context gives. Rotations are partial (see below).

* C52–C54: `Model/IK` takes sine, cosine and arc cosine as parameters (`Trig`). Theorems use ideal functions
  over ℝ (`idealTrig`) or none at all; witnesses use the polynomials of the crate over `F32` (`polyTrig`).
  The specification (`Spec/IK`) speaks of points sent by the joint matrices and of Mathlib quaternions turning
  vectors; it contains no IK formula. `simd_clamp` keeps NaN, `fx4_clamp_or_min` does not. Hypotheses about
  the pole vector are not used by the proofs over ℝ; they are there because `1 / 0` is not 0 in `f32`.

* C58–C60: same model. `Rig` bundles the inputs in the joints' spaces. The softened distance is specified by a
  formula (`softDistance`) whose laws are proved beside it; the pole properties are specified with cross products
  and a rotation about the target's direction.

* C62, C63: the sampling model instantiated with the crate's key decompression, comparison and interpolation over
  `F32` (`codeNumerics`). `F32` comparisons form a `RatioOrder`, so C15–C21 hold for it as they stand.
  `Spec/FloatSampling` speaks of the real numbers the bits denote. Multiplications and additions are rounded one by
  one: no fused multiply-add (Rust does not contract). `SoaQuat::nlerp` divides by a root, as in the source.
  Neighbouring keys further apart than 120 degrees are outside C63; opposite keys are disagreement 19.

* C64, C65: theorems about jobs used one after the other, over ℝ. `Spec/Pipeline` says what a pose does to a point with
  Mathlib's quaternions; it knows no matrices. Skinning matrices are products the caller of the crate makes.

* C66–C68: the specification is `Real.sin`, `Real.cos`, `Real.arcsin`, `Real.arccos` of Mathlib. `simd_min` returns the
  other operand for a NaN, as `std::simd` documents. Lanes are independent, so one lane is modelled and
  `polyTrig` applies it to four.

* C69, C70: a `Serialize` implementation is modelled by what it makes two formats write, a `Deserialize` implementation
  by what it reads from them. JSON is a tree (`Json`); that the text of a printed integer or finite float is read back as
  the same number is trusted (`serde_json`). The positional format stands for `bincode` and its kind. `derive`d code,
  glam's vectors (tuples of floats) and bimap's map (entries in iteration order, inserted one by one) are read as documented.
  Finite floats are specified by their exponent field (`Spec/Serde`).

* C71–C73: a job is a program: a tree of lock, write, drop, return and panic, whose branches depend on what the locks give.
  `Step` interleaves threads; `exec` runs one program alone. A job's changes to its output appear as one write where the
  guard is held anyway, since nobody can look in between. What a panicking job leaves in its output is arbitrary (`torn`).
  `JobProg` and `OrderlyProg` (`Spec/SharedJobs`) say which programs threads may run.

* C74, C75: archived values are deserialized field by field with every field readable; the model reads all fields before it
  copies any, so a panic of a copy is reported only if all fields can be read. Lengths of vectors need no bound: a vector
  whose relative pointer could be written is short enough. `translation_next` and its like are archived as `u32`, so contexts are
  assumed to hold cursors below 2³².

## Disagreements between properties and code

Each is confirmed by a theorem of the model (named); none can be confirmed by running, since the
task forbids it.

1. A context larger than the animation makes sampling panic (`C20_*`): `initialize_cache`
   copies by the context capacity.
2. Two animations at the same address are not told apart by the context (`C19_*`).
3. Repeated joint names are lost when a skeleton is loaded (`C04_repeated_name_lost`), and
   indices from 32768 on wrap to negative (`C27_index_wraps`).
4. The file of a skeleton with no joint is rejected by `from_archive` although `read_meta`
   accepts it (`C04_empty_skeleton_rejected`).
5. A track file announcing nearly 2^32 keys panics instead of failing (`C03_huge_key_count_panics`).
6. Empty skeletons and animations request a zero-size allocation (`C08_empty_allocation`,
   `C10_empty_allocation`), which is undefined behaviour for the global allocator.
7. Raw data with arrays of different lengths panics (`C56_mismatched_raw_panics`).
8. A track whose first key is after ratio 0 divides by the wrong span (`C40_*` notes).
9. `is_leaf` panics for an index past the last joint (`C26_is_leaf_past_end_panics`).
10. `simd_f16_to_f32` compares with `>=` where `>` is meant: the finite halves ±65504 become NaN,
    while `f16_to_f32` converts them correctly (`C13_largest_half_becomes_nan`).
11. `quat_from_vectors` returns the identity for all vectors whose lengths multiply to less than 1e-6,
    although short vectors have a direction (`C51_small_vectors`).
12. A blending job without positive layer panics if the output is longer than the skeleton, though
    `validate` accepts it (`C35_longer_output_panics`).
13. A blending job with an unreadable or short layer fails only after earlier layers were written
    (`C36_output_changed`), or panics before an additive layer is looked at.
14. The sign of a rotation orthogonal to the sum of the earlier layers changes the blended rotation
    (`C33_orthogonal_layer`).
15. A skinning job with two or more influences and no matrices panics instead of returning an error
    (`C48_missing_matrices`).
16. A skinning job rejected by `validate` can succeed: empty matrices with no vertex
    (`C48_accepts_empty_matrices`), tangents without normals (`C48_accepts_lone_tangents`).
17. An index out of range is an error that leaves earlier vertices written (`C48_partial_write`).
18. Sizes needed by skinning overflow: in release builds a job with 2^63+1 influences passes `validate` and
    panics, in debug builds `validate` itself panics (`C48_size_overflow`).
19. Halfway between two opposite rotation keys of a track the sampled rotation is NaN (`C23_opposite_keys`).
20. The aim job reports reached for targets behind the offset on the forward line (`C54_behind`).
21. The aim job reports reached for targets closer than 1e-3 but does not turn the joint towards them
    (`C54_close_target`; from disagreement 11).
22. A pole vector along the target makes the start correction of the two-bone job NaN (`C52_pole_parallel`).
23. The two-bone job reports reached, and does not reach, if the middle axis is not at a right angle to the
    bones (`C53_skew_axis`). Nothing in the job checks or documents it.
24. Softening, meant to keep the chain short of far targets, moves the end joint past targets just beyond the
    soft limit: the softened distance starts with the slope 4/3 (`C58_soft_overshoots`, `C58_overshoot`).
25. In single precision the last key of a track is not always met: the code computes `(b - a) * 1 + a`, which is not
    `b` after rounding (`C62_last_key_missed`).
26. `f32_sin`, `f32_cos`, `f32_sin_cos` are safe public functions that convert with `to_int_unchecked`: a NaN, an infinity or
    an angle from about 3.4e9 on is undefined behaviour (`C66_conversion_undefined`). Long before that the results are
    useless: at 2^28 the sine is below −26 (`C66_large`). An IK job with a NaN or infinite twist angle reaches this code.
27. `SoaVec3` and `SoaQuat` are written as sequences and read as tuples; `SoaQuat` announces three components and writes
    four. Positional formats therefore read other numbers without noticing (`C69_soa_bytes_misread`), so do skeletons
    (`C69_skeleton_bytes_misread`).
28. A context cannot be written positionally (`C70_bytes_fail`) nor read from a reader or an owned document
    (`C70_owned_keys_fail`: the visitor asks for borrowed keys); entries before `max_tracks` are dropped, so a sorted
    document loses the animation id (`C70_sorted_forgets`); an array of wrong length panics (`C70_wrong_length_panics`).
29. The arrays of a new context are uninitialised memory, which `serialize` writes. If it reads as NaN the result cannot be
    read back (`C70_nonfinite`).
30. Blending is not atomic: it reads its layers one after the other, so with layers written by other threads the result
    can be a mixture of different times (`C71_blending_mixes_times`). The other jobs hold all guards until they are done.
31. Two threads can deadlock with valid jobs: two blending jobs with crossed output and layer (`C72_blending_deadlock`), two
    skinning jobs with crossed positions (`C72_skinning_deadlock`).
32. Blending onto one of its layers, or skinning in place, is accepted by `validate` but panics with `RefCell` buffers and
    locks up (or panics) with `RwLock` buffers (`C73_blending_onto_layer`, `C73_skinning_in_place`).
33. `check_bytes` of `ArchivedSamplingContext` (sampling_job.rs:780-790) asks for an address divisible by 16, but the struct is
    aligned to 8: the archive of every context for 1 to 64 tracks, placed at a multiple of 16, is rejected
    (`C75_small_contexts_rejected`; `C75_check_own_archive` says exactly which are accepted).
34. The same check looks at nothing but the address: any bytes pass, and deserializing them follows wild pointers
    (`C75_garbage_accepted`).
35. Triggering over a range that goes beyond 2^24 loops never ends: the loop counter is an `f32` and adding one to 2^24 does
    not change it (`C77_forward_never_ends`; backward already at -2^24, `C77_backward_never_ends`).
36. In single precision playing a range frame by frame loses events that playing it at once reports: the time of a key close
    to the end of a loop rounds to the end, which the earlier range excludes, and the later range starts in the next loop
    (`C78_split_loses_an_event`). Similarly backward playback can miss an event at the start of its range that forward
    playback reports (`C78_backward_loses_an_event`).
37. In single precision reported times can decrease and events need not alternate: a crossing at the end of a segment can be
    interpolated past the key (`C78_times_can_decrease`, `C78_events_need_not_alternate`). C41 and C45 hold in exact
    arithmetic only.
38. `AosMat4::invert` fails in single precision for invertible matrices with a small or large determinant: the Newton step squares
    the reciprocal of the determinant, so a uniform scale of 2^-22 already gives infinities and NaNs, and one of 2^43 overflows
    the determinant (`C84_small_scale`, `C84_large_scale`).
39. The IK jobs compute their corrections in the full space of the joint, including its own scale, but the corrections are
    multiplied to the rotation, before which the scale applies. For a joint with different scales on its axes the aim job reports
    reached and yet the corrected joint does not aim at the target (`C91_uneven_scale`).
40. A new sampling context need not be equal to its own clone: its memory is not initialised, `clone` copies and `==` compares it,
    and NaNs are not equal to themselves (`C97_fresh_clone_differs`). Reading that memory is undefined behaviour in Rust besides.
    After a first sample clones are equal, unless a key is the largest half float, which decodes to a NaN (C13).
41. Reading a `bool` from an archive (archive.rs:155-160, 170) takes the byte as it is: every byte but 0 and 1 makes a `bool` that is
    neither true nor false, which is undefined behaviour reached from safe code with a damaged file (`C01_bool`). No loader of the
    crate reads a `bool`.
