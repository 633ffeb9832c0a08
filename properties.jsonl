{"id": "C01", "title": "Archive byte order is transparent", "statement": "Reading the same sequence of values from an archive written big-endian or little-endian gives identical values on either kind of host; only the first tag byte decides, 0 meaning big-endian and every other value little-endian.", "quantifier": "every sequence of u8/u16/u32/u64/i16/i32/f32/bool values, both archive byte orders, both host byte orders", "why_tests_cant": "Fixture files are all little-endian and tests run on little-endian hosts; a swap missed for one width only shows up on the untested combination.", "anchors": ["src/archive.rs:Archive::new", "src/archive.rs:primitive_reader", "src/endian.rs:SwapEndian", "src/endian.rs:Endian::from_tag"]}
{"id": "C02", "title": "Archived strings are read up to the terminator and nothing more", "statement": "Reading a NUL-terminated string returns exactly the bytes before the first NUL, leaves the reader right after the NUL, fails with a UTF-8 error if those bytes are not UTF-8 and fails with an I/O error if no NUL follows.", "quantifier": "every byte stream", "why_tests_cant": "Any unterminated, empty, embedded-NUL or invalid-UTF-8 position is possible; tests use a few ASCII names.", "anchors": ["src/archive.rs:ArchiveRead<String>"]}
{"id": "C03", "title": "Track archives round-trip", "statement": "For every track (any key count, name, ratios, values of 1 to 4 components, step flags), loading the archive bytes that the format prescribes for it returns exactly that track and leaves the reader exactly after those bytes.", "quantifier": "every track content, every value width, every trailing byte suffix, both byte orders", "why_tests_cant": "Tests load a handful of fixture files; equality for every content and exact consumption is a for-all statement.", "anchors": ["src/track.rs:Track::from_archive", "src/archive.rs:read_vec", "src/archive.rs:read_slice"]}
{"id": "C04", "title": "Skeleton archives round-trip", "statement": "For every skeleton with at least one joint, loading the archive bytes the format prescribes returns the same joint count, names, parents and rest poses, in order, and consumes exactly those bytes.", "quantifier": "every joint count, every list of names, parents and rest poses", "why_tests_cant": "Only a few fixture skeletons are tested; joint counts around the multiple-of-four padding and arbitrary names are not.", "anchors": ["src/skeleton.rs:Skeleton::from_archive", "src/skeleton.rs:Skeleton::read_meta"]}
{"id": "C05", "title": "Animation archives round-trip", "statement": "For every animation content, loading the archive bytes the format prescribes returns the same timepoints and, per channel, the same key ratios, back-offsets, interval frames and compressed keys; key ratio indices are stored on one byte exactly when there are at most 255 timepoints and on two bytes otherwise.", "quantifier": "every number of tracks, timepoints, keys and interval frames of each channel", "why_tests_cant": "The one-byte/two-byte switch and each count combination change all subsequent offsets; fixtures cover two or three of them.", "anchors": ["src/animation.rs:Animation::from_archive", "src/animation.rs:Animation::read_meta"]}
{"id": "C06", "title": "Truncated archives are rejected", "statement": "Loading any strict prefix of a valid track, skeleton or animation archive returns an I/O error: never a partially filled object and never a panic.", "quantifier": "every valid archive and every cut point", "why_tests_cant": "There are as many cut points as bytes and unboundedly many archives.", "anchors": ["src/archive.rs:Archive::read", "src/track.rs:Track::from_archive", "src/skeleton.rs:Skeleton::from_archive", "src/animation.rs:Animation::from_archive"]}
{"id": "C07", "title": "Foreign archives are rejected by tag and version", "statement": "Loading an object succeeds only if the archive carries that object's tag and supported version; otherwise the load fails with an invalid-tag or invalid-version error, whatever follows.", "quantifier": "every byte stream whose tag or version differs", "why_tests_cant": "Tests try one wrong file per type.", "anchors": ["src/archive.rs:read_tag", "src/archive.rs:read_version", "src/track.rs:Track::from_archive", "src/skeleton.rs:Skeleton::from_archive", "src/animation.rs:Animation::from_archive"]}
{"id": "C08", "title": "Animation storage is laid out safely", "statement": "For any element counts, the arrays an Animation carves out of its single allocation are pairwise disjoint, each starts at an address aligned for its element type, all lie inside the allocation, and together they end exactly at its end (the size assertion cannot fire).", "quantifier": "every combination of timepoint, key, entry and descriptor counts and every suitably aligned base address", "why_tests_cant": "Thirteen independent counts, with alignment padding depending on their residues.", "anchors": ["src/animation.rs:Animation::new", "src/base.rs:align_usize", "src/base.rs:align_ptr"]}
{"id": "C09", "title": "Sampling context storage is laid out safely", "statement": "For any max_tracks, the arrays of a SamplingContext are pairwise disjoint, aligned, inside the allocation, and end exactly at its end; capacities are the requested tracks rounded up to a multiple of four, one SoA slot per four tracks and one flag bit per SoA slot.", "quantifier": "every max_tracks and every 16-byte aligned base address", "why_tests_cant": "Tests use a few counts; padding depends on residues modulo 128 tracks.", "anchors": ["src/sampling_job.rs:SamplingContext::new", "src/base.rs:align_usize"]}
{"id": "C10", "title": "Skeleton storage is laid out safely", "statement": "For any joint count, rest poses and parents are disjoint, aligned, inside the allocation and end exactly at its end, with one SoA rest pose per four joints.", "quantifier": "every joint count", "why_tests_cant": "Residues modulo four and sizes beyond the fixtures.", "anchors": ["src/skeleton.rs:Skeleton::new", "src/skeleton.rs:num_soa_joints", "src/skeleton.rs:num_aligned_joints"]}
{"id": "C11", "title": "Quaternion keys keep all their bits", "statement": "Unpacking a compressed quaternion key yields the 2-bit largest-component index, the sign bit and three 15-bit components, and distinct keys yield distinct tuples: every tuple has exactly one key.", "quantifier": "all 2^48 keys", "why_tests_cant": "The domain is far too large to enumerate and neighbouring bit fields straddle the three words.", "anchors": ["src/animation.rs:QuaternionKey::unpack"]}
{"id": "C12", "title": "Decompressed quaternions are unit and reproduce the stored components", "statement": "In exact arithmetic a decompressed quaternion has norm one whenever the three stored components have squared norm at most one, puts the restored component with the stored sign at the stored index, keeps the other three within half a quantisation step of any unit quaternion that was quantised to that key, and the four-wide decompression equals the one-key decompression lane by lane.", "quantifier": "all keys and all four-key groups", "why_tests_cant": "2^48 keys; tests check a few.", "anchors": ["src/animation.rs:QuaternionKey::decompress", "src/animation.rs:QuaternionKey::simd_decompress"]}
{"id": "C13", "title": "Half-float decompression is exact", "statement": "Every finite 16-bit half float decompresses to the single-precision float of exactly the same value, infinities to infinities, NaNs to NaNs, and the four-wide and scalar conversions agree.", "quantifier": "all 65536 half floats", "why_tests_cant": "Tests check nine of them; the boundary with the infinities is missed.", "anchors": ["src/math.rs:f16_to_f32", "src/math.rs:simd_f16_to_f32", "src/animation.rs:Float3Key"]}
{"id": "C14", "title": "Group-varint streams decode to what was encoded", "statement": "Decoding an interval frame stream returns exactly the encoded entry list and the unread rest of the buffer, for every list whose length is a multiple of four; decoding never depends on bytes outside the buffer.", "quantifier": "every list of 32-bit entries, every trailing buffer, every out-of-buffer memory content", "why_tests_cant": "Entry widths mix freely, and the code reads up to three bytes past the end of the slice, which a test cannot observe.", "anchors": ["src/sampling_job.rs:decode_gv4", "src/sampling_job.rs:decode_gv4_stream"]}
{"id": "C15", "title": "Sampling is independent of the sampling history", "statement": "For every well-formed animation sampled through one context by any sequence of ratios (forward, backward, jumping), the pose produced at the last ratio equals the pose a brand-new context produces at that ratio.", "quantifier": "every animation, every finite sequence of ratios, every initial content of the context memory", "why_tests_cant": "The cache state after a sequence depends on the entire history; tests try short sequences on tiny animations.", "anchors": ["src/sampling_job.rs:SamplingJob::run", "src/sampling_job.rs:update_cache"]}
{"id": "C16", "title": "Sampling interpolates between the two keys that bracket the ratio", "statement": "For every well-formed animation, track and ratio, the value produced is the interpolation between the last key at or before the ratio and the first key after it (the last two keys of the track at the end of the animation).", "quantifier": "every animation, track, ratio and history", "why_tests_cant": "Which keys are used depends on the cache traversal; sampled assertions cannot cover all traversals.", "anchors": ["src/sampling_job.rs:update_cache", "src/sampling_job.rs:track_forward", "src/sampling_job.rs:track_backward", "src/sampling_job.rs:interpolates"]}
{"id": "C17", "title": "Sampling a well-formed animation never panics", "statement": "With a context created for the animation's track count and an output of at least its SoA track count, no history of sampling calls trips any assertion, out-of-bounds index or overflow in the sampling job.", "quantifier": "every well-formed animation and every sequence of ratios", "why_tests_cant": "There are a dozen assertions whose truth depends on the whole history.", "anchors": ["src/sampling_job.rs:update_cache", "src/sampling_job.rs:decompress_float3", "src/sampling_job.rs:outdate_cache"]}
{"id": "C18", "title": "Interval frames only accelerate seeking", "statement": "An animation with interval frames produces the same poses as the same animation stripped of them, for every sequence of ratios.", "quantifier": "every animation with valid interval frames, every sequence of ratios", "why_tests_cant": "Whether an interval frame is used depends on step sizes between consecutive ratios.", "anchors": ["src/sampling_job.rs:initialize_cache", "src/sampling_job.rs:decode_gv4_stream"]}
{"id": "C19", "title": "A context can be moved between animations", "statement": "Sampling animation B with a context previously used (any number of times) with animation A, with both animations alive, gives the same pose as sampling B with a new context.", "quantifier": "every pair of animations, every history", "why_tests_cant": "Stale entries, flags and ratios of A remain in the context; whether they leak depends on sizes and history.", "anchors": ["src/sampling_job.rs:step_context", "src/sampling_job.rs:SamplingContext::clear"]}
{"id": "C20", "title": "A context may be larger than the animation", "statement": "Any context whose capacity is at least the animation's track count is accepted by validate() and produces the same pose as a context of exactly the right capacity.", "quantifier": "every animation and every capacity that validate() accepts", "why_tests_cant": "Capacity and animation size are independent parameters; all tests use equal sizes.", "anchors": ["src/sampling_job.rs:SamplingJob::validate", "src/sampling_job.rs:initialize_cache", "src/sampling_job.rs:SamplingContext::new"]}
{"id": "C21", "title": "Sampling writes exactly the animation's tracks", "statement": "A successful sampling run overwrites exactly the first num_soa_tracks output transforms and leaves the rest of the output unchanged; an unsuccessful one changes no output.", "quantifier": "every output length, animation and history", "why_tests_cant": "Lengths are unbounded and the claim is about every untouched element.", "anchors": ["src/sampling_job.rs:interpolates", "src/sampling_job.rs:SamplingJob::run"]}
{"id": "C22", "title": "The sampling ratio is always in range", "statement": "After set_ratio(x) the stored ratio is x clamped into [0,1], and 1 when x is NaN; hence every value ever used by run() is in [0,1].", "quantifier": "every f32 including NaN and infinities", "why_tests_cant": "2^32 inputs with NaN payloads; tests try a few.", "anchors": ["src/sampling_job.rs:set_ratio", "src/math.rs:f32_clamp_or_max"]}
{"id": "C23", "title": "Interpolation hits the keys and stays between them", "statement": "In exact arithmetic a sampled translation or scale equals the key value at key times, lies component-wise between the two bracketing key values otherwise, is continuous in the ratio across keys, and a sampled rotation is a unit quaternion.", "quantifier": "every animation and ratio", "why_tests_cant": "Continuum of ratios.", "anchors": ["src/sampling_job.rs:interpolates", "src/math.rs:SoaVec3::lerp", "src/math.rs:SoaQuat::nlerp"]}
{"id": "C24", "title": "Depth-first iteration visits exactly a subtree", "statement": "For every depth-first ordered skeleton, iterating from a joint visits that joint and exactly its descendants, each once, in increasing index order with its true parent; iterating from no joint visits every joint.", "quantifier": "every skeleton forest and every starting joint", "why_tests_cant": "Tests use a few trees; the traversal relies on a comparison of parent indices that is only valid for depth-first order.", "anchors": ["src/skeleton.rs:iter_depth_first"]}
{"id": "C25", "title": "Reverse iteration visits children before parents", "statement": "Reverse iteration visits every joint exactly once, every joint before its parent.", "quantifier": "every skeleton", "why_tests_cant": "Unbounded trees.", "anchors": ["src/skeleton.rs:iter_depth_first_reverse"]}
{"id": "C26", "title": "Leaf detection is exact", "statement": "For every depth-first ordered skeleton and joint, is_leaf is true exactly when no joint has that joint as parent.", "quantifier": "every skeleton and joint", "why_tests_cant": "Depends on ordering invariant; includes the last joint boundary.", "anchors": ["src/skeleton.rs:is_leaf"]}
{"id": "C27", "title": "Joint names and indices are mutually inverse", "statement": "If the joint names are pairwise distinct and there are at most 32767 joints, looking a name up returns the joint with that name and looking a joint up returns its name; unknown names and joints return nothing.", "quantifier": "every list of distinct names", "why_tests_cant": "Arbitrary name sets.", "anchors": ["src/skeleton.rs:joint_by_name", "src/skeleton.rs:name_by_joint", "src/skeleton.rs:from_archive"]}
{"id": "C28", "title": "Model-space matrices are products along the parent chain", "statement": "After a full run every joint's output matrix is the root matrix times the local matrices of its ancestors from the root down to the joint itself, in that order.", "quantifier": "every parents-before-children skeleton, every local pose and root matrix, any associative or non-associative rounding product", "why_tests_cant": "The tree shape is unbounded.", "anchors": ["src/local_to_model_job.rs:LocalToModelJob::run"]}
{"id": "C29", "title": "A partial local-to-model update touches exactly the requested joints", "statement": "A run with from/to/from_excluded writes exactly the joints in the subtree of from (without from if excluded) whose index is at most to, and leaves every other output matrix unchanged.", "quantifier": "every skeleton, every from, to and from_excluded, every previous output", "why_tests_cant": "Four parameters times unbounded trees; off-by-one errors at to, at block boundaries of four and at the end of the subtree.", "anchors": ["src/local_to_model_job.rs:LocalToModelJob::run"]}
{"id": "C30", "title": "Incremental local-to-model update equals a full update", "statement": "If the output holds the model matrices of an old pose and the local transforms change only inside the subtree of one joint, then re-running with from set to that joint makes the whole output equal to a full run on the new pose.", "quantifier": "every skeleton, joint, pair of poses", "why_tests_cant": "Relation between two runs over unbounded trees.", "anchors": ["src/local_to_model_job.rs:LocalToModelJob::run"]}
{"id": "C31", "title": "Blending is the normalised weighted average", "statement": "In exact arithmetic the blended translation and scale of each joint equal the sum over positive-weight layers of weight times joint weight times value, plus the rest pose with weight max(0, threshold - accumulated weight), divided by the total weight used.", "quantifier": "every number of layers, weights, joint weights, threshold and poses", "why_tests_cant": "The result is accumulated through different passes depending on layer order and presence of joint weights.", "anchors": ["src/blending_job.rs:blend_layers", "src/blending_job.rs:blend_rest_pose", "src/blending_job.rs:normalize"]}
{"id": "C32", "title": "Layers without weight do not matter", "statement": "Layers whose weight is zero or negative, and joints whose joint weight is zero or negative, contribute nothing: removing such a layer does not change the output.", "quantifier": "every list of layers and every position of the removed layer", "why_tests_cant": "Position of the ignored layer interacts with first-pass/next-pass logic.", "anchors": ["src/blending_job.rs:blend_layers"]}
{"id": "C33", "title": "Blended rotations are unit and sign-agnostic", "statement": "In exact arithmetic every blended rotation is a unit quaternion whenever the accumulated rotation is not zero, and negating the quaternion of any layer other than the first changes nothing, while negating all of them negates the result.", "quantifier": "every list of layers", "why_tests_cant": "Continuum of quaternions and all sign patterns.", "anchors": ["src/blending_job.rs:blend_n_pass", "src/blending_job.rs:normalize"]}
{"id": "C34", "title": "Subtracting an additive layer undoes adding it", "statement": "In exact arithmetic, adding an additive layer with weight w and then the same layer with weight -w restores translation, rotation and scale, provided the scale factors are non-zero.", "quantifier": "every layer, weight, joint weights and output pose", "why_tests_cant": "Continuum of inputs; quaternion algebra.", "anchors": ["src/blending_job.rs:blend_add_pass", "src/blending_job.rs:blend_sub_pass", "src/blending_job.rs:add_layers"]}
{"id": "C35", "title": "A valid blending job runs", "statement": "Whenever validate() returns true, run() returns Ok and does not panic; it writes exactly the first num_soa_joints outputs.", "quantifier": "every job accepted by validate()", "why_tests_cant": "Buffer lengths are independent; tests use outputs of exactly the skeleton size.", "anchors": ["src/blending_job.rs:BlendingJob::validate", "src/blending_job.rs:BlendingJob::run", "src/blending_job.rs:blend_rest_pose"]}
{"id": "C36", "title": "An invalid blending job is rejected without side effects", "statement": "Whenever validate() returns false, run() returns an error and the output is unchanged.", "quantifier": "every job rejected by validate()", "why_tests_cant": "The invalid layer may be at any position.", "anchors": ["src/blending_job.rs:BlendingJob::run", "src/blending_job.rs:blend_layers", "src/blending_job.rs:add_layers"]}
{"id": "C37", "title": "Motion blending is scale invariant and neutral on identical motions", "statement": "In exact arithmetic, blending motions yields a unit rotation and unit scale, multiplying all weights by one positive factor changes nothing, a single positive-weight motion is reproduced (up to quaternion normalisation), non-positive weights are ignored, and without positive weights the identity is returned.", "quantifier": "every list of weighted motions", "why_tests_cant": "Continuum of inputs, any number of layers.", "anchors": ["src/motion_blending_job.rs:MotionBlendingJob::run"]}
{"id": "C38", "title": "Motion blending preserves speed", "statement": "In exact arithmetic the length of the blended translation is the weight-normalised average of the layers' translation lengths whenever the blended direction is not zero.", "quantifier": "every list of weighted motions", "why_tests_cant": "Continuum of inputs.", "anchors": ["src/motion_blending_job.rs:MotionBlendingJob::run"]}
{"id": "C39", "title": "Track sampling is the piecewise key interpolation", "statement": "For a track with increasing ratios from 0 to 1, sampling at a ratio returns the value of the last key at or before the ratio if that key is a step (or the last), and the linear interpolation towards the next key otherwise; ratios outside [0,1] return the first or last value; an empty track returns the default value.", "quantifier": "every track and every ratio", "why_tests_cant": "Continuum of ratios and unbounded key counts; boundary cases at keys.", "anchors": ["src/track_sampling_job.rs:TrackSamplingJob::run"]}
{"id": "C40", "title": "Track sampling is continuous except at steps", "statement": "In exact arithmetic the sampled value at the ratio of a key is exactly that key's value, and a linear key's interpolation reaches the next key's value at its end.", "quantifier": "every track and key", "why_tests_cant": "Every key boundary.", "anchors": ["src/track_sampling_job.rs:TrackSamplingJob::run"]}
{"id": "C41", "title": "Triggering reports exactly the threshold crossings in range", "statement": "For a track with increasing ratios in [0,1] and exact arithmetic, iterating forward yields exactly the crossings of the threshold whose looped ratio lies in [from, to), each once, in increasing order of time, with the correct direction, and terminates.", "quantifier": "every track, threshold, from and to of any sign and range", "why_tests_cant": "Unbounded number of loops and keys; early exits inside the loops could drop crossings.", "anchors": ["src/track_triggering_job.rs:TrackTriggeringIter::next", "src/track_triggering_job.rs:detect_edge"]}
{"id": "C42", "title": "Triggering backward mirrors triggering forward", "statement": "Swapping from and to yields the same crossings in reverse order with rising and falling exchanged.", "quantifier": "every track, threshold and range", "why_tests_cant": "Two different loops over unbounded data have to agree.", "anchors": ["src/track_triggering_job.rs:TrackTriggeringIter::next"]}
{"id": "C43", "title": "Splitting a range loses and duplicates no event", "statement": "For a ≤ b ≤ c the crossings reported for [a,b) followed by those for [b,c) are exactly those for [a,c).", "quantifier": "every track, threshold and a ≤ b ≤ c", "why_tests_cant": "This is what frame-by-frame playback relies on; every split point matters, including key ratios and integers.", "anchors": ["src/track_triggering_job.rs:TrackTriggeringIter::next"]}
{"id": "C44", "title": "Triggering is periodic", "statement": "Shifting from and to by an integer shifts the reported ratios by the same integer and changes nothing else.", "quantifier": "every track, range and integer shift", "why_tests_cant": "Unbounded shifts.", "anchors": ["src/track_triggering_job.rs:TrackTriggeringIter::next"]}
{"id": "C45", "title": "Rising and falling edges alternate", "statement": "In every forward run consecutive reported edges alternate between rising and falling.", "quantifier": "every track, threshold and range", "why_tests_cant": "Alternation across loop boundaries and over any number of edges.", "anchors": ["src/track_triggering_job.rs:TrackTriggeringIter::next"]}
{"id": "C46", "title": "Skinning blends joint matrices with weights summing to one", "statement": "For every influence count each vertex is transformed by the sum of its joint matrices weighted by the given weights, the last weight being one minus the others; if all influencing matrices are equal the vertex is transformed by that matrix.", "quantifier": "every influence count, vertex, weights and matrices", "why_tests_cant": "Unbounded counts; five specialised code paths per attribute combination.", "anchors": ["src/skinning_job.rs:skinning_1", "src/skinning_job.rs:skinning_impl"]}
{"id": "C47", "title": "Skinning dispatch selects the right specialisation", "statement": "For every positive influence count and every combination of normals, tangents and inverse-transpose matrices the job selects the code path of that influence count and attribute set; the unreachable branch is never taken.", "quantifier": "every influence count and attribute combination", "why_tests_cant": "Arithmetic branch numbering over an unbounded count.", "anchors": ["src/skinning_job.rs:SkinningJob::run"]}
{"id": "C48", "title": "Valid skinning jobs run, in bounds, and touch only their vertices", "statement": "Whenever validate() returns true and all joint indices are within the matrices, run() returns Ok, never indexes out of bounds, and writes exactly the first vertex_count elements of each output; whenever validate() returns false run() returns an error and does not panic.", "quantifier": "every combination of buffer lengths", "why_tests_cant": "Eight independent buffers of any length.", "anchors": ["src/skinning_job.rs:SkinningJob::validate", "src/skinning_job.rs:SkinningJob::run"]}
{"id": "C49", "title": "Matrix inversion inverts", "statement": "In exact arithmetic the inverse of every 4x4 matrix with non-zero determinant is its two-sided inverse, and a singular matrix maps to the zero matrix.", "quantifier": "every 4x4 matrix", "why_tests_cant": "Sixteen-dimensional continuum.", "anchors": ["src/math.rs:AosMat4::invert", "src/math.rs:AosMat4::mul"]}
{"id": "C50", "title": "Transforms and matrices agree", "statement": "In exact arithmetic the four matrices produced from a SoA transform map each point to scale, then rotation, then translation of that lane, and the SoA-to-AoS transposition puts element (lane, row, column) in its place.", "quantifier": "every SoA transform", "why_tests_cant": "Continuum; swizzle patterns are easy to get wrong in one lane.", "anchors": ["src/math.rs:SoaMat4::from_affine", "src/math.rs:SoaMat4::to_aos"]}
{"id": "C51", "title": "Quaternion helpers are the quaternion algebra", "statement": "In exact arithmetic the quaternion product is the Hamilton product (SoA and AoS agree), rotating a vector by a unit quaternion preserves lengths, composing rotations is multiplying quaternions, and the quaternion built from two non-zero vectors is unit and rotates the direction of the first onto the second.", "quantifier": "every quaternion and vector", "why_tests_cant": "Continuum; includes the opposite-vectors special case.", "anchors": ["src/math.rs:quat_mul", "src/math.rs:SoaQuat::mul", "src/math.rs:quat_transform_vector", "src/math.rs:quat_from_vectors"]}
{"id": "C52", "title": "Two-bone IK outputs are neutral at zero weight and always unit", "statement": "Running with weight zero or below yields identity corrections and reached = false; otherwise both corrections have non-negative w; reached is never true with a weight below one; an unnormalised mid axis is rejected and leaves the outputs unchanged.", "quantifier": "every input", "why_tests_cant": "Continuum of inputs.", "anchors": ["src/ik_two_bone_job.rs:IKTwoBoneJob::run", "src/ik_two_bone_job.rs:weight_output"]}
{"id": "C53", "title": "Two-bone IK reaches the targets it reports reached", "statement": "In exact arithmetic with ideal trigonometric functions, when the job reports reached, applying the two corrections moves the end joint onto the target.", "quantifier": "every chain, target, pole vector and twist in general position", "why_tests_cant": "Continuum of inputs.", "anchors": ["src/ik_two_bone_job.rs:soften_target", "src/ik_two_bone_job.rs:compute_mid_joint", "src/ik_two_bone_job.rs:compute_start_joint"]}
{"id": "C54", "title": "Aim IK aims", "statement": "In exact arithmetic, when the aim job reports reached with full weight, rotating the joint by the correction makes the forward ray from the offset pass through the target; the job reports unreached exactly when the target is closer to the joint than the forward ray from the offset.", "quantifier": "every joint matrix, forward, offset, target, pole vector and twist", "why_tests_cant": "Continuum of inputs.", "anchors": ["src/ik_aim_job.rs:IKAimJob::run", "src/ik_aim_job.rs:compute_offsetted_forward"]}
{"id": "C55", "title": "Cloned and deserialised contexts behave like the original", "statement": "A cloned context equals the original and, for the same animation, produces the same poses from then on; a clone without animation id, or a deserialised context used with another animation, behaves like a new context.", "quantifier": "every reachable context and every continuation", "why_tests_cant": "Any reachable cache state and any future.", "anchors": ["src/sampling_job.rs:SamplingContext::clone", "src/sampling_job.rs:clone_without_animation_id", "src/sampling_job.rs:SamplingContextVisitor"]}
{"id": "C56", "title": "Raw conversions lose nothing", "statement": "Converting a skeleton or animation to its raw form and back gives an equal object.", "quantifier": "every skeleton and animation content", "why_tests_cant": "Every combination of array lengths.", "anchors": ["src/animation.rs:Animation::to_raw", "src/animation.rs:Animation::from_raw", "src/skeleton.rs:Skeleton::to_raw", "src/skeleton.rs:Skeleton::from_raw"]}
{"id": "C57", "title": "Blending keeps no memory", "statement": "The blended output depends only on the job: neither the state of the context nor the previous contents of the output buffer influence it.", "quantifier": "every job, context and output buffer, in single precision", "why_tests_cant": "All previous uses of the context.", "anchors": ["src/blending_job.rs:BlendingJob::run", "src/blending_job.rs:blend_layers"]}
{"id": "C58", "title": "Two-bone IK reaches softly", "statement": "In exact arithmetic at full weight the end joint ends up in the direction of the target (unless the bent chain points opposite to it) at the softened distance, limited to what the bones can span. The softened distance is the target's up to the soft limit, increases strictly and continuously with it, and stays below the length of the chain when the soften ratio is below one.", "quantifier": "every chain, target, soften ratio, pole vector and twist in general position", "why_tests_cant": "Continuum of inputs; the transition at the soft limit is a single point.", "anchors": ["src/ik_two_bone_job.rs:soften_target", "src/ik_two_bone_job.rs:compute_mid_joint"]}
{"id": "C59", "title": "Two-bone IK bends towards the pole vector", "statement": "In exact arithmetic at full weight the corrections turn the middle axis to the normal of the plane spanned by the target and the pole vector twisted about the target's direction, and the middle joint ends up on the twisted pole vector's side.", "quantifier": "every chain, target, pole vector and twist in general position", "why_tests_cant": "Continuum of inputs; sign errors show only for some orientations.", "anchors": ["src/ik_two_bone_job.rs:compute_start_joint", "src/ik_two_bone_job.rs:compute_mid_joint"]}
{"id": "C60", "title": "Aim IK keeps up towards the pole vector", "statement": "In exact arithmetic at full weight the correction turns the up vector into the half plane of the target's direction and the pole vector twisted about it.", "quantifier": "every joint matrix, forward, offset, up, target, pole vector and twist in general position", "why_tests_cant": "Continuum of inputs; sign errors show only for some orientations.", "anchors": ["src/ik_aim_job.rs:IKAimJob::run"]}
{"id": "C61", "title": "Single-precision arithmetic is IEEE-754", "statement": "The arithmetic of the model's `F32`, on which every statement about single precision rests, is that of the standard: each operation returns the exact result rounded to nearest, ties to even, with the right sign of zero, overflow, NaNs and infinities; it is monotone; comparisons, min, max and integer conversion are those of Rust.", "quantifier": "every pair of bit patterns", "why_tests_cant": "2^64 pairs of operands per operation.", "anchors": ["src/animation.rs:f16_to_f32", "src/animation.rs:Float3Key::simd_decompress", "src/animation.rs:QuaternionKey::simd_decompress", "src/sampling_job.rs:interpolates"]}
{"id": "C62", "title": "Sampled translations and scales follow their keys in single precision", "statement": "Sampling in single precision, with the crate's own half-float keys, comparisons and interpolation, gives finite components that equal the key's value at every key but the last, move in one direction from key to key, pass the next key by at most 2^-23 of the difference, and are within 2^-20 of the largest value of the straight line; whatever the context was used for before.", "quantifier": "every well-formed animation with finite keys other than +-65504, every ratio, every history of the context", "why_tests_cant": "Every bit pattern of keys, key times and ratios.", "anchors": ["src/sampling_job.rs:interpolates", "src/animation.rs:Float3Key::simd_decompress", "src/math.rs:SoaVec3::lerp", "src/math.rs:simd_f16_to_f32"]}
{"id": "C63", "title": "Sampled rotations are nearly unit in single precision", "statement": "In single precision a compressed rotation decompresses to within seven half quantisation steps and 2^-18 of the rotation it encodes, with a norm within 2^-20 of one; sampled rotations are finite, have a norm within 2^-19 of one and are within 2^-17 of the exact normalised interpolation of the keys around the ratio.", "quantifier": "every compressed rotation; every well-formed animation whose neighbouring rotation keys are at most 120 degrees apart (in quaternion space), every ratio, every history of the context", "why_tests_cant": "2^48 keys; every bit pattern of key times and ratios.", "anchors": ["src/animation.rs:QuaternionKey::decompress", "src/animation.rs:QuaternionKey::simd_decompress", "src/sampling_job.rs:interpolates", "src/math.rs:SoaQuat::nlerp"]}
{"id": "C64", "title": "Model matrices move points as the poses of the ancestors say", "statement": "After a full local-to-model run on a pose with unit rotations, the matrix of a joint takes a point where its own pose takes it (scale component by component, turn by q v q^-1, shift), then its parent's, up to the root joint, and then where the job's root matrix takes it. Without scale and root matrix all distances are kept. (Exact arithmetic.)", "quantifier": "every parents-first hierarchy, every pose with unit rotations, every root matrix, every point", "why_tests_cant": "Hierarchies of every shape and depth and all real poses.", "anchors": ["src/local_to_model_job.rs:LocalToModelJob::run", "src/math.rs:SoaMat4::from_affine", "src/math.rs:SoaMat4::to_aos", "src/math.rs:AosMat4::mul"]}
{"id": "C65", "title": "A mesh skinned in its bind pose stays where it is", "statement": "Skinning with each joint's model matrix times the inverse of the same matrix leaves every position, normal and tangent unchanged whatever the weights and indices; if the model matrices are made with another root matrix, every vertex is moved by that root matrix. (Exact arithmetic.)", "quantifier": "every hierarchy, every pose with unit rotations and non-zero scales, every mesh, weights and indices within the skeleton, every number of influences", "why_tests_cant": "All meshes, weights, hierarchies and poses; three jobs together.", "anchors": ["src/local_to_model_job.rs:LocalToModelJob::run", "src/math.rs:AosMat4::invert", "src/skinning_job.rs:SkinningJob::run"]}
{"id": "C66", "title": "Sine and cosine are accurate in single precision", "statement": "The crate's polynomial sine and cosine, computed in single precision with the code's own reduction to a quadrant, are finite and within 6/2^24 of the sine and cosine of the argument. The unchecked conversion of the quadrant to an integer is within i32 whenever the angle is within 2^31.", "quantifier": "every finite single-precision angle of magnitude at most 2048 (accuracy) or 2^31 (conversion)", "why_tests_cant": "2.3 thousand million bit patterns; sine and cosine are real functions.", "anchors": ["src/math.rs:fx4_sin_cos", "src/math.rs:f32_sin_cos", "src/math.rs:f32_sin", "src/math.rs:f32_cos"]}
{"id": "C67", "title": "Arcsine and arccosine are accurate in single precision", "statement": "The crate's polynomial arcsine and arccosine are within 7/2^24 and 11/2^24 of the exact ones, arguments beyond one counting as one; no argument at all, NaN included, gives an infinity or NaN.", "quantifier": "every single-precision bit pattern", "why_tests_cant": "2^32 bit patterns; real functions.", "anchors": ["src/math.rs:fx4_asin", "src/math.rs:fx4_acos", "src/math.rs:f32_asin", "src/math.rs:f32_acos"]}
{"id": "C68", "title": "Rotations made from axis and angle are rotations in single precision", "statement": "In single precision the quaternion from an axis and an angle is, component by component within 8/2^24, the rotation about the axis by the angle; the quaternion from an axis and a cosine lies along the axis and turns by an angle of that cosine up to 7/2^24. Both have unit norm up to the error of the axis and a few units of 2^-24.", "quantifier": "every nearly unit axis, every angle up to 4095, every cosine from -1 to 1", "why_tests_cant": "Every bit pattern of axis and angle.", "anchors": ["src/math.rs:quat_from_axis_angle", "src/math.rs:quat_from_cos_angle"]}
{"id": "C69", "title": "Animations, skeletons, tracks written through serde are read back", "statement": "An animation, skeleton, track, edge or SoA value written as JSON and read back is the same (a skeleton up to the order of its name map, which no lookup can see), its fields in any order and mixed with unknown ones, exactly when its floats are finite; a non-finite float is an error on reading, never another value. As positional bytes animations, tracks and edges are read back whatever their floats; SoA values and skeletons are not: the length written in front of their components is read as two floats.", "quantifier": "every value, every order of the name map, every order of fields, every bytes following", "why_tests_cant": "Tests serialise one skeleton and one animation with serde_json; neither other formats nor special floats.", "anchors": ["src/math.rs:Serialize for SoaVec3", "src/math.rs:Serialize for SoaQuat", "src/animation.rs:AnimationRaw", "src/skeleton.rs:SkeletonRaw", "src/track.rs:Track", "src/track_triggering_job.rs:Edge"]}
{"id": "C70", "title": "Sampling contexts written as JSON are read back", "statement": "A context reached by any history of use, whose floats are finite, written as JSON and read from text is the same context whatever the memory it is read into held. It cannot be written by formats that need a map's length, cannot be read from input that does not lend out its keys, loses its animation id if the entries are sorted by name, is rejected on reading if it holds a non-finite float (a new context's uninitialised memory may), and an array of wrong length panics.", "quantifier": "every history of use, every content of the memory", "why_tests_cant": "Histories and memory contents.", "anchors": ["src/sampling_job.rs:Serialize for SamplingContext", "src/sampling_job.rs:SamplingContextVisitor", "src/sampling_job.rs:serde_interp"]}
{"id": "C71", "title": "Jobs on shared buffers look as if run one after the other", "statement": "A guard for writing a shared buffer excludes all others. Threads that run local-to-model, sampling and skinning jobs, blending jobs whose layers no other thread writes, and two-phase programs of the application look, at every time, as if the programs had run one after the other, in an order that only grows. Blending takes the guards on its layers one at a time, so if others write its layers the pose it leaves may be the result of no order at all (a concrete execution).", "quantifier": "every number of threads, every sequence of jobs and programs per thread, every interleaving, every number type", "why_tests_cant": "Interleavings of threads cannot be enumerated or forced by tests.", "anchors": ["src/base.rs:OzzBuf", "src/base.rs:OzzMutBuf", "src/local_to_model_job.rs:LocalToModelJob::run", "src/sampling_job.rs:SamplingJob::run", "src/blending_job.rs:BlendingJob::run", "src/skinning_job.rs:SkinningJob::run"]}
{"id": "C72", "title": "Threads running jobs on shared buffers do not deadlock", "statement": "If blending jobs write a buffer numbered below their layers and skinning jobs use buffers numbered in the order in which they are taken, then at every time all threads have finished or one can go on, even if locks prefer writers; and if each thread runs finitely many programs, all finish. Without these conditions two blending jobs, or two skinning jobs, using each other's outputs can wait for each other forever (concrete executions).", "quantifier": "every number of threads, every sequence of jobs per thread, every interleaving and scheduler", "why_tests_cant": "Deadlocks depend on interleavings tests cannot force.", "anchors": ["src/base.rs:OzzBuf", "src/base.rs:OzzMutBuf", "src/blending_job.rs:BlendingJob::run", "src/skinning_job.rs:SkinningJob::run"]}
{"id": "C73", "title": "A job on shared buffers does what the job does, or fails cleanly", "statement": "A job on shared buffers running alone reads and writes exactly what the model of the job says, in RefCells and RwLocks alike, and changes no buffer but its outputs. A blending job with its output among its layers, and a skinning job writing an attribute where it reads it, never return Ok. A poisoned lock stays poisoned, and what a panicking thread leaves in a buffer is never read.", "quantifier": "every job, every content of all buffers, every pattern of sharing, every execution", "why_tests_cant": "All contents and all ways of sharing buffers.", "anchors": ["src/base.rs:OzzBuf", "src/base.rs:OzzMutBuf", "src/local_to_model_job.rs:LocalToModelJob::run", "src/sampling_job.rs:SamplingJob::run", "src/blending_job.rs:BlendingJob::run", "src/skinning_job.rs:SkinningJob::run"]}
{"id": "C74", "title": "Values archived with rkyv are read back", "statement": "An animation, skeleton, track, edge, SoA value or sampling context archived with rkyv behind any bytes, placed at a multiple of 16 and followed by any bytes, is found where the root is looked for, all its parts can be read inside the archive and aligned, and deserializing gives the same value (a skeleton up to the order of its name map, which no lookup can see), whatever its floats. Archiving panics only if something lies farther away than 2 GiB. At addresses that are not multiples of 16 skeletons cannot be read.", "quantifier": "every value, every content of the buffer before and after, every layout the compiler may choose for the archived structs, both byte orders, every order of the name map, every representation of archived strings that gives strings back", "why_tests_cant": "Layouts, byte orders and positions in the buffer are those of the test machine.", "anchors": ["src/animation.rs:ArchivedAnimation", "src/skeleton.rs:ArchivedSkeleton", "src/track.rs:Track", "src/track_triggering_job.rs:Edge", "src/math.rs:Archive for SoaTransform", "src/sampling_job.rs:ArchivedSamplingContext"]}
{"id": "C75", "title": "Validation of archived sampling contexts", "statement": "The archive of a context passes validation, and what passes validation can be read. (The code violates both: the archive of every context for 1 to 64 tracks is rejected, and bytes that no context was archived to are accepted and lead to wild pointers. What holds: an archive of a context that passes is read back as the context; exactly which pass is proved.)", "quantifier": "every context reached by any history, every layout of the archived struct, every aligned position", "why_tests_cant": "Tests validate one archive at one address.", "anchors": ["src/sampling_job.rs:CheckBytes for ArchivedSamplingContext"]}
{"id": "C76", "title": "Scalar tracks sampled in single precision", "statement": "Sampling a scalar track in f32 at any finite ratio succeeds and differs from the value of the real track at that ratio by at most 2^-20 of the largest key value (plus 2^-150). At a key's ratio the result is exactly the key's value; from a step key to the next it is exactly the key's value; between other keys it rises or falls with the ratio as the values do, starts within them and passes the next value by at most 2^-23 of their difference.", "quantifier": "every track with increasing ratios in [0,1] starting at 0 and values up to 2^126, every finite ratio, every bit pattern", "why_tests_cant": "Rounding depends on all bits of ratios and values.", "anchors": ["src/track_sampling_job.rs:TrackSamplingJob::run", "src/track.rs:Track"]}
{"id": "C77", "title": "Triggering in single precision", "statement": "For ranges within 2^24 loops the f32 iteration ends without a panic and reports the crossings of the real track up to rounding: only crossings near the range, each crossing well inside the range exactly once, in the order of loops and keys (backward: reversed and exchanged), at its time up to 2^-20 + (|k|+2)/2^24 in loop k. A range without extent reports nothing. Ranges going beyond 2^24 loops are iterated for ever.", "quantifier": "every track, threshold and range, every bit pattern", "why_tests_cant": "Rounding of times depends on the loop; ranges up to 2^24 loops cannot be tried.", "anchors": ["src/track_triggering_job.rs:TrackTriggeringIter::next", "src/track_triggering_job.rs:TrackTriggeringJob::run"]}
{"id": "C78", "title": "Splitting and mirroring ranges in single precision", "statement": "Frame-by-frame playback in f32: for a <= b <= c every event of [a,c) is reported by exactly one of [a,b) and [b,c), at the same time and in the same direction, provided rounding takes no key to an end of a loop at which a range ends; backward playback mirrors forward playback, provided moreover the keys near the start are further apart than times there can tell. Sufficient gaps between keys are given for both provisos. Without them an event is lost (concrete tracks); reported times need not increase and events need not alternate.", "quantifier": "every track, threshold and a <= b <= c within 2^24 loops, every bit pattern", "why_tests_cant": "Every split point matters, and whether events are lost depends on the last bit of a sum.", "anchors": ["src/track_triggering_job.rs:TrackTriggeringIter::next"]}
{"id": "C79", "title": "Model matrices in single precision", "statement": "Running the local-to-model job on f32 poses with nearly unit rotations (squared norm within d of 1), scales up to s and translations up to B gives, for a joint with n joints on its path, a finite matrix that takes every point where the poses on the path and the root matrix take it, up to (1 + 2^-18 + 8d)^n - 1 of the reach of the path. The bottom row is exactly (0,0,0,1). For poses without scale under the identity, rotations as sampling leaves them and up to 1024 joints on a path: up to n/2^15 of the path's length; bones keep their length up to n^2/2^13 of the longest bone.", "quantifier": "every hierarchy, every pose of floats within the bounds, every root matrix, every point, every bit pattern", "why_tests_cant": "Rounding accumulates along paths of any length and depends on all bits.", "anchors": ["src/local_to_model_job.rs:LocalToModelJob::run", "src/math.rs:SoaMat4::from_affine", "src/math.rs:AosMat4::mul", "src/math.rs:SoaMat4::to_aos"]}
{"id": "C80", "title": "Skinning in single precision", "statement": "A valid f32 skinning job with indices in range writes, for every vertex, finite positions, normals and tangents that differ from the weighted average of where the vertex's joints move it by at most (5n+21)/2^24 of W(m|p|+t) plus 2^-147, where n is the number of influences, W bounds the sum of the vertex's stored weights, m and t bound the matrix entries and |p| is the sum of the coordinates' absolute values; for normals and tangents without t.", "quantifier": "every number of influences up to 2^20, every number of vertices, weights, matrices and points of floats within the bounds, every bit pattern", "why_tests_cant": "Rounding depends on all bits of weights, matrices and points; the last weight is computed by a chain of subtractions.", "anchors": ["src/skinning_job.rs:SkinningJob::run"]}
{"id": "C81", "title": "Blending in single precision", "statement": "Blending f32 poses without additive layers: translation and scale of every joint are finite and within 13(n+1)/2^24 (relative to the largest coordinate) of the weighted average of the layers' and the rest pose's values, for up to 2^16 layers. For up to 511 layers with nearly unit rotations, the rotation is finite, its squared norm is within 2^-19 of 1, and it is within 25(n+1)M/(2^24|R|) + 2^-20 of R/|R|, where M is the total weight and R a sum of the weighted rotations whose signs are aligned wherever the dot product exceeds 12(n+1)M/2^24; R is never shorter than M/sqrt(2(n+1)), and it is the exact aligned sum (up to its overall sign) where all signs are clear.", "quantifier": "every number of layers within the bounds, every pose, weight, joint weight and threshold of floats within the bounds, every bit pattern", "why_tests_cant": "Rounding accumulates over layers, and sign decisions depend on the rounded dot product; rotations could cancel.", "anchors": ["src/blending_job.rs:BlendingJob::run", "src/blending_job.rs:BlendingJob::blend_layers", "src/blending_job.rs:BlendingJob::blend_rest_pose", "src/blending_job.rs:BlendingJob::normalize"]}
{"id": "C82", "title": "Additive layers", "statement": "In exact arithmetic a blending job with additive layers gives what the job without them gives, followed layer by layer, for every joint, by adding w times the translation, turning by the direction of the point at w between the identity and the rotation (the nearer one of q and -q) and multiplying the scale by 1 + w(s - 1), w being the layer's weight times the joint weight; a negative weight takes the same away. In f32, for up to 512 additive layers with weights in [-1,1], nearly unit rotations and scales in [1/4,4], every joint is finite and, after n layers, within 7nB/2^24 (translation, B the largest coordinate), 100n/2^24 (rotation, as a quaternion) and 70n/2^24 relative (scale) of the exact layers applied to the f32 pose without them; the rotation keeps its length up to 100n/2^24.", "quantifier": "every job with additive layers within the bounds, every base pose, every bit pattern", "why_tests_cant": "Errors accumulate over layers; each layer's normalization, quaternion product and reciprocal round.", "anchors": ["src/blending_job.rs:BlendingJob::add_layers", "src/blending_job.rs:BlendingJob::blend_add_pass", "src/blending_job.rs:BlendingJob::blend_sub_pass"]}
{"id": "C83", "title": "Whole frames in single precision", "statement": "Sampling an animation at any ratio in [0,1] through a context with any history, and then computing the model matrices of that pose, both in f32 from the compressed keys: both jobs succeed, and the matrix of a joint with n joints on its path takes every point where the exact poses of the joints on the path (linear interpolation of the keys' translations and scales, normalized linear interpolation of their rotations, in real numbers; there is only one such pose) and the root matrix take it, up to (1 + 2^-14)^n - 1 of the reach of the path. Without scale, under the identity and for up to 1024 joints on a path: up to n/2^13 of the path's length.", "quantifier": "every well-formed animation with keys within the bounds, every context history, every f32 ratio in [0,1], every hierarchy, every root matrix and every point", "why_tests_cant": "Two jobs, the caches of one and the rounding of both interact; ratios, histories and hierarchies are unbounded.", "anchors": ["src/sampling_job.rs:SamplingJob::run", "src/sampling_job.rs:SamplingJob::interpolates", "src/local_to_model_job.rs:LocalToModelJob::run", "src/animation.rs:QuaternionKey::simd_decompress", "src/animation.rs:Float3Key::simd_decompress"]}
{"id": "C84", "title": "Matrix inversion in single precision", "statement": "For f32 matrices whose entries are bounded by row weights times column weights, with a determinant D between 2^-18 and 2^18 and a product A of all weights at most 40|D|, every entry of the computed inverse is finite and within (A/|D|) * (288 + 3024 A/|D|) / 2^24, relative to the reciprocal weights, of the exact inverse. For joints without scale (orthonormal columns up to 1/1000, translation up to T <= 65536): rotation entries within 123/2^24, translation entries within 362 T/2^24, and a point taken into the joint's space and back is where it was up to T/2^13. Limits on the determinant are needed: with a uniform scale of 2^-22 the Newton step overflows, with 2^43 the determinant does, and the result is not a number (concrete matrices).", "quantifier": "every 4x4 matrix of floats within the bounds, every point, every bit pattern", "why_tests_cant": "Cancellation in the cofactors depends on all bits of sixteen entries.", "anchors": ["src/math.rs:AosMat4::invert", "src/math.rs:AosMat4::transform_point"]}
{"id": "C85", "title": "Aiming in single precision", "statement": "The aim job on f32, for a joint without scale (columns orthonormal up to 1/1000, translation up to T <= 65536), a nearly unit forward axis, a target at a distance of at least T/256 from the joint, an offset up to sqrt(15) times that distance, any finite up and pole vectors up to T, any twist angle up to 4095 and any finite weight, always succeeds: the correction is finite and its squared norm is within 2^-16 of 1, with w >= 0 at full weight. Reached is reported exactly when the line through the offset along the forward axis comes within the target's distance d, up to a margin of d^2/2^16 + T d/2^12 in its square. When reached at full weight, some point p of that line is turned onto the target up to d/2^14 + T/2^13 if p and the target are at most 120 degrees apart, and up to d/200 + T/2^13 always. At a lower weight the correction is the normalized linear interpolation from the identity to the full correction, up to 30/2^24. The rotation between two vectors turns one onto the other's direction up to 2^-17 of its length (up to 120 degrees; 1/200 beyond).", "quantifier": "every aim job of floats within the bounds, every bit pattern", "why_tests_cant": "Inversion, square roots, arc cosine, sine and cosine and four quaternion products all round; degenerate up and pole vectors and near-opposite directions take other branches.", "anchors": ["src/ik_aim_job.rs:IKAimJob::run", "src/ik_aim_job.rs:IKAimJob::compute_offsetted_forward", "src/math.rs:quat_from_axis_angle", "src/math.rs:quat_from_vectors", "src/math.rs:quat_from_cos_angle"]}
{"id": "C86", "title": "Two bones in single precision", "statement": "The two-bone job on f32, for start and middle joints without scale (columns orthonormal up to 1/1000, positions up to T <= 65536), bones and a target distance of at least T/128, a nearly unit middle axis, a pole vector not almost parallel to the target, any twist angle up to 4095, any positive weight, and a target that is not softened (softening off, or the target nearer than where it begins by T/2048), always succeeds: both corrections are finite with squared norms within 2^-16 of 1, and w >= 0 at full weight. Reached is reported exactly at full weight for targets between the difference of the bone lengths and their sum times the soften ratio, up to a margin of T/2^11. At a weight below one each correction is the normalized linear interpolation from the identity to the correction at full weight, up to 30/2^24.", "quantifier": "every two-bone job of floats within the bounds, every bit pattern", "why_tests_cant": "Two matrix inversions, four square roots, arc cosines, sines, cosines and quaternion products round; a clamped cosine, a straight or folded chain and near-opposite directions take other branches, each of which could divide by zero.", "anchors": ["src/ik_two_bone_job.rs:IKTwoBoneJob::run", "src/ik_two_bone_job.rs:IKTwoBoneJob::soften_target", "src/ik_two_bone_job.rs:IKTwoBoneJob::compute_mid_joint", "src/ik_two_bone_job.rs:IKTwoBoneJob::compute_start_joint", "src/ik_two_bone_job.rs:IKTwoBoneJob::weight_output"]}
{"id": "C87", "title": "Reaching the target in single precision", "statement": "The two-bone job of C86 on f32 at full weight: with p the end joint, after the middle correction, in the space of the start joint, and x what the start correction makes of it, x is within |p|/2^14 + T/1000 + T|p|/(6000|t|) of the point at distance |p| in the direction of the target t (|p|/200 in place of |p|/2^14 if p points more than 120 degrees away from it), for every target and every middle axis. If also the target is within the reach of the bones (lengths A and B), the middle axis is across both bones up to nu, and the sine of the angle between the bones is at least k >= 1/32, then | |t|^2 - |p|^2 | <= (T(A+B)/300 + (50 e + 4 nu^2)(A+B)^2)/k, where e is how far the joints are from rigid, and x is within that divided by |t|, plus the above, of the target.", "quantifier": "every two-bone job of floats within the bounds, every bit pattern", "why_tests_cant": "The law of cosines, its clamp, the arc cosine, the sign of the bend and the turn about a rounded axis all have errors that the next step magnifies.", "anchors": ["src/ik_two_bone_job.rs:IKTwoBoneJob::run", "src/ik_two_bone_job.rs:IKTwoBoneJob::compute_mid_joint", "src/ik_two_bone_job.rs:IKTwoBoneJob::compute_start_joint", "src/math.rs:quat_from_axis_angle", "src/math.rs:quat_from_vectors"]}
{"id": "C88", "title": "Motion blending in single precision", "statement": "The motion blending job on f32, for up to 512 motions with a positive weight (n of them, weights adding up to M between 2^-30 and 2^30), each standing still or moving by a length between 2^-40 and 2^40, with rotations whose squared norm is within 2^-10 of 1, whatever the unused ones hold. If the weighted sum D of the unit directions has length at least 512 n M/2^24, the blended translation is finite, its length is the weighted average a of the lengths up to 12(n+1)/2^24 of it, and it is within a (12(n+1) + 32 n M/|D|)/2^24 of a in the direction of D. If no used motion moves, it is exactly zero. The rotation is finite, its squared norm is within 2^-19 of 1, and each component is within 9 n M/(2^24 |R|) + 7/2^24 of that of R/|R|, where R is the sum of the weighted rotations, each negated if it points away from the sum before it (either sign will do within 12 n M/2^24), and M^2 <= 2 n |R|^2. Where the signs are clear that is the rotation of the run in exact arithmetic, up to sign. The scale is one. glam may compute lengths, dot products and normalized quaternions in any way that is accurate to 4, 5 and 7 units; three ways are shown to be.", "quantifier": "every list of motions of floats within the bounds, every bit pattern, every accurate way of computing lengths, dot products and normalized quaternions", "why_tests_cant": "Errors accumulate over motions, directions may nearly cancel out, and a sign is decided by a dot product that rounds.", "anchors": ["src/motion_blending_job.rs:MotionBlendingJob::run"]}
{"id": "C89", "title": "Vector and quaternion tracks in single precision", "statement": "Sampling a track of 2-, 3- or 4-vectors on f32, with ratios increasing within [0,1] from 0 and components up to M <= 2^126, at any finite ratio: the job succeeds, every component is a number and is within M/2^20 + 2^-148 of the linear interpolation of the keys in real numbers; at the ratio of a key it is exactly the key's. Sampling a track of rotations whose squared norms are within kappa <= 2^-10 of 1, at any finite ratio: the job succeeds, the squared norm of the result is within kappa or 2^-19 of 1, and the result is within 2^-17 of the normalized linear interpolation along the shorter way (if the dot product of the two keys is at most 2^-21, either way will do); opposite keys are no exception. glam may mix by a + (b - a) t or a (1 - t) + b t or in any way as accurate, compute dot products and normalized quaternions in any way accurate to 5 and 7 units, and test the sign of zero either way.", "quantifier": "every track of floats within the bounds, every f32 ratio, every bit pattern", "why_tests_cant": "The position between two keys is itself a rounded quotient, mixtures of near-opposite keys could be short, and a sign is decided by a dot product that rounds.", "anchors": ["src/track_sampling_job.rs:TrackSamplingJob::run", "src/track.rs:TrackValue::lerp"]}
{"id": "C90", "title": "Whole blended frames in single precision", "statement": "Sample fewer than 512 animations (translations up to M, scales up to s) on f32 at any ratios through contexts with any history, blend the poses with any finite weights and joint weights (n layers, the rest pose filling up to the threshold, total weight W of a joint between 2^-40 and 2^40) and compute the model matrices: all jobs succeed, and the matrix of a joint d joints from its root takes a point, up to a relative error of (1 + sqrt(2(n+1)) (n+17)/2^17)^d - 1, where the exact blends of the exact poses of the joints on the path take it one after the other, and then where the root matrix takes it. The exact blend averages translations and scales, and has the unit quaternion along the sum of the rotations, each negated if it points away from the sum before it (either sign will do where the dot product is at most W (12(n+1) + 640)/2^24). Where the signs are clear there is only one such blend, as a map of points.", "quantifier": "every list of well-formed animations within the bounds, every ratio in [0,1], every history of every context, every weight, every skeleton and every path", "why_tests_cant": "Errors of sampling change the signs and the direction of sums of rotations in blending, whose errors are then carried along the path.", "anchors": ["src/sampling_job.rs:SamplingJob::run", "src/blending_job.rs:BlendingJob::run", "src/local_to_model_job.rs:LocalToModelJob::run"]}
{"id": "C91", "title": "Inverse kinematics applied to a pose", "statement": "Compute the model matrices of a pose, run the two-bone job (ideal trigonometry, real numbers) on three joints one below the other, multiply the local rotations of the first two by the corrections (set_quat on one lane) and update the model matrices from the first joint on, with any invertible affine root matrix, unit rotations and non-zero scales, the same on all axes for the joints from start to middle. Then joints that are not below the start joint keep their model matrices, the start joint keeps its position, and the end joint is where the corrections send it. If the job reported reached (target at least 1e-3 away, axis at a right angle to both bones, pole vector not parallel to the target), the end joint's model position is the target: exactly unless the bent chain points almost opposite to it, and within 1.5e-3 of the distance then. For any target at full weight the end joint is at the softened distance clamped to what the bones can span, in the direction of the target. The same for the aim job: if it reported reached at full weight, the updated model matrix sends a point of the forward line (of the ray, if the target is farther than the offset or the offset is behind the joint) to the target. For a joint with scale (1,2,1) this is false: reached is reported and no point of the forward line is at the target.", "quantifier": "every skeleton in depth-first order, pose, root matrix, chain of joints, target, pole vector, axis, twist angle and ratio of softening", "why_tests_cant": "Connects jobs that are tested separately: corrections in joint space, lanes of blocks of four, partial updates and products of matrices along a path.", "anchors": ["src/ik_two_bone_job.rs:IKTwoBoneJob::run", "src/ik_aim_job.rs:IKAimJob::run", "src/local_to_model_job.rs:LocalToModelJob::run", "src/math.rs:SoaQuat::set_quat", "src/math.rs:SoaQuat::quat"]}
{"id": "C92", "title": "Animated meshes in single precision", "statement": "Sample an animation (or blend several) on f32, compute the model matrices, multiply each by an inverse bind matrix with AosMat4::mul, and skin a mesh with the products: all jobs succeed, every output position is finite, and every coordinate of a vertex v is within Omega (rho s^D b + reach) (3 ((1+theta)^D - 1) + (12 n + 76)/2^24) of the average, with the weights of its n influences, of where the inverse bind matrix, then the exact poses of the joints on the path, then the root matrix take it. Here D bounds the number of joints on a path, theta is 2^-14 for one animation and the blending error of C90 for a blend, s and rho bound the scales and the root matrix, reach = how far from the root a joint can be, b = 3(beta |v|_1 + gamma) with entries of the inverse bind matrices up to beta and gamma, and Omega bounds the stored weights of a vertex (1 if they are positive and add up to at most 1). Without scale, with the identity as root and D <= 1024: Omega (b + 2 D M) (3 D/2^13 + (12 n + 76)/2^24). A pose that undoes the inverse bind matrices leaves vertices where they are.", "quantifier": "every well-formed animation within the bounds, every ratio in [0,1], every history of the context, every skeleton, every set of inverse bind matrices and every mesh, every bit pattern", "why_tests_cant": "Errors of sampling, blending, products along a path, the product with the inverse bind matrix, the rounded last weight and the skinning sum all meet in one vertex.", "anchors": ["src/sampling_job.rs:SamplingJob::run", "src/blending_job.rs:BlendingJob::run", "src/local_to_model_job.rs:LocalToModelJob::run", "src/skinning_job.rs:SkinningJob::run", "src/math.rs:AosMat4::mul"]}
{"id": "C93", "title": "Normals of animated meshes in single precision", "statement": "In the pipeline of C92 without inverse-transpose matrices, with normals and optionally tangents: every output normal and tangent is finite, and every coordinate of what becomes of v is within Omega rho s^D 3 beta |v|_1 (3 ((1+theta)^D - 1) + (12 n + 76)/2^24) + 2^-147 of the exact arrow: draw v with its foot anywhere, let the inverse bind matrices, the exact poses and the root matrix move both ends, average each end over the n influences, and take the difference. The bound is relative to the length of v and does not contain the translations. Without scale, with the identity as root and D <= 1024: Omega 3 beta |v|_1 (3 D/2^13 + (12 n + 76)/2^24) + 2^-147. The exact arrow does not depend on where the foot is.", "quantifier": "every well-formed animation (or blend) within the bounds, every ratio in [0,1], every history of the context, every skeleton, every set of inverse bind matrices, every mesh and every place to draw the arrows, every bit pattern", "why_tests_cant": "Joints may be kilometres away from the origin; that their translations do not leak into normals has to hold for all of them.", "anchors": ["src/skinning_job.rs:SkinningJob::run", "src/sampling_job.rs:SamplingJob::run", "src/blending_job.rs:BlendingJob::run", "src/local_to_model_job.rs:LocalToModelJob::run", "src/math.rs:AosMat4::mul"]}
{"id": "C94", "title": "Whole frames with additive layers in single precision", "statement": "In the pipeline of C90 with up to k <= 48 additive layers (weights between -1 and 1, nearly unit rotations, scales between 1/4 and 4; the translations of the first few layers add up to at most N in every coordinate, their scales multiply to at least 2^-20 and at most g): sampling, blending and the model space job all succeed, and, if no scale of an exact blend of the n animations is smaller than (n+4) s/2^19, the matrix of a joint d joints from its root takes a point, up to a relative error of (1 + theta + (k+1)/2^13)^d - 1 with theta the error of C90, where the exact blends with the exact layers on top take it one after the other, and then where the root matrix takes it. Exact layers do not depend on what is below them: they add a translation, turn by a rotation (on the right) and multiply by a scale. The scales of an exact blend are at least a if those of all keys and of the rest pose are.", "quantifier": "every list of well-formed animations within the bounds, every ratio in [0,1], every history of every context, every weight, every list of additive layers within the bounds, every skeleton and every path", "why_tests_cant": "Additive layers divide by scales when they are taken away, multiply the errors of the blend, and their own errors are carried along the path.", "anchors": ["src/sampling_job.rs:SamplingJob::run", "src/blending_job.rs:BlendingJob::run", "src/local_to_model_job.rs:LocalToModelJob::run"]}
{"id": "C95", "title": "Animated meshes with additive layers in single precision", "statement": "Sample fewer than 512 animations on f32 through contexts with any history, blend them with any weights, put up to 48 additive layers on top (as in C94), compute the model matrices, multiply each by an inverse bind matrix and skin a mesh, where no scale of a key or of the rest pose is smaller than (n+4) s/2^19: all jobs succeed; every output coordinate of a vertex v is finite and within Omega (rho G^D b + reach) (3 ((1+theta)^D - 1) + (12 m + 76)/2^24) of the average over its m influences of where the inverse bind matrix, then the exact blends with the exact layers on top of the joints on the path, then the root matrix take it; and normals and tangents are within Omega rho G^D 3 beta |v|_1 (3 ((1+theta)^D - 1) + (12 m + 76)/2^24) + 2^-147 of the exact arrows of C93. Here theta is the error of C94, G bounds the scales of blends and layers together, and the other letters are those of C92.", "quantifier": "every list of well-formed animations within the bounds, every ratio in [0,1], every history of every context, every weight, every list of additive layers within the bounds, every skeleton, every set of inverse bind matrices and every mesh, every bit pattern", "why_tests_cant": "Five jobs in a row: tests compare each with recorded outputs at a few times.", "anchors": ["src/sampling_job.rs:SamplingJob::run", "src/blending_job.rs:BlendingJob::run", "src/local_to_model_job.rs:LocalToModelJob::run", "src/skinning_job.rs:SkinningJob::run", "src/math.rs:AosMat4::mul"]}
{"id": "C96", "title": "Poses of joints in SoA buffers", "statement": "Write transforms of joints into a buffer of SoA transforms with set_transform(joint % 4, t) on element joint / 4, in any order and any number of times: no write inside the buffer panics, reading any joint back with transform gives, bit for bit, what was last written for it, or what was there before if nothing was; a joint or lane outside panics. All four lanes of splat_transform are the transform. The local matrix of a joint depends on that joint's pose alone, bit for bit, whatever its neighbours in the register are, and that of IDENTITY is exactly the identity matrix on f32.", "quantifier": "every buffer, every sequence of writes, every bit pattern (NaNs included)", "why_tests_cant": "Four joints share every register; a swapped lane or component shows only for poses that differ in it.", "anchors": ["src/math.rs:SoaTransform::set_transform", "src/math.rs:SoaTransform::transform", "src/math.rs:SoaTransform::splat_transform", "src/math.rs:SoaMat4::from_affine", "src/math.rs:SoaMat4::to_aos"]}
{"id": "C97", "title": "Comparing sampling contexts", "statement": "Two contexts compare equal exactly when capacity, animation id, cursors, entries and flags are the same and all floats are the same numbers (zeros of either sign count as one, NaNs never as equal). The comparison is symmetric and transitive; a context equals its clone, or what comes back from saving and loading it, exactly if it holds no NaN. New contexts may not equal their clones, as their memory is uninitialised; after sampling a well-formed animation with finite keys below the largest half float they do. Contexts made by from_animation produce, after any history, the poses of new ones.", "quantifier": "every pair of contexts, every content of uninitialised memory, every history of uses, every well-formed animation and ratio", "why_tests_cant": "Whether clones compare equal depends on what malloc returned; tests mostly get zeroed pages.", "anchors": ["src/sampling_job.rs:SamplingContext::eq", "src/sampling_job.rs:SamplingContext::clone", "src/sampling_job.rs:SamplingContext::from_animation", "src/sampling_job.rs:SamplingContext::new"]}
{"id": "C98", "title": "Blending treats every joint by itself", "statement": "Take two blending jobs, over any two skeletons, and a joint of each. If the thresholds are the same and the layers and additive layers agree one by one about these two joints (weight of the layer, presence of joint weights, joint weight, the ten numbers of the pose) and so do the rest poses, then both runs give the two joints the same ten numbers, bit for bit. Nothing is assumed of the other joints, also not of those in the same SIMD register, of the places of the two joints, of the contexts and of the old outputs.", "quantifier": "every pair of jobs and joints, any arithmetic and f32 with NaN and infinity in particular", "why_tests_cant": "A lane or index mixed up, or a NaN leaking from a neighbour, shows only in particular combinations of joints.", "anchors": ["src/blending_job.rs:blend_layers", "src/blending_job.rs:blend_rest_pose", "src/blending_job.rs:normalize", "src/blending_job.rs:add_layers", "src/blending_job.rs:BlendingJob::run"]}
{"id": "C99", "title": "Skinning treats every vertex by itself", "statement": "Take two valid skinning jobs with the same number of influences and a vertex of each. If the two vertices have the same weights and refer to the same matrices in the same order, under whatever joint indices, then both runs succeed and send the same position to the same position and, if the normal matrices referred to are the same too, the same normals and tangents to the same normals and tangents, bit for bit. Nothing is assumed of the other vertices, the other joints, the places of the two vertices and the old outputs; one run may check overflow and the other not.", "quantifier": "every pair of jobs and vertices, any number of influences, any arithmetic and f32 with NaN and infinity in particular", "why_tests_cant": "An offset that is wrong by one vertex or one influence shows only for meshes whose neighbours differ.", "anchors": ["src/skinning_job.rs:SkinningJob::run", "src/skinning_job.rs:skinning_1", "src/skinning_job.rs:skinning_impl", "src/skinning_job.rs:SkinningJob::validate"]}
{"id": "C100", "title": "A spoiled joint spoils only what hangs on it", "statement": "Two frames of the same hierarchy are blended, converted to model matrices and skinned. If the two blending jobs say the same about a joint and all its ancestors (rest pose, pose and weight in every layer and additive layer), then the joint has the same model matrix in both frames, bit for bit, whatever the jobs say about all other joints: NaN and infinity included. A vertex all of whose joints have the same model matrices goes to the same place in both frames, and so do its normal and its tangent.", "quantifier": "every hierarchy, every pair of jobs, any arithmetic in which subtracting zero keeps a positive threshold positive and f32 in particular", "why_tests_cant": "Leaks between joints that share a SIMD register show only if a neighbour holds NaN or infinity, and between vertices only if they are far apart.", "anchors": ["src/blending_job.rs:BlendingJob::run", "src/local_to_model_job.rs:LocalToModelJob::run", "src/skinning_job.rs:SkinningJob::run", "src/math.rs:SoaMat4::from_affine", "src/math.rs:SoaMat4::to_aos"]}
{"id": "C101", "title": "Sampling treats every track by itself", "statement": "Take two animations, a context for each with any history of its own, and the same ratio. If a track of one animation has the same keys at the same times as a track of the other in all three channels, then both runs succeed and the two tracks get the same pose, bit for bit. Nothing is assumed of the other tracks, the number of tracks, where the two tracks and their keys are stored and the interval frames, beyond the animations being well-formed. Infinite and NaN keys of other tracks do no harm.", "quantifier": "every pair of well-formed animations, contexts with any history, every ratio, any arithmetic with ordered ratios and f32 with the crate's key formats in particular", "why_tests_cant": "All tracks share one sorted key array, one cursor and four of them one register; a leak shows only for particular neighbours and histories.", "anchors": ["src/sampling_job.rs:SamplingJob::run", "src/sampling_job.rs:SamplingJob::update_cache", "src/sampling_job.rs:SamplingJob::interpolates", "src/animation.rs:Float3Key::simd_decompress", "src/animation.rs:QuaternionKey::simd_decompress"]}
{"id": "C102", "title": "A spoiled track spoils only what hangs on its joint", "statement": "Two frames of the same hierarchy sample animations, through contexts with any histories, blend them with additive animations and the rest pose under the same threshold, and convert to model matrices in single precision, all without error. If for a joint and all its ancestors the animations played have the same keys at the same times in the joint's track, and the ratios, weights, joint weights of the joint and rest pose of the joint are the same, then the joint has the same model matrix in both frames, bit for bit. If an animation is played by itself and skins a mesh, a vertex all of whose joints are such goes to the same place, and so do its normal and tangent. Nothing is assumed of the other tracks and of where the animations, keys and contexts are stored.", "quantifier": "every hierarchy, every two lists of plays and additive plays of well-formed animations, contexts with any history, f32 with NaN and infinity", "why_tests_cant": "Needs animations that differ in unrelated tracks, with the same frame computed for both through different histories.", "anchors": ["src/sampling_job.rs:SamplingJob::run", "src/blending_job.rs:BlendingJob::run", "src/local_to_model_job.rs:LocalToModelJob::run", "src/skinning_job.rs:SkinningJob::run"]}
