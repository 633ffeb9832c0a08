{
 "claims": [
  {
   "property": "C01",
   "status": "proved",
   "theorems": [
    "Ozz.Props.C01_byte_order_transparent",
    "Ozz.Props.C01_typed_readers",
    "Ozz.Props.C01_other_readers",
    "Ozz.Props.C01_bool",
    "Ozz.Props.C01_host_independent"
   ],
   "note": "Numbers of any byte size; host independence also on malformed files. A byte other than 0 and 1 read as a bool is undefined behaviour (C01_bool; no loader reads one)."
  },
  {
   "property": "C02",
   "status": "proved",
   "theorems": [
    "Ozz.Props.C02_strings",
    "Ozz.Props.C02_cases",
    "Ozz.Props.C02_utf8"
   ],
   "note": "UTF-8 validity is specified from code points."
  },
  {
   "property": "C03",
   "status": "proved",
   "theorems": [
    "Ozz.Props.C03_track_round_trip",
    "Ozz.Props.C03_huge_key_count_panics"
   ],
   "note": "Key counts within 7 of 2^32 are excluded: the code overflows there."
  },
  {
   "property": "C04",
   "status": "partial",
   "theorems": [
    "Ozz.Props.C04_skeleton_arrays_round_trip",
    "Ozz.Props.C04_skeleton_names_round_trip_partial",
    "Ozz.Props.C04_names_kept",
    "Ozz.Props.C04_repeated_name_lost",
    "Ozz.Props.C04_empty_skeleton_rejected",
    "Ozz.Props.C04_meta_agrees"
   ],
   "note": "Counts, parents and rest poses for every skeleton; names only when distinct and at most 32768. The code loses repeated names (witness)."
  },
  {
   "property": "C05",
   "status": "proved",
   "theorems": [
    "Ozz.Props.C05_animation_round_trip",
    "Ozz.Props.C05_ratio_width"
   ],
   "note": ""
  },
  {
   "property": "C06",
   "status": "proved",
   "theorems": [
    "Ozz.Props.C06_truncated_rejected"
   ],
   "note": ""
  },
  {
   "property": "C07",
   "status": "proved",
   "theorems": [
    "Ozz.Props.C07_other_tag_rejected",
    "Ozz.Props.C07_other_version_rejected",
    "Ozz.Props.C07_success_implies_tag_version",
    "Ozz.Props.C07_tags_distinct"
   ],
   "note": ""
  },
  {
   "property": "C08",
   "status": "proved",
   "theorems": [
    "Ozz.Props.C08_animation_layout",
    "Ozz.Props.C08_empty_allocation",
    "Ozz.Props.C08_overread_stays_inside"
   ],
   "note": "64-bit addresses."
  },
  {
   "property": "C09",
   "status": "proved",
   "theorems": [
    "Ozz.Props.C09_context_layout"
   ],
   "note": "64-bit addresses; header size is a parameter."
  },
  {
   "property": "C10",
   "status": "proved",
   "theorems": [
    "Ozz.Props.C10_skeleton_layout",
    "Ozz.Props.C10_empty_allocation"
   ],
   "note": ""
  },
  {
   "property": "C100",
   "status": "proved",
   "theorems": [
    "Ozz.Props.C100_models",
    "Ozz.Props.C100_joint",
    "Ozz.Props.C100_joint_f32",
    "Ozz.Props.C100_vertex"
   ],
   "note": "Parents precede children and the buffers are large enough, as for C28; joint indices in range as in C48; no separate normal matrices in C100_vertex."
  },
  {
   "property": "C101",
   "status": "proved",
   "theorems": [
    "Ozz.Props.C101_track_alone",
    "Ozz.Props.C101_f32"
   ],
   "note": "Well-formed animations whose SoA track count is the context's, as for C16."
  },
  {
   "property": "C102",
   "status": "proved",
   "theorems": [
    "Ozz.Props.C102_frame",
    "Ozz.Props.C102_playback",
    "Ozz.Props.C102_layers",
    "Ozz.Props.C102_mesh"
   ],
   "note": "C101 and C100 together; both blending jobs are assumed to run (C35 says which valid jobs do), the animations to be well-formed. C102_mesh skins straight after plain playback, without separate normal matrices."
  },
  {
   "property": "C11",
   "status": "proved",
   "theorems": [
    "Ozz.Props.C11_fields",
    "Ozz.Props.C11_unique_key"
   ],
   "note": ""
  },
  {
   "property": "C12",
   "status": "proved",
   "theorems": [
    "Ozz.Props.C12_components",
    "Ozz.Props.C12_unit",
    "Ozz.Props.C12_clamped",
    "Ozz.Props.C12_quantisation_error",
    "Ozz.Props.C12_every_rotation_encodable",
    "Ozz.Props.C12_four_wide"
   ],
   "note": "Exact arithmetic for the unit norm and the errors; the lane theorem is bit-for-bit in f32 arithmetic."
  },
  {
   "property": "C13",
   "status": "partial",
   "theorems": [
    "Ozz.Props.C13_scalar_exact",
    "Ozz.Props.C13_four_wide_partial",
    "Ozz.Props.C13_agree_partial",
    "Ozz.Props.C13_float3_keys_partial",
    "Ozz.Props.C13_largest_half_becomes_nan"
   ],
   "note": "Proved for the scalar conversion. False for the four-wide one at +-65504, which becomes NaN; proved for all other halves."
  },
  {
   "property": "C14",
   "status": "proved",
   "theorems": [
    "Ozz.Props.C14_gv4_round_trip",
    "Ozz.Props.C14_gv4_no_outside_dependence",
    "Ozz.Props.C14_gv4_decoded_length"
   ],
   "note": "Decoding inverts an independent encoder for every list of u32 values of length divisible by four, whatever follows; the result never depends on memory outside the slice."
  },
  {
   "property": "C15",
   "status": "proved",
   "theorems": [
    "Ozz.Props.C15_history_independent"
   ],
   "note": "Every history of samples (several live animations), clears, clones, saves and loads; arbitrary initial memory; abstract numbers."
  },
  {
   "property": "C16",
   "status": "proved",
   "theorems": [
    "Ozz.Props.C16_sampling_brackets"
   ],
   "note": "Every output element is the interpolation of bracketing keys in all three channels."
  },
  {
   "property": "C17",
   "status": "proved",
   "theorems": [
    "Ozz.Props.C17_sampling_never_panics",
    "Ozz.Props.C17_from_animation_never_panics"
   ],
   "note": "All assertions, index and underflow panics of the job are explicit in the model; no history reaches one."
  },
  {
   "property": "C18",
   "status": "proved",
   "theorems": [
    "Ozz.Props.C18_iframes_only_accelerate"
   ],
   "note": "Histories on the two versions may differ."
  },
  {
   "property": "C19",
   "status": "proved",
   "theorems": [
    "Ozz.Props.C19_context_moves_between_animations",
    "Ozz.Props.C19_address_reuse_gives_stale_pose"
   ],
   "note": "Second theorem: the restriction to simultaneously live animations is necessary (the context identifies an animation by its address)."
  },
  {
   "property": "C20",
   "status": "partial",
   "theorems": [
    "Ozz.Props.C20_same_soa_capacity_partial",
    "Ozz.Props.C20_larger_context_panics"
   ],
   "note": "False as stated: a larger context passes validation and panics. The partial theorem covers capacities rounding to the same SoA count."
  },
  {
   "property": "C21",
   "status": "proved",
   "theorems": [
    "Ozz.Props.C21_writes_exactly_its_tracks",
    "Ozz.Props.C21_error_changes_nothing"
   ],
   "note": ""
  },
  {
   "property": "C22",
   "status": "proved",
   "theorems": [
    "Ozz.Props.C22_always_in_range",
    "Ozz.Props.C22_clamps",
    "Ozz.Props.C22_nan",
    "Ozz.Props.C22_infinities"
   ],
   "note": "All 2^32 bit patterns; any min/max with the documented behaviour."
  },
  {
   "property": "C23",
   "status": "partial",
   "theorems": [
    "Ozz.Props.C23_translation_scale",
    "Ozz.Props.C23_rotation_partial",
    "Ozz.Props.C23_opposite_keys"
   ],
   "note": "Exact arithmetic. Translations and scales fully proved; rotations are unit and continuous unless two neighbouring keys are opposite, where the property is false (witness)."
  },
  {
   "property": "C24",
   "status": "proved",
   "theorems": [
    "Ozz.Props.C24_iter_depth_first_subtree",
    "Ozz.Props.C24_iter_depth_first_all",
    "Ozz.Props.C24_iter_depth_first_out_of_range",
    "Ozz.Props.C24_forest_depthFirst"
   ],
   "note": "Parent arrays in pre-order; at most 2^15 joints (the callback takes i16). C24_forest_depthFirst shows every forest laid out in pre-order qualifies."
  },
  {
   "property": "C25",
   "status": "proved",
   "theorems": [
    "Ozz.Props.C25_reverse_visits_all",
    "Ozz.Props.C25_children_before_parents"
   ],
   "note": ""
  },
  {
   "property": "C26",
   "status": "proved",
   "theorems": [
    "Ozz.Props.C26_is_leaf_iff",
    "Ozz.Props.C26_is_leaf_past_end_panics"
   ],
   "note": "The doc comment's range [0, num joints] includes one index that panics."
  },
  {
   "property": "C27",
   "status": "proved",
   "theorems": [
    "Ozz.Props.C27_names_inverse",
    "Ozz.Props.C27_lookups_inverse",
    "Ozz.Props.C27_index_wraps"
   ],
   "note": ""
  },
  {
   "property": "C28",
   "status": "proved",
   "theorems": [
    "Ozz.Props.C28_full_run",
    "Ozz.Props.C28_model_matrix_unique"
   ],
   "note": "Any product, no algebraic law used, so f32 rounding is covered."
  },
  {
   "property": "C29",
   "status": "proved",
   "theorems": [
    "Ozz.Props.C29_partial_update",
    "Ozz.Props.C29_to_max_panics",
    "Ozz.Props.C29_to_max_release_updates_nothing"
   ],
   "note": "to = i32::MAX (and from = i32::MAX with from_excluded) overflow; the two extra theorems state what happens then."
  },
  {
   "property": "C30",
   "status": "proved",
   "theorems": [
    "Ozz.Props.C30_incremental_eq_full"
   ],
   "note": ""
  },
  {
   "property": "C31",
   "status": "proved",
   "theorems": [
    "Ozz.Props.C31_weighted_average",
    "Ozz.Props.C31_total"
   ],
   "note": "Exact arithmetic, for every successful run without additive layers."
  },
  {
   "property": "C32",
   "status": "proved",
   "theorems": [
    "Ozz.Props.C32_layer_removed",
    "Ozz.Props.C32_joint",
    "Ozz.Props.C32_weightless"
   ],
   "note": "Whole layers law-free (so in f32 too); single joints in exact arithmetic."
  },
  {
   "property": "C33",
   "status": "partial",
   "theorems": [
    "Ozz.Props.C33_unit",
    "Ozz.Props.C33_sign_partial",
    "Ozz.Props.C33_all_signs",
    "Ozz.Props.C33_orthogonal_layer",
    "Ozz.Props.C33_long",
    "Ozz.Props.C33_always_unit"
   ],
   "note": "Unit norm proved, for all rotations that are not zero: aligned rotations never cancel. Sign changes are proved irrelevant except for a rotation orthogonal to the sum so far, where the code does depend on the sign (witness)."
  },
  {
   "property": "C34",
   "status": "proved",
   "theorems": [
    "Ozz.Props.C34_subtract_undoes_add"
   ],
   "note": "Exact arithmetic; unit layer rotations. The two runs have the same outcome, context included."
  },
  {
   "property": "C35",
   "status": "partial",
   "theorems": [
    "Ozz.Props.C35_valid_runs_partial",
    "Ozz.Props.C35_longer_output_panics"
   ],
   "note": "False as stated: with no positive layer and an output longer than the skeleton the run panics. Otherwise proved, law-free."
  },
  {
   "property": "C36",
   "status": "partial",
   "theorems": [
    "Ozz.Props.C36_rejected_partial",
    "Ozz.Props.C36_early_errors",
    "Ozz.Props.C36_output_changed"
   ],
   "note": "Never Ok, law-free. False as stated: a bad layer is found after earlier layers were written."
  },
  {
   "property": "C37",
   "status": "proved",
   "theorems": [
    "Ozz.Props.C37_unit",
    "Ozz.Props.C37_scale_invariant",
    "Ozz.Props.C37_ignored",
    "Ozz.Props.C37_identity",
    "Ozz.Props.C37_single"
   ],
   "note": "Exact arithmetic; ignoring non-positive weights is law-free."
  },
  {
   "property": "C38",
   "status": "proved",
   "theorems": [
    "Ozz.Props.C38_length",
    "Ozz.Props.C38_cancelled"
   ],
   "note": "Exact arithmetic."
  },
  {
   "property": "C39",
   "status": "proved",
   "theorems": [
    "Ozz.Props.C39_sampling_spec",
    "Ozz.Props.C39_sample_unique",
    "Ozz.Props.C39_no_track_rejected",
    "Ozz.Props.C39_outside_first_last",
    "Ozz.Props.C39_nan_gives_last",
    "Ozz.Props.C39_late_first_key_divides_by_zero"
   ],
   "note": "First theorem needs the first key at ratio 0, as the statement says; the last one states what the code does otherwise. NaN and out-of-range ratios are covered law-free."
  },
  {
   "property": "C40",
   "status": "proved",
   "theorems": [
    "Ozz.Props.C40_hits_keys",
    "Ozz.Props.C40_step_holds",
    "Ozz.Props.C40_linear_segment",
    "Ozz.Props.C40_continuous_without_steps"
   ],
   "note": "Lipschitz bound over any ordered field; the value type's interpolation is a parameter for key hits."
  },
  {
   "property": "C41",
   "status": "proved",
   "theorems": [
    "Ozz.Props.C41_forward_reports_crossings",
    "Ozz.Props.C41_empty_range",
    "Ozz.Props.C41_crossing_list_unique",
    "Ozz.Props.C41_end_of_loop_belongs_to_the_loop",
    "Ozz.Props.C41_end_of_loop_not_in_next_range",
    "Ozz.Props.C41_no_progress_never_ends"
   ],
   "note": "Exact arithmetic. A crossing at the very end of a loop belongs to the range ending there (two witnesses). In any arithmetic where adding one no longer changes the loop counter the iteration never ends."
  },
  {
   "property": "C42",
   "status": "proved",
   "theorems": [
    "Ozz.Props.C42_backward_mirrors_forward"
   ],
   "note": ""
  },
  {
   "property": "C43",
   "status": "proved",
   "theorems": [
    "Ozz.Props.C43_split_range",
    "Ozz.Props.C43_split_range_backward"
   ],
   "note": ""
  },
  {
   "property": "C44",
   "status": "proved",
   "theorems": [
    "Ozz.Props.C44_periodic"
   ],
   "note": "Forward, backward and empty ranges."
  },
  {
   "property": "C45",
   "status": "proved",
   "theorems": [
    "Ozz.Props.C45_edges_alternate"
   ],
   "note": "Also backward."
  },
  {
   "property": "C46",
   "status": "proved",
   "theorems": [
    "Ozz.Props.C46_skinned",
    "Ozz.Props.C46_weights_sum",
    "Ozz.Props.C46_rigid"
   ],
   "note": "Exact arithmetic, every influence count and attribute set."
  },
  {
   "property": "C47",
   "status": "proved",
   "theorems": [
    "Ozz.Props.C47_dispatch",
    "Ozz.Props.C47_reachable"
   ],
   "note": ""
  },
  {
   "property": "C48",
   "status": "partial",
   "theorems": [
    "Ozz.Props.C48_runs",
    "Ozz.Props.C48_no_panic",
    "Ozz.Props.C48_rejected_partial",
    "Ozz.Props.C48_missing_matrices",
    "Ozz.Props.C48_accepts_empty_matrices",
    "Ozz.Props.C48_accepts_lone_tangents",
    "Ozz.Props.C48_partial_write",
    "Ozz.Props.C48_size_overflow"
   ],
   "note": "Valid jobs are fully proved, law-free. The second half is false as stated (missing matrices panic, some rejected jobs succeed); proved for all other jobs."
  },
  {
   "property": "C49",
   "status": "proved",
   "theorems": [
    "Ozz.Props.C49_mul",
    "Ozz.Props.C49_inverse",
    "Ozz.Props.C49_singular"
   ],
   "note": "Exact arithmetic, Mathlib's matrix product and determinant as specification."
  },
  {
   "property": "C50",
   "status": "proved",
   "theorems": [
    "Ozz.Props.C50_transpose",
    "Ozz.Props.C50_point",
    "Ozz.Props.C50_vector",
    "Ozz.Props.C50_compose",
    "Ozz.Props.C50_affine"
   ],
   "note": "Exact arithmetic; the transposition theorem is law-free."
  },
  {
   "property": "C51",
   "status": "partial",
   "theorems": [
    "Ozz.Props.C51_products",
    "Ozz.Props.C51_rotation",
    "Ozz.Props.C51_isometry",
    "Ozz.Props.C51_composition",
    "Ozz.Props.C51_between_partial",
    "Ozz.Props.C51_opposite_error",
    "Ozz.Props.C51_small_vectors"
   ],
   "note": "Proved except for the quaternion between two vectors whose lengths multiply to less than 1e-6: the code returns the identity there (witness). Nearly opposite vectors are turned into the exact opposite; the error is bounded."
  },
  {
   "property": "C52",
   "status": "proved",
   "theorems": [
    "Ozz.Props.C52_rejected",
    "Ozz.Props.C52_rejected_exact",
    "Ozz.Props.C52_runs",
    "Ozz.Props.C52_zero_weight",
    "Ozz.Props.C52_reached_full_weight",
    "Ozz.Props.C52_nonneg_w",
    "Ozz.Props.C52_unit",
    "Ozz.Props.C52_pole_parallel"
   ],
   "note": "Rejection, zero weight and reached hold for any arithmetic; signs and unit norm in exact arithmetic. A pole vector along the target gives NaN in f32 (witness C52_pole_parallel)."
  },
  {
   "property": "C53",
   "status": "partial",
   "theorems": [
    "Ozz.Props.C53_reached_iff",
    "Ozz.Props.C53_reaches_partial",
    "Ozz.Props.C53_skew_axis"
   ],
   "note": "Exact arithmetic, ideal trigonometry. Proved for a unit middle axis at a right angle to both bones and a middle joint similar to the start joint; false for other axes (witness)."
  },
  {
   "property": "C54",
   "status": "partial",
   "theorems": [
    "Ozz.Props.C54_aims_partial",
    "Ozz.Props.C54_unreached",
    "Ozz.Props.C54_rejected",
    "Ozz.Props.C54_runs",
    "Ozz.Props.C54_weighted_unit",
    "Ozz.Props.C54_behind",
    "Ozz.Props.C54_close_target"
   ],
   "note": "Exact arithmetic, ideal trigonometry. Aims along the forward line; the ray as stated and targets closer than 1e-3 are false (witnesses)."
  },
  {
   "property": "C55",
   "status": "proved",
   "theorems": [
    "Ozz.Props.C55_clone_and_save_load",
    "Ozz.Props.C55_restored_elsewhere"
   ],
   "note": "serde path modelled field by field; rkyv path copies the same fields and is not modelled separately."
  },
  {
   "property": "C56",
   "status": "proved",
   "theorems": [
    "Ozz.Props.C56_animation_raw",
    "Ozz.Props.C56_animation_there_and_back",
    "Ozz.Props.C56_mismatched_raw_panics",
    "Ozz.Props.C56_skeleton_raw"
   ],
   "note": "On byte memory, with a frame condition."
  },
  {
   "property": "C57",
   "status": "proved",
   "theorems": [
    "Ozz.Props.C57_no_memory",
    "Ozz.Props.C57_f32"
   ],
   "note": "Law-free but for one inequality, which C57_f32 proves for single precision."
  },
  {
   "property": "C58",
   "status": "proved",
   "theorems": [
    "Ozz.Props.C58_distance",
    "Ozz.Props.C58_end",
    "Ozz.Props.C58_soft_exact",
    "Ozz.Props.C58_soft_off",
    "Ozz.Props.C58_soft_below",
    "Ozz.Props.C58_soft_mono",
    "Ozz.Props.C58_soft_continuous",
    "Ozz.Props.C58_soft_overshoots",
    "Ozz.Props.C58_overshoot"
   ],
   "note": "Exact arithmetic, ideal trigonometry; middle axis at a right angle to the bones. Just beyond the soft limit the end joint overshoots the target (C58_overshoot)."
  },
  {
   "property": "C59",
   "status": "proved",
   "theorems": [
    "Ozz.Props.C59_axis",
    "Ozz.Props.C59_middle",
    "Ozz.Props.C59_bend"
   ],
   "note": "Exact arithmetic, ideal trigonometry; middle axis at a right angle to the bones; the side needs both matrices mirrored or both not."
  },
  {
   "property": "C60",
   "status": "proved",
   "theorems": [
    "Ozz.Props.C60_up"
   ],
   "note": "Exact arithmetic, ideal trigonometry; up and pole vector not parallel to the target."
  },
  {
   "property": "C61",
   "status": "proved",
   "theorems": [
    "Ozz.Props.C61_arithmetic",
    "Ozz.Props.C61_literals",
    "Ozz.Props.C61_unique",
    "Ozz.Props.C61_monotone",
    "Ozz.Props.C61_special",
    "Ozz.Props.C61_special_unary",
    "Ozz.Props.C61_order",
    "Ozz.Props.C61_to_i32"
   ],
   "note": "The specification (Spec/Rounding) says nearest and even over the reals; it fixes every result except the payload of a NaN (C61_unique)."
  },
  {
   "property": "C62",
   "status": "proved",
   "theorems": [
    "Ozz.Props.C62_translation_scale",
    "Ozz.Props.C62_history_independent",
    "Ozz.Props.C62_last_key_missed"
   ],
   "note": "Single precision, the crate's own number functions. The last key is met up to 2^-23 of the difference, not exactly (witness)."
  },
  {
   "property": "C63",
   "status": "proved",
   "theorems": [
    "Ozz.Props.C63_key",
    "Ozz.Props.C63_encoded",
    "Ozz.Props.C63_rotation"
   ],
   "note": "Single precision, the crate's own number functions."
  },
  {
   "property": "C64",
   "status": "proved",
   "theorems": [
    "Ozz.Props.C64_point",
    "Ozz.Props.C64_rigid"
   ],
   "note": "Exact arithmetic; LocalToModelJob, SoaMat4 and AosMat4 together."
  },
  {
   "property": "C65",
   "status": "proved",
   "theorems": [
    "Ozz.Props.C65_root_moves_mesh",
    "Ozz.Props.C65_bind_pose"
   ],
   "note": "Exact arithmetic; LocalToModelJob, AosMat4::invert and SkinningJob together. Multiplying the matrices is the caller's step."
  },
  {
   "property": "C66",
   "status": "proved",
   "theorems": [
    "Ozz.Props.C66_sin_cos",
    "Ozz.Props.C66_conversion",
    "Ozz.Props.C66_large",
    "Ozz.Props.C66_conversion_undefined"
   ],
   "note": "Against Mathlib's sine and cosine. The limits are needed: at 2^28 the computed sine is below -26; at 2^32, infinities and NaN the unchecked conversion is undefined (witnesses)."
  },
  {
   "property": "C67",
   "status": "proved",
   "theorems": [
    "Ozz.Props.C67_asin_acos",
    "Ozz.Props.C67_total"
   ],
   "note": "Against Mathlib's arcsine and arccosine."
  },
  {
   "property": "C68",
   "status": "proved",
   "theorems": [
    "Ozz.Props.C68_axis_angle",
    "Ozz.Props.C68_cos_angle"
   ],
   "note": "Single precision, with the crate's own sine and cosine."
  },
  {
   "property": "C69",
   "status": "proved",
   "theorems": [
    "Ozz.Props.C69_animation_json",
    "Ozz.Props.C69_animation_json_nonfinite",
    "Ozz.Props.C69_animation_bytes",
    "Ozz.Props.C69_skeleton_json",
    "Ozz.Props.C69_soa_json",
    "Ozz.Props.C69_soa_bytes_misread",
    "Ozz.Props.C69_skeleton_bytes_misread",
    "Ozz.Props.C69_names_bytes",
    "Ozz.Props.C69_track_json",
    "Ozz.Props.C69_track_bytes",
    "Ozz.Props.C69_edge",
    "Ozz.Props.C69_field_order"
   ],
   "note": "The formats (JSON trees with number tokens, positional bytes) are models of serde_json and bincode-like formats; derived implementations and the maps of bimap are read as documented."
  },
  {
   "property": "C70",
   "status": "proved",
   "theorems": [
    "Ozz.Props.C70_json",
    "Ozz.Props.C70_bytes_fail",
    "Ozz.Props.C70_owned_keys_fail",
    "Ozz.Props.C70_sorted_forgets",
    "Ozz.Props.C70_nonfinite",
    "Ozz.Props.C70_wrong_length_panics"
   ],
   "note": "Same formats. The negative statements are disagreements 27-29."
  },
  {
   "property": "C71",
   "status": "proved",
   "theorems": [
    "Ozz.Props.C71_exclusive",
    "Ozz.Props.C71_jobs_serial",
    "Ozz.Props.C71_blending_mixes_times"
   ],
   "note": "RwLock and RefCell as documented by std. The negative statement is disagreement 30."
  },
  {
   "property": "C72",
   "status": "proved",
   "theorems": [
    "Ozz.Props.C72_no_deadlock",
    "Ozz.Props.C72_all_finish",
    "Ozz.Props.C72_blending_deadlock",
    "Ozz.Props.C72_skinning_deadlock"
   ],
   "note": "The conditions on the numbers are conditions on callers; the negative statements are disagreement 31."
  },
  {
   "property": "C73",
   "status": "proved",
   "theorems": [
    "Ozz.Props.C73_local_to_model",
    "Ozz.Props.C73_sampling",
    "Ozz.Props.C73_blending",
    "Ozz.Props.C73_skinning",
    "Ozz.Props.C73_blending_onto_layer",
    "Ozz.Props.C73_skinning_in_place",
    "Ozz.Props.C73_poison_stays",
    "Ozz.Props.C73_torn_never_read"
   ],
   "note": "Locks taken by validate are not modelled. Disagreement 32."
  },
  {
   "property": "C74",
   "status": "proved",
   "theorems": [
    "Ozz.Props.C74_animation",
    "Ozz.Props.C74_animation_archives",
    "Ozz.Props.C74_skeleton",
    "Ozz.Props.C74_skeleton_archives",
    "Ozz.Props.C74_skeleton_misaligned",
    "Ozz.Props.C74_track",
    "Ozz.Props.C74_edge",
    "Ozz.Props.C74_soa",
    "Ozz.Props.C74_context",
    "Ozz.Props.C74_context_archives"
   ],
   "note": "rkyv itself is modelled as documented (trusted base); archived strings and struct layouts are parameters with stated assumptions. Cursors of contexts are assumed below 2^32."
  },
  {
   "property": "C75",
   "status": "partial",
   "theorems": [
    "Ozz.Props.C75_check_own_archive",
    "Ozz.Props.C75_small_contexts_rejected",
    "Ozz.Props.C75_checked_partial",
    "Ozz.Props.C75_garbage_accepted"
   ],
   "note": "The code violates the property; negations proved with witnesses, disagreements 33 and 34."
  },
  {
   "property": "C76",
   "status": "proved",
   "theorems": [
    "Ozz.Props.C76_close_to_real_track",
    "Ozz.Props.C76_exact_at_keys",
    "Ozz.Props.C76_step_holds",
    "Ozz.Props.C76_rises_between_keys",
    "Ozz.Props.C76_falls_between_keys"
   ],
   "note": "Scalar tracks only (f32::lerp is the crate's own formula); vector and quaternion tracks use glam's lerp."
  },
  {
   "property": "C77",
   "status": "proved",
   "theorems": [
    "Ozz.Props.C77_forward_near_crossings",
    "Ozz.Props.C77_backward_near_crossings",
    "Ozz.Props.C77_empty_range",
    "Ozz.Props.C77_forward_never_ends",
    "Ozz.Props.C77_backward_never_ends"
   ],
   "note": "The endless iteration is disagreement 35."
  },
  {
   "property": "C78",
   "status": "proved",
   "theorems": [
    "Ozz.Props.C78_split_range",
    "Ozz.Props.C78_backward_mirrors_forward",
    "Ozz.Props.C78_clear_end_inside",
    "Ozz.Props.C78_clear_end_gap",
    "Ozz.Props.C78_clear_start_gap",
    "Ozz.Props.C78_split_loses_an_event",
    "Ozz.Props.C78_backward_loses_an_event",
    "Ozz.Props.C78_times_can_decrease",
    "Ozz.Props.C78_events_need_not_alternate"
   ],
   "note": "The negative statements are disagreements 36 and 37."
  },
  {
   "property": "C79",
   "status": "proved",
   "theorems": [
    "Ozz.Props.C79_model_space",
    "Ozz.Props.C79_bottom_row",
    "Ozz.Props.C79_rigid",
    "Ozz.Props.C79_bones"
   ],
   "note": "Full runs; partial updates copy parents' matrices as in C29."
  },
  {
   "property": "C80",
   "status": "proved",
   "theorems": [
    "Ozz.Props.C80_skinned"
   ],
   "note": "glam's transform_point3 and transform_vector3 are modelled as in glam's sources, from memory (trusted base)."
  },
  {
   "property": "C81",
   "status": "proved",
   "theorems": [
    "Ozz.Props.C81_average",
    "Ozz.Props.C81_rotation",
    "Ozz.Props.C81_clear_signs"
   ],
   "note": "Job without additive layers, run successful (C35 says when). glam's and std::simd's lane operations are IEEE operations (trusted base)."
  },
  {
   "property": "C82",
   "status": "proved",
   "theorems": [
    "Ozz.Props.C82_exact",
    "Ozz.Props.C82_inverse",
    "Ozz.Props.C82_single_precision"
   ],
   "note": "Relative to the same job without additive layers, which C31, C33 and C81 describe; run successful (C35 says when)."
  },
  {
   "property": "C83",
   "status": "proved",
   "theorems": [
    "Ozz.Props.C83_frame",
    "Ozz.Props.C83_rigid",
    "Ozz.Props.C83_exact_unique"
   ],
   "note": "Rotation keys count as what they decompress to in single precision; C63 bounds that step. Neighbouring rotation keys at most 120 degrees apart as quaternions."
  },
  {
   "property": "C84",
   "status": "proved",
   "theorems": [
    "Ozz.Props.C84_inverse",
    "Ozz.Props.C84_rigid",
    "Ozz.Props.C84_point",
    "Ozz.Props.C84_small_scale",
    "Ozz.Props.C84_large_scale"
   ],
   "note": "The exact inverse is Mathlib's matrix inverse. fx4 lane operations are IEEE operations (trusted base)."
  },
  {
   "property": "C85",
   "status": "proved",
   "theorems": [
    "Ozz.Props.C85_from_vectors",
    "Ozz.Props.C85_runs",
    "Ozz.Props.C85_aims",
    "Ozz.Props.C85_weight"
   ],
   "note": "With the crate's own polynomial sine, cosine and arc cosine (C64). Where the up vector ends up is stated in exact arithmetic only (C53, C54)."
  },
  {
   "property": "C86",
   "status": "proved",
   "theorems": [
    "Ozz.Props.C86_runs",
    "Ozz.Props.C86_reached",
    "Ozz.Props.C86_weight"
   ],
   "note": "With the crate's own polynomial sine, cosine and arc cosine (C64). Softened targets are covered in exact arithmetic (C58)."
  },
  {
   "property": "C87",
   "status": "proved",
   "theorems": [
    "Ozz.Props.C87_direction",
    "Ozz.Props.C87_length",
    "Ozz.Props.C87_reaches"
   ],
   "note": "The exact counterpart is C53. Bends with a sine below 1/32 are excluded for the length (the bound grows as the bend straightens); an axis along a bone is a counterexample in exact arithmetic already (C53_skew_axis)."
  },
  {
   "property": "C88",
   "status": "proved",
   "theorems": [
    "Ozz.Props.C88_glam",
    "Ozz.Props.C88_speed",
    "Ozz.Props.C88_translation",
    "Ozz.Props.C88_still",
    "Ozz.Props.C88_rotation",
    "Ozz.Props.C88_rotation_exact"
   ],
   "note": "The exact counterparts are C37 and C38. glam is not part of the repository: Accurate states what is assumed of it, C88_glam shows three ways of computing that satisfy it."
  },
  {
   "property": "C89",
   "status": "proved",
   "theorems": [
    "Ozz.Props.C89_glam",
    "Ozz.Props.C89_vectors",
    "Ozz.Props.C89_vectors_at_key",
    "Ozz.Props.C89_rotation",
    "Ozz.Props.C89_rotation_exact"
   ],
   "note": "Scalar tracks are C76; the exact counterpart is C39. glam's lerp is not part of the repository: AccurateMix, Accurate and TellsSign state what is assumed, C89_glam and C88_glam show ways of computing that satisfy it."
  },
  {
   "property": "C90",
   "status": "proved",
   "theorems": [
    "Ozz.Props.C90_frame",
    "Ozz.Props.C90_exact_unique"
   ],
   "note": "Without additive layers (C82). One play per sampled animation, each with its own context and buffer. Rotation keys count as what they decompress to in single precision, as in C83."
  },
  {
   "property": "C91",
   "status": "proved",
   "theorems": [
    "Ozz.Props.C91_apply",
    "Ozz.Props.C91_moves",
    "Ozz.Props.C91_chain",
    "Ozz.Props.C91_turns",
    "Ozz.Props.C91_reaches",
    "Ozz.Props.C91_soft",
    "Ozz.Props.C91_aims",
    "Ozz.Props.C91_uneven_scale"
   ],
   "note": "In exact arithmetic; glam's product of quaternions is assumed to be Hamilton's. The jobs' own limits (C53, C54, C58) are hypotheses."
  },
  {
   "property": "C92",
   "status": "proved",
   "theorems": [
    "Ozz.Props.C92_skinned",
    "Ozz.Props.C92_frame",
    "Ozz.Props.C92_rigid",
    "Ozz.Props.C92_blended",
    "Ozz.Props.C92_rest"
   ],
   "note": "Positions only; the repository leaves the product with the inverse bind matrices to the caller, AosMat4::mul is assumed to be used for it. Inverse-transpose matrices are not used."
  },
  {
   "property": "C93",
   "status": "proved",
   "theorems": [
    "Ozz.Props.C93_anywhere",
    "Ozz.Props.C93_skinned",
    "Ozz.Props.C93_frame",
    "Ozz.Props.C93_rigid",
    "Ozz.Props.C93_blended"
   ],
   "note": "Normals are moved as arrows, which is what the code does without inverse-transpose matrices; with them, C80 applies to whatever matrices the caller passes."
  },
  {
   "property": "C94",
   "status": "proved",
   "theorems": [
    "Ozz.Props.C94_frame",
    "Ozz.Props.C94_layers",
    "Ozz.Props.C94_scale"
   ],
   "note": "C90 with the additive layers of C82; the condition on the scales of the exact blends follows from one on the inputs by C94_scale."
  },
  {
   "property": "C95",
   "status": "proved",
   "theorems": [
    "Ozz.Props.C95_mesh"
   ],
   "note": "C92 and C93 on top of C94; the condition on the scales is on the inputs. Inverse-transpose matrices are not used."
  },
  {
   "property": "C96",
   "status": "proved",
   "theorems": [
    "Ozz.Props.C96_buffer",
    "Ozz.Props.C96_outside",
    "Ozz.Props.C96_lanes",
    "Ozz.Props.C96_splat",
    "Ozz.Props.C96_matrix",
    "Ozz.Props.C96_identity",
    "Ozz.Props.C96_aligned_joints"
   ],
   "note": "No arithmetic law is used; the padding lane of a Vec3A is whatever glam puts there."
  },
  {
   "property": "C97",
   "status": "proved",
   "theorems": [
    "Ozz.Props.C97_equal",
    "Ozz.Props.C97_partial_equivalence",
    "Ozz.Props.C97_cleared",
    "Ozz.Props.C97_clone",
    "Ozz.Props.C97_fresh_clone_differs",
    "Ozz.Props.C97_sampled",
    "Ozz.Props.C97_from_animation"
   ],
   "note": "Reading uninitialised memory is modelled as reading arbitrary values; in Rust it is undefined behaviour."
  },
  {
   "property": "C98",
   "status": "proved",
   "theorems": [
    "Ozz.Props.C98_joint_alone",
    "Ozz.Props.C98_f32"
   ],
   "note": "Law-free; the only thing used of the arithmetic is that subtracting zero keeps a positive threshold positive, which C57_f32 proves of f32."
  },
  {
   "property": "C99",
   "status": "proved",
   "theorems": [
    "Ozz.Props.C99_vertex_alone"
   ],
   "note": "Law-free; joint indices in range as in C48, sizes below 2^64."
  }
 ]
}