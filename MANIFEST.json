{
 "claims": [
  {
   "property": "C01",
   "status": "partial",
   "theorems": [
    "Verif.Props.C01_compile_correct_partial",
    "Verif.Props.C01_pipeline_partial",
    "Verif.Props.C01_compile_errors",
    "Verif.Props.C01_duplicate_inputs_false",
    "Verif.Props.C01_unused_inputs_false",
    "Verif.Props.C01_nullary_operator_false"
   ],
   "note": "Full statement CompileCorrect is false of the code in three corners (each refuted by a witness): repeated input nodes, unused inputs with all-constant outputs, operators without inputs. Proved for all other graphs."
  },
  {
   "property": "C02",
   "status": "partial",
   "theorems": [
    "Verif.Props.C02_compile_terminates_partial",
    "Verif.Props.C02_parameter_with_inputs_false"
   ],
   "note": "Terminates on every finite acyclic graph whose parameters have no inputs; the excluded case really loops for ever (witness)."
  },
  {
   "property": "C03",
   "status": "partial",
   "theorems": [
    "Verif.Props.C03_operator_frame_partial",
    "Verif.Props.C03_zero_args_false",
    "Verif.Props.C03_zero_results_false"
   ],
   "note": "Proved for operators with at least one argument and result; both excluded corners refuted by witness."
  },
  {
   "property": "C04",
   "status": "proved",
   "theorems": [
    "Verif.Props.C04_launch_restores_stack"
   ],
   "note": ""
  },
  {
   "property": "C05",
   "status": "proved",
   "theorems": [
    "Verif.Props.C05_constant_folding",
    "Verif.Props.C05_terminates",
    "Verif.Props.C05_pack_of_constants_rejected"
   ],
   "note": "Value preservation and termination; a pack of constants makes folding fail (reported, witness)."
  },
  {
   "property": "C06",
   "status": "proved",
   "theorems": [
    "Verif.Props.C06_zip_preserves_meaning",
    "Verif.Props.C06_zip_shares_and_terminates"
   ],
   "note": ""
  },
  {
   "property": "C07",
   "status": "proved",
   "theorems": [
    "Verif.Props.C07_listing_is_topological",
    "Verif.Props.refs_exact"
   ],
   "note": ""
  },
  {
   "property": "C08",
   "status": "partial",
   "theorems": [
    "Verif.Props.C08_load_finds_inputs",
    "Verif.Props.C08_outputs_by_name",
    "Verif.Props.C08_second_load_repeats_inputs_false"
   ],
   "note": "Proved for a load into a fresh module; loading a second time into the same module repeats inputs (witness)."
  },
  {
   "property": "C09",
   "status": "proved",
   "theorems": [
    "Verif.Props.C09_sort_by_node",
    "Verif.Props.C09_sort_by_name"
   ],
   "note": ""
  },
  {
   "property": "C10",
   "status": "proved",
   "theorems": [
    "Verif.Props.C10_module_round_trip"
   ],
   "note": ""
  },
  {
   "property": "C100",
   "status": "partial",
   "theorems": [
    "Verif.Props.Half.C100_values_partial",
    "Verif.Props.Half.C100_single_operands",
    "Verif.Props.Half.C100_half_operands_partial",
    "Verif.Props.Half.C100_outputs_partial",
    "Verif.Props.Half.C100_batch_norm_partial",
    "Verif.Props.Half.C100_output_order_false",
    "Verif.Props.Half.C100_to_float_false",
    "Verif.Props.Half.C100_operand_order_false",
    "Verif.Props.Half.C100_indices_false",
    "Verif.Props.Half.C100_shared_variance_false",
    "Verif.Props.Half.C100_translate_twice_false",
    "Verif.Props.Half.C100_computed_variance_false",
    "Verif.Props.Half.C100_missing_epsilon_false"
   ],
   "note": "Values are kept for every meaning of operators in which the two conversions are exact. Disproved: an output needed by an earlier output is handed out in half precision; to_float results are taken for half precision; after one integer constant later operands are not converted; computed indices are converted to half; batch norms that share a variance get both epsilons; FLOAT64 constants: the original module is changed, and a second translation adds epsilon again; epsilon behind an operator; no epsilon throws. Not modelled: names, variable nodes, rounding, the half precision kernels (GPU)."
  },
  {
   "property": "C101",
   "status": "partial",
   "theorems": [
    "Verif.Props.Fuzzy.C101_suggestion",
    "Verif.Props.Fuzzy.C101_range",
    "Verif.Props.Fuzzy.C101_distance_partial",
    "Verif.Props.Fuzzy.C101_zero_partial",
    "Verif.Props.Fuzzy.C101_front_false",
    "Verif.Props.Fuzzy.C101_zero_false",
    "Verif.Props.Fuzzy.C101_closest_false",
    "Verif.Props.Fuzzy.C101_fields_false"
   ],
   "note": "The suggestion exists and minimises the computed distance, for every order; the computed distance is symmetric, never more than two above the number of edits (exact bound if the first characters agree), and 0 only for texts that differ in the lengths of runs. Disproved: it is not the number of edits: repeated last characters are free (all texts of two or more characters), so a name any number of edits away is preferred to one a single edit away; a character put in front costs three; fuzzy_field_name (no caller) suggests nothing when one of two lists is empty."
  },
  {
   "property": "C102",
   "status": "partial",
   "theorems": [
    "Verif.Props.Infer2.C102_shapes_partial",
    "Verif.Props.Infer2.C102_slice_inside",
    "Verif.Props.Infer2.C102_dimshuffle_answer",
    "Verif.Props.Infer2.C102_affine_answer",
    "Verif.Props.Infer2.C102_limit_false",
    "Verif.Props.Infer2.C102_center_crop_false",
    "Verif.Props.Infer2.C102_crop_nd_false",
    "Verif.Props.Infer2.C102_scale_resize_false",
    "Verif.Props.Infer2.C102_divided_false",
    "Verif.Props.Infer2.C102_max_axes_false",
    "Verif.Props.Infer2.C102_max_keep_false",
    "Verif.Props.Infer2.C102_sum_axes_false",
    "Verif.Props.Infer2.C102_nms_false",
    "Verif.Props.Infer2.C102_constant_of_shape_false",
    "Verif.Props.Infer2.C102_transpose_nhwc_false",
    "Verif.Props.Infer2.C102_transpose_kernel_false",
    "Verif.Props.Infer2.C102_where_false",
    "Verif.Props.Infer2.C102_answers_partial",
    "Verif.Props.Infer2.C102_limit_short_false"
   ],
   "note": "Proved for every graph of 20 further operators together with those of C45, under the exclusions of OpOk2; each exclusion is shown necessary by a graph for which the inferred prototype and the executed shape differ. Where an execution of whole tensors succeeds the rule answers and is right (outside OpOk2); a limit shorter than the operand is executed but not inferred (witness for every such limit without bounds)."
  },
  {
   "property": "C103",
   "status": "partial",
   "theorems": [
    "Verif.Props.SliceV3.C103_slice_partial",
    "Verif.Props.SliceV3.C103_refused",
    "Verif.Props.SliceV3.C103_negative_axis_false",
    "Verif.Props.SliceV3.C103_short_false",
    "Verif.Props.SliceV3.C103_order_false",
    "Verif.Props.SliceV3.C103_end_false",
    "Verif.Props.SliceV3.C103_zero_step_false"
   ],
   "note": "Proved for axes counted from the start in ascending order, operands of any size, missing axes and steps included. Disproved: every axis counted from the end is undefined behaviour although the check accepts it; fewer ends or steps than starts are read past their end; axes in another order are refused; a negative step with the end minus the extent includes the first element; a step of 0 gives an empty result."
  },
  {
   "property": "C104",
   "status": "partial",
   "theorems": [
    "Verif.Props.Text.C104_split",
    "Verif.Props.Text.C104_join",
    "Verif.Props.Text.C104_split_join",
    "Verif.Props.Text.C104_mkdir_keeps",
    "Verif.Props.Text.C104_mkdir_partial",
    "Verif.Props.Text.C104_file_false",
    "Verif.Props.Text.C104_backslash_false",
    "Verif.Props.Text.C104_size_partial",
    "Verif.Props.Text.C104_size_false"
   ],
   "note": "Splitting and joining: proved in full. Directories: proved when no file is in the way. Sizes: in exact arithmetic. Disproved: a file with the name of the directory counts as the directory (every such file); with a backslash in the path the directories made are not those that the files are then written into, so the dump throws after the run; the unit is chosen before rounding (1024KB for 1 MB less one byte). Not modelled: the tensors that the dump writes (C07), `.`, `..` and links."
  },
  {
   "property": "C105",
   "status": "partial",
   "theorems": [
    "Verif.Props.Track.C105_no_influence",
    "Verif.Props.Track.C105_records",
    "Verif.Props.Track.C105_run_hook",
    "Verif.Props.Track.C105_trace_failed",
    "Verif.Props.Track.C105_files",
    "Verif.Props.Track.C105_nested",
    "Verif.Props.Track.C105_nested_false"
   ],
   "note": "Proved for programs without filters and casts, with operators that launch no programs. Disproved for operators that launch programs themselves: the callback meets another operator's record and throws, so that a run that succeeds fails when tracked (every such operator). The operators of input filters would be reported as well (not modelled). Paths are texts: a parameter name with `/` or `..` in it is not resolved, and a file that cannot be opened is not modelled."
  },
  {
   "property": "C106",
   "status": "partial",
   "theorems": [
    "Verif.Props.Power.C106_modes",
    "Verif.Props.Power.C106_split",
    "Verif.Props.Power.C106_uniform",
    "Verif.Props.Power.C106_bench",
    "Verif.Props.Power.C106_context",
    "Verif.Props.Power.C106_unreadable_false",
    "Verif.Props.Power.C106_linux_false",
    "Verif.Props.Power.C106_refused_false",
    "Verif.Props.Power.C106_moved_false",
    "Verif.Props.Power.C106_environment_false"
   ],
   "note": "Proved for machines whose frequencies can be read. Disproved: an unreadable frequency throws but leaves the list as if complete, so that a later call pins to the processors before it only; on Linux no call succeeds and yet the OpenMP thread number changes; one refused thread leaves the others pinned; a moved-from context has no pool; a TENNIS_NUMBER_THREADS that is no number makes every context throw. Not modelled: the data race on the vector<bool> of answers, OpenBLAS threads, failing thread creation, several calling threads."
  },
  {
   "property": "C107",
   "status": "partial",
   "theorems": [
    "Verif.Props.Devices.C107_bind",
    "Verif.Props.Devices.C107_converters",
    "Verif.Props.Devices.C107_allocators",
    "Verif.Props.Devices.C107_two_functions_partial",
    "Verif.Props.Devices.C107_late_false",
    "Verif.Props.Devices.C107_null_false",
    "Verif.Props.Devices.C107_same_as_cpu"
   ],
   "note": "Proved for functions that throw when memory is refused and, for registration by two functions, with the copying function registered before. Disproved: with the copying function registered later (static initialisers give no order) every resize throws std::bad_function_call, which the C interface does not catch, and leaks the new block; a null pointer as answer of the device's function is passed on as success. Not modelled: several threads, AllKeys as a std::set (a list without its order)."
  },
  {
   "property": "C108",
   "status": "partial",
   "theorems": [
    "Verif.Props.Benches.C108_defined",
    "Verif.Props.Benches.C108_clone",
    "Verif.Props.Benches.C108_isolated",
    "Verif.Props.Benches.C108_slots",
    "Verif.Props.Benches.C108_setup",
    "Verif.Props.Benches.C108_shared_program_false"
   ],
   "note": "Proved for every history of calls whose runs are of sound programs (depth-checked code, operators that keep to their frame). Disproved for two workbenches set up with the same program instead of cloned: they share its operators, so a parameter set on one changes the other's answer. Not modelled: hooks (a hooked run of a clone is undefined, see C37), the profiler and hooked tensors (not cloned), memory controllers, devices, threads running at once."
  },
  {
   "property": "C109",
   "status": "partial",
   "theorems": [
    "Verif.Props.Plot.C109_listing",
    "Verif.Props.Plot.C109_returns",
    "Verif.Props.Plot.C109_cycle_false",
    "Verif.Props.Plot.C109_exponential_false",
    "Verif.Props.Plot.C109_names_false"
   ],
   "note": "The listing and its order are proved in full; it returns exactly when the graph has no cycle. Disproved beyond the statement: inputs already printed are visited again, so n doublings take more than 2^n calls; inputs are shown by name only, so different graphs can print the same text. Not modelled: failing streams."
  },
  {
   "property": "C11",
   "status": "partial",
   "theorems": [
    "Verif.Props.C11_tensor_round_trip_partial",
    "Verif.Props.C11_nested_pack_false"
   ],
   "note": "Nested packs are lost (witness); everything else proved."
  },
  {
   "property": "C110",
   "status": "partial",
   "theorems": [
    "Verif.Props.Infer3.C110_shapes_partial",
    "Verif.Props.Infer3.C110_slice_v2_false",
    "Verif.Props.Infer3.C110_sample2d_v2_unknown_false",
    "Verif.Props.Infer3.C110_sample2d_v2_negative_false",
    "Verif.Props.Infer3.C110_broadcast_false",
    "Verif.Props.Infer3.C110_depthwise_nhwc_false",
    "Verif.Props.Infer3.C110_depthwise_unknown_false",
    "Verif.Props.Infer3.C110_conv2d_v2_nhwc_false",
    "Verif.Props.Infer3.C110_conv2d_v2_kernel_false",
    "Verif.Props.Infer3.C110_strided_false",
    "Verif.Props.Infer3.C110_broadcast_shape",
    "Verif.Props.Infer3.C110_strided_shape",
    "Verif.Props.Infer3.C110_answers_partial",
    "Verif.Props.Infer3.C110_winograd_extents",
    "Verif.Props.Infer3.C110_sample2d_void",
    "Verif.Props.Infer3.C110_short_false",
    "Verif.Props.Infer3.C110_slice_v2_missing"
   ],
   "note": "Proved for every graph whose nodes satisfy OpOk3; disproved for each excluded case by a two-stage execution. Where an execution succeeds, the rules answer for operands that are known completely; for operands that are too short two rules read past them. Missing: strided_slice with ellipsis or new axes, operators that return several tensors, extents of 2^31 and more."
  },
  {
   "property": "C111",
   "status": "partial",
   "theorems": [
    "Verif.Props.Ctl.C111_one_allocator",
    "Verif.Props.Ctl.C111_block",
    "Verif.Props.Ctl.C111_sync_again",
    "Verif.Props.Ctl.C111_summary",
    "Verif.Props.Ctl.C111_refused",
    "Verif.Props.Ctl.C111_clone",
    "Verif.Props.Ctl.C111_flow_false",
    "Verif.Props.Ctl.C111_failed_sync_false"
   ],
   "note": "Proved for every history of calls. Disproved: a pooled controller for a device without allocator is made all the same and every request of it throws (its check only logs); a synchronisation that fails for want of a converter leaves a new allocator in the summary. Missing: only one thread, only the first handle of each memory (others in C24), running out of memory, the amounts printed by the summary."
  },
  {
   "property": "C112",
   "status": "partial",
   "theorems": [
    "Verif.Props.Vec.C112_operands",
    "Verif.Props.Vec.C112_agree",
    "Verif.Props.Vec.C112_empty",
    "Verif.Props.Vec.C112_maximum_sse",
    "Verif.Props.Vec.C112_maximum_partial",
    "Verif.Props.Vec.C112_maximum_nan_false",
    "Verif.Props.Vec.C112_maximum_comm_false"
   ],
   "note": "Proved for every lane operation and every contents; the maximum of anything with SSE and AVX, of linearly ordered elements with every kind of vector instructions. Disproved without vector instructions: the maximum of NaN and a number is NaN in the lanes and the number in the rest. C112_empty covers results without elements. Missing: what NEON makes of NaN, conversions of the operands."
  },
  {
   "property": "C113",
   "status": "partial",
   "theorems": [
    "Verif.Props.Pow.C113_power_partial",
    "Verif.Props.Pow.C113_exponent_false",
    "Verif.Props.Pow.C113_text_false",
    "Verif.Props.Pow.C113_refused"
   ],
   "note": "Proved for every operand and every numeric exponent that a float represents. Disproved: an exponent that a float does not represent is rounded to one, also when it is given as a double for doubles; an exponent given as text, which other parameters may be, stands for the code of its first character (\"2\" for 50). Not modelled: exponents that are infinite or not a number, other devices."
  },
  {
   "property": "C12",
   "status": "partial",
   "theorems": [
    "Verif.Props.C12_bad_magic_rejected_partial",
    "Verif.Props.C12_accepted_tensor_partial",
    "Verif.Props.C12_accepted_module_partial",
    "Verif.Props.C12_truncation_false",
    "Verif.Props.C12_header_only_accepted_false",
    "Verif.Props.C12_empty_file_false",
    "Verif.Props.C12_rank_eight_false",
    "Verif.Props.C12_bad_index_false"
   ],
   "note": "The full claim is false of the code (five witnesses); what acceptance does guarantee is proved."
  },
  {
   "property": "C13",
   "status": "proved",
   "theorems": [
    "Verif.Props.C13_index_bijection",
    "Verif.Props.C13_overflow_false"
   ],
   "note": "For every shape whose element count is an int (larger shapes overflow: witness)."
  },
  {
   "property": "C14",
   "status": "proved",
   "theorems": [
    "Verif.Props.C14_iteration_row_major"
   ],
   "note": ""
  },
  {
   "property": "C15",
   "status": "partial",
   "theorems": [
    "Verif.Props.C15_reshape_partial",
    "Verif.Props.C15_zero_beside_inferred_false",
    "Verif.Props.C15_reshape_v2_partial",
    "Verif.Props.C15_reshape_v2_rank_false"
   ],
   "note": "Proved without int overflow; a zero beside an inferred extent divides by zero and more than seven extents overflow the buffer (witnesses)."
  },
  {
   "property": "C16",
   "status": "partial",
   "theorems": [
    "Verif.Props.C16_parameter_check",
    "Verif.Props.C16_transpose",
    "Verif.Props.C16_inverse",
    "Verif.Props.C16_default_swap_false"
   ],
   "note": "Everything proved except the default without parameter, which the code gets wrong (witness)."
  },
  {
   "property": "C17",
   "status": "proved",
   "theorems": [
    "Verif.Props.C17_concat",
    "Verif.Props.C17_rejects"
   ],
   "note": "Every output position is determined by exactly the operand element the claim names; int overflow of the summed extent is a separate ub outcome."
  },
  {
   "property": "C18",
   "status": "partial",
   "theorems": [
    "Verif.Props.C18_dim_partial",
    "Verif.Props.C18_slice_partial",
    "Verif.Props.C18_negative_end_false",
    "Verif.Props.C18_min_stride_false",
    "Verif.Props.C18_empty_ellipsis_false",
    "Verif.Props.C18_zero_stride_false",
    "Verif.Props.C18_new_axis_partial",
    "Verif.Props.C18_ellipsis_partial",
    "Verif.Props.C18_new_axis_false"
   ],
   "note": "False of the code for a negative stride with end = -x, stride INT_MIN, empty ellipses and new axes written 0:0 (witnesses); otherwise proved, for plain entries, new axes and one ellipsis."
  },
  {
   "property": "C19",
   "status": "partial",
   "theorems": [
    "Verif.Props.C19_broadcast",
    "Verif.Props.C19_empty",
    "Verif.Props.C19_rejects",
    "Verif.Props.C19_mod_cross_false"
   ],
   "note": "Proved for positive extents and every implementation style; Mod exchanges its operands on the crossed fast paths although it is not commutative (witness). C19_empty covers results without elements (extents of zero); conversions of the operands: see C63."
  },
  {
   "property": "C20",
   "status": "partial",
   "theorems": [
    "Verif.Props.C20_outcome",
    "Verif.Props.C20_comm",
    "Verif.Props.C20_idem",
    "Verif.Props.C20_bounds",
    "Verif.Props.C20_assoc_false",
    "Verif.Props.C20_assoc_partial",
    "Verif.Props.C20_lossy",
    "Verif.Props.C20_signed_fits"
   ],
   "note": "Commutative, idempotent, closed; associativity is false with unsigned types (witness) and proved for signed, floating and boolean types."
  },
  {
   "property": "C21",
   "status": "partial",
   "theorems": [
    "Verif.Props.C21_conv_size_partial",
    "Verif.Props.C21_conv_windows_inside",
    "Verif.Props.C21_conv_large_kernel_false",
    "Verif.Props.C21_conv_backward_inverse",
    "Verif.Props.C21_pool_size_partial",
    "Verif.Props.C21_pool_windows_meet",
    "Verif.Props.C21_pool_window_outside_false",
    "Verif.Props.C21_pool_float_range_false",
    "Verif.Props.roundsToNearest_exists"
   ],
   "note": "Proved for kernels not larger than the padded input and pooling sizes a float represents; false for larger kernels, for ceil-rounded pooling windows and for huge sizes (witnesses)."
  },
  {
   "property": "C22",
   "status": "partial",
   "theorems": [
    "Verif.Props.C22_outstanding",
    "Verif.Props.C22_free",
    "Verif.Props.C22_reuse",
    "Verif.Props.C22_freed_is_reusable",
    "Verif.Props.C22_no_leak",
    "Verif.Props.C22_free_after_destruction",
    "Verif.Props.C22_dispose_resize_false",
    "Verif.Props.C22_expect_throws_false"
   ],
   "note": "Everything proved for the pool, for every history; the hard-memory wrapper breaks the size guarantee when disposed of and resized to its old size, and growing in place always throws (witnesses)."
  },
  {
   "property": "C23",
   "status": "partial",
   "theorems": [
    "Verif.Props.C23_freed_exactly_once_partial",
    "Verif.Props.C23_no_use_after_free_partial",
    "Verif.Props.C23_explicit_dispose_false",
    "Verif.Props.C23_weak_dangles_false",
    "Verif.Props.C23_racing_copies_false"
   ],
   "note": "Proved for every single-threaded history of handles without an explicit dispose on a shared handle and without promoting an expired weak handle; those two, and racing copies of a non-atomic counter, break the claim (witnesses)."
  },
  {
   "property": "C24",
   "status": "partial",
   "theorems": [
    "Verif.Props.C24_mirror_partial",
    "Verif.Props.C24_broadcast",
    "Verif.Props.C24_other_handles_false",
    "Verif.Props.C24_double_check"
   ],
   "note": "Refinement proved for every history that uses only handles not invalidated by another handle's broadcast; every other handle is left dangling by a broadcast (proved for all histories). Locks are not part of this model."
  },
  {
   "property": "C25",
   "status": "partial",
   "theorems": [
    "Verif.Props.C25_fill_partial",
    "Verif.Props.C25_empty_pattern_false",
    "Verif.Props.C25_copy",
    "Verif.Props.C25_copyRaw"
   ],
   "note": "Proved for every buffer and every non-empty pattern; with an empty pattern the loop never ends (proved)."
  },
  {
   "property": "C26",
   "status": "partial",
   "theorems": [
    "Verif.Props.C26_split_bins_partial",
    "Verif.Props.C26_overflow_false",
    "Verif.Props.C26_lsplit_bins_partial",
    "Verif.Props.C26_lsplit_wrap_false"
   ],
   "note": "Proved for split_bins, with the rounding of the double quotient taken into account, when the last addition does not overflow int; near INT_MAX it overflows (witness). lsplit_bins (size_t) is proved for all ranges below 2^53; over all of size_t it wraps and makes bins that end before they start (witness)."
  },
  {
   "property": "C27",
   "status": "partial",
   "theorems": [
    "Verif.Props.C27_parallel_eq_sequential_partial",
    "Verif.Props.C27_each_once_partial"
   ],
   "note": "Proved for every pool, range and interleaving of atomic operations, for the ranges that split_bins splits without int overflow (C26)."
  },
  {
   "property": "C28",
   "status": "proved",
   "theorems": [
    "Verif.Props.C28_exclusion",
    "Verif.Props.C28_progress",
    "Verif.Props.C28_sharing"
   ],
   "note": "Any number of threads, any interleaving of critical sections, spurious wake-ups allowed but not needed."
  },
  {
   "property": "C29",
   "status": "partial",
   "theorems": [
    "Verif.Props.C29_assigned_task_runs",
    "Verif.Props.C29_once",
    "Verif.Props.C29_one_at_a_time",
    "Verif.Props.C29_join",
    "Verif.Props.C29_every_task_runs",
    "Verif.Props.C29_destructor_hangs_false",
    "Verif.Props.C29_destructor_drops_false"
   ],
   "note": "Proved for every number of workers, clients and tasks while the pool lives; the destructor can drop an assigned task and can hang on a lost wake-up (witnesses)."
  },
  {
   "property": "C30",
   "status": "proved",
   "theorems": [
    "Verif.Props.C30_scopes",
    "Verif.Props.C30_scope_restores"
   ],
   "note": "Any nesting of scopes, exits by exceptions included, any number of threads and any interleaving."
  },
  {
   "property": "C31",
   "status": "partial",
   "theorems": [
    "Verif.Props.C31_step_partial",
    "Verif.Props.C31_sequence_partial",
    "Verif.Props.C31_initializer_list",
    "Verif.Props.C31_range_overflow_false",
    "Verif.Props.C31_push_insert_resize_false",
    "Verif.Props.C31_resize_false"
   ],
   "note": "List behaviour proved for every sequence of calls that fits the capacity and does not resize; exceeding the capacity by a range constructor, push, insert before the end or resize writes past the buffer, and resize does not keep the elements (proved for all such calls)."
  },
  {
   "property": "C32",
   "status": "partial",
   "theorems": [
    "Verif.Props.C32_widen_partial",
    "Verif.Props.C32_round_trip_partial",
    "Verif.Props.C32_order",
    "Verif.Props.C32_order_infinity",
    "Verif.Props.C32_narrow_truncates",
    "Verif.Props.C32_subnormal_false",
    "Verif.Props.C32_infinity_false",
    "Verif.Props.C32_narrow_underflow_false",
    "Verif.Props.C32_nan_order_false"
   ],
   "note": "For all formats at once (half, single, double are instances): widening exact for zeros and normal numbers, narrowing back is the identity on every finite code, order numeric on everything but NaN; subnormals change value when widened, infinities and NaNs become finite, NaN compares as a number (proved for all such codes, or witnesses)."
  },
  {
   "property": "C33",
   "status": "partial",
   "theorems": [
    "Verif.Props.C33_add",
    "Verif.Props.C33_order_partial",
    "Verif.Props.C33_order_false",
    "Verif.Props.C33_mul_partial",
    "Verif.Props.C33_mul_false",
    "Verif.Props.C33_integer_round_trip"
   ],
   "note": "Addition, subtraction and negation exact while in range for all widths; the order is right only between numbers of the same sign and wrong for every pair of different sign (proved); multiplication proved for non-negative numbers, witnesses otherwise."
  },
  {
   "property": "C34",
   "status": "partial",
   "theorems": [
    "Verif.Props.C34_set",
    "Verif.Props.C34_init",
    "Verif.Props.C34_get",
    "Verif.Props.C34_clear_params_partial",
    "Verif.Props.C34_defaults_false"
   ],
   "note": "Everything proved against the history of calls, except that clearing the parameters removes defaults instead of restoring them (proved for all histories)."
  },
  {
   "property": "C35",
   "status": "partial",
   "theorems": [
    "Verif.Props.C35_alias_syntax",
    "Verif.Props.C35_last_mention",
    "Verif.Props.C35_last_alias",
    "Verif.Props.C35_map_device",
    "Verif.Props.C35_map_device_terminates_partial",
    "Verif.Props.C35_map_device_cycle_false"
   ],
   "note": "Proved for every command line and every set of switches without shared spellings; the device lookup terminates exactly if the aliases reached do not form a cycle, and cycles can be entered on the command line (witness)."
  },
  {
   "property": "C36",
   "status": "partial",
   "theorems": [
    "Verif.Props.C36_setup_forgets_hooks",
    "Verif.Props.C36_history_partial",
    "Verif.Props.C36_run_delivers",
    "Verif.Props.C36_rejects",
    "Verif.Props.C36_names",
    "Verif.Props.C36_run_hook",
    "Verif.Props.C36_launch_by_name",
    "Verif.Props.C36_stale_after_failure_false",
    "Verif.Props.C36_fresh_after_setup_false",
    "Verif.Props.C36_fresh_after_reset"
   ],
   "note": "Proved for every history on a workbench set up once; a failed run and a change of program leave the old outputs (and inputs) readable (witnesses). The values that the hook of C36_run_hook reports are those of the nodes: C105_run_hook."
  },
  {
   "property": "C37",
   "status": "partial",
   "theorems": [
    "Verif.Props.C37_clone_equivalent",
    "Verif.Props.C37_independent",
    "Verif.Props.C37_clone_total",
    "Verif.Props.C37_set_param",
    "Verif.Props.C37_run_hook_clone_false"
   ],
   "note": "Proved for every history of compiling, cloning, binding filters and setting parameters, for launching; a hooked run on a clone reads outside a vector, because the clone loses its input names (witness)."
  },
  {
   "property": "C38",
   "status": "partial",
   "theorems": [
    "Verif.Props.C38_symmetric",
    "Verif.Props.C38_link_sets",
    "Verif.Props.C38_replace_redirects",
    "Verif.Props.C38_link_returns_partial",
    "Verif.Props.C38_relink_hangs_false"
   ],
   "note": "Symmetry proved for every history of calls, also after calls that throw; relinking returns when no output of the old inputs has expired, otherwise it never returns (witness)."
  },
  {
   "property": "C39",
   "status": "partial",
   "theorems": [
    "Verif.Props.C39_route_means",
    "Verif.Props.C39_fusion_partial",
    "Verif.Props.C39_fusion_total",
    "Verif.Props.C39_rejects",
    "Verif.Props.C39_api_slot_false",
    "Verif.Props.C39_any_order_false",
    "Verif.Props.C39_refusal_ub_false"
   ],
   "note": "Inputs, outputs and values proved for all acyclic modules that share no inputs and all route lists in which a module is fed before it feeds; other orders are refused, the C function ignores its last slot, and a negative slot of a module without outputs is undefined (witnesses)."
  },
  {
   "property": "C40",
   "status": "partial",
   "theorems": [
    "Verif.Props.C40_field_of_pack_partial",
    "Verif.Props.C40_packed_head_false",
    "Verif.Props.C40_unpack_of_pack_partial",
    "Verif.Props.C40_pack_empty_false",
    "Verif.Props.C40_pack_of_unpack",
    "Verif.Props.C40_set_get",
    "Verif.Props.C40_pack_field_instructions_partial",
    "Verif.Props.C40_clone_partial",
    "Verif.Props.C40_clone_nested_false",
    "Verif.Props.C40_refield"
   ],
   "note": "False when the first packed tensor is itself a pack and for packing an empty list (witnesses); proved otherwise."
  },
  {
   "property": "C41",
   "status": "partial",
   "theorems": [
    "Verif.Props.C41_each_node_computed_once",
    "Verif.Props.C41_folding_loses_sharing"
   ],
   "note": "Proved for the compile loop; constant folding before it duplicates shared nodes (witness), so the whole pipeline violates it."
  },
  {
   "property": "C42",
   "status": "partial",
   "theorems": [
    "Verif.Props.C42_elements_kept",
    "Verif.Props.C42_squeeze_all",
    "Verif.Props.C42_squeeze_axes_partial",
    "Verif.Props.C42_squeeze_negative_false",
    "Verif.Props.C42_squeeze_order_false",
    "Verif.Props.C42_unsqueeze_partial",
    "Verif.Props.C42_unsqueeze_negative_partial",
    "Verif.Props.C42_unsqueeze_false",
    "Verif.Props.C42_squeeze_unsqueeze",
    "Verif.Props.C42_flatten_partial",
    "Verif.Props.C42_flatten_before_first_false",
    "Verif.Props.C42_flatten2d",
    "Verif.Props.C42_expand_partial",
    "Verif.Props.C42_expand_rank_false",
    "Verif.Props.C42_reshape_partial",
    "Verif.Props.C42_reshape_zero_false"
   ],
   "note": "False for negative axes before the last, unordered axes, the leading axis named from the end, ranks above 7 and flatten just before the first axis (witnesses); proved for the rest, without overflow of int."
  },
  {
   "property": "C43",
   "status": "partial",
   "theorems": [
    "Verif.Props.C43_max_pool",
    "Verif.Props.C43_avg_pool",
    "Verif.Props.C43_avg_white_pool",
    "Verif.Props.C43_empty_window_reads_outside_false",
    "Verif.Props.C43_float64_special_false",
    "Verif.Props.C43_dispatch_partial",
    "Verif.Props.C43_float_k2",
    "Verif.Props.C43_float_k3_partial",
    "Verif.Props.C43_max_float32_partial",
    "Verif.Props.C43_float_k3_false",
    "Verif.Props.C43_float_k3_neon_false",
    "C43_float_k3_neon_ahead_false"
   ],
   "note": "Generic kernels proved; windows missing the image read outside and FLOAT64 2x2/3x3 stride-2 max pooling writes nothing (witnesses). The float SIMD kernels are modelled down to their pointers: right for every 2x2 geometry whose windows meet the image and for every such 3x3 geometry except extent 1 with leading padding 1, where the kernel reads and writes outside (witness); the NEON build of the 3x3 kernel reads beyond small planes (witness)."
  },
  {
   "property": "C44",
   "status": "partial",
   "theorems": [
    "Verif.Props.C44_convolution",
    "Verif.Props.C44_conv2d_v2_padding",
    "Verif.Props.C44_float64_false"
   ],
   "note": "Proved for every geometry, in exact arithmetic, for float kernels with packed or unpacked weights and the NCHW layout without CBLAS; FLOAT64 convolution without CBLAS never writes its output (witness). Winograd and depthwise convolutions are operators of their own (C60, C61); the 3x3 kernels of conv2d_algorithm.cpp are not called by conv2d."
  },
  {
   "property": "C45",
   "status": "partial",
   "theorems": [
    "Verif.Props.C45_shapes_partial",
    "Verif.Props.C45_cache_transparent",
    "Verif.Props.C45_cache_transparent_list",
    "Verif.Props.C45_terminates",
    "Verif.Props.C45_sound",
    "Verif.Props.C45_squeeze_false",
    "Verif.Props.C45_squeeze_negative_false",
    "Verif.Props.C45_expand_false",
    "Verif.Props.C45_transpose_false",
    "Verif.Props.C45_concat_false",
    "Verif.Props.C45_flatten_false",
    "Verif.Props.C45_shape_false",
    "Verif.Props.C45_conv_nhwc_false",
    "Verif.Props.C45_conv_kernel_false",
    "Verif.Props.C45_pad_false",
    "Verif.Props.C45_stale_value_false",
    "Verif.Props.Infer.C45_answers_partial",
    "Verif.Props.Infer.C45_concat_single_false"
   ],
   "note": "Caching, folding and termination for every graph and any rules; for 23 operators the inferred prototype describes the executed tensor for every graph, kernel implementation and execution, except in the cases of OpOk, each of which is refuted by a witness (squeeze without or with negative axes, expand with limits, transpose without permutation, concat with unknown first extent, flatten of two unknown extents, shape of an unknown extent, NHWC convolution, negative paddings), and values left on nodes by an earlier inference. Also proved: told all shapes and elements of whole tensors the execution accepts, the rule answers and is right (outside OpOk; a concatenation of one operand along a dimension it lacks is executed but refused: witness)."
  },
  {
   "property": "C46",
   "status": "partial",
   "theorems": [
    "Verif.Props.C46_gemm_row_major",
    "Verif.Props.C46_gemm_rejects",
    "Verif.Props.C46_gemm_col_major",
    "Verif.Props.C46_gemm",
    "Verif.Props.C46_inner_prod_partial",
    "Verif.Props.C46_packed_weights",
    "Verif.Props.C46_types_refused",
    "Verif.Props.C46_matmul",
    "Verif.Props.C46_matmul_rank4",
    "Verif.Props.C46_small_alpha_false",
    "Verif.Props.C46_inner_prod_double_false",
    "Verif.Props.C46_matmul_vectors_false"
   ],
   "note": "Proved in exact arithmetic when the inexact comparisons decide the scalars correctly; false for small non-zero alpha, for FLOAT64 inner products (output never written) and for the product of two vectors (witnesses)."
  },
  {
   "property": "C47",
   "status": "partial",
   "theorems": [
    "Verif.Props.C47_translate_preserves_meaning_partial",
    "Verif.Props.C47_pack_preserves_results_partial",
    "Verif.Props.C47_translated_program_partial",
    "Verif.Props.C47_tied_weights_false",
    "Verif.Props.C47_translate_twice_false",
    "Verif.Props.C47_weight_output_false",
    "Verif.Props.C47_dynamic_gemm_false",
    "Verif.Props.C47_default_gemm_false",
    "Verif.Props.C47_declared_type_false"
   ],
   "note": "Proved for modules whose packed weights have one reader and when the translation succeeds. False in general (witnesses): weights shared by nested readers, a module translated twice (the original module's constants are changed in place), a weight that is also an output, a Gemm with computed transposed operand, a Gemm relying on default parameters (refused), declared input type dropped. Variable nodes, the FLOAT16 option and the ARM special case are not modelled."
  },
  {
   "property": "C48",
   "status": "partial",
   "theorems": [
    "Verif.Props.C48_gather_partial",
    "Verif.Props.C48_gather_range_false",
    "Verif.Props.C48_gather_negative_false",
    "Verif.Props.C48_gather_nd_partial",
    "Verif.Props.C48_gather_nd_range_false",
    "Verif.Props.C48_gather_elements_partial",
    "Verif.Props.C48_gather_elements_axis_false",
    "Verif.Props.C48_gather_elements_extent_false",
    "Verif.Props.C48_dimshuffle",
    "Verif.Props.C48_dimshuffle_rejects",
    "Verif.Props.C48_scatter_partial",
    "Verif.Props.C48_scatter_tuples_false"
   ],
   "note": "The values are proved for all operands and indices that name elements. Indices out of range are never refused but read outside the buffer (proved for all of them); a negative index with a negative axis, any negative axis of gather_elements, indices of a different extent, and scatter with index tuples are undefined or wrong (proved universally or by witness)."
  },
  {
   "property": "C49",
   "status": "partial",
   "theorems": [
    "Verif.Props.C49_tile",
    "Verif.Props.C49_tile_rejects",
    "Verif.Props.C49_slice",
    "Verif.Props.C49_slice_rejects",
    "Verif.Props.C49_slice_overflow_false",
    "Verif.Props.C49_stack",
    "Verif.Props.C49_stack_rejects",
    "Verif.Props.C49_stack_rank_false",
    "Verif.Props.C49_split_partial",
    "Verif.Props.C49_split_sum_false",
    "Verif.Props.C49_chunk_partial",
    "Verif.Props.C49_chunk_false",
    "Verif.Props.C49_chunk_rejects",
    "Verif.Props.C49_split_rejects"
   ],
   "note": "Tile, slice and stack proved in full for sizes that are ints; refusing a box can overflow and an operand of lower rank is undefined (witnesses). Split does not check that the parts add up (witness). Chunk is right exactly when the rounded-up steps leave something for the last chunk, otherwise it always reads past a vector (proved for all such extents, e.g. 5 rows in 4 chunks)."
  },
  {
   "property": "C50",
   "status": "partial",
   "theorems": [
    "Verif.Props.C50_sum",
    "Verif.Props.C50_sum_rejects",
    "Verif.Props.C50_mean_partial",
    "Verif.Props.C50_mean_rejects",
    "Verif.Props.C50_mean_range",
    "Verif.Props.C50_mean_wrap_false",
    "Verif.Props.C50_mean_empty_false",
    "Verif.Props.C50_max",
    "Verif.Props.C50_max_rejects",
    "Verif.Props.C50_argmax_partial",
    "Verif.Props.C50_argmax_float_false",
    "Verif.Props.C50_argmax_narrow_false",
    "Verif.Props.C50_argmax_wide_false",
    "Verif.Props.C50_softmax",
    "Verif.Props.C50_softmax_real",
    "Verif.Props.C50_softmax_empty_false",
    "Verif.Props.C50_softmax_rejects",
    "Verif.Props.C50_l2_partial",
    "Verif.Props.C50_l2_real_partial",
    "Verif.Props.C50_l2_single_false",
    "Verif.Props.C50_l2_rejects"
   ],
   "note": "Sum, max and softmax proved for all shapes and dimensions (softmax for every arithmetic and as exp x / sum exp over the reals). Disproved: argmax reads every operand as int32 (wrong for all pairs of negative floats, undefined for one- and two-byte types, wrong for 64-bit types); reduce_mean over dims -1, 0 always reads out of bounds; l2_norm of an extent of one always gives one; smooth softmax of a zero extent reads out of bounds."
  },
  {
   "property": "C51",
   "status": "proved",
   "theorems": [
    "Verif.Props.C51_add_bias",
    "Verif.Props.C51_add_bias_dim",
    "Verif.Props.C51_batch_norm",
    "Verif.Props.C51_batch_norm_real",
    "Verif.Props.C51_batch_scale",
    "Verif.Props.C51_fused",
    "Verif.Props.C51_fused_eq",
    "Verif.Props.C51_prelu",
    "Verif.Props.C51_prelu_real",
    "Verif.Props.C51_prelu_nan_false",
    "Verif.Props.C51_rejects",
    "Verif.Props.C51_rejects_coef"
   ],
   "note": "Proved for all shapes, dimensions, types and arithmetics. Outside the claim: prelu of a float NaN depends on whether the element falls in the vector loop (counterexample C51_prelu_nan_false)."
  },
  {
   "property": "C52",
   "status": "proved",
   "theorems": [
    "Verif.Props.C52_round_trip",
    "Verif.Props.C52_short_read",
    "Verif.Props.C52_past_the_end",
    "Verif.Props.C52_file_format"
   ],
   "note": "For requests below 2 GiB (the offset is an int); that the disk accepts the writes is assumed."
  },
  {
   "property": "C53",
   "status": "proved",
   "theorems": [
    "Verif.Props.C53_aes",
    "Verif.Props.C53_standard_exists",
    "Verif.Props.C53_decrypt",
    "Verif.Props.C53_short_key",
    "Verif.Props.C53_ctr",
    "Verif.Props.C53_ctr_twice",
    "Verif.Props.C53_cbc",
    "Verif.Props.C53_cbc_round_trip"
   ],
   "note": "The standard is specified independently (Verif.Fips197); the theorem quantifies over every S-box and schedule that satisfy it."
  },
  {
   "property": "C54",
   "status": "partial",
   "theorems": [
    "Verif.Props.C54_reader_in_bounds_partial",
    "Verif.Props.C54_reader_in_bounds_false",
    "Verif.Props.C54_truncated",
    "Verif.Props.C54_key_needed_false",
    "Verif.Props.C54_init_with_iv_partial",
    "Verif.Props.C54_init_with_iv_false"
   ],
   "note": "In bounds for every file unless the last byte of the last decrypted block exceeds 16; then, for every key, a request of more than 16 bytes reads past the block (witness). Short keys are completed by a default key, so different keys coincide; AES_init_ctx_iv expands the caller's key and reads past short ones (witnesses)."
  },
  {
   "property": "C55",
   "status": "partial",
   "theorems": [
    "Verif.Props.C55_pad_partial",
    "Verif.Props.C55_batch_false",
    "Verif.Props.C55_clamp_false",
    "Verif.Props.C55_rejects"
   ],
   "note": "Proved for all ranks and signs, except: at rank 4 a negative amount on the first axis always reads or writes out of bounds (proved for all such operands), and amounts that cut everything give rank-dependent contents (witness)."
  },
  {
   "property": "C56",
   "status": "partial",
   "theorems": [
    "Verif.Props.C56_space_to_batch_partial",
    "Verif.Props.C56_block_cell_injective",
    "Verif.Props.C56_batch_to_space_partial",
    "Verif.Props.C56_round_trip",
    "Verif.Props.C56_negative_false",
    "Verif.Props.C56_rejects"
   ],
   "note": "Proved for all non-negative padding and crop; negative amounts are accepted and leave the buffers (witnesses)."
  },
  {
   "property": "C57",
   "status": "partial",
   "theorems": [
    "Verif.Props.C57_topk_partial",
    "Verif.Props.C57_nan_false",
    "Verif.Props.C57_parameters"
   ],
   "note": "Proved for every shape, number >= 0, every order and every implementation of partial_sort that meets its contract (one exists: sort_exists). Disproved: a negative number is not refused but undefined (all cases), and a row mixing NaN and numbers breaks the contract of the sort (witness)."
  },
  {
   "property": "C58",
   "status": "partial",
   "theorems": [
    "Verif.Props.C58_nms_partial",
    "Verif.Props.C58_iou",
    "Verif.Props.C58_unchecked_false",
    "Verif.Props.C58_rejects",
    "Verif.Props.C58_infer"
   ],
   "note": "The selection is proved for every arithmetic and every priority queue that meets its contract; over the reals the overlap test is proved to be the quotient of Lebesgue measures of intersection and union. Disproved: run does not check that boxes and scores match and reads out of bounds (witness)."
  },
  {
   "property": "C59",
   "status": "partial",
   "theorems": [
    "Verif.Props.C59_broadcast_partial",
    "Verif.Props.C59_broadcast_to",
    "Verif.Props.C59_broadcast_rejects",
    "Verif.Props.C59_empty_false",
    "Verif.Props.C59_where",
    "Verif.Props.C59_where_condition_false",
    "Verif.Props.C59_where_rejects",
    "Verif.Props.C59_equal_partial",
    "Verif.Props.C59_equal_ranks_false"
   ],
   "note": "Proved for all shapes without empty axes. Disproved: a request for an empty axis yields extent one or divides by zero; where converts the condition modulo 256, so 256 counts as false; equal on non-scalar operands of different ranks always reads extents that do not exist (proved for all such operands)."
  },
  {
   "property": "C60",
   "status": "partial",
   "theorems": [
    "Verif.Props.C60_winograd_partial",
    "Verif.Props.C60_stale_kernel_false",
    "Verif.Props.C60_negative_top_false",
    "Verif.Props.C60_negative_bottom_false",
    "Verif.Props.C60_shifting_padding_false",
    "Verif.Props.C60_transformed_kernel_false"
   ],
   "note": "Proved in exact arithmetic (any field of characteristic zero) for both tile sizes, every size, every non-negative padding and every history of runs with one kernel. Disproved: a later run with another kernel uses the first one; negative padding takes other rows, writes out of bounds or is ignored; a kernel given as transformed is transformed again (witnesses)."
  },
  {
   "property": "C61",
   "status": "partial",
   "theorems": [
    "Verif.Props.C61_depthwise_partial",
    "Verif.Props.C61_reads_behind_false",
    "Verif.Props.C61_small_image_false",
    "Verif.Props.C61_left_padding_false",
    "Verif.Props.C61_negative_padding_false",
    "Verif.Props.C61_rejects"
   ],
   "note": "Proved in exact arithmetic for every geometry with the general kernel, and for the 3x3 kernels with non-negative padding, images that the kernel fits into, and memory readable behind the weights. Disproved: for float 3x3 kernels with stride 1 or 2 every call reads one element behind the last weight (proved for all such calls); negative padding and images smaller than the kernel read or write out of bounds (witnesses)."
  },
  {
   "property": "C62",
   "status": "partial",
   "theorems": [
    "Verif.Props.C62_range_partial",
    "Verif.Props.C62_descending_partial",
    "Verif.Props.C62_descending_false",
    "Verif.Props.C62_empty_range_false",
    "Verif.Props.C62_unchecked_false",
    "Verif.Props.C62_range_rejects",
    "Verif.Props.C62_range_float_partial",
    "Verif.Props.C62_constant_partial",
    "Verif.Props.C62_constant_values_false",
    "Verif.Props.C62_shape"
   ],
   "note": "Proved for ascending ranges of all eight integer types with C++ arithmetic and of floats in exact arithmetic, for descending ranges that hit the limit, for constants of one element and for shape. Disproved: a descending range that does not hit the limit misses its last element (proved for all); empty ranges ask for negative or huge extents or are not empty; a zero delta divides by zero and narrower operands are read behind their end (proved for all); several values alternate, no value never returns."
  },
  {
   "property": "C63",
   "status": "partial",
   "theorems": [
    "Verif.Props.C63_cast_partial",
    "Verif.Props.C63_round_trip",
    "Verif.Props.C63_bool_false",
    "Verif.Props.C63_rejects",
    "Verif.Props.C63_string_number",
    "Verif.Props.C63_string_wraps_false",
    "Verif.Props.C63_types",
    "Verif.Props.C63_to_int",
    "Verif.Props.C63_to_bool_partial",
    "Verif.Props.C63_string_bool"
   ],
   "note": "Proved for all fifteen types; rounding to floating point types is a parameter; infinities and not-a-number are not modelled. Disproved: 256 and all fractions between -1 and 1 are false as truth values, floats of -1 or less undefined (proved for all); a number in a string outside int wraps, and text is zero (witnesses)."
  },
  {
   "property": "C64",
   "status": "partial",
   "theorems": [
    "Verif.Props.C64_transposed_partial",
    "Verif.Props.C64_adjoint",
    "Verif.Props.C64_float64_false",
    "Verif.Props.C64_rejects"
   ],
   "note": "Proved in exact arithmetic for float and every geometry with positive strides whose extents are ints; adjointness to C44's convolution proved. Disproved for double without CBLAS: the product is never computed (witness)."
  },
  {
   "property": "C65",
   "status": "partial",
   "theorems": [
    "Verif.Props.C65_request",
    "Verif.Props.C65_request_met",
    "Verif.Props.C65_same_size_false",
    "Verif.Props.C65_linear_partial",
    "Verif.Props.C65_between",
    "Verif.Props.C65_places",
    "Verif.Props.C65_copies",
    "Verif.Props.C65_nearest",
    "Verif.Props.C65_hard",
    "Verif.Props.C65_cubic_partial",
    "Verif.Props.C65_cubic_border_false",
    "Verif.Props.C65_one_row_false",
    "Verif.Props.C65_cubic_small_false",
    "Verif.Props.C65_edge_false",
    "Verif.Props.C65_rejects",
    "Verif.Props.C65_types_partial",
    "Verif.Props.C65_wrappers"
   ],
   "note": "Proved for sources with at least two (linear) or four (cubic) rows and columns. Disproved: linear on one row reads behind the tensor, cubic on less than four rows reads before it, cubic does not reach the last rows and columns, linear enlarging loses the last column's value, some requests that change nothing are refused, unknown types are taken for nearest."
  },
  {
   "property": "C66",
   "status": "partial",
   "theorems": [
    "Verif.Props.C66_sampled_partial",
    "Verif.Props.C66_outer_partial",
    "Verif.Props.C66_matrix",
    "Verif.Props.C66_sample2d_partial",
    "Verif.Props.C66_border_false",
    "Verif.Props.C66_small_false",
    "Verif.Props.C66_far_false",
    "Verif.Props.C66_clamp_false",
    "Verif.Props.C66_rejects"
   ],
   "note": "Proved with and without a value for outside, for every rounding of the places that fit an int. Disproved: with a value for outside, the last row and column count as outside (sample2d with factor 1 zeroes them, for every image); one row (linear) or less than four (cubic) read outside the tensor; far places are undefined; 64-bit overflow of cubic is undefined instead of clamped."
  },
  {
   "property": "C67",
   "status": "proved",
   "theorems": [
    "Verif.Props.C67_run_applies_steps",
    "Verif.Props.C67_compiled_program",
    "Verif.Props.C67_run_returns"
   ],
   "note": "For every operator library; the graph built by the calls goes through the compiler model of C01 and the workbench model of C05. The fuel of the compiler's loops is discharged by C67_run_returns."
  },
  {
   "property": "C68",
   "status": "partial",
   "theorems": [
    "Verif.Props.C68_clone_partial",
    "Verif.Props.C68_clone_uncompiled_false",
    "Verif.Props.C68_clone_stale_false",
    "Verif.Props.C68_clone_forgets_false"
   ],
   "note": "Proved for clones of a compiled filter with steps to which no steps are added. Disproved with witnesses: cloning an uncompiled filter dereferences a null program; a clone made after adding steps to a compiled filter lacks them; adding a step to a clone forgets all earlier ones."
  },
  {
   "property": "C69",
   "status": "partial",
   "theorems": [
    "Verif.Props.C69_center_crop",
    "Verif.Props.C69_center_zero_false",
    "Verif.Props.C69_center_rejects",
    "Verif.Props.C69_limit_partial",
    "Verif.Props.C69_limit_batch_false",
    "Verif.Props.C69_limit_rejects",
    "Verif.Props.C69_crop_nd_partial",
    "Verif.Props.C69_crop_shift_partial",
    "Verif.Props.C69_crop_batch_false",
    "Verif.Props.C69_crop_infer_false",
    "Verif.Props.C69_crop_rejects",
    "Verif.Props.C69_divided_partial",
    "Verif.Props.C69_divided_large_false",
    "Verif.Props.C69_divided_rejects"
   ],
   "note": "Center crop is complete for positive sizes. Disproved: a size of 0 gives one row where none is announced; limiting or cropping the first axis of tensors of rank 4 is undefined behaviour, for every such tensor; crop_nd announces the request itself, with -1; divided computes in float and cuts the last row of 2^24+1."
  },
  {
   "property": "C70",
   "status": "partial",
   "theorems": [
    "Verif.Props.C70_scaled_size_partial",
    "Verif.Props.C70_scaled_linear_partial",
    "Verif.Props.C70_scaled_nearest",
    "Verif.Props.C70_scaled_same",
    "Verif.Props.C70_overflow_false",
    "Verif.Props.C70_infer_false",
    "Verif.Props.C70_rejects",
    "Verif.Props.C70_letterbox_partial",
    "Verif.Props.C70_letterbox_place",
    "Verif.Props.C70_letterbox_border_false",
    "Verif.Props.C70_letterbox_rejects"
   ],
   "note": "Sizes and pixels on top of C65 and C66. Disproved: the product of side and number overflows an int for large images; announced shapes have -1 for batch and channels; a letterbox of the size of the image replaces its last row and column by the value for outside, for every image."
  },
  {
   "property": "C71",
   "status": "partial",
   "theorems": [
    "Verif.Props.C71_color",
    "Verif.Props.C71_color_rest",
    "Verif.Props.C71_gray",
    "Verif.Props.C71_gray_exact",
    "Verif.Props.C71_gray_rest",
    "Verif.Props.C71_infer",
    "Verif.Props.C71_infer_shape",
    "Verif.Props.C71_infer_false",
    "Verif.Props.C71_gray_bytes",
    "Verif.Props.C71_gray_keeps",
    "Verif.Props.C71_gray_range_false"
   ],
   "note": "All of the statement, for all types and weights whose sums are in the range of an integer type. Missing: the number of pixels is an int in the code, its overflow is not modelled; infinities and not-a-number. Disproved: a result is announced also for images that are refused; a sum outside the integer type is undefined."
  },
  {
   "property": "C72",
   "status": "partial",
   "theorems": [
    "Verif.Props.C72_images",
    "Verif.Props.C72_rejects",
    "Verif.Props.C72_empty_false",
    "Verif.Props.C72_real_partial",
    "Verif.Props.C72_whitened_partial"
   ],
   "note": "The operations for every arithmetic; mean 0 and deviation 1 for real numbers. Missing: the rounding error of the two statements about real numbers. Disproved: an empty batch divides by zero, and norm_image of a tensor without dimensions reads one."
  },
  {
   "property": "C73",
   "status": "partial",
   "theorems": [
    "Verif.Props.C73_new",
    "Verif.Props.C73_new_empty",
    "Verif.Props.C73_clone",
    "Verif.Props.C73_cast",
    "Verif.Props.C73_reshape",
    "Verif.Props.C73_cast_same",
    "Verif.Props.C73_slice",
    "Verif.Props.C73_slice_range",
    "Verif.Props.C73_write",
    "Verif.Props.C73_free",
    "Verif.Props.C73_errors",
    "Verif.Props.C73_refuses",
    "Verif.Props.C73_unchecked",
    "Verif.Props.C73_survive_false",
    "Verif.Props.C73_dangling_slice",
    "Verif.Props.C73_index_false"
   ],
   "note": "All of the statement for tensors on the CPU that are not packed, in one thread. Missing: packed tensors, other devices, several threads, exceptions that are not ts::Exception. Disproved: slices borrow the memory, so they dangle when the original is freed; indices of slices and more than seven extents are not checked."
  },
  {
   "property": "C74",
   "status": "partial",
   "theorems": [
    "Verif.Props.C74_strict",
    "Verif.Props.C74_flush",
    "Verif.Props.C74_fallback",
    "Verif.Props.C74_long_name",
    "Verif.Props.C74_terminates_iff",
    "Verif.Props.C74_create_false",
    "Verif.Props.C74_infer_never",
    "Verif.Props.C74_infer_false"
   ],
   "note": "Lookup after all histories of registrations, with the exact condition for ending the process. Disproved: on a device whose memory device is not known the CPU version is not tried but the process ends, as it does if a plugin returns no object (an exception leaves a noexcept function); no answer of f_infer is ever accepted. Missing: the destructor, registrations during a lookup by another thread."
  },
  {
   "property": "C75",
   "status": "partial",
   "theorems": [
    "Verif.Props.C75_relu",
    "Verif.Props.C75_relu_max",
    "Verif.Props.C75_leaky",
    "Verif.Props.C75_hard_sigmoid",
    "Verif.Props.C75_map",
    "Verif.Props.C75_tanh_partial",
    "Verif.Props.C75_int",
    "Verif.Props.C75_int_refused",
    "Verif.Props.C75_sigmoid_int",
    "Verif.Props.C75_nan_false",
    "Verif.Props.C75_softplus_double_false",
    "Verif.Props.C75_softplus_int_false",
    "Verif.Props.C75_sigmoid_int_false",
    "Verif.Props.C75_int_false"
   ],
   "note": "Floats and doubles for all lengths, over any arithmetic whose comparisons go by the value; integers exactly. Disproved: NaN becomes 0 in the vector part of relu only; softplus of doubles and of integers uses the first element everywhere; sigmoid of unsigned integers is that of the negated value, and -128 negates to itself; leaky_relu of integers cuts the scale; square of UINT16, abs of the least INT32 are undefined. Missing: rounding (tanh is proved for exact reals), the values of sqrt, exp, log and erf, element counts beyond int."
  },
  {
   "property": "C76",
   "status": "partial",
   "theorems": [
    "Verif.Props.C76_quantize",
    "Verif.Props.C76_quantize_rejects",
    "Verif.Props.C76_groups_false",
    "Verif.Props.C76_lanes_false",
    "Verif.Props.C76_conv_order",
    "Verif.Props.C76_conv",
    "Verif.Props.C76_conv_rejects",
    "Verif.Props.C76_openmp_false",
    "Verif.Props.C76_overflow_false"
   ],
   "note": "Quantisation for all tensors whose scaled values fit int32 (with several scales: up to 2^24 elements); the convolution for all geometries, byte tensors and kernels of fewer than 131072 values. Disproved: SSE rounds halves to even in the vector part only, NEON truncates there, numbers beyond int32 become -128; the group size is computed in float, wrong beyond 2^24 elements, and leaves elements unwritten; an empty batch or a tensor without dimensions is undefined; the OpenMP iterations share the output pointer, out of order they exchange channels; 131072 products can overflow. Missing: NaN and infinities, int overflow of element counts, interleavings finer than whole iterations."
  },
  {
   "property": "C77",
   "status": "partial",
   "theorems": [
    "Verif.Props.C77_same_conv",
    "Verif.Props.C77_same_pool",
    "Verif.Props.C77_valid_conv",
    "Verif.Props.C77_valid_pool",
    "Verif.Props.C77_dragon_up",
    "Verif.Props.C77_dragon_same_pool",
    "Verif.Props.C77_dragon_same_conv_partial",
    "Verif.Props.C77_dragon_operators_partial",
    "Verif.Props.C77_tf_conv_operator",
    "Verif.Props.C77_pool_operator",
    "Verif.Props.C77_rejects",
    "Verif.Props.C77_nhwc_false",
    "Verif.Props.C77_shift_false",
    "Verif.Props.C77_dragon_conv_false",
    "Verif.Props.C77_other_false",
    "Verif.Props.C77_float_false"
   ],
   "note": "All sizes below 2^24, with the float rounding, composed with the formulas of the convolution and pooling. Disproved: with a kernel shorter than the stride SAME cuts off the start, shifting the windows; NHWC convolutions are refused unless the kernel is as high as the image; Dragon's convolution forgets the dilation and exchanges SAME_UPPER and SAME_LOWER; paddings and strides of batch and channels are dropped; 2^24+1 elements are one too few. Missing: kernels longer than the padded input (pooling), negative static padding."
  },
  {
   "property": "C78",
   "status": "partial",
   "theorems": [
    "Verif.Props.C78_forward",
    "Verif.Props.C78_bidirectional",
    "Verif.Props.C78_states_exist",
    "Verif.Props.C78_states_unique",
    "Verif.Props.C78_infer",
    "Verif.Props.C78_hidden_size",
    "Verif.Props.C78_reverse_false",
    "Verif.Props.C78_reverse_witness_false",
    "Verif.Props.C78_missing_operands_false",
    "Verif.Props.C78_empty_sequence_false",
    "Verif.Props.C78_double_without_state_false"
   ],
   "note": "Full recurrence for both implemented forms, any scalar arithmetic, any stack. Disproved: direction reverse gives the forward result; fewer than six operands pass the check and then throw; an empty sequence is undefined; FLOAT64 without initial states throws. The callees (gemm, add, mul, activations, concat) are given by what they compute per element. Pointers into the deque are taken as stable, as the standard libraries keep them."
  },
  {
   "property": "C79",
   "status": "partial",
   "theorems": [
    "Verif.Props.C79_crop_to_partial",
    "Verif.Props.C79_history",
    "Verif.Props.C79_run_member",
    "Verif.Props.C79_negative_first_partial",
    "Verif.Props.C79_infer",
    "Verif.Props.C79_rejects",
    "Verif.Props.C79_history_false",
    "Verif.Props.C79_batch_false"
   ],
   "note": "Axis >= 0: full result at every coordinate and independence of every history of calls. Disproved: with a negative axis the object keeps the counted axis, so a later call with another rank is wrongly refused, and a refused call is accepted when repeated; cutting the batch axis of a rank-4 operand is undefined behaviour (through pad, C55)."
  },
  {
   "property": "C80",
   "status": "partial",
   "theorems": [
    "Verif.Props.C80_patches_partial",
    "Verif.Props.C80_infer",
    "Verif.Props.C80_extent_exact",
    "Verif.Props.C80_rejects",
    "Verif.Props.C80_border_false",
    "Verif.Props.C80_corner_false",
    "Verif.Props.C80_unchecked_false"
   ],
   "note": "Every element of every patch, for all sizes; the start is nearest to the centred one (with an explicit bound on float rounding) unless the patch starts before the image. Disproved: int() rounds negative starts towards zero, so for every odd patch from 3 on a landmark in the first row is one row off the centre; the positions' other extents and number of images are unchecked (wrong numbers, reads beyond the end); far positions and a zero origin are undefined. Float element types only."
  },
  {
   "property": "C81",
   "status": "partial",
   "theorems": [
    "Verif.Props.C81_head",
    "Verif.Props.C81_head_rejects",
    "Verif.Props.C81_head_empty_false",
    "Verif.Props.C81_poster",
    "Verif.Props.C81_overlap_exact_partial",
    "Verif.Props.C81_cut_exact_partial",
    "Verif.Props.C81_cut_bounds",
    "Verif.Props.C81_infer",
    "Verif.Props.C81_infer_false",
    "Verif.Props.C81_negative_threshold_false",
    "Verif.Props.C81_mask_false",
    "Verif.Props.C81_batch_false",
    "Verif.Props.C81_rejects"
   ],
   "note": "Both operators for all sizes and values; suppression for every sort that meets the standard's contract and every rounding. What the overlap test and the cut mean geometrically is proved without rounding (suffix _partial), the bounds of the cut box with rounding. Disproved: infer counts the candidates of the first image for all images, before suppression and once for all classes; an empty map divides by zero; with a negative threshold suppressed boxes come back with score 0; masks and the images of earlier operands are not checked. NaN scores are not modelled."
  },
  {
   "property": "C82",
   "status": "partial",
   "theorems": [
    "Verif.Props.C82_priors",
    "Verif.Props.C82_ratios",
    "Verif.Props.C82_accuracy",
    "Verif.Props.C82_ordered",
    "Verif.Props.C82_infer",
    "Verif.Props.C82_infer_false",
    "Verif.Props.C82_missing_image_false",
    "Verif.Props.C82_reinit_false",
    "Verif.Props.C82_fraction_false",
    "Verif.Props.C82_step_false",
    "Verif.Props.C82_rank_false",
    "Verif.Props.C82_empty_false",
    "Verif.Props.C82_rejects",
    "Verif.Props.C82_rejects_fields"
   ],
   "note": "The whole operator for positive ratios and sizes within int. That only the first ratio counts as 1, so that the writes fill the result exactly, is proved for single precision rounding and any double rounding. Disproved: a missing image operand is not noticed (the result is taken for it), initialising twice keeps old variances, sizes and step_h/step_w lose their fraction, ranks are not checked, infer announces the operand's type. Infinities (ratio 0) and NaN are not modelled."
  },
  {
   "property": "C83",
   "status": "partial",
   "theorems": [
    "Verif.Props.C83_holds",
    "Verif.Props.C83_fails_partial",
    "Verif.Props.C83_refuses_iff",
    "Verif.Props.C83_level_false",
    "Verif.Props.C83_no_eject_false",
    "Verif.Props.C83_assert_false"
   ],
   "note": "Proved for the log levels up to ERROR (the default is INFO); the models of all other properties assume such a level. Disproved above: with the global level FATAL every failed check is skipped silently and the program goes on. Also disproved: checks without eject only log, and TS_AUTO_ASSERT ends the process instead of throwing."
  },
  {
   "property": "C84",
   "status": "partial",
   "theorems": [
    "Verif.Props.C84_output",
    "Verif.Props.C84_apart",
    "Verif.Props.C84_keep_none",
    "Verif.Props.C84_corner_partial",
    "Verif.Props.C84_center_size_partial",
    "Verif.Props.C84_corner_size_partial",
    "Verif.Props.C84_decode_rejects",
    "Verif.Props.C84_overlap_partial",
    "Verif.Props.C84_init",
    "Verif.Props.C84_rejects",
    "Verif.Props.C84_infer",
    "Verif.Props.C84_infer_false",
    "Verif.Props.C84_no_priors_false",
    "Verif.Props.C84_no_background_false",
    "Verif.Props.C84_variance_false",
    "Verif.Props.C84_layout_false"
   ],
   "note": "C84_output holds for every rounding; the meaning of decoding and overlap is proved for exact arithmetic (partial). Disproved: the announced shape; no priors (undefined); a background label of -1 with shared locations is refused; priors without variances are read past the end; trailing extents of the predictions are ignored so that later images are misread."
  },
  {
   "property": "C85",
   "status": "partial",
   "theorems": [
    "Verif.Props.C85_mean_partial",
    "Verif.Props.C85_local",
    "Verif.Props.C85_init",
    "Verif.Props.C85_rejects",
    "Verif.Props.C85_infer_false",
    "Verif.Props.C85_image_false",
    "Verif.Props.C85_rows_false"
   ],
   "note": "The mean is proved for exact arithmetic (partial); success and locality for every rounding. Disproved: the announced shape has empty planes; regions of images that do not exist and rows that are not of five elements are read past the end."
  },
  {
   "property": "C86",
   "status": "partial",
   "theorems": [
    "Verif.Props.C86_keep",
    "Verif.Props.C86_apart",
    "Verif.Props.C86_inside",
    "Verif.Props.C86_decode_partial",
    "Verif.Props.C86_anchors_partial",
    "Verif.Props.C86_rows",
    "Verif.Props.C86_rows2",
    "Verif.Props.C86_image",
    "Verif.Props.C86_image_multi",
    "Verif.Props.C86_grid",
    "Verif.Props.C86_shift_partial",
    "Verif.Props.C86_levels",
    "Verif.Props.C86_level_partial",
    "Verif.Props.C86_overlap_partial",
    "Verif.Props.C86_several",
    "Verif.Props.C86_rejects",
    "Verif.Props.C86_identity_false",
    "Verif.Props.C86_batch_false",
    "Verif.Props.C86_scales_false",
    "Verif.Props.C86_overflow_false",
    "Verif.Props.C86_small_false",
    "Verif.Props.C86_one_false",
    "Verif.Props.C86_lost_false",
    "Verif.Props.C86_infer_false"
   ],
   "note": "Sorting, suppression, row order and levels are proved for every rounding; anchors, decoding, overlap and level formula for exact arithmetic. Disproved: all images use the scores and shifts of image 0; several strides use one scale; no change of an anchor enlarges it by a pixel; small boxes are returned; with one output trailing rows are old memory, with several outputs fewer boxes than asked for are lost; too many anchors are written past the buffer before being counted; the announced outputs are four of 300 rows whatever the parameters."
  },
  {
   "property": "C87",
   "status": "partial",
   "theorems": [
    "Verif.Props.C87_sum_partial",
    "Verif.Props.C87_local",
    "Verif.Props.C87_init",
    "Verif.Props.C87_infer",
    "Verif.Props.C87_rejects",
    "Verif.Props.C87_bias_false",
    "Verif.Props.C87_offset_false",
    "Verif.Props.C87_groups_false",
    "Verif.Props.C87_nhwc_false"
   ],
   "note": "The sum is proved for exact arithmetic; with rounded columns (C87_local) each column is a function of its plane, place, offsets and mask; the matrix product is summed exactly in both. Disproved: short bias, offsets and masks are read past their end; the number of groups is not checked (division by zero, offsets of a group that does not exist); NHWC is accepted by set-up and shape inference but the run takes the operands as NCHW and fails."
  },
  {
   "property": "C88",
   "status": "partial",
   "theorems": [
    "Verif.Props.C88_ref",
    "Verif.Props.C88_groups_partial",
    "Verif.Props.C88_complete_partial",
    "Verif.Props.C88_filters",
    "Verif.Props.C88_links_partial",
    "Verif.Props.C88_value_partial",
    "Verif.Props.C88_evaluates_partial",
    "Verif.Props.C88_body_false",
    "Verif.Props.C88_residual_false",
    "Verif.Props.C88_two_graphs_false",
    "Verif.Props.C88_cycle_false",
    "Verif.Props.C88_single_output_false",
    "Verif.Props.C88_single_input_false",
    "Verif.Props.C88_source_false",
    "Verif.Props.C88_route_false",
    "Verif.Props.C88_negative_min_false"
   ],
   "note": "Groups: proved without single_input/single_output for rules that refuse sources; completeness for rules without pure routes. The fused graph is right for one group when no node mixes (Clean). Disproved: one map serves both directions, so the body can read its own sub node's output (C88_body_false) and a residual connection makes the main graph read the parameter inside the sub graph (C88_residual_false); a group reading an earlier group's result reads the earlier sub node inside its body (C88_two_graphs_false); groups that are convex one by one can need each other, so the fused graph has a cycle (C88_cycle_false); single_output records no outputs; single_input calls set_intersection on unordered sets; a supported source gets no outputs; nothing below a route-only group is looked at; a negative min_graph_size drops everything. Not modelled: the order of inputs and outputs (657-713), names, Module::load of the result."
  },
  {
   "property": "C89",
   "status": "partial",
   "theorems": [
    "Verif.Props.C89_conv2d_v2",
    "Verif.Props.C89_conv2d_v2_infer",
    "Verif.Props.C89_pooling2d_v2",
    "Verif.Props.C89_pooling2d_v2_infer",
    "Verif.Props.C89_reject_partial",
    "Verif.Props.C89_pool_reject_partial",
    "Verif.Props.C89_reject_false",
    "Verif.Props.C89_reinit_false",
    "Verif.Props.C89_scalar_false"
   ],
   "note": "Accepted operands: proved for every history. Rejection: proved unless the last operands seen were the same. Disproved: a rejected operand is remembered before it is judged, so the same call made again is not rejected; a padding of the batch axis is then ignored, a padding of the wrong shape replaced by an earlier one (C89_reject_false); a second init() keeps the remembered operand with an uninitialised inner operator (C89_reinit_false); a scalar operand is compared with memory that does not exist (C89_scalar_false). conv2d_winograd_v2 has the same code but its inner operator also caches the kernel (C60). Abstract: tensor::cast, the computations once the geometry is read."
  },
  {
   "property": "C90",
   "status": "partial",
   "theorems": [
    "Verif.Props.C90_handles_partial",
    "Verif.Props.C90_scope",
    "Verif.Props.C90_alive_partial",
    "Verif.Props.C90_reinit_false",
    "Verif.Props.C90_moved_from_false",
    "Verif.Props.C90_move_onto_false",
    "Verif.Props.C90_failed_init_false",
    "Verif.Props.C90_dangling_false"
   ],
   "note": "Scopes: proved in full. Handles: proved for callers that initialise a context holding a handle only on its own device, do not initialise moved-from contexts and move only onto contexts without a handle. No use after destruction: proved when contexts are destroyed only while no thread is on them. Disproved without these conditions: re-initialising on another device gives the old handle to the new device's function; a moved-from context gives back its new owner's handle; moving onto a context leaks its handle; an initialisation that throws leaves the new id, used later to give back the old handle; ts_plugin_free_device_context leaves the thread's current context dangling. Assumed: the registered functions do not throw."
  },
  {
   "property": "C91",
   "status": "partial",
   "theorems": [
    "Verif.Props.C91_dot",
    "Verif.Props.C91_stack",
    "Verif.Props.C91_stack_projective_false",
    "Verif.Props.C91_named",
    "Verif.Props.C91_affine",
    "Verif.Props.C91_inverse",
    "Verif.Props.C91_inverse_points",
    "Verif.Props.C91_inverse_small_false",
    "Verif.Props.C91_sample",
    "Verif.Props.C91_rotate",
    "Verif.Props.C91_rotations"
   ],
   "note": "Everything proved without rounding; the inverse is proved right exactly when the transformation does not shrink areas below FLT_EPSILON: for every stronger reduction (e.g. to a 4096th) inverse returns another matrix. Missing: the rounding errors."
  },
  {
   "property": "C92",
   "status": "partial",
   "theorems": [
    "Verif.Props.C92_loop",
    "Verif.Props.C92_end",
    "Verif.Props.C92_empty",
    "Verif.Props.C92_clone",
    "Verif.Props.C92_update_partial",
    "Verif.Props.C92_update_empty_false",
    "Verif.Props.C92_update_wrap_false",
    "Verif.Props.C92_moved_false",
    "Verif.Props.C92_finish_false"
   ],
   "note": "The loop and copies: proved in full for descriptions without missing parts. update: proved for fewer than 2^64 steps when no repeated group is empty. Disproved: update of a repeated group without steps reads the node after deleting it (for every such group); 2^64 steps count as none; a description built from a moved-away one cannot be run; a step equal to LONG_MIN looks like the end."
  },
  {
   "property": "C93",
   "status": "partial",
   "theorems": [
    "Verif.Props.C93_stack",
    "Verif.Props.C93_value",
    "Verif.Props.C93_no_ub",
    "Verif.Props.C93_offline_value",
    "Verif.Props.C93_offline_stack",
    "Verif.Props.C93_no_results_false",
    "Verif.Props.C93_nodes_partial",
    "Verif.Props.C93_concat_false",
    "Verif.Props.C93_broadcast_false",
    "Verif.Props.C93_shortcuts",
    "Verif.Props.C93_concat_at_once",
    "Verif.Props.C93_params",
    "Verif.Props.C93_outer"
   ],
   "note": "Calls at once and offline_run: proved. Nodes: proved for all functions but concat and broadcast, for which it is false (symbol::concat makes a gather, symbol::broadcast an inner product). Disproved: an operator without results gives its arguments back. Which workbench is bound to the thread and devices are not modelled."
  },
  {
   "property": "C94",
   "status": "partial",
   "theorems": [
    "Verif.Props.C94_supported",
    "Verif.Props.C94_registry",
    "Verif.Props.C94_once",
    "Verif.Props.C94_exit",
    "Verif.Props.C94_bind",
    "Verif.Props.C94_detect",
    "Verif.Props.C94_exit_failed_false",
    "Verif.Props.C94_plugin_lost_false",
    "Verif.Props.C94_fallback_false",
    "Verif.Props.C94_context_false"
   ],
   "note": "Proved for libraries that need at most what their name says. Disproved: if no library fits, the attempt throws and the process later ends by reading a null pointer (every such history); operators of plugins registered before the switch cannot be found afterwards; a missing library is an error even if a lesser one is installed; a workbench whose library context could not be made throws at every run. Not modelled: how the directory of the library is found, threads."
  },
  {
   "property": "C95",
   "status": "partial",
   "theorems": [
    "Verif.Props.C95_records",
    "Verif.Props.C95_label_text",
    "Verif.Props.C95_labels_differ",
    "Verif.Props.C95_once",
    "Verif.Props.C95_average",
    "Verif.Props.C95_percent_false",
    "Verif.Props.C95_clear_false",
    "Verif.Props.C95_clean_false"
   ],
   "note": "Proved for names without percent signs and fewer than 2^31 runs. Disproved: a node name with a percent sign is used as a printf format (undefined, for every such name); clearing a label clears a copy; clean() restarts the numbers but keeps the board, so one operator is found under two labels. Not modelled: the clock, float rounding of the average, a timer that outlives its profiler."
  },
  {
   "property": "C96",
   "status": "partial",
   "theorems": [
    "Verif.Props.C96_string_queue_partial",
    "Verif.Props.C96_string_short_read_false",
    "Verif.Props.C96_writer_partial",
    "Verif.Props.C96_prefilled_false",
    "Verif.Props.C96_writer_str_false",
    "Verif.Props.C96_file_pieces",
    "Verif.Props.C96_file_reopen",
    "Verif.Props.C96_open_twice_false",
    "Verif.Props.C96_rewind_partial",
    "Verif.Props.C96_rewind_false",
    "Verif.Props.C96_loaders_partial",
    "Verif.Props.C96_loaders_false",
    "Verif.Props.C96_small_file_false",
    "Verif.Props.C96_missing_file",
    "Verif.Props.C96_loader_names",
    "Verif.Props.C96_save_partial",
    "Verif.Props.C96_save_false",
    "Verif.Props.C96_unwritable_false",
    "Verif.Props.C96_file_stream_false"
   ],
   "note": "Proved while no stream is read beyond its end and the disk has room. Disproved, each for all such cases: after one read beyond the end a string stream reads nothing and loses what is written, clear and str do not help; a given string is overwritten instead of continued; str(buffer) of a writer does nothing; rewind after the end has no effect, so a file of fewer than 128 bytes is never seen by a loader named after open_loader; a reader opened twice reads nothing; a full disk goes unnoticed; writes to a file that could not be opened count as complete; a FileStream can never be opened. The state of std streams follows the C++11 standard; file buffering is not modelled."
  },
  {
   "property": "C97",
   "status": "partial",
   "theorems": [
    "Verif.Props.C97_freed_once_partial",
    "Verif.Props.C97_isolation",
    "Verif.Props.C97_expect_keeps",
    "Verif.Props.C97_shrink_keeps",
    "Verif.Props.C97_resize",
    "Verif.Props.C97_refused_unchanged",
    "Verif.Props.C97_resize_refused_false",
    "Verif.Props.C97_move_leaks_false",
    "Verif.Props.C97_moved_from_false",
    "Verif.Props.C97_disposed_false"
   ],
   "note": "Proved for every history without two calls: a resize that the system refuses and a move onto an object that has a block. Disproved for those: the refused resize leaves a pointer to the freed block and destroying the object is undefined; the moved-onto block stays allocated for ever. Also disproved: a moved-from object still reports a block that can be gone, and a disposed object keeps its capacity and asking for it again gives no data. CPU allocator, one thread."
  },
  {
   "property": "C98",
   "status": "partial",
   "theorems": [
    "Verif.Props.C98_sequence_partial",
    "Verif.Props.C98_range_partial",
    "Verif.Props.C98_bounds",
    "Verif.Props.C98_binomial",
    "Verif.Props.C98_seed_undefined_false",
    "Verif.Props.C98_standard_false",
    "Verif.Props.C98_uniform_false",
    "Verif.Props.C98_wide_false"
   ],
   "note": "Sequence and ranges are proved for compilers whose int arithmetic wraps around. Disproved: by the C++11 standard every seeding overflows an int and is undefined (all seeds); the shifts keep the sign, so it is not the published MT19937 (first number for seed 5489); next(min, max) gives max for one draw out of 2^31 only; bounds further apart than 2^31-1 are undefined. Not modelled: exp, ray, weibull, normal; the time as seed."
  },
  {
   "property": "C99",
   "status": "partial",
   "theorems": [
    "Verif.Props.WinogradZip.C99_same_results_partial",
    "Verif.Props.WinogradZip.C99_replaces_iff",
    "Verif.Props.WinogradZip.C99_packed_is_kept",
    "Verif.Props.WinogradZip.C99_packs_iff",
    "Verif.Props.WinogradZip.C99_output_extents",
    "Verif.Props.WinogradZip.C99_packed_weights_false",
    "Verif.Props.WinogradZip.C99_computed_kernel_false",
    "Verif.Props.WinogradZip.C99_old_spelling_false"
   ],
   "note": "Node level, float tensors, NCHW, exact arithmetic (field of characteristic 0). Disproved: a module whose weights are already packed is replaced and computes with permuted weights; an NCHW convolution with a computed kernel makes compilation throw; the old spelling of dilation is never replaced and makes packing throw on ARM. Negative padding is replaced as well (C99_replaces_iff) and computed wrongly (C60). Not modelled: other types, channels of image and kernel that differ (refused before, not after)."
  }
 ]
}