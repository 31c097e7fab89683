{
 "C04": {
  "note": "The property records a defect of the code (AttributeError for a single tile); proved for every configuration and input."
 },
 "C08": {
  "note": "Finding: Max noise management with every sample maximum exactly 0 (e.g. x=[-1,0]) returns zeros; C08_max_zero_always proves it for all such inputs, C08_max_zero_counterexample exhibits W x != 0."
 },
 "C09": {
  "note": "Finding: mv type IDEAL is accepted by matmul but rejected by check_support (C09_ideal_type_rejected)."
 },
 "C11": {
  "note": "The property describes a surprising behaviour (stale scales); C11_round_trip_iff characterises exactly when the round trip holds."
 },
 "C12": {
  "note": "Tile-level remap proved with the stated exception (C12_remap_off_squares_scales). Post-update remaps of both back ends proved for all histories; torch NaN case is C12_torch_post_update_nan, bounded range clipping C12_cpp_bounded_range. GPU: C12_gpu_as_cpu (bounded range: positive scales), C12_gpu_logical (negative scales: sign lost), C12_gpu_maximum, C12_gpu_range, C12_gpu_refused, C12_gpu_order."
 },
 "C13": {
  "note": "Finding: float argument ignored when scales exist (C13_set_scales_float); zero mean with lr compensation raises after writing (C13_zero_mean_raises)."
 },
 "C14": {
  "note": "Finding: analog bias times input range; stated as explicit exception in the theorem."
 },
 "C15": {
  "note": "Hypothesis hcomp excludes left-over lr compensation after set_scales(None); the example beside the theorem shows the five-fold error in that case. C15_stale_learning_rate quantifies the report error."
 },
 "C16": {
  "note": "Finding: explicit set_input_range before training is overwritten (C16_set_range_overwritten)."
 },
 "C31": {
  "note": "Finding: digital bias replaced by a failing write (C31_failed_write_replaces_bias)."
 },
 "C40": {
  "note": "Findings: gradient_scale ignored without gradient_relative; output percentage divided by number of inputs (C40_output_percentage)."
 },
 "C17": {
  "note": "Finding: second call / explicit x_values raise UnboundLocalError; all-zero target raises ZeroDivisionError. C17_converges covers the successful first call."
 },
 "C38": {
  "note": "Value semantics proved for unshared histories (C38_value_semantics); the three sharing effects are proved for every state."
 },
 "C32": {
  "note": "Findings: torch fixed-value clipping with negative value overwrites all weights (C32_torch_negative_fixed); torch layer-Gaussian zeroes constant matrices (C32_torch_constant_zeroed). GPU: C32_gpu_clip, C32_gpu_as_cpu, C32_gpu_order, C32_gpu_tiles; exceptions C32_gpu_gaussian_overwrites, C32_gpu_constant_zeroed, C32_gpu_single_weight."
 },
 "C41": {
  "note": "Finding: wrong formula in set_weights_uniform_random."
 },
 "C42": {
  "note": "Findings: stale modified weights (C42_training_weights_stale); back ends differ (C42_backends_differ). GPU (Verif/GpuMod): equality with the CPU model over any history (C42_gpu_as_cpu), remembered maximum (C42_gpu_maximum), discretization in spite of a resolution that is not positive (C42_gpu_discretize_add), PCM noise (C42_gpu_pcm_*), copies and checkpoints (C42_eval_copies, C42_copy_forgets, C42_checkpoint). tanh, log and powers are arbitrary functions there."
 },
 "C21": {
  "note": "Findings: constructor check uses the maximum factor (C21_accepted_iff, C21_negative_factor), zero factor divides by zero (C21_zero_factor)."
 },
 "C22": {
  "note": "Exact characterisation of round trip (C22_custom_round_trip_iff); the five-point test is incomplete (C22_test_incomplete); constant tensors divide by zero (C22_constant)."
 },
 "C24": {
  "note": "Over the reals. Findings: apply_noise raises at t<=0; both coefficient arguments -> AttributeError; Wan reference ignored; CMO negative conductances and NaN; custom drift key check."
 },
 "C18": {
  "note": "All noise models and read-outs (abstract). Findings: stale reference after training (C18_program_from_reference), discarded set_weights (C18_drift_from_programmed), stale alpha (C18_alpha_only_drift), in_trans typo (C18_in_trans_raises)."
 },
 "C19": {
  "note": "Finding: per-column factors broadcast over the wrong dimension for images (C19_per_column_images). out_trans not modelled."
 },
 "C25": {
  "note": "Finding: per-group options of analog parameters are dropped (C25_group_options_lost); duplicate context raises (C25_duplicate_raises)."
 },
 "C26": {
  "note": "The tile calls are an abstract world that may raise at any call. Findings: zero_grad keeps analog gradients; indexed retry applies pairs twice (C26_indexed_retry_twice)."
 },
 "C27": {
  "note": "Torch functions are arbitrary, subject to the naming convention for in-place functions. Finding: C27_views_write_through."
 },
 "C43": {
  "note": "Finding: registry keyed by class name (C43_first_of_name)."
 },
 "C33": {
  "note": "Findings: C33_clip_escapes, C33_none_with_device_lost, C33_set_hidden_drops_persistent; reference classes leave the nominal range (C33_reference_history)."
 },
 "C34": {
  "note": "Single-vector updates, reads as exact dot products with arbitrary additive draws. Findings: C34_default_period_finding, C34_cancelling_gamma, C34_hidden_persistent_kept."
 },
 "C35": {
  "note": "Over the reals; expectation over an arbitrary probability space with uniform draws. GPU: C35_gpu_as_cpu, C35_gpu_trains, C35_gpu_product, C35_gpu_long, C35_gpu_nothing, C35_gpu_implicit; layout of the trains in memory is C94/C95."
 },
 "C45": {
  "note": "Findings: C45_res_steps_no_pulses, C45_dense_sign_lost."
 },
 "C46": {
  "note": "Finding: C46_powref_jump."
 },
 "C47": {
  "note": "nu_k = 0 (with nu_k the result depends on the partition). GPU: C47_gpu_step (with nu_k: base-ten logarithm, asCpu), C47_gpu_as_cpu, C47_gpu_total_time; saved states: C47_checkpoint, C47_restarted."
 },
 "C28": {
  "note": "The simulator tile is an abstract machine; for pulsed devices it is instantiated in State/Device.lean. Findings: flags_sticky, unsaved_attributes, lr_compensation_lost, hidden_mismatch, dropped_tensor, config_shared, persistent_lost, step_replaced, transfer_fast_lost, alpha_shape, drift_discards_loaded, drift_reprograms."
 },
 "C44": {
  "note": "C44_new_context for the load, C44_stale_* for the optimizer built before it, C44_old_gradients_applied for gradients recorded before it."
 },
 "C29": {
  "note": "Module graphs as a heap of objects. Layer encoding/decoding is abstract (C02, C10, C31 give the weights). Findings: C29_shared_dropped, C29_shared_untied, C29_wrapper_by_name."
 },
 "C23": {
  "note": "LinearRegression is ordinary least squares (trusted); CSV text abstracted to rows of typed fields. Findings: constant rows lost (C23_round_trip via Restored), C23_analog_bias, C23_other_converters, C23_failed_import, C23_renamed_key_error."
 },
 "C30": {
  "note": "Exact rationals; log-domain scale modelled as its exponential. Exceptions: C30_one_bit_signed, C30_rank_change."
 },
 "C37": {
  "note": "scipy bounded minimisation is an arbitrary oracle; cross-entropy estimator and per-group permutation not modelled. Findings: C37_percentile_upper_end, C37_mse_reset_keeps_sign, C37_mse_one_bit, C37_golden_last_batch."
 },
 "C48": {
  "note": "Reset proved for per-tensor and per-axis managers with min-max estimators; per-channel ones keep their rank (C30_rank_change). Finding: C48_explicit_range_unusable."
 },
 "C49": {
  "note": "Layer operation abstract (any function of weight, bias, input). Finding: C49_stale_cache."
 },
 "C36": {
  "note": "Tile calls between the hooks are an arbitrary trace; the standard deviation and random subsampling are universally quantified. Value theorems assume no leftover hooks on the tile. Findings: C36_float_tile_clipped, C36_disabled_tile_raises, C36_unused_tile, C36_all_zero_batch, C36_failure_not_undone, C36_signed_quantile, C36_parameter_replaced."
 },
 "C50": {
  "note": "Network between layers abstract (arbitrary calls). Findings: off-by-one in the number of batches, evaluation mode left, stale cache."
 },
 "C51": {
  "note": "Tree model with object identities per parent; modules recursed into are not shared between different parents. convert_to_digital of one layer and user constructors are arbitrary functions. Findings: C51_shared_child, C51_conv_padding_mode, C51_layernorm_without_weight, C51_root_excluded, training mode / requires_grad (in C51_torch_layer)."
 },
 "C52": {
  "note": "Reads return arbitrary vectors (analog read not tied to the device weights). Findings: C52_set_weights_keeps_buffer, scratch vector length in C52_layout."
 },
 "C53": {
  "note": "Auto-scaled fast learning rate statistics not modelled: the count learning rate is an argument of each update. Findings: C53_out_chopper_not_undone, C53_visible_weight_finding, C53_auto_period_reads_twice; equality with the buffered class only if thresholds agree."
 },
 "C54": {
  "note": "Two devices, one read per transfer (others are fatal). Reads return arbitrary vectors; the experimental fast-lr feedback only enters through the count learning rate, an argument of each update. Findings: C54_warmup_loses_steps, C54_switching."
 },
 "C55": {
  "note": "The two inner tiles are arbitrary operations with explicit draws. One read per transfer (others raise). Findings: C55_forget_finding, C55_zero_period, C55_input_modified, C55_row_transfer, C55_resume_finding."
 },
 "C56": {
  "note": "Flat row-major tensors, the tile is an arbitrary function per column; out-of-bounds reads of the C++ code are an error value. Findings: C56_stale_finding, C56_channels1d, C56_channels2d, C56_latest_finding."
 },
 "C57": {
  "note": "Indexed path; the unfold path of a tile is that of C56. One weight row per output channel. Finding: C57_failed_finding."
 },
 "C58": {
  "note": "sigmoid and tanh are parameters (only their ranges matter for the bounds); each layer has its own noise source; broadcasting of single feature columns is not modelled. Findings: C58_bidir_states, C58_layers, C58_empty."
 },
 "C59": {
  "note": "CPU device; strides, CUDA and state_dict extras are not modelled; one-bin division by zero and the out-of-bounds write raise in the model. Findings: C59_one_quantised_finding, C59_single_bin_finding, C59_sparsity_finding, C59_long_transfer_finding."
 },
 "C60": {
  "note": "Tiles are arbitrary (C60_model_round_trip instantiates them with the periphery model). Module objects are kind, children, training flag and tile counter; torch's own load_state_dict is not modelled beyond the strict argument it gets. Findings: C60_set_weights_raises, C60_program, C60_tile_count, C60_load, C60_ddp_finding."
 },
 "C61": {
  "note": "Values are elements of an arbitrary ordered field with floor; random numbers are arguments. CUDA, strides and half precision not modelled. Findings: C61_average (shared variable), Examples (NM Max)."
 },
 "C62": {
  "note": "The fuel of the model's loop is proved sufficient (C62_terminates). Findings: C62_negative_forgets, C62_worstCase_repeats."
 },
 "C63": {
  "note": "The square root is an argument assumed to be a root. Findings: C63_ir_drop (j = 0), C63_nl_vector_ignored, C63_input_stage/C63_output_stage (asymmetries)."
 },
 "C64": {
  "note": "Relates the two separately written models Mvm (python) and CppFwd (C++) for one sample, rational numbers. Findings: C64_perfect_scale, C64_worst_case_is_iterative, C64_max_negative, batch example in CppFwd/TorchExamples."
 },
 "C65": {
  "note": "Sub devices are the modelled pulsed classes (no nested compounds), one tile, CPU path. Findings: C65_fp_update_lost, C65_index_unchecked, C65_reference_offset, C65_set_bakes_noise, C65_sequential (first update goes to first_update_idx + 1)."
 },
 "C66": {
  "note": "Analog read of the refresh is an arbitrary vector; refresh writes of the stochastic and deterministic pulse types. Findings: C66_refresh_direction, C66_refresh_raises, C66_copy_inverted."
 },
 "C67": {
  "note": "Ordered-field arithmetic. scipy's search is an arbitrary point of the cube. Composes with C22_custom_round_trip_iff."
 },
 "C68": {
  "note": "Programming and drift of the test layer are an arbitrary function of converter, mapping and evaluation number; not-a-number errors do not arise. Findings: C68_baseline_ignored, C68_success, C68_second_run."
 },
 "C69": {
  "note": "analog_mvm_irdrop_t.py: split and bit-wise decomposition over an ordered field with floor. Finding: bit-wise mode accepts any resolution (C69_bits_lost)."
 },
 "C70": {
  "note": "analog_mvm_irdrop_t.py, thevenin_equiv_op.cpp: Thevenin chain, time grid, integration, padding, pair loop, read-out modes. Read noise is not modelled. Findings: trapezoidal integration reads non-zero inputs half a step too long (C70_modes), one missing row / odd columns raise."
 },
 "C71": {
  "note": "Bit-level model (natural numbers below 2^32, uint32 operations); IEEE value map is part of the model. Rounding is specified as nearest number with ml+1 significant bits, ties away. Findings proved: wrap instead of clipping (C71_wraps, C71_not_monotone), NaN to infinity (C71_nonfinite), sign lost on underflow, backward raises (torch's rule that a Function must return one gradient per argument is trusted)."
 },
 "C72": {
  "note": "linalg/matrix.py over the periphery tile (ideal crossbar) and the tile array models. realistic=True and CUDA are not modelled. Findings proved: matmat treats rows as samples (C72_matmat_square, C72_matmat_raises), column vectors raise, large matrices lose numpy products, x @ A and ger (C72_large)."
 },
 "C73": {
  "note": "CPU tiles; keys as strings, values exact; vector sizes not checked (nor by the code); state after an exception in load_extra not modelled. Findings proved: C73_drift_lost (wdrifter saved but never loaded), C73_modifier_lost, C73_nested_raises, C73_mixed_transfer_raises, C73_missing_all (uninitialised was_allocated), C73_get_ambiguous and two passes set at once on transfer compounds."
 },
 "C74": {
  "note": "The compiled library is quantified over (Lib: classes, enums, accepted assignments); instances hold all attributes in __dict__. Findings proved: C74_missing_class_silent (the error object is built but not thrown, helpers.py:60), C74_tile_typo_silent, C74_transfer_rest_ignored, C74_no_device (IndexError)."
 },
 "C75": {
  "note": "Exact real arithmetic, noise-free pulses, no variations. Finding proved: C75_overshoots (up_down is interpreted by the C++ code as a reduction of one direction from dw_min, not as the split the parameterisation assumes, so the relative step is up to 2 alpha instead of alpha)."
 },
 "C76": {
  "note": "Single CPU tile, sub devices of the modelled pulsed classes without write noise. The statement contains the findings: inner weights are overwritten because __setstate__ calls set_weights after set_hidden_parameters."
 },
 "C77": {
  "note": "Forward passes are arbitrary call sequences. Findings are part of the statement: hooks stay registered (C77_keeps_growing, C77_failure_sticks), repeated calls counted repeatedly (C77_total_tiles), unbatched convolutions (C77_reuse_unbatched)."
 },
 "C78": {
  "note": "Keys are character lists and all string methods (split, startswith, replace, in) are modelled. C78_converted gives, for every successful run, the value of every key of the result as the last one stored by the per-entry specification OutSpec. Findings are part of the statement (see DESIGN section 4). Not modelled: tensor dtypes and devices, sharing of one configuration object by several states."
 },
 "C79": {
  "note": "Messages are records of the fields of the descriptors; byte serialization is not modelled, weights are not part of the format. The 32-bit rounding is an arbitrary function (idempotent in C79_again)."
 },
 "C80": {
  "note": "Same conventions as C79; numbers are rationals."
 },
 "C81": {
  "note": "Double arithmetic of the resolutions is exact in the model."
 },
 "C82": {
  "note": "Serialization to bytes (where required fields are enforced) is not modelled."
 },
 "C83": {
  "note": "Network, optimizer and loss are an arbitrary machine; their exceptions, printed text, data sets and devices are not modelled."
 },
 "C84": {
  "note": "Exact real numbers instead of floats; the network is an arbitrary machine whose exceptions are not modelled; inference_time positive."
 },
 "C85": {
  "note": "Reading files, load_state_dict and remapping are arbitrary functions; the conversion is the model of C78."
 },
 "C86": {
  "note": "Trees are consistent: the same object has the same children everywhere (trivially true of Python objects). Module.apply of torch is modelled (children once each, then the module)."
 },
 "C87": {
  "note": "Exact arithmetic over any field; BLAS routines by their definition; delayed updates are not bound to Python and left out."
 },
 "C88": {
  "note": "The device update of one vector is an arbitrary function of device state, weights, vectors and learning rate that writes only into the weights."
 },
 "C89": {
  "note": "The stored weight is the persistent weight if write noise is on. Reset bias inside the bounds and non-overshooting scales are hypotheses of the closed form; C89_decay_once has no such hypothesis. On the GPU (GpuDecay) random numbers are unlimited arrays; the first column has to be inside the matrix."
 },
 "C90": {
  "note": "CPU tiles. The user may not hand the memory of one tile to the other (C90_apart) and states that are loaded fit the tile (C90_one_matrix); every other history is covered by C90_memory."
 },
 "C91": {
  "note": "Addresses count elements; delayed updates are not modelled."
 },
 "C92": {
  "note": "str.lower is a parameter. Callables are arbitrary functions; that they return new objects is a hypothesis where it is needed."
 },
 "C93": {
  "note": "The content of a part (forward, modifier, device, ...) is one value; part objects shared between configurations by the user are not modelled."
 },
 "C94": {
  "note": "Schedules at the granularity of single stores; the firing probability after scaling and discretization is an arbitrary number; shared-memory kernels, implicit pulses and the other bit line kernels (unused: the simple loop is always chosen) are not modelled."
 },
 "C95": {
  "note": "The translation of the 32-bit into the 64-bit format (debugging only) is not modelled; CUB's InclusiveSum is taken as the prefix sum."
 },
 "C96": {
  "note": "Bound check: for step sizes that are not negative. Devices with weight-dependent steps, implicit pulses and the shared-memory kernels are not modelled."
 },
 "C97": {
  "note": "A reply is its status code and its body as parsed JSON or bytes; protobuf encoding of definitions and results is C81/C82; retries, timeouts and TLS of the requests library are not modelled."
 },
 "C98": {
  "note": "Values are elements of an ordered field; the CUB library reductions are trusted; one CUDA stream; `AverageAbsMaxSingleValue` and `AbsMaxSingleValue` cannot be chosen from Python and are left out; for the running average it is assumed that no thread reads it after it was written (the code does not ensure this)."
 },
 "C99": {
  "note": "Values are elements of an ordered field; cuBLAS, cuRAND and CUB are trusted; the square root is a function with the one law that is needed; iterators of convolutions are left out; the theorem on rounds (C99_bound) is for `Iterative` bound management with one pass per product, that on separate passes (C99_lost_inputs) for any two consecutive rounds; agreement with the CPU is for plain passes without bound management."
 }
}