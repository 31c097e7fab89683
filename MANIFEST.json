{
 "claims": [
  {
   "property": "C01",
   "status": "proved",
   "theorems": [
    "Aihw.TileArray.C01_split_sizes",
    "Aihw.TileArray.C01_split_sizes_unlimited",
    "Aihw.TileArray.C01_split_sizes_error_iff"
   ],
   "note": ""
  },
  {
   "property": "C02",
   "status": "proved",
   "theorems": [
    "Aihw.TileArray.C02_set_get_roundtrip",
    "Aihw.TileArray.C02_block_placement",
    "Aihw.TileArray.C02_unique_part"
   ],
   "note": ""
  },
  {
   "property": "C03",
   "status": "proved",
   "theorems": [
    "Aihw.TileArray.C03_forward_eq_matVec",
    "Aihw.TileArray.C03_wrong_length_raises",
    "Aihw.TileArray.C03_last_write_wins"
   ],
   "note": ""
  },
  {
   "property": "C04",
   "status": "proved",
   "theorems": [
    "Aihw.TileArray.C04_single_tile_forward_raises",
    "Aihw.TileArray.C04_single_tile_attributeError",
    "Aihw.TileArray.C04_multi_tile_forward",
    "Aihw.TileArray.C04_learned_bias_quant_raises"
   ],
   "note": "The property records a defect of the code (AttributeError for a single tile); proved for every configuration and input."
  },
  {
   "property": "C05",
   "status": "proved",
   "theorems": [
    "Aihw.Mvm.C05_grid_and_error",
    "Aihw.Mvm.C05_stochastic",
    "Aihw.Mvm.C05_monotone",
    "Aihw.Mvm.C05_odd",
    "Aihw.Mvm.C05_idempotent",
    "Aihw.Mvm.C05_errors"
   ],
   "note": ""
  },
  {
   "property": "C06",
   "status": "proved",
   "theorems": [
    "Aihw.Mvm.C06_chain",
    "Aihw.Mvm.C06_dac_within_bound",
    "Aihw.Mvm.C06_input_within_bound",
    "Aihw.Mvm.C06_output_within_bound"
   ],
   "note": ""
  },
  {
   "property": "C07",
   "status": "proved",
   "theorems": [
    "Aihw.Mvm.C07_terminates",
    "Aihw.Mvm.C07_round_bound",
    "Aihw.Mvm.C07_result"
   ],
   "note": ""
  },
  {
   "property": "C08",
   "status": "proved",
   "theorems": [
    "Aihw.Mvm.C08_noise_management_transparent",
    "Aihw.Mvm.C08_max_zero_counterexample",
    "Aihw.Mvm.C08_max_zero_always"
   ],
   "note": "Finding: Max noise management with every sample maximum exactly 0 (e.g. x=[-1,0]) returns zeros; C08_max_zero_always proves it for all such inputs, C08_max_zero_counterexample exhibits W x != 0."
  },
  {
   "property": "C09",
   "status": "proved",
   "theorems": [
    "Aihw.Mvm.C09_perfect_is_exact",
    "Aihw.Mvm.C09_check_support",
    "Aihw.Mvm.C09_ideal_type_rejected"
   ],
   "note": "Finding: mv type IDEAL is accepted by matmul but rejected by check_support (C09_ideal_type_rejected)."
  },
  {
   "property": "C10",
   "status": "proved",
   "theorems": [
    "Aihw.Periphery.C10_round_trip",
    "Aihw.Periphery.C10_stored_max"
   ],
   "note": ""
  },
  {
   "property": "C11",
   "status": "proved",
   "theorems": [
    "Aihw.Periphery.C11_stale_scales",
    "Aihw.Periphery.C11_round_trip_iff"
   ],
   "note": "The property describes a surprising behaviour (stale scales); C11_round_trip_iff characterises exactly when the round trip holds."
  },
  {
   "property": "C12",
   "status": "proved",
   "theorems": [
    "Aihw.GpuPost.C12_gpu_logical",
    "Aihw.GpuPost.C12_gpu_maximum",
    "Aihw.GpuPost.C12_gpu_range",
    "Aihw.GpuPost.C12_gpu_refused",
    "Aihw.GpuPost.C12_gpu_order",
    "Aihw.GpuPost.C12_gpu_as_cpu",
    "Aihw.Periphery.C12_remap",
    "Aihw.Periphery.C12_remap_off_squares_scales",
    "Aihw.PostUpdate.C12_torch_post_update",
    "Aihw.PostUpdate.C12_torch_post_update_nan",
    "Aihw.PostUpdate.C12_cpp_post_update",
    "Aihw.PostUpdate.C12_cpp_bounded_range",
    "Aihw.PostUpdate.C12_initial_scales",
    "Aihw.PostUpdate.C12_cpp_refused"
   ],
   "note": "Tile-level remap proved with the stated exception (C12_remap_off_squares_scales). Post-update remaps of both back ends proved for all histories; torch NaN case is C12_torch_post_update_nan, bounded range clipping C12_cpp_bounded_range. GPU: C12_gpu_as_cpu (bounded range: positive scales), C12_gpu_logical (negative scales: sign lost), C12_gpu_maximum, C12_gpu_range, C12_gpu_refused, C12_gpu_order."
  },
  {
   "property": "C13",
   "status": "proved",
   "theorems": [
    "Aihw.Periphery.C13_set_scales_tensor",
    "Aihw.Periphery.C13_set_scales_float",
    "Aihw.Periphery.C13_zero_mean_raises",
    "Aihw.Periphery.C13_initial_scales"
   ],
   "note": "Finding: float argument ignored when scales exist (C13_set_scales_float); zero mean with lr compensation raises after writing (C13_zero_mean_raises)."
  },
  {
   "property": "C14",
   "status": "proved",
   "theorems": [
    "Aihw.Periphery.C14_forward"
   ],
   "note": "Finding: analog bias times input range; stated as explicit exception in the theorem."
  },
  {
   "property": "C15",
   "status": "proved",
   "theorems": [
    "Aihw.Periphery.C15_update",
    "Aihw.Periphery.C15_learning_rate",
    "Aihw.Periphery.C15_stale_learning_rate"
   ],
   "note": "Hypothesis hcomp excludes left-over lr compensation after set_scales(None); the example beside the theorem shows the five-fold error in that case. C15_stale_learning_rate quantifies the report error."
  },
  {
   "property": "C16",
   "status": "proved",
   "theorems": [
    "Aihw.Periphery.C16_range_from_data",
    "Aihw.Periphery.C16_order_independent",
    "Aihw.Periphery.C16_frozen",
    "Aihw.Periphery.C16_eval_pure",
    "Aihw.Periphery.C16_normalized",
    "Aihw.Periphery.C16_set_range_overwritten"
   ],
   "note": "Finding: explicit set_input_range before training is overwritten (C16_set_range_overwritten)."
  },
  {
   "property": "C17",
   "status": "proved",
   "theorems": [
    "Aihw.Periphery.C17_explicit_x_raises",
    "Aihw.Periphery.C17_second_call_raises",
    "Aihw.Periphery.C17_first_call",
    "Aihw.Periphery.C17_converges",
    "Aihw.Periphery.C17_zero_target_raises"
   ],
   "note": "Finding: second call / explicit x_values raise UnboundLocalError; all-zero target raises ZeroDivisionError. C17_converges covers the successful first call."
  },
  {
   "property": "C18",
   "status": "proved",
   "theorems": [
    "Aihw.Inference.Life.C18_program_from_reference",
    "Aihw.Inference.Life.C18_set_weights_new_reference",
    "Aihw.Inference.Life.C18_program_current",
    "Aihw.Inference.Life.C18_drift_from_programmed",
    "Aihw.Inference.Life.C18_program_establishes",
    "Aihw.Inference.Life.C18_drift_programs",
    "Aihw.Inference.Life.C18_training_forward",
    "Aihw.Inference.Life.C18_alpha_only_drift",
    "Aihw.Inference.Life.C18_model_replaced",
    "Aihw.Inference.Life.C18_in_trans_raises"
   ],
   "note": "All noise models and read-outs (abstract). Findings: stale reference after training (C18_program_from_reference), discarded set_weights (C18_drift_from_programmed), stale alpha (C18_alpha_only_drift), in_trans typo (C18_in_trans_raises)."
  },
  {
   "property": "C19",
   "status": "proved",
   "theorems": [
    "Aihw.Inference.Life.C19_alpha_positive",
    "Aihw.Inference.Life.C19_readout_restored",
    "Aihw.Inference.Life.C19_uniform_decay",
    "Aihw.Inference.Life.C19_per_column_decay",
    "Aihw.Inference.Life.C19_alpha_bounded",
    "Aihw.Inference.Life.C19_per_column_images"
   ],
   "note": "Finding: per-column factors broadcast over the wrong dimension for images (C19_per_column_images). out_trans not modelled."
  },
  {
   "property": "C20",
   "status": "proved",
   "theorems": [
    "Aihw.Inference.C20_single_pair",
    "Aihw.Inference.C20_malformed"
   ],
   "note": ""
  },
  {
   "property": "C21",
   "status": "proved",
   "theorems": [
    "Aihw.Inference.C21_accepted_iff",
    "Aihw.Inference.C21_n_pairs",
    "Aihw.Inference.C21_zero_factor",
    "Aihw.Inference.C21_negative_factor",
    "Aihw.Inference.C21_dual",
    "Aihw.Inference.C21_malformed"
   ],
   "note": "Findings: constructor check uses the maximum factor (C21_accepted_iff, C21_negative_factor), zero factor divides by zero (C21_zero_factor)."
  },
  {
   "property": "C22",
   "status": "proved",
   "theorems": [
    "Aihw.Inference.C22_custom_round_trip_iff",
    "Aihw.Inference.C22_test_incomplete",
    "Aihw.Inference.C22_test_accepts",
    "Aihw.Inference.C22_test_iff",
    "Aihw.Inference.C22_single_device",
    "Aihw.Inference.C22_constant"
   ],
   "note": "Exact characterisation of round trip (C22_custom_round_trip_iff); the five-point test is incomplete (C22_test_incomplete); constant tensors divide by zero (C22_constant)."
  },
  {
   "property": "C23",
   "status": "proved",
   "theorems": [
    "Aihw.Fusion.C23_g_max",
    "Aihw.Fusion.C23_conductances",
    "Aihw.Fusion.C23_row_gain",
    "Aihw.Fusion.C23_signs",
    "Aihw.Fusion.C23_round_trip",
    "Aihw.Fusion.C23_short_data_raises",
    "Aihw.Fusion.C23_surplus_ignored",
    "Aihw.Fusion.C23_failed_import",
    "Aihw.Fusion.C23_other_converters",
    "Aihw.Fusion.C23_pair_converter_unusable",
    "Aihw.Fusion.C23_not_inference",
    "Aihw.Fusion.C23_analog_bias",
    "Aihw.Fusion.C23_csv_round_trip",
    "Aihw.Fusion.C23_csv_mismatch",
    "Aihw.Fusion.C23_renamed_key_error"
   ],
   "note": "LinearRegression is ordinary least squares (trusted); CSV text abstracted to rows of typed fields. Findings: constant rows lost (C23_round_trip via Restored), C23_analog_bias, C23_other_converters, C23_failed_import, C23_renamed_key_error."
  },
  {
   "property": "C24",
   "status": "proved",
   "theorems": [
    "Aihw.Inference.C24_programming",
    "Aihw.Inference.C24_reference",
    "Aihw.Inference.C24_nu_nonneg",
    "Aihw.Inference.C24_nu_reflected",
    "Aihw.Inference.C24_drift_nonneg",
    "Aihw.Inference.C24_drift_power_law",
    "Aihw.Inference.C24_apply_noise_raises",
    "Aihw.Inference.C24_noise_free_programming",
    "Aihw.Inference.C24_uniform_drift",
    "Aihw.Inference.C24_single_pair_instance",
    "Aihw.Inference.C24_n_pair_instance",
    "Aihw.Inference.C24_custom_nu_nonneg",
    "Aihw.Inference.C24_custom_keys",
    "Aihw.Inference.C24_wan_reference",
    "Aihw.Inference.C24_wan_times",
    "Aihw.Inference.C24_wan_rescaled",
    "Aihw.Inference.C24_cmo_acceptance",
    "Aihw.Inference.C24_cmo_negative",
    "Aihw.Inference.C24_cmo_drift",
    "Aihw.Inference.C24_nu_from_target",
    "Aihw.Inference.C24_programmed",
    "Aihw.Inference.C24_drifted",
    "Aihw.Inference.C24_cmo_relaxation"
   ],
   "note": "Over the reals. Findings: apply_noise raises at t<=0; both coefficient arguments -> AttributeError; Wan reference ignored; CMO negative conductances and NaN; custom drift key check."
  },
  {
   "property": "C25",
   "status": "proved",
   "theorems": [
    "Aihw.Optim.C25_regrouped",
    "Aihw.Optim.C25_succeeds_iff",
    "Aihw.Optim.C25_duplicate_raises",
    "Aihw.Optim.C25_idempotent",
    "Aihw.Optim.C25_group_options_lost"
   ],
   "note": "Finding: per-group options of analog parameters are dropped (C25_group_options_lost); duplicate context raises (C25_duplicate_raises)."
  },
  {
   "property": "C26",
   "status": "proved",
   "theorems": [
    "Aihw.Optim.C26_set_learning_rate",
    "Aihw.Optim.C26_step",
    "Aihw.Optim.C26_exactly_once",
    "Aihw.Optim.C26_at_most_once",
    "Aihw.Optim.C26_torch_update",
    "Aihw.Optim.C26_indexed_retry_twice"
   ],
   "note": "The tile calls are an abstract world that may raise at any call. Findings: zero_grad keeps analog gradients; indexed retry applies pairs twice (C26_indexed_retry_twice)."
  },
  {
   "property": "C27",
   "status": "proved",
   "theorems": [
    "Aihw.Optim.Context.C27_no_write_path",
    "Aihw.Optim.Context.C27_no_write_path_scaled",
    "Aihw.Optim.Context.C27_views_write_through",
    "Aihw.Optim.Context.C27_data_view_reads_logical",
    "Aihw.Optim.Context.C27_data_view_function",
    "Aihw.Optim.Context.C27_inplace_raises",
    "Aihw.Optim.Context.C27_assignment_raises",
    "Aihw.Optim.Context.C27_placeholder_blocks",
    "Aihw.Optim.Context.C27_placeholder_view_blocks",
    "Aihw.Optim.Context.C27_buffer_zero",
    "Aihw.Optim.Context.C27_buffer_inplace",
    "Aihw.Optim.Context.C27_requires_grad",
    "Aihw.Optim.Context.C27_values_unobservable"
   ],
   "note": "Torch functions are arbitrary, subject to the naming convention for in-place functions. Finding: C27_views_write_through."
  },
  {
   "property": "C43",
   "status": "proved",
   "theorems": [
    "Aihw.Optim.C43_wraps_given_class",
    "Aihw.Optim.C43_first_of_name"
   ],
   "note": "Finding: registry keyed by class name (C43_first_of_name)."
  },
  {
   "property": "C28",
   "status": "proved",
   "theorems": [
    "Aihw.State.C28_device_resumes",
    "Aihw.State.C28_persistent_lost",
    "Aihw.State.C28_step_replaced",
    "Aihw.State.C28_transfer_fast_lost",
    "Aihw.State.C28_round_trip",
    "Aihw.State.C28_flags_sticky",
    "Aihw.State.C28_unsaved_attributes",
    "Aihw.State.C28_lr_compensation_lost",
    "Aihw.State.C28_class_mismatch",
    "Aihw.State.C28_hidden_mismatch",
    "Aihw.State.C28_keep_config",
    "Aihw.State.C28_dropped_tensor",
    "Aihw.State.C28_prefix_loaded",
    "Aihw.State.C28_config_shared",
    "Aihw.State.C28_file_isolated",
    "Aihw.State.C28_replace_with",
    "Aihw.State.C28_shape_mismatch",
    "Aihw.Inference.Life.C28_alpha_shape",
    "Aihw.Inference.Life.C28_drift_discards_loaded",
    "Aihw.Inference.Life.C28_drift_reprograms",
    "Aihw.State.C28_strict",
    "Aihw.State.C28_keep_config_loads",
    "Aihw.State.C28_missing_lr"
   ],
   "note": "The simulator tile is an abstract machine; for pulsed devices it is instantiated in State/Device.lean. Findings: flags_sticky, unsaved_attributes, lr_compensation_lost, hidden_mismatch, dropped_tensor, config_shared, persistent_lost, step_replaced, transfer_fast_lost, alpha_shape, drift_discards_loaded, drift_reprograms."
  },
  {
   "property": "C44",
   "status": "proved",
   "theorems": [
    "Aihw.Optim.C44_stale_optimizer",
    "Aihw.Optim.C44_stale_post_update",
    "Aihw.Optim.C44_old_gradients_applied",
    "Aihw.State.C44_new_context"
   ],
   "note": "C44_new_context for the load, C44_stale_* for the optimizer built before it, C44_old_gradients_applied for gradients recorded before it."
  },
  {
   "property": "C29",
   "status": "proved",
   "theorems": [
    "Aihw.Convert.C29_digital",
    "Aihw.Convert.C29_idempotent",
    "Aihw.Convert.C29_converted",
    "Aihw.Convert.C29_nothing_added",
    "Aihw.Convert.C29_calls",
    "Aihw.Convert.C29_original_untouched",
    "Aihw.Convert.C29_original_untouched_digital",
    "Aihw.Convert.C29_round_trip",
    "Aihw.Convert.C29_shared_dropped",
    "Aihw.Convert.C29_shared_untied",
    "Aihw.Convert.C29_wrapper_by_name"
   ],
   "note": "Module graphs as a heap of objects. Layer encoding/decoding is abstract (C02, C10, C31 give the weights). Findings: C29_shared_dropped, C29_shared_untied, C29_wrapper_by_name."
  },
  {
   "property": "C30",
   "status": "proved",
   "theorems": [
    "Aihw.Quant.C30_asymmetric",
    "Aihw.Quant.C30_symmetric",
    "Aihw.Quant.C30_integers",
    "Aihw.Quant.C30_uninitialised",
    "Aihw.Quant.C30_reset",
    "Aihw.Quant.C30_per_tensor_vector",
    "Aihw.Quant.C30_one_bit_signed",
    "Aihw.Quant.C30_accepts",
    "Aihw.Quant.C30_rank_change",
    "Aihw.Quant.C30_save_load"
   ],
   "note": "Exact rationals; log-domain scale modelled as its exponential. Exceptions: C30_one_bit_signed, C30_rank_change."
  },
  {
   "property": "C31",
   "status": "proved",
   "theorems": [
    "Aihw.Periphery.C31_combine_separate",
    "Aihw.Periphery.C31_missing_bias",
    "Aihw.Periphery.C31_digital_bias_exact",
    "Aihw.Periphery.C31_failed_write_replaces_bias"
   ],
   "note": "Finding: digital bias replaced by a failing write (C31_failed_write_replaces_bias)."
  },
  {
   "property": "C32",
   "status": "proved",
   "theorems": [
    "Aihw.GpuPost.C32_gpu_clip",
    "Aihw.GpuPost.C32_gpu_as_cpu",
    "Aihw.GpuPost.C32_gpu_gaussian_overwrites",
    "Aihw.GpuPost.C32_gpu_constant_zeroed",
    "Aihw.GpuPost.C32_gpu_single_weight",
    "Aihw.GpuPost.C32_gpu_tiles",
    "Aihw.GpuPost.C32_gpu_order",
    "Aihw.PostUpdate.Clip.C32_std",
    "Aihw.PostUpdate.Clip.C32_cpp_clip",
    "Aihw.PostUpdate.Clip.C32_torch_clip",
    "Aihw.PostUpdate.Clip.C32_projection",
    "Aihw.PostUpdate.Clip.C32_fixed_idempotent",
    "Aihw.PostUpdate.Clip.C32_torch_negative_fixed",
    "Aihw.PostUpdate.Clip.C32_torch_constant_zeroed",
    "Aihw.PostUpdate.Clip.C32_average_channel_max"
   ],
   "note": "Findings: torch fixed-value clipping with negative value overwrites all weights (C32_torch_negative_fixed); torch layer-Gaussian zeroes constant matrices (C32_torch_constant_zeroed). GPU: C32_gpu_clip, C32_gpu_as_cpu, C32_gpu_order, C32_gpu_tiles; exceptions C32_gpu_gaussian_overwrites, C32_gpu_constant_zeroed, C32_gpu_single_weight."
  },
  {
   "property": "C33",
   "status": "proved",
   "theorems": [
    "Aihw.Pulsed.C33_bounds_history",
    "Aihw.Pulsed.C33_stuck_cell",
    "Aihw.Pulsed.C33_clip_escapes",
    "Aihw.Pulsed.C33_reference_history",
    "Aihw.Pulsed.C33_populate_bounds",
    "Aihw.Pulsed.C33_populate_corrupt",
    "Aihw.Pulsed.C33_set_reads_clipped",
    "Aihw.Pulsed.C33_none_with_device_lost",
    "Aihw.Pulsed.C33_set_hidden_drops_persistent"
   ],
   "note": "Findings: C33_clip_escapes, C33_none_with_device_lost, C33_set_hidden_drops_persistent; reference classes leave the nominal range (C33_reference_history)."
  },
  {
   "property": "C34",
   "status": "proved",
   "theorems": [
    "Aihw.Pulsed.C34_schedule",
    "Aihw.Pulsed.C34_fair",
    "Aihw.Pulsed.C34_no_transfer",
    "Aihw.Pulsed.C34_default_period_finding",
    "Aihw.Pulsed.C34_visible_weight",
    "Aihw.Pulsed.C34_isolation",
    "Aihw.Pulsed.C34_cancelling_gamma",
    "Aihw.Pulsed.C34_set_weights",
    "Aihw.Pulsed.C34_hidden_persistent_kept",
    "Aihw.Pulsed.C34_period",
    "Aihw.Pulsed.C34_schedule_parameters",
    "Aihw.Pulsed.C34_no_transfer_parameters"
   ],
   "note": "Single-vector updates, reads as exact dot products with arbitrary additive draws. Findings: C34_default_period_finding, C34_cancelling_gamma, C34_hidden_persistent_kept."
  },
  {
   "property": "C35",
   "status": "proved",
   "theorems": [
    "Aihw.GpuPulse.C35_gpu_implicit",
    "Aihw.GpuPulse.C35_gpu_as_cpu",
    "Aihw.GpuPulse.C35_gpu_trains",
    "Aihw.GpuPulse.C35_gpu_product",
    "Aihw.GpuPulse.C35_gpu_long",
    "Aihw.GpuPulse.C35_gpu_nothing",
    "Aihw.Pulsed.C35_no_pulses",
    "Aihw.Pulsed.C35_expected_update",
    "Aihw.Pulsed.C35_length_and_product"
   ],
   "note": "Over the reals; expectation over an arbitrary probability space with uniform draws. GPU: C35_gpu_as_cpu, C35_gpu_trains, C35_gpu_product, C35_gpu_long, C35_gpu_nothing, C35_gpu_implicit; layout of the trains in memory is C94/C95."
  },
  {
   "property": "C36",
   "status": "proved",
   "theorems": [
    "Aihw.Calib.C36_max",
    "Aihw.Calib.C36_cache",
    "Aihw.Calib.C36_moving_quantile",
    "Aihw.Calib.C36_moving_std",
    "Aihw.Calib.C36_per_tile",
    "Aihw.Calib.C36_flags",
    "Aihw.Calib.C36_float_tile_clipped",
    "Aihw.Calib.C36_disabled_tile_raises",
    "Aihw.Calib.C36_unused_tile",
    "Aihw.Calib.C36_all_zero_batch",
    "Aihw.Calib.C36_failure_not_undone",
    "Aihw.Calib.C36_noise_management_error",
    "Aihw.Calib.C36_parameter_replaced",
    "Aihw.Calib.C36_signed_quantile"
   ],
   "note": "Tile calls between the hooks are an arbitrary trace; the standard deviation and random subsampling are universally quantified. Value theorems assume no leftover hooks on the tile. Findings: C36_float_tile_clipped, C36_disabled_tile_raises, C36_unused_tile, C36_all_zero_batch, C36_failure_not_undone, C36_signed_quantile, C36_parameter_replaced."
  },
  {
   "property": "C37",
   "status": "proved",
   "theorems": [
    "Aihw.Quant.C37_current",
    "Aihw.Quant.C37_all",
    "Aihw.Quant.C37_running",
    "Aihw.Quant.C37_ema_bounds",
    "Aihw.Quant.C37_groups",
    "Aihw.Quant.C37_percentile_upper_end",
    "Aihw.Quant.C37_reset",
    "Aihw.Quant.C37_mse_grid",
    "Aihw.Quant.C37_mse_reset_keeps_sign",
    "Aihw.Quant.C37_mse_one_bit",
    "Aihw.Quant.C37_golden_last_batch"
   ],
   "note": "scipy bounded minimisation is an arbitrary oracle; cross-entropy estimator and per-group permutation not modelled. Findings: C37_percentile_upper_end, C37_mse_reset_keeps_sign, C37_mse_one_bit, C37_golden_last_batch."
  },
  {
   "property": "C38",
   "status": "proved",
   "theorems": [
    "Aihw.Periphery.Alias.C38_value_semantics",
    "Aihw.Periphery.Alias.C38_to_dtype_resets",
    "Aihw.Periphery.Alias.C38_returned_scales_change",
    "Aihw.Periphery.Alias.C38_argument_stays_shared"
   ],
   "note": "Value semantics proved for unshared histories (C38_value_semantics); the three sharing effects are proved for every state."
  },
  {
   "property": "C39",
   "status": "proved",
   "theorems": [
    "Aihw.Periphery.C39_backward",
    "Aihw.Periphery.C39_adjoint"
   ],
   "note": ""
  },
  {
   "property": "C40",
   "status": "proved",
   "theorems": [
    "Aihw.Periphery.C40_only_decay_shrinks",
    "Aihw.Periphery.C40_inside_no_gradient",
    "Aihw.Periphery.C40_scale_ignored",
    "Aihw.Periphery.C40_output_percentage",
    "Aihw.Periphery.C40_decay",
    "Aihw.Periphery.C40_clipping"
   ],
   "note": "Findings: gradient_scale ignored without gradient_relative; output percentage divided by number of inputs (C40_output_percentage)."
  },
  {
   "property": "C41",
   "status": "proved",
   "theorems": [
    "Aihw.PostUpdate.Custom.C41_uniform_random_range",
    "Aihw.PostUpdate.Custom.C41_symmetric_always_outside",
    "Aihw.PostUpdate.Custom.C41_update_entry",
    "Aihw.PostUpdate.Custom.C41_update_batch"
   ],
   "note": "Finding: wrong formula in set_weights_uniform_random."
  },
  {
   "property": "C42",
   "status": "proved",
   "theorems": [
    "Aihw.GpuMod.C42_gpu_pcm_sign",
    "Aihw.GpuMod.C42_gpu_pcm_zero",
    "Aihw.GpuMod.C42_gpu_pcm_exact",
    "Aihw.GpuMod.C42_gpu_pcm_noise",
    "Aihw.GpuMod.C42_gpu_pcm_stuck",
    "Aihw.GpuMod.C42_gpu_loop",
    "Aihw.GpuMod.C42_gpu_as_cpu",
    "Aihw.GpuMod.C42_gpu_maximum",
    "Aihw.GpuMod.C42_gpu_refuses",
    "Aihw.GpuMod.C42_gpu_discretize_add",
    "Aihw.GpuMod.C42_gpu_dorefa",
    "Aihw.GpuMod.C42_gpu_pcm_apply",
    "Aihw.GpuMod.C42_eval_copies",
    "Aihw.GpuMod.C42_copy_forgets",
    "Aihw.GpuMod.C42_checkpoint",
    "Aihw.PostUpdate.Modifier.C42_eval_true_weights",
    "Aihw.PostUpdate.Modifier.C42_training_weights_stale",
    "Aihw.PostUpdate.Modifier.C42_copy_last_column",
    "Aihw.PostUpdate.Modifier.C42_prog_noise_sign",
    "Aihw.PostUpdate.Modifier.C42_cpp_discretize",
    "Aihw.PostUpdate.Modifier.C42_mult_noise_zero",
    "Aihw.PostUpdate.Modifier.C42_drop_connect",
    "Aihw.PostUpdate.Modifier.C42_backends_differ",
    "Aihw.PostUpdate.Modifier.C42_torch",
    "Aihw.PostUpdate.Modifier.C42_reference_max",
    "Aihw.PostUpdate.Modifier.C42_formula",
    "Aihw.PostUpdate.Modifier.C42_grid_unique",
    "Aihw.PostUpdate.Modifier.C42_torch_formula"
   ],
   "note": "Findings: stale modified weights (C42_training_weights_stale); back ends differ (C42_backends_differ). GPU (Verif/GpuMod): equality with the CPU model over any history (C42_gpu_as_cpu), remembered maximum (C42_gpu_maximum), discretization in spite of a resolution that is not positive (C42_gpu_discretize_add), PCM noise (C42_gpu_pcm_*), copies and checkpoints (C42_eval_copies, C42_copy_forgets, C42_checkpoint). tanh, log and powers are arbitrary functions there."
  },
  {
   "property": "C45",
   "status": "proved",
   "theorems": [
    "Aihw.Pulsed.C45_cell_pulses",
    "Aihw.Pulsed.C45_types_agree",
    "Aihw.Pulsed.C45_zero_untouched",
    "Aihw.Pulsed.C45_saturated",
    "Aihw.Pulsed.C45_res_steps_no_pulses",
    "Aihw.Pulsed.C45_dense_sign_lost",
    "Aihw.Pulsed.C45_dense_counts",
    "Aihw.Pulsed.C45_dense_cell"
   ],
   "note": "Findings: C45_res_steps_no_pulses, C45_dense_sign_lost."
  },
  {
   "property": "C46",
   "status": "proved",
   "theorems": [
    "Aihw.Pulsed.C46_constant_train",
    "Aihw.Pulsed.C46_soft_bounds_train",
    "Aihw.Pulsed.C46_direction",
    "Aihw.Pulsed.C46_powref_jump"
   ],
   "note": "Finding: C46_powref_jump."
  },
  {
   "property": "C47",
   "status": "proved",
   "theorems": [
    "Aihw.GpuPost.C47_checkpoint",
    "Aihw.GpuPost.C47_restarted",
    "Aihw.GpuPost.C47_gpu_step",
    "Aihw.GpuPost.C47_gpu_as_cpu",
    "Aihw.GpuPost.C47_gpu_total_time",
    "Aihw.Pulsed.C47_total_time",
    "Aihw.Pulsed.C47_total_time_bounded",
    "Aihw.Pulsed.C47_restart",
    "Aihw.Pulsed.C47_shrinks"
   ],
   "note": "nu_k = 0 (with nu_k the result depends on the partition). GPU: C47_gpu_step (with nu_k: base-ten logarithm, asCpu), C47_gpu_as_cpu, C47_gpu_total_time; saved states: C47_checkpoint, C47_restarted."
  },
  {
   "property": "C48",
   "status": "proved",
   "theorems": [
    "Aihw.Quant.C48_frozen",
    "Aihw.Quant.C48_current_error",
    "Aihw.Quant.C48_all_error",
    "Aihw.Quant.C48_uninitialised",
    "Aihw.Quant.C48_explicit_range_unusable",
    "Aihw.Quant.C48_reset"
   ],
   "note": "Reset proved for per-tensor and per-axis managers with min-max estimators; per-channel ones keep their rank (C30_rank_change). Finding: C48_explicit_range_unusable."
  },
  {
   "property": "C49",
   "status": "proved",
   "theorems": [
    "Aihw.Quant.C49_cache_transparent",
    "Aihw.Quant.C49_training_fresh",
    "Aihw.Quant.C49_refresh",
    "Aihw.Quant.C49_stale_cache"
   ],
   "note": "Layer operation abstract (any function of weight, bias, input). Finding: C49_stale_cache."
  },
  {
   "property": "C50",
   "status": "proved",
   "theorems": [
    "Aihw.Quant.C50_batches",
    "Aihw.Quant.C50_result",
    "Aihw.Quant.C50_frozen"
   ],
   "note": "Network between layers abstract (arbitrary calls). Findings: off-by-one in the number of batches, evaluation mode left, stale cache."
  },
  {
   "property": "C51",
   "status": "proved",
   "theorems": [
    "Aihw.QConvert.C51_excluded_kept",
    "Aihw.QConvert.C51_zero_bits_kept",
    "Aihw.QConvert.C51_unselected",
    "Aihw.QConvert.C51_torch_layer",
    "Aihw.QConvert.C51_analog_layer",
    "Aihw.QConvert.C51_custom_module",
    "Aihw.QConvert.C51_input_wrapper",
    "Aihw.QConvert.C51_shared_child",
    "Aihw.QConvert.C51_shared_container",
    "Aihw.QConvert.C51_states",
    "Aihw.QConvert.C51_root_excluded",
    "Aihw.QConvert.C51_succeeds",
    "Aihw.QConvert.C51_layernorm_without_weight",
    "Aihw.QConvert.C51_append_defaults",
    "Aihw.QConvert.C51_same_function",
    "Aihw.QConvert.C51_conv_padding_mode"
   ],
   "note": "Tree model with object identities per parent; modules recursed into are not shared between different parents. convert_to_digital of one layer and user constructors are arbitrary functions. Findings: C51_shared_child, C51_conv_padding_mode, C51_layernorm_without_weight, C51_root_excluded, training mode / requires_grad (in C51_torch_layer)."
  },
  {
   "property": "C52",
   "status": "proved",
   "theorems": [
    "Aihw.Pulsed.C52_conservation",
    "Aihw.Pulsed.C52_steps_bounded",
    "Aihw.Pulsed.C52_tracks",
    "Aihw.Pulsed.C52_forget",
    "Aihw.Pulsed.C52_threshold",
    "Aihw.Pulsed.C52_layout",
    "Aihw.Pulsed.C52_slow_device",
    "Aihw.Pulsed.C52_exact_pulses",
    "Aihw.Pulsed.C52_same_schedule",
    "Aihw.Pulsed.C52_schedule",
    "Aihw.Pulsed.C52_history_is_log",
    "Aihw.Pulsed.C52_set_weights_keeps_buffer"
   ],
   "note": "Reads return arbitrary vectors (analog read not tied to the device weights). Findings: C52_set_weights_keeps_buffer, scratch vector length in C52_layout."
  },
  {
   "property": "C53",
   "status": "proved",
   "theorems": [
    "Aihw.Pulsed.C53_conservation",
    "Aihw.Pulsed.C53_tracks",
    "Aihw.Pulsed.C53_read_undoes_sign",
    "Aihw.Pulsed.C53_out_chopper_not_undone",
    "Aihw.Pulsed.C53_regular_chopper",
    "Aihw.Pulsed.C53_slow_device",
    "Aihw.Pulsed.C53_equals_buffered",
    "Aihw.Pulsed.C53_visible_weight",
    "Aihw.Pulsed.C53_visible_weight_finding",
    "Aihw.Pulsed.C53_threshold",
    "Aihw.Pulsed.C53_auto_period_reads_twice"
   ],
   "note": "Auto-scaled fast learning rate statistics not modelled: the count learning rate is an argument of each update. Findings: C53_out_chopper_not_undone, C53_visible_weight_finding, C53_auto_period_reads_twice; equality with the buffered class only if thresholds agree."
  },
  {
   "property": "C54",
   "status": "proved",
   "theorems": [
    "Aihw.Pulsed.C54_offset_invariance",
    "Aihw.Pulsed.C54_conservation",
    "Aihw.Pulsed.C54_buffer_cap",
    "Aihw.Pulsed.C54_warmup",
    "Aihw.Pulsed.C54_warmup_loses_steps",
    "Aihw.Pulsed.C54_reference",
    "Aihw.Pulsed.C54_mean_bounds",
    "Aihw.Pulsed.C54_read_undoes_sign",
    "Aihw.Pulsed.C54_switching",
    "Aihw.Pulsed.C54_schedule",
    "Aihw.Pulsed.C54_slow_device",
    "Aihw.Pulsed.C54_threshold",
    "Aihw.Pulsed.C54_forget",
    "Aihw.Pulsed.C54_fast_device",
    "Aihw.Pulsed.C54_visible_weight"
   ],
   "note": "Two devices, one read per transfer (others are fatal). Reads return arbitrary vectors; the experimental fast-lr feedback only enters through the count learning rate, an argument of each update. Findings: C54_warmup_loses_steps, C54_switching."
  },
  {
   "property": "C55",
   "status": "proved",
   "theorems": [
    "Aihw.PyTransfer.C55_rejected",
    "Aihw.PyTransfer.C55_period",
    "Aihw.PyTransfer.C55_zero_period",
    "Aihw.PyTransfer.C55_transfer_lr",
    "Aihw.PyTransfer.C55_steps",
    "Aihw.PyTransfer.C55_forget_finding",
    "Aihw.PyTransfer.C55_conservation",
    "Aihw.PyTransfer.C55_bounded",
    "Aihw.PyTransfer.C55_weight_writes",
    "Aihw.PyTransfer.C55_input_modified",
    "Aihw.PyTransfer.C55_row_transfer",
    "Aihw.PyTransfer.C55_order",
    "Aihw.PyTransfer.C55_schedule",
    "Aihw.PyTransfer.C55_signs",
    "Aihw.PyTransfer.C55_regular_chopper",
    "Aihw.PyTransfer.C55_reference",
    "Aihw.PyTransfer.C55_ideal",
    "Aihw.PyTransfer.C55_resume",
    "Aihw.PyTransfer.C55_resume_finding",
    "Aihw.PyTransfer.C55_random_chopper",
    "Aihw.PyTransfer.C55_auto_scale"
   ],
   "note": "The two inner tiles are arbitrary operations with explicit draws. One read per transfer (others raise). Findings: C55_forget_finding, C55_zero_period, C55_input_modified, C55_row_transfer, C55_resume_finding."
  },
  {
   "property": "C56",
   "status": "proved",
   "theorems": [
    "Aihw.Conv.C56_conv1d",
    "Aihw.Conv.C56_conv2d",
    "Aihw.Conv.C56_conv3d",
    "Aihw.Conv.C56_exact1d",
    "Aihw.Conv.C56_exact2d",
    "Aihw.Conv.C56_exact3d",
    "Aihw.Conv.C56_out_size",
    "Aihw.Conv.C56_unfold",
    "Aihw.Conv.C56_stale_finding",
    "Aihw.Conv.C56_channels1d",
    "Aihw.Conv.C56_channels2d",
    "Aihw.Conv.C56_backward1d",
    "Aihw.Conv.C56_backward2d",
    "Aihw.Conv.C56_backward3d",
    "Aihw.Conv.C56_update1d",
    "Aihw.Conv.C56_update2d",
    "Aihw.Conv.C56_update3d",
    "Aihw.Conv.C56_latest_finding"
   ],
   "note": "Flat row-major tensors, the tile is an arbitrary function per column; out-of-bounds reads of the C++ code are an error value. Findings: C56_stale_finding, C56_channels1d, C56_channels2d, C56_latest_finding."
  },
  {
   "property": "C57",
   "status": "proved",
   "theorems": [
    "Aihw.Conv.C57_split",
    "Aihw.Conv.C57_split_cases",
    "Aihw.Conv.C57_mapped1d",
    "Aihw.Conv.C57_mapped2d",
    "Aihw.Conv.C57_mapped3d",
    "Aihw.Conv.C57_exact",
    "Aihw.Conv.C57_roundtrip",
    "Aihw.Conv.C57_construct",
    "Aihw.Conv.C57_analog_bias",
    "Aihw.Conv.C57_failed_finding"
   ],
   "note": "Indexed path; the unfold path of a tile is that of C56. One weight row per output channel. Finding: C57_failed_finding."
  },
  {
   "property": "C58",
   "status": "proved",
   "theorems": [
    "Aihw.Rnn.C58_forward_layer",
    "Aihw.Rnn.C58_reverse_layer",
    "Aihw.Rnn.C58_empty",
    "Aihw.Rnn.C58_bidir",
    "Aihw.Rnn.C58_bidir_states",
    "Aihw.Rnn.C58_stack",
    "Aihw.Rnn.C58_states",
    "Aihw.Rnn.C58_layers",
    "Aihw.Rnn.C58_resume",
    "Aihw.Rnn.C58_causal",
    "Aihw.Rnn.C58_vanilla",
    "Aihw.Rnn.C58_lstm",
    "Aihw.Rnn.C58_gru",
    "Aihw.Rnn.C58_combined",
    "Aihw.Rnn.C58_vanilla_bound",
    "Aihw.Rnn.C58_lstm_bound",
    "Aihw.Rnn.C58_gru_bound",
    "Aihw.Rnn.C58_cell_shapes",
    "Aihw.Rnn.C58_shapes",
    "Aihw.Rnn.C58_shapes_bidir",
    "Aihw.Rnn.C58_cell_rows",
    "Aihw.Rnn.C58_batch",
    "Aihw.Rnn.C58_batch_bidir",
    "Aihw.Rnn.C58_zero_state"
   ],
   "note": "sigmoid and tanh are parameters (only their ranges matter for the bounds); each layer has its own noise source; broadcasting of single feature columns is not modelled. Findings: C58_bidir_states, C58_layers, C58_empty."
  },
  {
   "property": "C59",
   "status": "proved",
   "theorems": [
    "Aihw.Pulsed.C59_conserve",
    "Aihw.Pulsed.C59_remainder",
    "Aihw.Pulsed.C59_schedule",
    "Aihw.Pulsed.C59_no_transfer",
    "Aihw.Pulsed.C59_cyclic",
    "Aihw.Pulsed.C59_fair",
    "Aihw.Pulsed.C59_weights",
    "Aihw.Pulsed.C59_set_weights",
    "Aihw.Pulsed.C59_hidden_round_trip",
    "Aihw.Pulsed.C59_granularity",
    "Aihw.Pulsed.C59_sparsity",
    "Aihw.Pulsed.C59_sparsity_finding",
    "Aihw.Pulsed.C59_one_quantised_finding",
    "Aihw.Pulsed.C59_single_bin_finding",
    "Aihw.Pulsed.C59_exact_transfer",
    "Aihw.Pulsed.C59_ideal_sgd",
    "Aihw.Pulsed.C59_long_transfer_finding"
   ],
   "note": "CPU device; strides, CUDA and state_dict extras are not modelled; one-bin division by zero and the out-of-bounds write raise in the model. Findings: C59_one_quantised_finding, C59_single_bin_finding, C59_sparsity_finding, C59_long_transfer_finding."
  },
  {
   "property": "C60",
   "status": "proved",
   "theorems": [
    "Aihw.Container.C60_tiles_once",
    "Aihw.Container.C60_layers_once",
    "Aihw.Container.C60_unshared_name",
    "Aihw.Container.C60_name_resolves",
    "Aihw.Container.C60_apply",
    "Aihw.Container.C60_get_weights",
    "Aihw.Container.C60_set_weights",
    "Aihw.Container.C60_set_weights_raises",
    "Aihw.Container.C60_round_trip",
    "Aihw.Container.C60_copy",
    "Aihw.Container.C60_model_round_trip",
    "Aihw.Container.C60_remap",
    "Aihw.Container.C60_drift",
    "Aihw.Container.C60_program",
    "Aihw.Container.C60_tile_count",
    "Aihw.Container.C60_load",
    "Aihw.Container.C60_ddp",
    "Aihw.Container.C60_ddp_finding"
   ],
   "note": "Tiles are arbitrary (C60_model_round_trip instantiates them with the periphery model). Module objects are kind, children, training flag and tile counter; torch's own load_state_dict is not modelled beyond the strict argument it gets. Findings: C60_set_weights_raises, C60_program, C60_tile_count, C60_load, C60_ddp_finding."
  },
  {
   "property": "C61",
   "status": "proved",
   "theorems": [
    "Aihw.CppFwd.C61_exact",
    "Aihw.CppFwd.C61_exact_absMax",
    "Aihw.CppFwd.C61_perfect",
    "Aihw.CppFwd.C61_nm_value",
    "Aihw.CppFwd.C61_npSum",
    "Aihw.CppFwd.C61_homogeneous",
    "Aihw.CppFwd.C61_range",
    "Aihw.CppFwd.C61_backward",
    "Aihw.CppFwd.C61_adjoint",
    "Aihw.CppFwd.C61_average"
   ],
   "note": "Values are elements of an arbitrary ordered field with floor; random numbers are arguments. CUDA, strides and half precision not modelled. Findings: C61_average (shared variable), Examples (NM Max)."
  },
  {
   "property": "C62",
   "status": "proved",
   "theorems": [
    "Aihw.CppFwd.C62_result",
    "Aihw.CppFwd.C62_terminates",
    "Aihw.CppFwd.C62_rounds",
    "Aihw.CppFwd.C62_test",
    "Aihw.CppFwd.C62_negative_forgets",
    "Aihw.CppFwd.C62_worstCase_repeats"
   ],
   "note": "The fuel of the model's loop is proved sufficient (C62_terminates). Findings: C62_negative_forgets, C62_worstCase_repeats."
  },
  {
   "property": "C63",
   "status": "proved",
   "theorems": [
    "Aihw.CppFwd.C63_input_stage",
    "Aihw.CppFwd.C63_output_stage",
    "Aihw.CppFwd.C63_nonlinearity",
    "Aihw.CppFwd.C63_ir_drop",
    "Aihw.CppFwd.C63_voltage",
    "Aihw.CppFwd.C63_voltage_ref",
    "Aihw.CppFwd.C63_weight_noise",
    "Aihw.CppFwd.C63_posNeg",
    "Aihw.CppFwd.C63_populate",
    "Aihw.CppFwd.C63_init",
    "Aihw.CppFwd.C63_nl_vector_ignored"
   ],
   "note": "The square root is an argument assumed to be a root. Findings: C63_ir_drop (j = 0), C63_nl_vector_ignored, C63_input_stage/C63_output_stage (asymmetries)."
  },
  {
   "property": "C64",
   "status": "proved",
   "theorems": [
    "Aihw.CppFwd.C64_same",
    "Aihw.CppFwd.C64_worst_case_is_iterative",
    "Aihw.CppFwd.C64_perfect_scale",
    "Aihw.CppFwd.C64_max_negative"
   ],
   "note": "Relates the two separately written models Mvm (python) and CppFwd (C++) for one sample, rational numbers. Findings: C64_perfect_scale, C64_worst_case_is_iterative, C64_max_negative, batch example in CppFwd/TorchExamples."
  },
  {
   "property": "C65",
   "status": "proved",
   "theorems": [
    "Aihw.Pulsed.C65_visible_is_sum",
    "Aihw.Pulsed.C65_gamma",
    "Aihw.Pulsed.C65_update_targets",
    "Aihw.Pulsed.C65_update_ok_iff",
    "Aihw.Pulsed.C65_policies_in_range",
    "Aihw.Pulsed.C65_sequential",
    "Aihw.Pulsed.C65_sequential_fair",
    "Aihw.Pulsed.C65_set_all",
    "Aihw.Pulsed.C65_set_get",
    "Aihw.Pulsed.C65_default_sums_to_one",
    "Aihw.Pulsed.C65_set_fixed",
    "Aihw.Pulsed.C65_set_bakes_noise",
    "Aihw.Pulsed.C65_reference_offset",
    "Aihw.Pulsed.C65_reference_recipe",
    "Aihw.Pulsed.C65_index_unchecked",
    "Aihw.Pulsed.C65_visible_not_state",
    "Aihw.Pulsed.C65_fp_update_lost",
    "Aihw.Pulsed.C65_bounds",
    "Aihw.Pulsed.C65_reference_fixed"
   ],
   "note": "Sub devices are the modelled pulsed classes (no nested compounds), one tile, CPU path. Findings: C65_fp_update_lost, C65_index_unchecked, C65_reference_offset, C65_set_bakes_noise, C65_sequential (first update goes to first_update_idx + 1)."
  },
  {
   "property": "C66",
   "status": "proved",
   "theorems": [
    "Aihw.Pulsed.C66_visible_is_difference",
    "Aihw.Pulsed.C66_set",
    "Aihw.Pulsed.C66_one_directional",
    "Aihw.Pulsed.C66_pulse_counts",
    "Aihw.Pulsed.C66_refresh_cell",
    "Aihw.Pulsed.C66_refresh_direction",
    "Aihw.Pulsed.C66_refresh_preserves",
    "Aihw.Pulsed.C66_refresh_schedule",
    "Aihw.Pulsed.C66_refresh_raises",
    "Aihw.Pulsed.C66_bounds",
    "Aihw.Pulsed.C66_copy_inverted",
    "Aihw.Pulsed.C66_copy_inverted_mirror"
   ],
   "note": "Analog read of the refresh is an arbitrary vector; refresh writes of the stochastic and deterministic pulse types. Findings: C66_refresh_direction, C66_refresh_raises, C66_copy_inverted."
  },
  {
   "property": "C67",
   "status": "proved",
   "theorems": [
    "Aihw.Wpo.C67_feasible",
    "Aihw.Wpo.C67_symmetric",
    "Aihw.Wpo.C67_round_trip"
   ],
   "note": "Ordered-field arithmetic. scipy's search is an arbitrary point of the cube. Composes with C22_custom_round_trip_iff."
  },
  {
   "property": "C68",
   "status": "proved",
   "theorems": [
    "Aihw.Wpo.C68_error",
    "Aihw.Wpo.C68_stop",
    "Aihw.Wpo.C68_result",
    "Aihw.Wpo.C68_baseline_ignored",
    "Aihw.Wpo.C68_success",
    "Aihw.Wpo.C68_second_run",
    "Aihw.Wpo.C68_downsample"
   ],
   "note": "Programming and drift of the test layer are an arbitrary function of converter, mapping and evaluation number; not-a-number errors do not arise. Findings: C68_baseline_ignored, C68_success, C68_second_run."
  },
  {
   "property": "C69",
   "status": "proved",
   "theorems": [
    "Aihw.IrDrop.C69_split",
    "Aihw.IrDrop.C69_split_digits",
    "Aihw.IrDrop.C69_bits",
    "Aihw.IrDrop.C69_bits_range",
    "Aihw.IrDrop.C69_bits_lost",
    "Aihw.IrDrop.C69_modes"
   ],
   "note": "analog_mvm_irdrop_t.py: split and bit-wise decomposition over an ordered field with floor. Finding: bit-wise mode accepts any resolution (C69_bits_lost)."
  },
  {
   "property": "C70",
   "status": "proved",
   "theorems": [
    "Aihw.IrDrop.C70_column",
    "Aihw.IrDrop.C70_product",
    "Aihw.IrDrop.C70_exact",
    "Aihw.IrDrop.C70_single_pair_exact",
    "Aihw.IrDrop.C70_n_pairs_exact",
    "Aihw.IrDrop.C70_modes",
    "Aihw.IrDrop.C70_adc",
    "Aihw.IrDrop.C70_odd_columns",
    "Aihw.IrDrop.C70_segments",
    "Aihw.IrDrop.C70_one_missing",
    "Aihw.IrDrop.C70_pos_neg",
    "Aihw.IrDrop.C70_cpp"
   ],
   "note": "analog_mvm_irdrop_t.py, thevenin_equiv_op.cpp: Thevenin chain, time grid, integration, padding, pair loop, read-out modes. Read noise is not modelled. Findings: trapezoidal integration reads non-zero inputs half a step too long (C70_modes), one missing row / odd columns raise."
  },
  {
   "property": "C71",
   "status": "proved",
   "theorems": [
    "Aihw.FloatPrec.C71_formats",
    "Aihw.FloatPrec.C71_round",
    "Aihw.FloatPrec.C71_wraps",
    "Aihw.FloatPrec.C71_subnormal_zero",
    "Aihw.FloatPrec.C71_subnormal_full",
    "Aihw.FloatPrec.C71_nonfinite",
    "Aihw.FloatPrec.C71_idempotent",
    "Aihw.FloatPrec.C71_monotone",
    "Aihw.FloatPrec.C71_fixed",
    "Aihw.FloatPrec.C71_odd",
    "Aihw.FloatPrec.C71_underflow_sign",
    "Aihw.FloatPrec.C71_not_monotone",
    "Aihw.FloatPrec.C71_backward_raises"
   ],
   "note": "Bit-level model (natural numbers below 2^32, uint32 operations); IEEE value map is part of the model. Rounding is specified as nearest number with ml+1 significant bits, ties away. Findings proved: wrap instead of clipping (C71_wraps, C71_not_monotone), NaN to infinity (C71_nonfinite), sign lost on underflow, backward raises (torch's rule that a Function must return one gradient per argument is trusted)."
  },
  {
   "property": "C72",
   "status": "proved",
   "theorems": [
    "Aihw.Linalg.C72_history",
    "Aihw.Linalg.C72_ger",
    "Aihw.Linalg.C72_adjoint",
    "Aihw.Linalg.C72_wrong_size",
    "Aihw.Linalg.C72_rows",
    "Aihw.Linalg.C72_matmat_raises",
    "Aihw.Linalg.C72_column_raises",
    "Aihw.Linalg.C72_matmat_square",
    "Aihw.Linalg.C72_large",
    "Aihw.Linalg.C72_array_iff"
   ],
   "note": "linalg/matrix.py over the periphery tile (ideal crossbar) and the tile array models. realistic=True and CUDA are not modelled. Findings proved: matmat treats rows as samples (C72_matmat_square, C72_matmat_raises), column vectors raise, large matrices lose numpy products, x @ A and ger (C72_large)."
  },
  {
   "property": "C73",
   "status": "proved",
   "theorems": [
    "Aihw.Extra.C73_every_optional",
    "Aihw.Extra.C73_dump_total",
    "Aihw.Extra.C73_dump_order",
    "Aihw.Extra.C73_round_trip",
    "Aihw.Extra.C73_self",
    "Aihw.Extra.C73_drift_lost",
    "Aihw.Extra.C73_drift_saved",
    "Aihw.Extra.C73_modifier_lost",
    "Aihw.Extra.C73_nested_raises",
    "Aihw.Extra.C73_mixed_transfer_raises",
    "Aihw.Extra.C73_strict_complete",
    "Aihw.Extra.C73_missing_all",
    "Aihw.Extra.C73_set_parameters",
    "Aihw.Extra.C73_set_rejected",
    "Aihw.Extra.C73_get_parameters",
    "Aihw.Extra.C73_get_ambiguous",
    "Aihw.Extra.C73_get_after_set"
   ],
   "note": "CPU tiles; keys as strings, values exact; vector sizes not checked (nor by the code); state after an exception in load_extra not modelled. Findings proved: C73_drift_lost (wdrifter saved but never loaded), C73_modifier_lost, C73_nested_raises, C73_mixed_transfer_raises, C73_missing_all (uninitialised was_allocated), C73_get_ambiguous and two passes set at once on transfer compounds."
  },
  {
   "property": "C74",
   "status": "proved",
   "theorems": [
    "Aihw.Bind.C74_settings_arrive",
    "Aihw.Bind.C74_nothing_else",
    "Aihw.Bind.C74_accepted_iff",
    "Aihw.Bind.C74_typo_refused",
    "Aihw.Bind.C74_types_refused",
    "Aihw.Bind.C74_missing_class_silent",
    "Aihw.Bind.C74_data_type_refused",
    "Aihw.Bind.C74_class_of_type",
    "Aihw.Bind.C74_tile_settings_arrive",
    "Aihw.Bind.C74_tile_nothing_else",
    "Aihw.Bind.C74_tile_typo_silent",
    "Aihw.Bind.C74_vector_cell",
    "Aihw.Bind.C74_reference_cell",
    "Aihw.Bind.C74_transfer_compound",
    "Aihw.Bind.C74_transfer_rest_ignored",
    "Aihw.Bind.C74_chopped_compound",
    "Aihw.Bind.C74_onesided_cell",
    "Aihw.Bind.C74_no_device",
    "Aihw.Bind.C74_mixed_precision"
   ],
   "note": "The compiled library is quantified over (Lib: classes, enums, accepted assignments); instances hold all attributes in __dict__. Findings proved: C74_missing_class_silent (the error object is built but not thrown, helpers.py:60), C74_tile_typo_silent, C74_transfer_rest_ignored, C74_no_device (IndexError)."
  },
  {
   "property": "C75",
   "status": "proved",
   "theorems": [
    "Aihw.Pulsed.C75_up_response",
    "Aihw.Pulsed.C75_down_response",
    "Aihw.Pulsed.C75_documented_curve",
    "Aihw.Pulsed.C75_overshoots",
    "Aihw.Pulsed.C75_bounds",
    "Aihw.Pulsed.C75_parameters",
    "Aihw.Pulsed.C75_positive_range_refused",
    "Aihw.Pulsed.C75_zero_min_no_down"
   ],
   "note": "Exact real arithmetic, noise-free pulses, no variations. Finding proved: C75_overshoots (up_down is interpreted by the C++ code as a reduction of one direction from dw_min, not as the split the parameterisation assumes, so the relative step is up to 2 alpha instead of alpha)."
  },
  {
   "property": "C76",
   "status": "proved",
   "theorems": [
    "Aihw.State.C76_vector_restored",
    "Aihw.State.C76_vector_exact_iff",
    "Aihw.State.C76_vector_first_update",
    "Aihw.State.C76_reference_shift",
    "Aihw.State.C76_onesided_restored",
    "Aihw.State.C76_onesided_refreshed",
    "Aihw.State.C76_mixed_restored",
    "Aihw.State.C76_mixed_exact_iff",
    "Aihw.State.C76_mixed_next"
   ],
   "note": "Single CPU tile, sub devices of the modelled pulsed classes without write noise. The statement contains the findings: inner weights are overwritten because __setstate__ calls set_weights after set_hidden_parameters."
  },
  {
   "property": "C77",
   "status": "proved",
   "theorems": [
    "Aihw.Info.C77_listed_iff",
    "Aihw.Info.C77_tiles_partition",
    "Aihw.Info.C77_contents",
    "Aihw.Info.C77_total_tiles",
    "Aihw.Info.C77_total_once",
    "Aihw.Info.C77_keeps_growing",
    "Aihw.Info.C77_failure_sticks",
    "Aihw.Info.C77_reuse_linear",
    "Aihw.Info.C77_reuse_conv",
    "Aihw.Info.C77_reuse_unbatched",
    "Aihw.Info.C77_utilisation",
    "Aihw.Info.C77_utilisation_other"
   ],
   "note": "Forward passes are arbitrary call sequences. Findings are part of the statement: hooks stay registered (C77_keeps_growing, C77_failure_sticks), repeated calls counted repeatedly (C77_total_tiles), unbatched convolutions (C77_reuse_unbatched)."
  },
  {
   "property": "C78",
   "status": "proved",
   "theorems": [
    "Aihw.Legacy.C78_needs_model",
    "Aihw.Legacy.C78_model_limits",
    "Aihw.Legacy.C78_converted",
    "Aihw.Legacy.C78_total",
    "Aihw.Legacy.C78_no_tiles",
    "Aihw.Legacy.C78_bad_config",
    "Aihw.Legacy.C78_current_refused"
   ],
   "note": "Keys are character lists and all string methods (split, startswith, replace, in) are modelled. C78_converted gives, for every successful run, the value of every key of the result as the last one stored by the per-entry specification OutSpec. Findings are part of the statement (see DESIGN section 4). Not modelled: tensor dtypes and devices, sharing of one configuration object by several states."
  },
  {
   "property": "C79",
   "status": "proved",
   "theorems": [
    "Aihw.Cloud.C79_export_iff",
    "Aihw.Cloud.C79_children",
    "Aihw.Cloud.C79_round_trip",
    "Aihw.Cloud.C79_bias",
    "Aihw.Cloud.C79_omega",
    "Aihw.Cloud.C79_again",
    "Aihw.Cloud.C79_import"
   ],
   "note": "Messages are records of the fields of the descriptors; byte serialization is not modelled, weights are not part of the format. The 32-bit rounding is an arbitrary function (idempotent in C79_again)."
  },
  {
   "property": "C80",
   "status": "proved",
   "theorems": [
    "Aihw.Cloud.C80_export_iff",
    "Aihw.Cloud.C80_round_trip",
    "Aihw.Cloud.C80_errors",
    "Aihw.Cloud.C80_unknown_arguments"
   ],
   "note": "Same conventions as C79; numbers are rationals."
  },
  {
   "property": "C81",
   "status": "proved",
   "theorems": [
    "Aihw.Cloud.C81_config_iff",
    "Aihw.Cloud.C81_errors",
    "Aihw.Cloud.C81_missing"
   ],
   "note": "Double arithmetic of the resolutions is exact in the model."
  },
  {
   "property": "C82",
   "status": "proved",
   "theorems": [
    "Aihw.Cloud.C82_to_proto_iff",
    "Aihw.Cloud.C82_round_trip",
    "Aihw.Cloud.C82_values",
    "Aihw.Cloud.C82_json",
    "Aihw.Cloud.C82_training",
    "Aihw.Cloud.C82_analog_info",
    "Aihw.Cloud.C82_noise_info"
   ],
   "note": "Serialization to bytes (where required fields are enforced) is not modelled."
  },
  {
   "property": "C83",
   "status": "proved",
   "theorems": [
    "Aihw.Exper.C83_signals",
    "Aihw.Exper.C83_length",
    "Aihw.Exper.C83_results",
    "Aihw.Exper.C83_no_samples",
    "Aihw.Exper.C83_hooks_removed",
    "Aihw.Exper.C83_accuracy_range",
    "Aihw.Exper.C83_batching"
   ],
   "note": "Network, optimizer and loss are an arbitrary machine; their exceptions, printed text, data sets and devices are not modelled."
  },
  {
   "property": "C84",
   "status": "proved",
   "theorems": [
    "Aihw.Exper.C84_times",
    "Aihw.Exper.C84_times_none",
    "Aihw.Exper.C84_times_order",
    "Aihw.Exper.C84_signals",
    "Aihw.Exper.C84_results",
    "Aihw.Exper.C84_no_samples",
    "Aihw.Exper.C84_ranges",
    "Aihw.Exper.C84_data",
    "Aihw.Exper.C84_batching"
   ],
   "note": "Exact real numbers instead of floats; the network is an arbitrary machine whose exceptions are not modelled; inference_time positive."
  },
  {
   "property": "C85",
   "status": "proved",
   "theorems": [
    "Aihw.Exper.C85_empty",
    "Aihw.Exper.C85_local",
    "Aihw.Exper.C85_address",
    "Aihw.Exper.C85_named",
    "Aihw.Exper.C85_cache",
    "Aihw.Exper.C85_current_refused"
   ],
   "note": "Reading files, load_state_dict and remapping are arbitrary functions; the conversion is the model of C78."
  },
  {
   "property": "C86",
   "status": "proved",
   "theorems": [
    "Aihw.QStates.C86_ranges",
    "Aihw.QStates.C86_act_ranges",
    "Aihw.QStates.C86_weight_ranges",
    "Aihw.QStates.C86_reset",
    "Aihw.QStates.C86_last_word",
    "Aihw.QStates.C86_switches",
    "Aihw.QStates.C86_outside"
   ],
   "note": "Trees are consistent: the same object has the same children everywhere (trivially true of Python objects). Module.apply of torch is modelled (children once each, then the module)."
  },
  {
   "property": "C87",
   "status": "proved",
   "theorems": [
    "Aihw.RpuSimple.C87_accepts",
    "Aihw.RpuSimple.C87_tile_forward",
    "Aihw.RpuSimple.C87_tile_backward",
    "Aihw.RpuSimple.C87_mixed_layouts",
    "Aihw.RpuSimple.C87_empty",
    "Aihw.RpuSimple.C87_tile_update",
    "Aihw.RpuSimple.C87_no_rate",
    "Aihw.RpuSimple.C87_keywords",
    "Aihw.RpuSimple.C87_forward",
    "Aihw.RpuSimple.C87_backward",
    "Aihw.RpuSimple.C87_update",
    "Aihw.RpuSimple.C87_gradient"
   ],
   "note": "Exact arithmetic over any field; BLAS routines by their definition; delayed updates are not bound to Python and left out."
  },
  {
   "property": "C88",
   "status": "proved",
   "theorems": [
    "Aihw.RpuSimple.C88_gradient",
    "Aihw.RpuSimple.C88_exact",
    "Aihw.RpuSimple.C88_garbage",
    "Aihw.RpuSimple.C88_history",
    "Aihw.RpuSimple.C88_samples"
   ],
   "note": "The device update of one vector is an arbitrary function of device state, weights, vectors and learning rate that writes only into the weights."
  },
  {
   "property": "C89",
   "status": "proved",
   "theorems": [
    "Aihw.Decay.C89_decay_once",
    "Aihw.Decay.C89_decay",
    "Aihw.Decay.C89_rate",
    "Aihw.Decay.C89_float",
    "Aihw.Decay.C89_short_lifetime",
    "Aihw.Decay.C89_diffuse_once",
    "Aihw.Decay.C89_diffuse",
    "Aihw.Decay.C89_float_diffuse",
    "Aihw.Decay.C89_reset_columns",
    "Aihw.Decay.C89_reset_ideal",
    "Aihw.Decay.C89_reset",
    "Aihw.Decay.C89_reset_none",
    "Aihw.Decay.C89_reset_unchecked",
    "Aihw.Decay.C89_vector",
    "Aihw.Decay.C89_transfer",
    "Aihw.Decay.C89_transfer_reset",
    "Aihw.Decay.C89_hidden",
    "Aihw.Decay.C89_post_update",
    "Aihw.Decay.C89_batches",
    "Aihw.Decay.C89_others",
    "Aihw.Decay.C89_requires",
    "Aihw.GpuDecay.C89_gpu_decay",
    "Aihw.GpuDecay.C89_gpu_diffuse",
    "Aihw.GpuDecay.C89_gpu_clip",
    "Aihw.GpuDecay.C89_gpu_noise",
    "Aihw.GpuDecay.C89_gpu_reset"
   ],
   "note": "The stored weight is the persistent weight if write noise is on. Reset bias inside the bounds and non-overshooting scales are hypotheses of the closed form; C89_decay_once has no such hypothesis. On the GPU (GpuDecay) random numbers are unlimited arrays; the first column has to be inside the matrix."
  },
  {
   "property": "C90",
   "status": "proved",
   "theorems": [
    "Aihw.Shared.C90_memory",
    "Aihw.Shared.C90_initial",
    "Aihw.Shared.C90_one_matrix",
    "Aihw.Shared.C90_another_tensor",
    "Aihw.Shared.C90_lag",
    "Aihw.Shared.C90_apart",
    "Aihw.Shared.C90_copy"
   ],
   "note": "CPU tiles. The user may not hand the memory of one tile to the other (C90_apart) and states that are loaded fit the tile (C90_one_matrix); every other history is covered by C90_memory."
  },
  {
   "property": "C91",
   "status": "proved",
   "theorems": [
    "Aihw.Shared.Rows.C91_handover",
    "Aihw.Shared.Rows.C91_rows",
    "Aihw.Shared.Rows.C91_one_row_before"
   ],
   "note": "Addresses count elements; delayed updates are not modelled."
  },
  {
   "property": "C92",
   "status": "proved",
   "theorems": [
    "Aihw.BuildCfg.C92_settings",
    "Aihw.BuildCfg.C92_kwargs",
    "Aihw.BuildCfg.C92_unknown",
    "Aihw.BuildCfg.C92_outcome",
    "Aihw.BuildCfg.C92_new_objects",
    "Aihw.BuildCfg.C92_two_configs",
    "Aihw.BuildCfg.C92_distinct",
    "Aihw.BuildCfg.C92_seed"
   ],
   "note": "str.lower is a parameter. Callables are arbitrary functions; that they return new objects is a hypothesis where it is needed."
  },
  {
   "property": "C93",
   "status": "proved",
   "theorems": [
    "Aihw.Settings.C93_isolated",
    "Aihw.Settings.C93_edit",
    "Aihw.Settings.C93_fresh",
    "Aihw.Settings.C93_torch_passes",
    "Aihw.Settings.C93_frozen",
    "Aihw.Settings.C93_made",
    "Aihw.Settings.C93_post_update",
    "Aihw.Settings.C93_post_update_torch",
    "Aihw.Settings.C93_load_shares",
    "Aihw.Settings.C93_transfer",
    "Aihw.Settings.C93_foreign",
    "Aihw.Settings.C93_readout"
   ],
   "note": "The content of a part (forward, modifier, device, ...) is one value; part objects shared between configurations by the user are not modelled."
  },
  {
   "property": "C94",
   "status": "proved",
   "theorems": [
    "Aihw.Gpu.C94_counts",
    "Aihw.Gpu.C94_pulses",
    "Aihw.Gpu.C94_inside",
    "Aihw.Gpu.C94_fewer_words",
    "Aihw.Gpu.C94_words_agree"
   ],
   "note": "Schedules at the granularity of single stores; the firing probability after scaling and discretization is an arbitrary number; shared-memory kernels, implicit pulses and the other bit line kernels (unused: the simple loop is always chosen) are not modelled."
  },
  {
   "property": "C95",
   "status": "proved",
   "theorems": [
    "Aihw.Gpu.C95_pulses",
    "Aihw.Gpu.C95_formats",
    "Aihw.Gpu.C95_inside"
   ],
   "note": "The translation of the 32-bit into the 64-bit format (debugging only) is not modelled; CUB's InclusiveSum is taken as the prefix sum."
  },
  {
   "property": "C96",
   "status": "proved",
   "theorems": [
    "Aihw.Gpu.C96_bounds",
    "Aihw.Gpu.C96_noise_unused",
    "Aihw.Gpu.C96_noise",
    "Aihw.Gpu.C96_update32",
    "Aihw.Gpu.C96_update64"
   ],
   "note": "Bound check: for step sizes that are not negative. Devices with weight-dependent steps, implicit pulses and the shared-memory kernels are not modelled."
  },
  {
   "property": "C97",
   "status": "proved",
   "theorems": [
    "Aihw.Client.C97_login",
    "Aihw.Client.C97_login_refused",
    "Aihw.Client.C97_requests",
    "Aihw.Client.C97_handles",
    "Aihw.Client.C97_create",
    "Aihw.Client.C97_get",
    "Aihw.Client.C97_list",
    "Aihw.Client.C97_status",
    "Aihw.Client.C97_failed_stays",
    "Aihw.Client.C97_completed_stays",
    "Aihw.Client.C97_result_early",
    "Aihw.Client.C97_result",
    "Aihw.Client.C97_definition_early",
    "Aihw.Client.C97_definition",
    "Aihw.Client.C97_created_definition",
    "Aihw.Client.C97_credentials",
    "Aihw.Client.C97_create_succeeds",
    "Aihw.Client.C97_status_fresh"
   ],
   "note": "A reply is its status code and its body as parsed JSON or bytes; protobuf encoding of definitions and results is C81/C82; retries, timeouts and TLS of the requests library are not modelled."
  },
  {
   "property": "C98",
   "status": "proved",
   "theorems": [
    "Aihw.GpuNm.C98_absmax",
    "Aihw.GpuNm.C98_max",
    "Aihw.GpuNm.C98_sums",
    "Aihw.GpuNm.C98_fresh",
    "Aihw.GpuNm.C98_left_over",
    "Aihw.GpuNm.C98_absmax_management",
    "Aihw.GpuNm.C98_max_management",
    "Aihw.GpuNm.C98_npsum_management",
    "Aihw.GpuNm.C98_constant",
    "Aihw.GpuNm.C98_constant_lost",
    "Aihw.GpuNm.C98_average",
    "Aihw.GpuNm.C98_average_small_batch",
    "Aihw.GpuNm.C98_average_test",
    "Aihw.GpuNm.C98_none"
   ],
   "note": "Values are elements of an ordered field; the CUB library reductions are trusted; one CUDA stream; `AverageAbsMaxSingleValue` and `AbsMaxSingleValue` cannot be chosen from Python and are left out; for the running average it is assumed that no thread reads it after it was written (the code does not ensure this)."
  },
  {
   "property": "C99",
   "status": "proved",
   "theorems": [
    "Aihw.GpuIo.C99_forward_as_cpu",
    "Aihw.GpuIo.C99_backward_as_cpu",
    "Aihw.GpuIo.C99_bound",
    "Aihw.GpuIo.C99_lost_inputs",
    "Aihw.GpuIo.C99_stride_loop",
    "Aihw.GpuIo.C99_loop_is_map",
    "Aihw.GpuIo.C99_product",
    "Aihw.GpuIo.C99_pass",
    "Aihw.GpuIo.C99_scale_batch",
    "Aihw.GpuIo.C99_scale_single",
    "Aihw.GpuIo.C99_scale_without_management",
    "Aihw.GpuIo.C99_worst_repeats"
   ],
   "note": "Values are elements of an ordered field; cuBLAS, cuRAND and CUB are trusted; the square root is a function with the one law that is needed; iterators of convolutions are left out; the theorem on rounds (C99_bound) is for `Iterative` bound management with one pass per product, that on separate passes (C99_lost_inputs) for any two consecutive rounds; agreement with the CPU is for plain passes without bound management."
  }
 ]
}