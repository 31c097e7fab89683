# Axioms per theorem (generated by tools/axioms.sh)

* `Aihw.TileArray.C01_split_sizes`: [propext, Classical.choice, Quot.sound]
* `Aihw.TileArray.C01_split_sizes_unlimited`: [propext]
* `Aihw.TileArray.C01_split_sizes_error_iff`: [propext, Classical.choice, Quot.sound]
* `Aihw.TileArray.C02_set_get_roundtrip`: [propext, Classical.choice, Quot.sound]
* `Aihw.TileArray.C02_block_placement`: [propext, Classical.choice, Quot.sound]
* `Aihw.TileArray.C02_unique_part`: [propext, Classical.choice, Quot.sound]
* `Aihw.TileArray.C03_forward_eq_matVec`: [propext, Classical.choice, Quot.sound]
* `Aihw.TileArray.C03_wrong_length_raises`: [propext, Classical.choice, Quot.sound]
* `Aihw.TileArray.C03_last_write_wins`: [propext, Classical.choice, Quot.sound]
* `Aihw.TileArray.C04_single_tile_forward_raises`: [propext, Classical.choice, Quot.sound]
* `Aihw.TileArray.C04_single_tile_attributeError`: [propext, Classical.choice, Quot.sound]
* `Aihw.TileArray.C04_multi_tile_forward`: [propext, Classical.choice, Quot.sound]
* `Aihw.TileArray.C04_learned_bias_quant_raises`: [propext, Quot.sound]
* `Aihw.Mvm.C05_grid_and_error`: [propext, Classical.choice, Quot.sound]
* `Aihw.Mvm.C05_stochastic`: [propext, Classical.choice, Quot.sound]
* `Aihw.Mvm.C05_monotone`: [propext, Classical.choice, Quot.sound]
* `Aihw.Mvm.C05_odd`: [propext, Classical.choice, Quot.sound]
* `Aihw.Mvm.C05_idempotent`: [propext, Classical.choice, Quot.sound]
* `Aihw.Mvm.C05_errors`: [propext, Classical.choice, Quot.sound]
* `Aihw.Mvm.C06_chain`: [propext, Classical.choice, Quot.sound]
* `Aihw.Mvm.C06_dac_within_bound`: [propext, Classical.choice, Quot.sound]
* `Aihw.Mvm.C06_input_within_bound`: [propext, Classical.choice, Quot.sound]
* `Aihw.Mvm.C06_output_within_bound`: [propext, Classical.choice, Quot.sound]
* `Aihw.Mvm.C07_terminates`: [propext, Classical.choice, Quot.sound]
* `Aihw.Mvm.C07_round_bound`: [propext, Classical.choice, Quot.sound]
* `Aihw.Mvm.C07_result`: [propext, Classical.choice, Quot.sound]
* `Aihw.Mvm.C08_noise_management_transparent`: [propext, Classical.choice, Quot.sound]
* `Aihw.Mvm.C08_max_zero_counterexample`: [propext, Classical.choice, Quot.sound]
* `Aihw.Mvm.C08_max_zero_always`: [propext, Classical.choice, Quot.sound]
* `Aihw.Mvm.C09_perfect_is_exact`: [propext, Classical.choice, Quot.sound]
* `Aihw.Mvm.C09_check_support`: [propext, Classical.choice, Quot.sound]
* `Aihw.Mvm.C09_ideal_type_rejected`: [propext, Classical.choice, Quot.sound]
* `Aihw.Periphery.C10_round_trip`: [propext, Classical.choice, Quot.sound]
* `Aihw.Periphery.C10_stored_max`: [propext, Classical.choice, Quot.sound]
* `Aihw.Periphery.C11_stale_scales`: [propext, Classical.choice, Quot.sound]
* `Aihw.Periphery.C11_round_trip_iff`: [propext, Classical.choice, Quot.sound]
* `Aihw.GpuPost.C12_gpu_logical`: [propext, Classical.choice, Quot.sound]
* `Aihw.GpuPost.C12_gpu_maximum`: [propext, Classical.choice, Quot.sound]
* `Aihw.GpuPost.C12_gpu_range`: [propext, Classical.choice, Quot.sound]
* `Aihw.GpuPost.C12_gpu_refused`: [propext, Classical.choice, Quot.sound]
* `Aihw.GpuPost.C12_gpu_order`: [propext, Classical.choice, Quot.sound]
* `Aihw.GpuPost.C12_gpu_as_cpu`: [propext, Classical.choice, Quot.sound]
* `Aihw.Periphery.C12_remap`: [propext, Classical.choice, Quot.sound]
* `Aihw.Periphery.C12_remap_off_squares_scales`: [propext, Classical.choice, Quot.sound]
* `Aihw.PostUpdate.C12_torch_post_update`: [propext, Classical.choice, Quot.sound]
* `Aihw.PostUpdate.C12_torch_post_update_nan`: [propext, Classical.choice, Quot.sound]
* `Aihw.PostUpdate.C12_cpp_post_update`: [propext, Classical.choice, Quot.sound]
* `Aihw.PostUpdate.C12_cpp_bounded_range`: [propext, Classical.choice, Quot.sound]
* `Aihw.PostUpdate.C12_initial_scales`: [propext, Classical.choice, Quot.sound]
* `Aihw.PostUpdate.C12_cpp_refused`: [propext, Classical.choice, Quot.sound]
* `Aihw.Periphery.C13_set_scales_tensor`: [propext, Classical.choice, Quot.sound]
* `Aihw.Periphery.C13_set_scales_float`: [propext, Classical.choice, Quot.sound]
* `Aihw.Periphery.C13_zero_mean_raises`: [propext, Classical.choice, Quot.sound]
* `Aihw.Periphery.C13_initial_scales`: [propext, Classical.choice, Quot.sound]
* `Aihw.Periphery.C14_forward`: [propext, Classical.choice, Quot.sound]
* `Aihw.Periphery.C15_update`: [propext, Classical.choice, Quot.sound]
* `Aihw.Periphery.C15_learning_rate`: [propext, Classical.choice, Quot.sound]
* `Aihw.Periphery.C15_stale_learning_rate`: [propext, Classical.choice, Quot.sound]
* `Aihw.Periphery.C16_range_from_data`: [propext, Classical.choice, Quot.sound]
* `Aihw.Periphery.C16_order_independent`: [propext, Classical.choice, Quot.sound]
* `Aihw.Periphery.C16_frozen`: [propext, Classical.choice, Quot.sound]
* `Aihw.Periphery.C16_eval_pure`: [propext, Classical.choice, Quot.sound]
* `Aihw.Periphery.C16_normalized`: [propext, Classical.choice, Quot.sound]
* `Aihw.Periphery.C16_set_range_overwritten`: [propext, Classical.choice, Quot.sound]
* `Aihw.Periphery.C17_explicit_x_raises`: [propext, Classical.choice, Quot.sound]
* `Aihw.Periphery.C17_second_call_raises`: [propext, Classical.choice, Quot.sound]
* `Aihw.Periphery.C17_first_call`: [propext, Classical.choice, Quot.sound]
* `Aihw.Periphery.C17_converges`: [propext, Classical.choice, Quot.sound]
* `Aihw.Periphery.C17_zero_target_raises`: [propext, Classical.choice, Quot.sound]
* `Aihw.Inference.Life.C18_program_from_reference`: [propext, Classical.choice, Quot.sound]
* `Aihw.Inference.Life.C18_set_weights_new_reference`: [propext, Classical.choice, Quot.sound]
* `Aihw.Inference.Life.C18_program_current`: [propext, Classical.choice, Quot.sound]
* `Aihw.Inference.Life.C18_drift_from_programmed`: [propext, Classical.choice, Quot.sound]
* `Aihw.Inference.Life.C18_program_establishes`: [propext, Classical.choice, Quot.sound]
* `Aihw.Inference.Life.C18_drift_programs`: [propext, Classical.choice, Quot.sound]
* `Aihw.Inference.Life.C18_training_forward`: [propext, Classical.choice, Quot.sound]
* `Aihw.Inference.Life.C18_alpha_only_drift`: [propext, Classical.choice, Quot.sound]
* `Aihw.Inference.Life.C18_model_replaced`: [propext, Classical.choice, Quot.sound]
* `Aihw.Inference.Life.C18_in_trans_raises`: [propext, Classical.choice, Quot.sound]
* `Aihw.Inference.Life.C19_alpha_positive`: [propext, Classical.choice, Quot.sound]
* `Aihw.Inference.Life.C19_readout_restored`: [propext, Classical.choice, Quot.sound]
* `Aihw.Inference.Life.C19_uniform_decay`: [propext, Classical.choice, Quot.sound]
* `Aihw.Inference.Life.C19_per_column_decay`: [propext, Classical.choice, Quot.sound]
* `Aihw.Inference.Life.C19_alpha_bounded`: [propext, Classical.choice, Quot.sound]
* `Aihw.Inference.Life.C19_per_column_images`: [propext, Classical.choice, Quot.sound]
* `Aihw.Inference.C20_single_pair`: [propext, Classical.choice, Quot.sound]
* `Aihw.Inference.C20_malformed`: [propext, Quot.sound]
* `Aihw.Inference.C21_accepted_iff`: [propext, Classical.choice, Quot.sound]
* `Aihw.Inference.C21_n_pairs`: [propext, Classical.choice, Quot.sound]
* `Aihw.Inference.C21_zero_factor`: [propext, Classical.choice, Quot.sound]
* `Aihw.Inference.C21_negative_factor`: [propext, Classical.choice, Quot.sound]
* `Aihw.Inference.C21_dual`: [propext, Quot.sound]
* `Aihw.Inference.C21_malformed`: [propext, Quot.sound]
* `Aihw.Inference.C22_custom_round_trip_iff`: [propext, Classical.choice, Quot.sound]
* `Aihw.Inference.C22_test_incomplete`: [propext, Classical.choice, Quot.sound]
* `Aihw.Inference.C22_test_accepts`: [propext, Classical.choice, Quot.sound]
* `Aihw.Inference.C22_test_iff`: [propext, Classical.choice, Quot.sound]
* `Aihw.Inference.C22_single_device`: [propext, Classical.choice, Quot.sound]
* `Aihw.Inference.C22_constant`: [propext, Quot.sound]
* `Aihw.Fusion.C23_g_max`: [propext, Classical.choice, Quot.sound]
* `Aihw.Fusion.C23_conductances`: [propext, Classical.choice, Quot.sound]
* `Aihw.Fusion.C23_row_gain`: [propext, Classical.choice, Quot.sound]
* `Aihw.Fusion.C23_signs`: [propext, Classical.choice, Quot.sound]
* `Aihw.Fusion.C23_round_trip`: [propext, Classical.choice, Quot.sound]
* `Aihw.Fusion.C23_short_data_raises`: [propext, Classical.choice, Quot.sound]
* `Aihw.Fusion.C23_surplus_ignored`: [propext, Classical.choice, Quot.sound]
* `Aihw.Fusion.C23_failed_import`: [propext, Classical.choice, Quot.sound]
* `Aihw.Fusion.C23_other_converters`: [propext, Classical.choice, Quot.sound]
* `Aihw.Fusion.C23_pair_converter_unusable`: [propext, Classical.choice, Quot.sound]
* `Aihw.Fusion.C23_not_inference`: [propext, Classical.choice, Quot.sound]
* `Aihw.Fusion.C23_analog_bias`: [propext, Classical.choice, Quot.sound]
* `Aihw.Fusion.C23_csv_round_trip`: [propext, Quot.sound]
* `Aihw.Fusion.C23_csv_mismatch`: [propext, Classical.choice, Quot.sound]
* `Aihw.Fusion.C23_renamed_key_error`: [propext, Classical.choice, Quot.sound]
* `Aihw.Inference.C24_programming`: [propext, Classical.choice, Quot.sound]
* `Aihw.Inference.C24_reference`: [propext, Classical.choice, Quot.sound]
* `Aihw.Inference.C24_nu_nonneg`: [propext, Classical.choice, Quot.sound]
* `Aihw.Inference.C24_nu_reflected`: [propext, Classical.choice, Quot.sound]
* `Aihw.Inference.C24_drift_nonneg`: [propext, Classical.choice, Quot.sound]
* `Aihw.Inference.C24_drift_power_law`: [propext, Classical.choice, Quot.sound]
* `Aihw.Inference.C24_apply_noise_raises`: [propext, Classical.choice, Quot.sound]
* `Aihw.Inference.C24_noise_free_programming`: [propext, Classical.choice, Quot.sound]
* `Aihw.Inference.C24_uniform_drift`: [propext, Classical.choice, Quot.sound]
* `Aihw.Inference.C24_single_pair_instance`: [propext, Classical.choice, Quot.sound]
* `Aihw.Inference.C24_n_pair_instance`: [propext, Classical.choice, Quot.sound]
* `Aihw.Inference.C24_custom_nu_nonneg`: [propext, Classical.choice, Quot.sound]
* `Aihw.Inference.C24_custom_keys`: [propext, Quot.sound]
* `Aihw.Inference.C24_wan_reference`: [propext, Classical.choice, Quot.sound]
* `Aihw.Inference.C24_wan_times`: [propext, Classical.choice, Quot.sound]
* `Aihw.Inference.C24_wan_rescaled`: [propext, Classical.choice, Quot.sound]
* `Aihw.Inference.C24_cmo_acceptance`: [propext, Classical.choice, Quot.sound]
* `Aihw.Inference.C24_cmo_negative`: [propext, Classical.choice, Quot.sound]
* `Aihw.Inference.C24_cmo_drift`: [propext, Classical.choice, Quot.sound]
* `Aihw.Inference.C24_nu_from_target`: [propext, Classical.choice, Quot.sound]
* `Aihw.Inference.C24_programmed`: [propext, Classical.choice, Quot.sound]
* `Aihw.Inference.C24_drifted`: [propext, Classical.choice, Quot.sound]
* `Aihw.Inference.C24_cmo_relaxation`: [propext, Classical.choice, Quot.sound]
* `Aihw.Optim.C25_regrouped`: [propext, Classical.choice, Quot.sound]
* `Aihw.Optim.C25_succeeds_iff`: [propext, Quot.sound]
* `Aihw.Optim.C25_duplicate_raises`: [propext, Quot.sound]
* `Aihw.Optim.C25_idempotent`: [propext, Classical.choice, Quot.sound]
* `Aihw.Optim.C25_group_options_lost`: [propext, Classical.choice, Quot.sound]
* `Aihw.Optim.C26_set_learning_rate`: [propext, Quot.sound]
* `Aihw.Optim.C26_step`: [propext, Quot.sound]
* `Aihw.Optim.C26_exactly_once`: [propext, Classical.choice, Quot.sound]
* `Aihw.Optim.C26_at_most_once`: [propext, Classical.choice, Quot.sound]
* `Aihw.Optim.C26_torch_update`: [propext, Quot.sound]
* `Aihw.Optim.C26_indexed_retry_twice`: [propext, Quot.sound]
* `Aihw.Optim.Context.C27_no_write_path`: [propext, Classical.choice, Quot.sound]
* `Aihw.Optim.Context.C27_no_write_path_scaled`: [propext, Classical.choice, Quot.sound]
* `Aihw.Optim.Context.C27_views_write_through`: [propext, Classical.choice, Quot.sound]
* `Aihw.Optim.Context.C27_data_view_reads_logical`: [propext, Classical.choice, Quot.sound]
* `Aihw.Optim.Context.C27_data_view_function`: [propext, Classical.choice, Quot.sound]
* `Aihw.Optim.Context.C27_inplace_raises`: [propext, Classical.choice, Quot.sound]
* `Aihw.Optim.Context.C27_assignment_raises`: [propext, Classical.choice, Quot.sound]
* `Aihw.Optim.Context.C27_placeholder_blocks`: [propext, Classical.choice, Quot.sound]
* `Aihw.Optim.Context.C27_placeholder_view_blocks`: [propext, Classical.choice, Quot.sound]
* `Aihw.Optim.Context.C27_buffer_zero`: [propext, Classical.choice, Quot.sound]
* `Aihw.Optim.Context.C27_buffer_inplace`: [propext, Classical.choice, Quot.sound]
* `Aihw.Optim.Context.C27_requires_grad`: [propext, Classical.choice, Quot.sound]
* `Aihw.Optim.Context.C27_values_unobservable`: [propext, Classical.choice, Quot.sound]
* `Aihw.Optim.C43_wraps_given_class`: [propext]
* `Aihw.Optim.C43_first_of_name`: [propext, Classical.choice, Quot.sound]
* `Aihw.State.C28_device_resumes`: [propext, Classical.choice, Quot.sound]
* `Aihw.State.C28_persistent_lost`: [propext, Classical.choice, Quot.sound]
* `Aihw.State.C28_step_replaced`: [propext, Classical.choice, Quot.sound]
* `Aihw.State.C28_transfer_fast_lost`: [propext, Quot.sound]
* `Aihw.State.C28_round_trip`: [propext, Classical.choice, Quot.sound]
* `Aihw.State.C28_flags_sticky`: [propext, Classical.choice, Quot.sound]
* `Aihw.State.C28_unsaved_attributes`: [propext, Classical.choice, Quot.sound]
* `Aihw.State.C28_lr_compensation_lost`: [propext, Classical.choice, Quot.sound]
* `Aihw.State.C28_class_mismatch`: [propext, Classical.choice, Quot.sound]
* `Aihw.State.C28_hidden_mismatch`: [propext, Classical.choice, Quot.sound]
* `Aihw.State.C28_keep_config`: [propext, Classical.choice, Quot.sound]
* `Aihw.State.C28_dropped_tensor`: [propext, Classical.choice, Quot.sound]
* `Aihw.State.C28_prefix_loaded`: [propext, Classical.choice, Quot.sound]
* `Aihw.State.C28_config_shared`: [propext, Classical.choice, Quot.sound]
* `Aihw.State.C28_file_isolated`: [propext, Classical.choice, Quot.sound]
* `Aihw.State.C28_replace_with`: [propext, Classical.choice, Quot.sound]
* `Aihw.State.C28_shape_mismatch`: [propext, Classical.choice, Quot.sound]
* `Aihw.Inference.Life.C28_alpha_shape`: [propext]
* `Aihw.Inference.Life.C28_drift_discards_loaded`: [propext, Classical.choice, Quot.sound]
* `Aihw.Inference.Life.C28_drift_reprograms`: [propext, Classical.choice, Quot.sound]
* `Aihw.State.C28_strict`: [propext, Classical.choice, Quot.sound]
* `Aihw.State.C28_keep_config_loads`: [propext, Classical.choice, Quot.sound]
* `Aihw.State.C28_missing_lr`: [propext, Classical.choice, Quot.sound]
* `Aihw.Optim.C44_stale_optimizer`: [propext, Quot.sound]
* `Aihw.Optim.C44_stale_post_update`: [propext, Quot.sound]
* `Aihw.Optim.C44_old_gradients_applied`: [propext, Quot.sound]
* `Aihw.State.C44_new_context`: [propext, Classical.choice, Quot.sound]
* `Aihw.Convert.C29_digital`: [propext, Classical.choice, Quot.sound]
* `Aihw.Convert.C29_idempotent`: [propext, Classical.choice, Quot.sound]
* `Aihw.Convert.C29_converted`: [propext, Classical.choice, Quot.sound]
* `Aihw.Convert.C29_nothing_added`: [propext, Classical.choice, Quot.sound]
* `Aihw.Convert.C29_calls`: [propext, Classical.choice, Quot.sound]
* `Aihw.Convert.C29_original_untouched`: [propext, Classical.choice, Quot.sound]
* `Aihw.Convert.C29_original_untouched_digital`: [propext, Classical.choice, Quot.sound]
* `Aihw.Convert.C29_round_trip`: [propext, Classical.choice, Quot.sound]
* `Aihw.Convert.C29_shared_dropped`: [propext, Classical.choice, Quot.sound]
* `Aihw.Convert.C29_shared_untied`: [propext, Classical.choice, Quot.sound]
* `Aihw.Convert.C29_wrapper_by_name`: [propext, Classical.choice, Quot.sound]
* `Aihw.Quant.C30_asymmetric`: [propext, Classical.choice, Quot.sound]
* `Aihw.Quant.C30_symmetric`: [propext, Classical.choice, Quot.sound]
* `Aihw.Quant.C30_integers`: [propext, Classical.choice, Quot.sound]
* `Aihw.Quant.C30_uninitialised`: [propext, Classical.choice, Quot.sound]
* `Aihw.Quant.C30_reset`: [propext, Classical.choice, Quot.sound]
* `Aihw.Quant.C30_per_tensor_vector`: [propext, Classical.choice, Quot.sound]
* `Aihw.Quant.C30_one_bit_signed`: [propext, Classical.choice, Quot.sound]
* `Aihw.Quant.C30_accepts`: [propext, Classical.choice, Quot.sound]
* `Aihw.Quant.C30_rank_change`: [propext, Classical.choice, Quot.sound]
* `Aihw.Quant.C30_save_load`: [propext, Classical.choice, Quot.sound]
* `Aihw.Periphery.C31_combine_separate`: [propext, Quot.sound]
* `Aihw.Periphery.C31_missing_bias`: [propext, Classical.choice, Quot.sound]
* `Aihw.Periphery.C31_digital_bias_exact`: [propext, Classical.choice, Quot.sound]
* `Aihw.Periphery.C31_failed_write_replaces_bias`: [propext, Classical.choice, Quot.sound]
* `Aihw.GpuPost.C32_gpu_clip`: [propext, Classical.choice, Quot.sound]
* `Aihw.GpuPost.C32_gpu_as_cpu`: [propext, Classical.choice, Quot.sound]
* `Aihw.GpuPost.C32_gpu_gaussian_overwrites`: [propext, Classical.choice, Quot.sound]
* `Aihw.GpuPost.C32_gpu_constant_zeroed`: [propext, Classical.choice, Quot.sound]
* `Aihw.GpuPost.C32_gpu_single_weight`: [propext, Classical.choice, Quot.sound]
* `Aihw.GpuPost.C32_gpu_tiles`: [propext, Classical.choice, Quot.sound]
* `Aihw.GpuPost.C32_gpu_order`: [propext, Classical.choice, Quot.sound]
* `Aihw.PostUpdate.Clip.C32_std`: [propext, Classical.choice, Quot.sound]
* `Aihw.PostUpdate.Clip.C32_cpp_clip`: [propext, Classical.choice, Quot.sound]
* `Aihw.PostUpdate.Clip.C32_torch_clip`: [propext, Classical.choice, Quot.sound]
* `Aihw.PostUpdate.Clip.C32_projection`: [propext, Classical.choice, Quot.sound]
* `Aihw.PostUpdate.Clip.C32_fixed_idempotent`: [propext, Classical.choice, Quot.sound]
* `Aihw.PostUpdate.Clip.C32_torch_negative_fixed`: [propext, Classical.choice, Quot.sound]
* `Aihw.PostUpdate.Clip.C32_torch_constant_zeroed`: [propext, Classical.choice, Quot.sound]
* `Aihw.PostUpdate.Clip.C32_average_channel_max`: [propext, Classical.choice, Quot.sound]
* `Aihw.Pulsed.C33_bounds_history`: [propext, Classical.choice, Quot.sound]
* `Aihw.Pulsed.C33_stuck_cell`: [propext, Classical.choice, Quot.sound]
* `Aihw.Pulsed.C33_clip_escapes`: [propext, Quot.sound]
* `Aihw.Pulsed.C33_reference_history`: [propext, Classical.choice, Quot.sound]
* `Aihw.Pulsed.C33_populate_bounds`: [propext, Classical.choice, Quot.sound]
* `Aihw.Pulsed.C33_populate_corrupt`: [propext, Classical.choice, Quot.sound]
* `Aihw.Pulsed.C33_set_reads_clipped`: [propext, Quot.sound]
* `Aihw.Pulsed.C33_none_with_device_lost`: [propext, Quot.sound]
* `Aihw.Pulsed.C33_set_hidden_drops_persistent`: [propext, Quot.sound]
* `Aihw.Pulsed.C34_schedule`: [propext, Classical.choice, Quot.sound]
* `Aihw.Pulsed.C34_fair`: [propext, Classical.choice, Quot.sound]
* `Aihw.Pulsed.C34_no_transfer`: [propext, Classical.choice, Quot.sound]
* `Aihw.Pulsed.C34_default_period_finding`: [propext, Classical.choice, Quot.sound]
* `Aihw.Pulsed.C34_visible_weight`: [propext, Quot.sound]
* `Aihw.Pulsed.C34_isolation`: [propext, Classical.choice, Quot.sound]
* `Aihw.Pulsed.C34_cancelling_gamma`: [propext, Quot.sound]
* `Aihw.Pulsed.C34_set_weights`: [propext, Classical.choice, Quot.sound]
* `Aihw.Pulsed.C34_hidden_persistent_kept`: [propext, Quot.sound]
* `Aihw.Pulsed.C34_period`: [propext, Classical.choice, Quot.sound]
* `Aihw.Pulsed.C34_schedule_parameters`: [propext, Classical.choice, Quot.sound]
* `Aihw.Pulsed.C34_no_transfer_parameters`: [propext, Classical.choice, Quot.sound]
* `Aihw.GpuPulse.C35_gpu_implicit`: [propext, Classical.choice, Quot.sound]
* `Aihw.GpuPulse.C35_gpu_as_cpu`: [propext, Classical.choice, Quot.sound]
* `Aihw.GpuPulse.C35_gpu_trains`: [propext, Classical.choice, Quot.sound]
* `Aihw.GpuPulse.C35_gpu_product`: [propext, Classical.choice, Quot.sound]
* `Aihw.GpuPulse.C35_gpu_long`: [propext, Classical.choice, Quot.sound]
* `Aihw.GpuPulse.C35_gpu_nothing`: [propext, Classical.choice, Quot.sound]
* `Aihw.Pulsed.C35_no_pulses`: [propext, Classical.choice, Quot.sound]
* `Aihw.Pulsed.C35_expected_update`: [propext, Classical.choice, Quot.sound]
* `Aihw.Pulsed.C35_length_and_product`: [propext, Classical.choice, Quot.sound]
* `Aihw.Calib.C36_max`: [propext, Classical.choice, Quot.sound]
* `Aihw.Calib.C36_cache`: [propext, Classical.choice, Quot.sound]
* `Aihw.Calib.C36_moving_quantile`: [propext, Classical.choice, Quot.sound]
* `Aihw.Calib.C36_moving_std`: [propext, Classical.choice, Quot.sound]
* `Aihw.Calib.C36_per_tile`: [propext, Classical.choice, Quot.sound]
* `Aihw.Calib.C36_flags`: [propext, Classical.choice, Quot.sound]
* `Aihw.Calib.C36_float_tile_clipped`: [propext, Classical.choice, Quot.sound]
* `Aihw.Calib.C36_disabled_tile_raises`: [propext, Classical.choice, Quot.sound]
* `Aihw.Calib.C36_unused_tile`: [propext, Classical.choice, Quot.sound]
* `Aihw.Calib.C36_all_zero_batch`: [propext, Classical.choice, Quot.sound]
* `Aihw.Calib.C36_failure_not_undone`: [propext, Classical.choice, Quot.sound]
* `Aihw.Calib.C36_noise_management_error`: [propext, Classical.choice, Quot.sound]
* `Aihw.Calib.C36_parameter_replaced`: [propext, Classical.choice, Quot.sound]
* `Aihw.Calib.C36_signed_quantile`: [propext, Classical.choice, Quot.sound]
* `Aihw.Quant.C37_current`: [propext, Classical.choice, Quot.sound]
* `Aihw.Quant.C37_all`: [propext, Classical.choice, Quot.sound]
* `Aihw.Quant.C37_running`: [propext, Classical.choice, Quot.sound]
* `Aihw.Quant.C37_ema_bounds`: [propext, Classical.choice, Quot.sound]
* `Aihw.Quant.C37_groups`: [propext, Classical.choice, Quot.sound]
* `Aihw.Quant.C37_percentile_upper_end`: [propext, Classical.choice, Quot.sound]
* `Aihw.Quant.C37_reset`: [propext, Classical.choice, Quot.sound]
* `Aihw.Quant.C37_mse_grid`: [propext, Classical.choice, Quot.sound]
* `Aihw.Quant.C37_mse_reset_keeps_sign`: [propext, Classical.choice, Quot.sound]
* `Aihw.Quant.C37_mse_one_bit`: [propext, Classical.choice, Quot.sound]
* `Aihw.Quant.C37_golden_last_batch`: [propext, Classical.choice, Quot.sound]
* `Aihw.Periphery.Alias.C38_value_semantics`: [propext, Classical.choice, Quot.sound]
* `Aihw.Periphery.Alias.C38_to_dtype_resets`: [propext, Classical.choice, Quot.sound]
* `Aihw.Periphery.Alias.C38_returned_scales_change`: [propext, Classical.choice, Quot.sound]
* `Aihw.Periphery.Alias.C38_argument_stays_shared`: [propext, Classical.choice, Quot.sound]
* `Aihw.Periphery.C39_backward`: [propext, Classical.choice, Quot.sound]
* `Aihw.Periphery.C39_adjoint`: [propext, Classical.choice, Quot.sound]
* `Aihw.Periphery.C40_only_decay_shrinks`: [propext, Classical.choice, Quot.sound]
* `Aihw.Periphery.C40_inside_no_gradient`: [propext, Classical.choice, Quot.sound]
* `Aihw.Periphery.C40_scale_ignored`: [propext, Classical.choice, Quot.sound]
* `Aihw.Periphery.C40_output_percentage`: [propext, Classical.choice, Quot.sound]
* `Aihw.Periphery.C40_decay`: [propext, Classical.choice, Quot.sound]
* `Aihw.Periphery.C40_clipping`: [propext, Classical.choice, Quot.sound]
* `Aihw.PostUpdate.Custom.C41_uniform_random_range`: [propext, Classical.choice, Quot.sound]
* `Aihw.PostUpdate.Custom.C41_symmetric_always_outside`: [propext, Classical.choice, Quot.sound]
* `Aihw.PostUpdate.Custom.C41_update_entry`: [propext, Classical.choice, Quot.sound]
* `Aihw.PostUpdate.Custom.C41_update_batch`: [propext, Classical.choice, Quot.sound]
* `Aihw.GpuMod.C42_gpu_pcm_sign`: [propext, Classical.choice, Quot.sound]
* `Aihw.GpuMod.C42_gpu_pcm_zero`: [propext, Classical.choice, Quot.sound]
* `Aihw.GpuMod.C42_gpu_pcm_exact`: [propext, Classical.choice, Quot.sound]
* `Aihw.GpuMod.C42_gpu_pcm_noise`: [propext, Classical.choice, Quot.sound]
* `Aihw.GpuMod.C42_gpu_pcm_stuck`: [propext, Classical.choice, Quot.sound]
* `Aihw.GpuMod.C42_gpu_loop`: [propext, Classical.choice, Quot.sound]
* `Aihw.GpuMod.C42_gpu_as_cpu`: [propext, Classical.choice, Quot.sound]
* `Aihw.GpuMod.C42_gpu_maximum`: [propext, Classical.choice, Quot.sound]
* `Aihw.GpuMod.C42_gpu_refuses`: [propext, Classical.choice, Quot.sound]
* `Aihw.GpuMod.C42_gpu_discretize_add`: [propext, Classical.choice, Quot.sound]
* `Aihw.GpuMod.C42_gpu_dorefa`: [propext, Classical.choice, Quot.sound]
* `Aihw.GpuMod.C42_gpu_pcm_apply`: [propext, Classical.choice, Quot.sound]
* `Aihw.GpuMod.C42_eval_copies`: [propext, Quot.sound]
* `Aihw.GpuMod.C42_copy_forgets`: none
* `Aihw.GpuMod.C42_checkpoint`: none
* `Aihw.PostUpdate.Modifier.C42_eval_true_weights`: [propext, Classical.choice, Quot.sound]
* `Aihw.PostUpdate.Modifier.C42_training_weights_stale`: [propext, Classical.choice, Quot.sound]
* `Aihw.PostUpdate.Modifier.C42_copy_last_column`: [propext, Classical.choice, Quot.sound]
* `Aihw.PostUpdate.Modifier.C42_prog_noise_sign`: [propext, Classical.choice, Quot.sound]
* `Aihw.PostUpdate.Modifier.C42_cpp_discretize`: [propext, Classical.choice, Quot.sound]
* `Aihw.PostUpdate.Modifier.C42_mult_noise_zero`: [propext, Classical.choice, Quot.sound]
* `Aihw.PostUpdate.Modifier.C42_drop_connect`: [propext, Classical.choice, Quot.sound]
* `Aihw.PostUpdate.Modifier.C42_backends_differ`: [propext, Classical.choice, Quot.sound]
* `Aihw.PostUpdate.Modifier.C42_torch`: [propext, Classical.choice, Quot.sound]
* `Aihw.PostUpdate.Modifier.C42_reference_max`: [propext, Classical.choice, Quot.sound]
* `Aihw.PostUpdate.Modifier.C42_formula`: [propext, Classical.choice, Quot.sound]
* `Aihw.PostUpdate.Modifier.C42_grid_unique`: [propext, Classical.choice, Quot.sound]
* `Aihw.PostUpdate.Modifier.C42_torch_formula`: [propext, Classical.choice, Quot.sound]
* `Aihw.Pulsed.C45_cell_pulses`: [propext, Classical.choice, Quot.sound]
* `Aihw.Pulsed.C45_types_agree`: [propext, Classical.choice, Quot.sound]
* `Aihw.Pulsed.C45_zero_untouched`: [propext, Classical.choice, Quot.sound]
* `Aihw.Pulsed.C45_saturated`: [propext, Classical.choice, Quot.sound]
* `Aihw.Pulsed.C45_res_steps_no_pulses`: [propext, Classical.choice, Quot.sound]
* `Aihw.Pulsed.C45_dense_sign_lost`: [propext, Classical.choice, Quot.sound]
* `Aihw.Pulsed.C45_dense_counts`: [propext, Classical.choice, Quot.sound]
* `Aihw.Pulsed.C45_dense_cell`: [propext, Classical.choice, Quot.sound]
* `Aihw.Pulsed.C46_constant_train`: [propext, Classical.choice, Quot.sound]
* `Aihw.Pulsed.C46_soft_bounds_train`: [propext, Classical.choice, Quot.sound]
* `Aihw.Pulsed.C46_direction`: [propext, Classical.choice, Quot.sound]
* `Aihw.Pulsed.C46_powref_jump`: [propext, Classical.choice, Quot.sound]
* `Aihw.GpuPost.C47_checkpoint`: [propext, Quot.sound]
* `Aihw.GpuPost.C47_restarted`: [propext, Classical.choice, Quot.sound]
* `Aihw.GpuPost.C47_gpu_step`: [propext, Classical.choice, Quot.sound]
* `Aihw.GpuPost.C47_gpu_as_cpu`: [propext, Classical.choice, Quot.sound]
* `Aihw.GpuPost.C47_gpu_total_time`: [propext, Classical.choice, Quot.sound]
* `Aihw.Pulsed.C47_total_time`: [propext, Classical.choice, Quot.sound]
* `Aihw.Pulsed.C47_total_time_bounded`: [propext, Classical.choice, Quot.sound]
* `Aihw.Pulsed.C47_restart`: [propext, Classical.choice, Quot.sound]
* `Aihw.Pulsed.C47_shrinks`: [propext, Classical.choice, Quot.sound]
* `Aihw.Quant.C48_frozen`: [propext, Classical.choice, Quot.sound]
* `Aihw.Quant.C48_current_error`: [propext, Classical.choice, Quot.sound]
* `Aihw.Quant.C48_all_error`: [propext, Classical.choice, Quot.sound]
* `Aihw.Quant.C48_uninitialised`: [propext, Classical.choice, Quot.sound]
* `Aihw.Quant.C48_explicit_range_unusable`: [propext, Classical.choice, Quot.sound]
* `Aihw.Quant.C48_reset`: [propext, Classical.choice, Quot.sound]
* `Aihw.Quant.C49_cache_transparent`: [propext, Classical.choice, Quot.sound]
* `Aihw.Quant.C49_training_fresh`: [propext, Classical.choice, Quot.sound]
* `Aihw.Quant.C49_refresh`: [propext, Classical.choice, Quot.sound]
* `Aihw.Quant.C49_stale_cache`: [propext, Classical.choice, Quot.sound]
* `Aihw.Quant.C50_batches`: [propext, Classical.choice, Quot.sound]
* `Aihw.Quant.C50_result`: [propext, Classical.choice, Quot.sound]
* `Aihw.Quant.C50_frozen`: [propext, Classical.choice, Quot.sound]
* `Aihw.QConvert.C51_excluded_kept`: [propext, Classical.choice, Quot.sound]
* `Aihw.QConvert.C51_zero_bits_kept`: [propext, Classical.choice, Quot.sound]
* `Aihw.QConvert.C51_unselected`: [propext, Classical.choice, Quot.sound]
* `Aihw.QConvert.C51_torch_layer`: [propext, Classical.choice, Quot.sound]
* `Aihw.QConvert.C51_analog_layer`: [propext, Classical.choice, Quot.sound]
* `Aihw.QConvert.C51_custom_module`: [propext, Classical.choice, Quot.sound]
* `Aihw.QConvert.C51_input_wrapper`: [propext, Classical.choice, Quot.sound]
* `Aihw.QConvert.C51_shared_child`: [propext, Classical.choice, Quot.sound]
* `Aihw.QConvert.C51_shared_container`: [propext, Classical.choice, Quot.sound]
* `Aihw.QConvert.C51_states`: [propext]
* `Aihw.QConvert.C51_root_excluded`: [propext]
* `Aihw.QConvert.C51_succeeds`: [propext, Classical.choice, Quot.sound]
* `Aihw.QConvert.C51_layernorm_without_weight`: [propext, Classical.choice, Quot.sound]
* `Aihw.QConvert.C51_append_defaults`: [propext, Quot.sound]
* `Aihw.QConvert.C51_same_function`: [propext]
* `Aihw.QConvert.C51_conv_padding_mode`: [propext]
* `Aihw.Pulsed.C52_conservation`: [propext, Classical.choice, Quot.sound]
* `Aihw.Pulsed.C52_steps_bounded`: [propext, Classical.choice, Quot.sound]
* `Aihw.Pulsed.C52_tracks`: [propext, Classical.choice, Quot.sound]
* `Aihw.Pulsed.C52_forget`: [propext, Quot.sound]
* `Aihw.Pulsed.C52_threshold`: [propext, Classical.choice, Quot.sound]
* `Aihw.Pulsed.C52_layout`: [propext, Quot.sound]
* `Aihw.Pulsed.C52_slow_device`: [propext, Classical.choice, Quot.sound]
* `Aihw.Pulsed.C52_exact_pulses`: [propext, Classical.choice, Quot.sound]
* `Aihw.Pulsed.C52_same_schedule`: [propext, Classical.choice, Quot.sound]
* `Aihw.Pulsed.C52_schedule`: [propext, Classical.choice, Quot.sound]
* `Aihw.Pulsed.C52_history_is_log`: [propext, Quot.sound]
* `Aihw.Pulsed.C52_set_weights_keeps_buffer`: [propext, Quot.sound]
* `Aihw.Pulsed.C53_conservation`: [propext, Quot.sound]
* `Aihw.Pulsed.C53_tracks`: [propext, Classical.choice, Quot.sound]
* `Aihw.Pulsed.C53_read_undoes_sign`: [propext, Quot.sound]
* `Aihw.Pulsed.C53_out_chopper_not_undone`: [propext, Quot.sound]
* `Aihw.Pulsed.C53_regular_chopper`: [propext, Classical.choice, Quot.sound]
* `Aihw.Pulsed.C53_slow_device`: [propext, Classical.choice, Quot.sound]
* `Aihw.Pulsed.C53_equals_buffered`: [propext, Classical.choice, Quot.sound]
* `Aihw.Pulsed.C53_visible_weight`: [propext, Quot.sound]
* `Aihw.Pulsed.C53_visible_weight_finding`: [propext, Quot.sound]
* `Aihw.Pulsed.C53_threshold`: [propext, Classical.choice, Quot.sound]
* `Aihw.Pulsed.C53_auto_period_reads_twice`: [propext, Quot.sound]
* `Aihw.Pulsed.C54_offset_invariance`: [propext, Quot.sound]
* `Aihw.Pulsed.C54_conservation`: [propext, Quot.sound]
* `Aihw.Pulsed.C54_buffer_cap`: [propext, Classical.choice, Quot.sound]
* `Aihw.Pulsed.C54_warmup`: [propext, Quot.sound]
* `Aihw.Pulsed.C54_warmup_loses_steps`: [propext, Classical.choice, Quot.sound]
* `Aihw.Pulsed.C54_reference`: [propext, Quot.sound]
* `Aihw.Pulsed.C54_mean_bounds`: [propext, Classical.choice, Quot.sound]
* `Aihw.Pulsed.C54_read_undoes_sign`: [propext, Quot.sound]
* `Aihw.Pulsed.C54_switching`: [propext, Quot.sound]
* `Aihw.Pulsed.C54_schedule`: [propext, Classical.choice, Quot.sound]
* `Aihw.Pulsed.C54_slow_device`: [propext, Classical.choice, Quot.sound]
* `Aihw.Pulsed.C54_threshold`: [propext, Classical.choice, Quot.sound]
* `Aihw.Pulsed.C54_forget`: [propext, Quot.sound]
* `Aihw.Pulsed.C54_fast_device`: [propext, Quot.sound]
* `Aihw.Pulsed.C54_visible_weight`: [propext, Quot.sound]
* `Aihw.PyTransfer.C55_rejected`: [propext, Classical.choice, Quot.sound]
* `Aihw.PyTransfer.C55_period`: [propext, Classical.choice, Quot.sound]
* `Aihw.PyTransfer.C55_zero_period`: [propext, Classical.choice, Quot.sound]
* `Aihw.PyTransfer.C55_transfer_lr`: [propext, Classical.choice, Quot.sound]
* `Aihw.PyTransfer.C55_steps`: [propext, Classical.choice, Quot.sound]
* `Aihw.PyTransfer.C55_forget_finding`: [propext, Classical.choice, Quot.sound]
* `Aihw.PyTransfer.C55_conservation`: [propext, Classical.choice, Quot.sound]
* `Aihw.PyTransfer.C55_bounded`: [propext, Classical.choice, Quot.sound]
* `Aihw.PyTransfer.C55_weight_writes`: [propext, Classical.choice, Quot.sound]
* `Aihw.PyTransfer.C55_input_modified`: [propext, Classical.choice, Quot.sound]
* `Aihw.PyTransfer.C55_row_transfer`: [propext, Classical.choice, Quot.sound]
* `Aihw.PyTransfer.C55_order`: [propext, Classical.choice, Quot.sound]
* `Aihw.PyTransfer.C55_schedule`: [propext, Classical.choice, Quot.sound]
* `Aihw.PyTransfer.C55_signs`: [propext, Classical.choice, Quot.sound]
* `Aihw.PyTransfer.C55_regular_chopper`: [propext, Classical.choice, Quot.sound]
* `Aihw.PyTransfer.C55_reference`: [propext, Classical.choice, Quot.sound]
* `Aihw.PyTransfer.C55_ideal`: [propext, Classical.choice, Quot.sound]
* `Aihw.PyTransfer.C55_resume`: [propext, Classical.choice, Quot.sound]
* `Aihw.PyTransfer.C55_resume_finding`: [propext, Classical.choice, Quot.sound]
* `Aihw.PyTransfer.C55_random_chopper`: [propext, Classical.choice, Quot.sound]
* `Aihw.PyTransfer.C55_auto_scale`: [propext, Classical.choice, Quot.sound]
* `Aihw.Conv.C56_conv1d`: [propext, Classical.choice, Quot.sound]
* `Aihw.Conv.C56_conv2d`: [propext, Classical.choice, Quot.sound]
* `Aihw.Conv.C56_conv3d`: [propext, Classical.choice, Quot.sound]
* `Aihw.Conv.C56_exact1d`: [propext, Classical.choice, Quot.sound]
* `Aihw.Conv.C56_exact2d`: [propext, Classical.choice, Quot.sound]
* `Aihw.Conv.C56_exact3d`: [propext, Classical.choice, Quot.sound]
* `Aihw.Conv.C56_out_size`: [propext, Classical.choice, Quot.sound]
* `Aihw.Conv.C56_unfold`: [propext, Classical.choice, Quot.sound]
* `Aihw.Conv.C56_stale_finding`: [propext, Classical.choice, Quot.sound]
* `Aihw.Conv.C56_channels1d`: [propext, Classical.choice, Quot.sound]
* `Aihw.Conv.C56_channels2d`: [propext, Classical.choice, Quot.sound]
* `Aihw.Conv.C56_backward1d`: [propext, Classical.choice, Quot.sound]
* `Aihw.Conv.C56_backward2d`: [propext, Classical.choice, Quot.sound]
* `Aihw.Conv.C56_backward3d`: [propext, Classical.choice, Quot.sound]
* `Aihw.Conv.C56_update1d`: [propext, Classical.choice, Quot.sound]
* `Aihw.Conv.C56_update2d`: [propext, Classical.choice, Quot.sound]
* `Aihw.Conv.C56_update3d`: [propext, Classical.choice, Quot.sound]
* `Aihw.Conv.C56_latest_finding`: [propext, Classical.choice, Quot.sound]
* `Aihw.Conv.C57_split`: [propext, Classical.choice, Quot.sound]
* `Aihw.Conv.C57_split_cases`: [propext, Quot.sound]
* `Aihw.Conv.C57_mapped1d`: [propext, Classical.choice, Quot.sound]
* `Aihw.Conv.C57_mapped2d`: [propext, Classical.choice, Quot.sound]
* `Aihw.Conv.C57_mapped3d`: [propext, Classical.choice, Quot.sound]
* `Aihw.Conv.C57_exact`: [propext, Classical.choice, Quot.sound]
* `Aihw.Conv.C57_roundtrip`: [propext, Classical.choice, Quot.sound]
* `Aihw.Conv.C57_construct`: [propext, Classical.choice, Quot.sound]
* `Aihw.Conv.C57_analog_bias`: none
* `Aihw.Conv.C57_failed_finding`: [propext, Classical.choice, Quot.sound]
* `Aihw.Rnn.C58_forward_layer`: [propext, Classical.choice, Quot.sound]
* `Aihw.Rnn.C58_reverse_layer`: [propext, Classical.choice, Quot.sound]
* `Aihw.Rnn.C58_empty`: none
* `Aihw.Rnn.C58_bidir`: [propext, Classical.choice, Quot.sound]
* `Aihw.Rnn.C58_bidir_states`: none
* `Aihw.Rnn.C58_stack`: [propext, Classical.choice, Quot.sound]
* `Aihw.Rnn.C58_states`: [propext, Classical.choice, Quot.sound]
* `Aihw.Rnn.C58_layers`: [propext, Quot.sound]
* `Aihw.Rnn.C58_resume`: [propext, Classical.choice, Quot.sound]
* `Aihw.Rnn.C58_causal`: [propext, Classical.choice, Quot.sound]
* `Aihw.Rnn.C58_vanilla`: [propext, Classical.choice, Quot.sound]
* `Aihw.Rnn.C58_lstm`: [propext, Classical.choice, Quot.sound]
* `Aihw.Rnn.C58_gru`: [propext, Classical.choice, Quot.sound]
* `Aihw.Rnn.C58_combined`: [propext, Classical.choice, Quot.sound]
* `Aihw.Rnn.C58_vanilla_bound`: [propext, Classical.choice, Quot.sound]
* `Aihw.Rnn.C58_lstm_bound`: [propext, Classical.choice, Quot.sound]
* `Aihw.Rnn.C58_gru_bound`: [propext, Classical.choice, Quot.sound]
* `Aihw.Rnn.C58_cell_shapes`: [propext, Classical.choice, Quot.sound]
* `Aihw.Rnn.C58_shapes`: [propext, Quot.sound]
* `Aihw.Rnn.C58_shapes_bidir`: [propext, Classical.choice, Quot.sound]
* `Aihw.Rnn.C58_cell_rows`: [propext, Classical.choice, Quot.sound]
* `Aihw.Rnn.C58_batch`: [propext, Quot.sound]
* `Aihw.Rnn.C58_batch_bidir`: [propext, Classical.choice, Quot.sound]
* `Aihw.Rnn.C58_zero_state`: [propext, Classical.choice, Quot.sound]
* `Aihw.Pulsed.C59_conserve`: [propext, Classical.choice, Quot.sound]
* `Aihw.Pulsed.C59_remainder`: [propext, Classical.choice, Quot.sound]
* `Aihw.Pulsed.C59_schedule`: [propext, Classical.choice, Quot.sound]
* `Aihw.Pulsed.C59_no_transfer`: [propext, Classical.choice, Quot.sound]
* `Aihw.Pulsed.C59_cyclic`: [propext, Classical.choice, Quot.sound]
* `Aihw.Pulsed.C59_fair`: [propext, Classical.choice, Quot.sound]
* `Aihw.Pulsed.C59_weights`: [propext, Classical.choice, Quot.sound]
* `Aihw.Pulsed.C59_set_weights`: [propext, Quot.sound]
* `Aihw.Pulsed.C59_hidden_round_trip`: [propext, Quot.sound]
* `Aihw.Pulsed.C59_granularity`: [propext, Classical.choice, Quot.sound]
* `Aihw.Pulsed.C59_sparsity`: [propext, Classical.choice, Quot.sound]
* `Aihw.Pulsed.C59_sparsity_finding`: [propext, Classical.choice, Quot.sound]
* `Aihw.Pulsed.C59_one_quantised_finding`: [propext, Classical.choice, Quot.sound]
* `Aihw.Pulsed.C59_single_bin_finding`: [propext, Quot.sound]
* `Aihw.Pulsed.C59_exact_transfer`: [propext, Classical.choice, Quot.sound]
* `Aihw.Pulsed.C59_ideal_sgd`: [propext, Classical.choice, Quot.sound]
* `Aihw.Pulsed.C59_long_transfer_finding`: [propext, Classical.choice, Quot.sound]
* `Aihw.Container.C60_tiles_once`: [propext, Classical.choice, Quot.sound]
* `Aihw.Container.C60_layers_once`: [propext, Classical.choice, Quot.sound]
* `Aihw.Container.C60_unshared_name`: [propext, Classical.choice, Quot.sound]
* `Aihw.Container.C60_name_resolves`: [propext, Classical.choice, Quot.sound]
* `Aihw.Container.C60_apply`: [propext, Classical.choice, Quot.sound]
* `Aihw.Container.C60_get_weights`: [propext, Classical.choice, Quot.sound]
* `Aihw.Container.C60_set_weights`: [propext, Classical.choice, Quot.sound]
* `Aihw.Container.C60_set_weights_raises`: [propext, Classical.choice, Quot.sound]
* `Aihw.Container.C60_round_trip`: [propext, Classical.choice, Quot.sound]
* `Aihw.Container.C60_copy`: [propext, Classical.choice, Quot.sound]
* `Aihw.Container.C60_model_round_trip`: [propext, Classical.choice, Quot.sound]
* `Aihw.Container.C60_remap`: [propext, Classical.choice, Quot.sound]
* `Aihw.Container.C60_drift`: [propext, Classical.choice, Quot.sound]
* `Aihw.Container.C60_program`: [propext, Classical.choice, Quot.sound]
* `Aihw.Container.C60_tile_count`: [propext, Classical.choice, Quot.sound]
* `Aihw.Container.C60_load`: [propext, Classical.choice, Quot.sound]
* `Aihw.Container.C60_ddp`: [propext, Classical.choice, Quot.sound]
* `Aihw.Container.C60_ddp_finding`: [propext, Classical.choice, Quot.sound]
* `Aihw.CppFwd.C61_exact`: [propext, Classical.choice, Quot.sound]
* `Aihw.CppFwd.C61_exact_absMax`: [propext, Classical.choice, Quot.sound]
* `Aihw.CppFwd.C61_perfect`: [propext, Classical.choice, Quot.sound]
* `Aihw.CppFwd.C61_nm_value`: [propext, Classical.choice, Quot.sound]
* `Aihw.CppFwd.C61_npSum`: [propext, Classical.choice, Quot.sound]
* `Aihw.CppFwd.C61_homogeneous`: [propext, Classical.choice, Quot.sound]
* `Aihw.CppFwd.C61_range`: [propext, Classical.choice, Quot.sound]
* `Aihw.CppFwd.C61_backward`: [propext, Classical.choice, Quot.sound]
* `Aihw.CppFwd.C61_adjoint`: [propext, Classical.choice, Quot.sound]
* `Aihw.CppFwd.C61_average`: [propext, Classical.choice, Quot.sound]
* `Aihw.CppFwd.C62_result`: [propext, Classical.choice, Quot.sound]
* `Aihw.CppFwd.C62_terminates`: [propext, Classical.choice, Quot.sound]
* `Aihw.CppFwd.C62_rounds`: [propext, Quot.sound]
* `Aihw.CppFwd.C62_test`: [propext, Classical.choice, Quot.sound]
* `Aihw.CppFwd.C62_negative_forgets`: [propext, Classical.choice, Quot.sound]
* `Aihw.CppFwd.C62_worstCase_repeats`: [propext, Classical.choice, Quot.sound]
* `Aihw.CppFwd.C63_input_stage`: [propext, Classical.choice, Quot.sound]
* `Aihw.CppFwd.C63_output_stage`: [propext, Classical.choice, Quot.sound]
* `Aihw.CppFwd.C63_nonlinearity`: [propext, Classical.choice, Quot.sound]
* `Aihw.CppFwd.C63_ir_drop`: [propext, Classical.choice, Quot.sound]
* `Aihw.CppFwd.C63_voltage`: [propext, Classical.choice, Quot.sound]
* `Aihw.CppFwd.C63_voltage_ref`: [propext, Classical.choice, Quot.sound]
* `Aihw.CppFwd.C63_weight_noise`: [propext, Classical.choice, Quot.sound]
* `Aihw.CppFwd.C63_posNeg`: [propext, Classical.choice, Quot.sound]
* `Aihw.CppFwd.C63_populate`: [propext, Classical.choice, Quot.sound]
* `Aihw.CppFwd.C63_init`: [propext, Classical.choice, Quot.sound]
* `Aihw.CppFwd.C63_nl_vector_ignored`: [propext, Classical.choice, Quot.sound]
* `Aihw.CppFwd.C64_same`: [propext, Classical.choice, Quot.sound]
* `Aihw.CppFwd.C64_worst_case_is_iterative`: [propext, Classical.choice, Quot.sound]
* `Aihw.CppFwd.C64_perfect_scale`: [propext, Classical.choice, Quot.sound]
* `Aihw.CppFwd.C64_max_negative`: [propext, Classical.choice, Quot.sound]
* `Aihw.Pulsed.C65_visible_is_sum`: [propext, Classical.choice, Quot.sound]
* `Aihw.Pulsed.C65_gamma`: [propext, Classical.choice, Quot.sound]
* `Aihw.Pulsed.C65_update_targets`: [propext, Classical.choice, Quot.sound]
* `Aihw.Pulsed.C65_update_ok_iff`: [propext, Quot.sound]
* `Aihw.Pulsed.C65_policies_in_range`: [propext, Classical.choice, Quot.sound]
* `Aihw.Pulsed.C65_sequential`: [propext, Classical.choice, Quot.sound]
* `Aihw.Pulsed.C65_sequential_fair`: [propext, Classical.choice, Quot.sound]
* `Aihw.Pulsed.C65_set_all`: [propext, Classical.choice, Quot.sound]
* `Aihw.Pulsed.C65_set_get`: [propext, Classical.choice, Quot.sound]
* `Aihw.Pulsed.C65_default_sums_to_one`: [propext, Classical.choice, Quot.sound]
* `Aihw.Pulsed.C65_set_fixed`: [propext, Classical.choice, Quot.sound]
* `Aihw.Pulsed.C65_set_bakes_noise`: [propext, Quot.sound]
* `Aihw.Pulsed.C65_reference_offset`: [propext, Classical.choice, Quot.sound]
* `Aihw.Pulsed.C65_reference_recipe`: [propext, Classical.choice, Quot.sound]
* `Aihw.Pulsed.C65_index_unchecked`: [propext, Classical.choice, Quot.sound]
* `Aihw.Pulsed.C65_visible_not_state`: [propext, Quot.sound]
* `Aihw.Pulsed.C65_fp_update_lost`: [propext, Quot.sound]
* `Aihw.Pulsed.C65_bounds`: [propext, Classical.choice, Quot.sound]
* `Aihw.Pulsed.C65_reference_fixed`: [propext, Classical.choice, Quot.sound]
* `Aihw.Pulsed.C66_visible_is_difference`: [propext, Classical.choice, Quot.sound]
* `Aihw.Pulsed.C66_set`: [propext, Classical.choice, Quot.sound]
* `Aihw.Pulsed.C66_one_directional`: [propext, Classical.choice, Quot.sound]
* `Aihw.Pulsed.C66_pulse_counts`: [propext, Classical.choice, Quot.sound]
* `Aihw.Pulsed.C66_refresh_cell`: [propext, Classical.choice, Quot.sound]
* `Aihw.Pulsed.C66_refresh_direction`: [propext, Classical.choice, Quot.sound]
* `Aihw.Pulsed.C66_refresh_preserves`: [propext, Classical.choice, Quot.sound]
* `Aihw.Pulsed.C66_refresh_schedule`: [propext, Classical.choice, Quot.sound]
* `Aihw.Pulsed.C66_refresh_raises`: [propext, Classical.choice, Quot.sound]
* `Aihw.Pulsed.C66_bounds`: [propext, Classical.choice, Quot.sound]
* `Aihw.Pulsed.C66_copy_inverted`: [propext, Classical.choice, Quot.sound]
* `Aihw.Pulsed.C66_copy_inverted_mirror`: [propext, Classical.choice, Quot.sound]
* `Aihw.Wpo.C67_feasible`: [propext, Classical.choice, Quot.sound]
* `Aihw.Wpo.C67_symmetric`: [propext, Classical.choice, Quot.sound]
* `Aihw.Wpo.C67_round_trip`: [propext, Classical.choice, Quot.sound]
* `Aihw.Wpo.C68_error`: [propext, Classical.choice, Quot.sound]
* `Aihw.Wpo.C68_stop`: [propext, Classical.choice, Quot.sound]
* `Aihw.Wpo.C68_result`: [propext, Classical.choice, Quot.sound]
* `Aihw.Wpo.C68_baseline_ignored`: [propext, Classical.choice, Quot.sound]
* `Aihw.Wpo.C68_success`: [propext, Quot.sound]
* `Aihw.Wpo.C68_second_run`: [propext, Classical.choice, Quot.sound]
* `Aihw.Wpo.C68_downsample`: [propext, Classical.choice, Quot.sound]
* `Aihw.IrDrop.C69_split`: [propext, Classical.choice, Quot.sound]
* `Aihw.IrDrop.C69_split_digits`: [propext, Classical.choice, Quot.sound]
* `Aihw.IrDrop.C69_bits`: [propext, Classical.choice, Quot.sound]
* `Aihw.IrDrop.C69_bits_range`: [propext, Classical.choice, Quot.sound]
* `Aihw.IrDrop.C69_bits_lost`: [propext, Classical.choice, Quot.sound]
* `Aihw.IrDrop.C69_modes`: [propext, Classical.choice, Quot.sound]
* `Aihw.IrDrop.C70_column`: [propext, Classical.choice, Quot.sound]
* `Aihw.IrDrop.C70_product`: [propext, Classical.choice, Quot.sound]
* `Aihw.IrDrop.C70_exact`: [propext, Classical.choice, Quot.sound]
* `Aihw.IrDrop.C70_single_pair_exact`: [propext, Classical.choice, Quot.sound]
* `Aihw.IrDrop.C70_n_pairs_exact`: [propext, Classical.choice, Quot.sound]
* `Aihw.IrDrop.C70_modes`: [propext, Classical.choice, Quot.sound]
* `Aihw.IrDrop.C70_adc`: [propext, Classical.choice, Quot.sound]
* `Aihw.IrDrop.C70_odd_columns`: [propext, Classical.choice, Quot.sound]
* `Aihw.IrDrop.C70_segments`: [propext, Quot.sound]
* `Aihw.IrDrop.C70_one_missing`: [propext, Classical.choice, Quot.sound]
* `Aihw.IrDrop.C70_pos_neg`: [propext, Classical.choice, Quot.sound]
* `Aihw.IrDrop.C70_cpp`: [propext, Classical.choice, Quot.sound]
* `Aihw.FloatPrec.C71_formats`: [propext, Classical.choice, Quot.sound]
* `Aihw.FloatPrec.C71_round`: [propext, Classical.choice, Quot.sound]
* `Aihw.FloatPrec.C71_wraps`: [propext, Classical.choice, Quot.sound]
* `Aihw.FloatPrec.C71_subnormal_zero`: [propext, Classical.choice, Quot.sound]
* `Aihw.FloatPrec.C71_subnormal_full`: [propext, Classical.choice, Quot.sound]
* `Aihw.FloatPrec.C71_nonfinite`: [propext, Classical.choice, Quot.sound]
* `Aihw.FloatPrec.C71_idempotent`: [propext, Classical.choice, Quot.sound]
* `Aihw.FloatPrec.C71_monotone`: [propext, Classical.choice, Quot.sound]
* `Aihw.FloatPrec.C71_fixed`: [propext, Classical.choice, Quot.sound]
* `Aihw.FloatPrec.C71_odd`: [propext, Classical.choice, Quot.sound]
* `Aihw.FloatPrec.C71_underflow_sign`: [propext, Classical.choice, Quot.sound]
* `Aihw.FloatPrec.C71_not_monotone`: [propext, Classical.choice, Quot.sound]
* `Aihw.FloatPrec.C71_backward_raises`: none
* `Aihw.Linalg.C72_history`: [propext, Classical.choice, Quot.sound]
* `Aihw.Linalg.C72_ger`: [propext, Classical.choice, Quot.sound]
* `Aihw.Linalg.C72_adjoint`: [propext, Classical.choice, Quot.sound]
* `Aihw.Linalg.C72_wrong_size`: [propext, Classical.choice, Quot.sound]
* `Aihw.Linalg.C72_rows`: [propext, Classical.choice, Quot.sound]
* `Aihw.Linalg.C72_matmat_raises`: [propext, Classical.choice, Quot.sound]
* `Aihw.Linalg.C72_column_raises`: [propext, Classical.choice, Quot.sound]
* `Aihw.Linalg.C72_matmat_square`: [propext, Classical.choice, Quot.sound]
* `Aihw.Linalg.C72_large`: [propext, Classical.choice, Quot.sound]
* `Aihw.Linalg.C72_array_iff`: [propext]
* `Aihw.Extra.C73_every_optional`: [propext, Classical.choice, Quot.sound]
* `Aihw.Extra.C73_dump_total`: [propext, Classical.choice, Quot.sound]
* `Aihw.Extra.C73_dump_order`: [propext, Classical.choice, Quot.sound]
* `Aihw.Extra.C73_round_trip`: [propext, Classical.choice, Quot.sound]
* `Aihw.Extra.C73_self`: [propext, Classical.choice, Quot.sound]
* `Aihw.Extra.C73_drift_lost`: [propext, Classical.choice, Quot.sound]
* `Aihw.Extra.C73_drift_saved`: [propext, Classical.choice, Quot.sound]
* `Aihw.Extra.C73_modifier_lost`: [propext, Classical.choice, Quot.sound]
* `Aihw.Extra.C73_nested_raises`: [propext, Classical.choice, Quot.sound]
* `Aihw.Extra.C73_mixed_transfer_raises`: [propext, Classical.choice, Quot.sound]
* `Aihw.Extra.C73_strict_complete`: [propext, Classical.choice, Quot.sound]
* `Aihw.Extra.C73_missing_all`: [propext, Classical.choice, Quot.sound]
* `Aihw.Extra.C73_set_parameters`: [propext, Classical.choice, Quot.sound]
* `Aihw.Extra.C73_set_rejected`: [propext, Classical.choice, Quot.sound]
* `Aihw.Extra.C73_get_parameters`: [propext, Classical.choice, Quot.sound]
* `Aihw.Extra.C73_get_ambiguous`: [propext, Classical.choice, Quot.sound]
* `Aihw.Extra.C73_get_after_set`: [propext, Classical.choice, Quot.sound]
* `Aihw.Bind.C74_settings_arrive`: [propext, Classical.choice, Quot.sound]
* `Aihw.Bind.C74_nothing_else`: [propext, Classical.choice, Quot.sound]
* `Aihw.Bind.C74_accepted_iff`: [propext, Classical.choice, Quot.sound]
* `Aihw.Bind.C74_typo_refused`: [propext, Quot.sound]
* `Aihw.Bind.C74_types_refused`: [propext, Classical.choice, Quot.sound]
* `Aihw.Bind.C74_missing_class_silent`: [propext]
* `Aihw.Bind.C74_data_type_refused`: [propext]
* `Aihw.Bind.C74_class_of_type`: [propext, Classical.choice, Quot.sound]
* `Aihw.Bind.C74_tile_settings_arrive`: [propext, Classical.choice, Quot.sound]
* `Aihw.Bind.C74_tile_nothing_else`: [propext, Classical.choice, Quot.sound]
* `Aihw.Bind.C74_tile_typo_silent`: [propext, Quot.sound]
* `Aihw.Bind.C74_vector_cell`: [propext, Quot.sound]
* `Aihw.Bind.C74_reference_cell`: [propext, Classical.choice, Quot.sound]
* `Aihw.Bind.C74_transfer_compound`: [propext, Classical.choice, Quot.sound]
* `Aihw.Bind.C74_transfer_rest_ignored`: [propext, Classical.choice, Quot.sound]
* `Aihw.Bind.C74_chopped_compound`: [propext, Classical.choice, Quot.sound]
* `Aihw.Bind.C74_onesided_cell`: [propext, Classical.choice, Quot.sound]
* `Aihw.Bind.C74_no_device`: [propext]
* `Aihw.Bind.C74_mixed_precision`: [propext, Quot.sound]
* `Aihw.Pulsed.C75_up_response`: [propext, Classical.choice, Quot.sound]
* `Aihw.Pulsed.C75_down_response`: [propext, Classical.choice, Quot.sound]
* `Aihw.Pulsed.C75_documented_curve`: [propext, Classical.choice, Quot.sound]
* `Aihw.Pulsed.C75_overshoots`: [propext, Classical.choice, Quot.sound]
* `Aihw.Pulsed.C75_bounds`: [propext, Classical.choice, Quot.sound]
* `Aihw.Pulsed.C75_parameters`: [propext, Classical.choice, Quot.sound]
* `Aihw.Pulsed.C75_positive_range_refused`: [propext, Classical.choice, Quot.sound]
* `Aihw.Pulsed.C75_zero_min_no_down`: [propext, Classical.choice, Quot.sound]
* `Aihw.State.C76_vector_restored`: [propext, Classical.choice, Quot.sound]
* `Aihw.State.C76_vector_exact_iff`: [propext, Classical.choice, Quot.sound]
* `Aihw.State.C76_vector_first_update`: [propext, Classical.choice, Quot.sound]
* `Aihw.State.C76_reference_shift`: [propext, Classical.choice, Quot.sound]
* `Aihw.State.C76_onesided_restored`: [propext, Classical.choice, Quot.sound]
* `Aihw.State.C76_onesided_refreshed`: [propext, Classical.choice, Quot.sound]
* `Aihw.State.C76_mixed_restored`: [propext, Classical.choice, Quot.sound]
* `Aihw.State.C76_mixed_exact_iff`: [propext, Classical.choice, Quot.sound]
* `Aihw.State.C76_mixed_next`: [propext, Classical.choice, Quot.sound]
* `Aihw.Info.C77_listed_iff`: [propext, Quot.sound]
* `Aihw.Info.C77_tiles_partition`: [propext, Quot.sound]
* `Aihw.Info.C77_contents`: [propext, Classical.choice, Quot.sound]
* `Aihw.Info.C77_total_tiles`: [propext, Classical.choice, Quot.sound]
* `Aihw.Info.C77_total_once`: [propext, Classical.choice, Quot.sound]
* `Aihw.Info.C77_keeps_growing`: [propext, Classical.choice, Quot.sound]
* `Aihw.Info.C77_failure_sticks`: [propext, Classical.choice, Quot.sound]
* `Aihw.Info.C77_reuse_linear`: [propext]
* `Aihw.Info.C77_reuse_conv`: [propext, Classical.choice, Quot.sound]
* `Aihw.Info.C77_reuse_unbatched`: [propext, Classical.choice, Quot.sound]
* `Aihw.Info.C77_utilisation`: [propext, Classical.choice, Quot.sound]
* `Aihw.Info.C77_utilisation_other`: [propext, Classical.choice, Quot.sound]
* `Aihw.Legacy.C78_needs_model`: [propext, Classical.choice, Quot.sound]
* `Aihw.Legacy.C78_model_limits`: [propext, Classical.choice, Quot.sound]
* `Aihw.Legacy.C78_converted`: [propext, Classical.choice, Quot.sound]
* `Aihw.Legacy.C78_total`: [propext, Classical.choice, Quot.sound]
* `Aihw.Legacy.C78_no_tiles`: [propext, Classical.choice, Quot.sound]
* `Aihw.Legacy.C78_bad_config`: [propext, Classical.choice, Quot.sound]
* `Aihw.Legacy.C78_current_refused`: [propext, Classical.choice, Quot.sound]
* `Aihw.Cloud.C79_export_iff`: [propext, Classical.choice, Quot.sound]
* `Aihw.Cloud.C79_children`: [propext, Quot.sound]
* `Aihw.Cloud.C79_round_trip`: [propext, Classical.choice, Quot.sound]
* `Aihw.Cloud.C79_bias`: [propext, Classical.choice, Quot.sound]
* `Aihw.Cloud.C79_omega`: [propext, Classical.choice, Quot.sound]
* `Aihw.Cloud.C79_again`: [propext, Classical.choice, Quot.sound]
* `Aihw.Cloud.C79_import`: [propext, Classical.choice, Quot.sound]
* `Aihw.Cloud.C80_export_iff`: [propext, Classical.choice, Quot.sound]
* `Aihw.Cloud.C80_round_trip`: [propext, Classical.choice, Quot.sound]
* `Aihw.Cloud.C80_errors`: [propext, Classical.choice, Quot.sound]
* `Aihw.Cloud.C80_unknown_arguments`: [propext, Classical.choice, Quot.sound]
* `Aihw.Cloud.C81_config_iff`: [propext, Classical.choice, Quot.sound]
* `Aihw.Cloud.C81_errors`: [propext, Classical.choice, Quot.sound]
* `Aihw.Cloud.C81_missing`: [propext, Classical.choice, Quot.sound]
* `Aihw.Cloud.C82_to_proto_iff`: [propext, Classical.choice, Quot.sound]
* `Aihw.Cloud.C82_round_trip`: [propext, Classical.choice, Quot.sound]
* `Aihw.Cloud.C82_values`: [propext, Classical.choice, Quot.sound]
* `Aihw.Cloud.C82_json`: [propext, Quot.sound]
* `Aihw.Cloud.C82_training`: [propext, Quot.sound]
* `Aihw.Cloud.C82_analog_info`: [propext, Classical.choice, Quot.sound]
* `Aihw.Cloud.C82_noise_info`: [propext, Classical.choice, Quot.sound]
* `Aihw.Exper.C83_signals`: [propext, Classical.choice, Quot.sound]
* `Aihw.Exper.C83_length`: [propext, Classical.choice, Quot.sound]
* `Aihw.Exper.C83_results`: [propext, Classical.choice, Quot.sound]
* `Aihw.Exper.C83_no_samples`: [propext, Classical.choice, Quot.sound]
* `Aihw.Exper.C83_hooks_removed`: [propext, Classical.choice, Quot.sound]
* `Aihw.Exper.C83_accuracy_range`: [propext, Classical.choice, Quot.sound]
* `Aihw.Exper.C83_batching`: [propext, Classical.choice, Quot.sound]
* `Aihw.Exper.C84_times`: [propext, Classical.choice, Quot.sound]
* `Aihw.Exper.C84_times_none`: [propext, Classical.choice, Quot.sound]
* `Aihw.Exper.C84_times_order`: [propext, Classical.choice, Quot.sound]
* `Aihw.Exper.C84_signals`: [propext, Classical.choice, Quot.sound]
* `Aihw.Exper.C84_results`: [propext, Classical.choice, Quot.sound]
* `Aihw.Exper.C84_no_samples`: [propext, Classical.choice, Quot.sound]
* `Aihw.Exper.C84_ranges`: [propext, Classical.choice, Quot.sound]
* `Aihw.Exper.C84_data`: [propext, Classical.choice, Quot.sound]
* `Aihw.Exper.C84_batching`: [propext, Classical.choice, Quot.sound]
* `Aihw.Exper.C85_empty`: [propext, Classical.choice, Quot.sound]
* `Aihw.Exper.C85_local`: [propext, Classical.choice, Quot.sound]
* `Aihw.Exper.C85_address`: [propext, Classical.choice, Quot.sound]
* `Aihw.Exper.C85_named`: [propext, Classical.choice, Quot.sound]
* `Aihw.Exper.C85_cache`: [propext, Classical.choice, Quot.sound]
* `Aihw.Exper.C85_current_refused`: [propext, Classical.choice, Quot.sound]
* `Aihw.QStates.C86_ranges`: [propext, Quot.sound]
* `Aihw.QStates.C86_act_ranges`: [propext, Quot.sound]
* `Aihw.QStates.C86_weight_ranges`: [propext, Quot.sound]
* `Aihw.QStates.C86_reset`: [propext, Classical.choice, Quot.sound]
* `Aihw.QStates.C86_last_word`: [propext, Classical.choice, Quot.sound]
* `Aihw.QStates.C86_switches`: [propext, Quot.sound]
* `Aihw.QStates.C86_outside`: [propext, Classical.choice, Quot.sound]
* `Aihw.RpuSimple.C87_accepts`: [propext, Classical.choice, Quot.sound]
* `Aihw.RpuSimple.C87_tile_forward`: [propext, Classical.choice, Quot.sound]
* `Aihw.RpuSimple.C87_tile_backward`: [propext, Classical.choice, Quot.sound]
* `Aihw.RpuSimple.C87_mixed_layouts`: [propext, Classical.choice, Quot.sound]
* `Aihw.RpuSimple.C87_empty`: [propext, Classical.choice, Quot.sound]
* `Aihw.RpuSimple.C87_tile_update`: [propext, Classical.choice, Quot.sound]
* `Aihw.RpuSimple.C87_no_rate`: [propext, Classical.choice, Quot.sound]
* `Aihw.RpuSimple.C87_keywords`: [propext, Classical.choice, Quot.sound]
* `Aihw.RpuSimple.C87_forward`: [propext, Classical.choice, Quot.sound]
* `Aihw.RpuSimple.C87_backward`: [propext, Classical.choice, Quot.sound]
* `Aihw.RpuSimple.C87_update`: [propext, Classical.choice, Quot.sound]
* `Aihw.RpuSimple.C87_gradient`: [propext, Classical.choice, Quot.sound]
* `Aihw.RpuSimple.C88_gradient`: [propext, Classical.choice, Quot.sound]
* `Aihw.RpuSimple.C88_exact`: [propext, Classical.choice, Quot.sound]
* `Aihw.RpuSimple.C88_garbage`: [propext, Classical.choice, Quot.sound]
* `Aihw.RpuSimple.C88_history`: [propext, Classical.choice, Quot.sound]
* `Aihw.RpuSimple.C88_samples`: [propext, Classical.choice, Quot.sound]
* `Aihw.Decay.C89_decay_once`: [propext, Quot.sound]
* `Aihw.Decay.C89_decay`: [propext, Classical.choice, Quot.sound]
* `Aihw.Decay.C89_rate`: [propext, Classical.choice, Quot.sound]
* `Aihw.Decay.C89_float`: [propext, Classical.choice, Quot.sound]
* `Aihw.Decay.C89_short_lifetime`: [propext, Classical.choice, Quot.sound]
* `Aihw.Decay.C89_diffuse_once`: [propext, Classical.choice, Quot.sound]
* `Aihw.Decay.C89_diffuse`: [propext, Classical.choice, Quot.sound]
* `Aihw.Decay.C89_float_diffuse`: [propext, Quot.sound]
* `Aihw.Decay.C89_reset_columns`: [propext, Classical.choice, Quot.sound]
* `Aihw.Decay.C89_reset_ideal`: [propext, Classical.choice, Quot.sound]
* `Aihw.Decay.C89_reset`: [propext, Classical.choice, Quot.sound]
* `Aihw.Decay.C89_reset_none`: [propext, Quot.sound]
* `Aihw.Decay.C89_reset_unchecked`: [propext, Classical.choice, Quot.sound]
* `Aihw.Decay.C89_vector`: [propext, Quot.sound]
* `Aihw.Decay.C89_transfer`: [propext, Quot.sound]
* `Aihw.Decay.C89_transfer_reset`: [propext, Quot.sound]
* `Aihw.Decay.C89_hidden`: [propext, Quot.sound]
* `Aihw.Decay.C89_post_update`: [propext, Classical.choice, Quot.sound]
* `Aihw.Decay.C89_batches`: [propext, Classical.choice, Quot.sound]
* `Aihw.Decay.C89_others`: [propext, Classical.choice, Quot.sound]
* `Aihw.Decay.C89_requires`: [propext, Classical.choice, Quot.sound]
* `Aihw.GpuDecay.C89_gpu_decay`: [propext, Classical.choice, Quot.sound]
* `Aihw.GpuDecay.C89_gpu_diffuse`: [propext, Classical.choice, Quot.sound]
* `Aihw.GpuDecay.C89_gpu_clip`: [propext, Classical.choice, Quot.sound]
* `Aihw.GpuDecay.C89_gpu_noise`: [propext, Classical.choice, Quot.sound]
* `Aihw.GpuDecay.C89_gpu_reset`: [propext, Classical.choice, Quot.sound]
* `Aihw.Shared.C90_memory`: [propext, Classical.choice, Quot.sound]
* `Aihw.Shared.C90_initial`: [propext, Classical.choice, Quot.sound]
* `Aihw.Shared.C90_one_matrix`: [propext, Classical.choice, Quot.sound]
* `Aihw.Shared.C90_another_tensor`: [propext, Classical.choice, Quot.sound]
* `Aihw.Shared.C90_lag`: [propext, Classical.choice, Quot.sound]
* `Aihw.Shared.C90_apart`: [propext, Classical.choice, Quot.sound]
* `Aihw.Shared.C90_copy`: [propext, Classical.choice, Quot.sound]
* `Aihw.Shared.Rows.C91_handover`: [propext, Classical.choice, Quot.sound]
* `Aihw.Shared.Rows.C91_rows`: [propext, Classical.choice, Quot.sound]
* `Aihw.Shared.Rows.C91_one_row_before`: [propext, Classical.choice, Quot.sound]
* `Aihw.BuildCfg.C92_settings`: [propext, Classical.choice, Quot.sound]
* `Aihw.BuildCfg.C92_kwargs`: [propext, Classical.choice, Quot.sound]
* `Aihw.BuildCfg.C92_unknown`: [propext, Classical.choice, Quot.sound]
* `Aihw.BuildCfg.C92_outcome`: [propext, Classical.choice, Quot.sound]
* `Aihw.BuildCfg.C92_new_objects`: [propext, Classical.choice, Quot.sound]
* `Aihw.BuildCfg.C92_two_configs`: [propext, Classical.choice, Quot.sound]
* `Aihw.BuildCfg.C92_distinct`: [propext, Classical.choice, Quot.sound]
* `Aihw.BuildCfg.C92_seed`: [propext, Classical.choice, Quot.sound]
* `Aihw.Settings.C93_isolated`: [propext, Quot.sound]
* `Aihw.Settings.C93_edit`: [propext, Quot.sound]
* `Aihw.Settings.C93_fresh`: [propext, Quot.sound]
* `Aihw.Settings.C93_torch_passes`: none
* `Aihw.Settings.C93_frozen`: [propext, Quot.sound]
* `Aihw.Settings.C93_made`: [propext, Quot.sound]
* `Aihw.Settings.C93_post_update`: [propext, Classical.choice, Quot.sound]
* `Aihw.Settings.C93_post_update_torch`: [propext]
* `Aihw.Settings.C93_load_shares`: [propext, Quot.sound]
* `Aihw.Settings.C93_transfer`: [propext, Quot.sound]
* `Aihw.Settings.C93_foreign`: [propext, Quot.sound]
* `Aihw.Settings.C93_readout`: [propext, Classical.choice, Quot.sound]
* `Aihw.Gpu.C94_counts`: [propext, Classical.choice, Quot.sound]
* `Aihw.Gpu.C94_pulses`: [propext, Classical.choice, Quot.sound]
* `Aihw.Gpu.C94_inside`: [propext, Classical.choice, Quot.sound]
* `Aihw.Gpu.C94_fewer_words`: [propext, Classical.choice, Quot.sound]
* `Aihw.Gpu.C94_words_agree`: [propext, Quot.sound]
* `Aihw.Gpu.C95_pulses`: [propext, Classical.choice, Quot.sound]
* `Aihw.Gpu.C95_formats`: [propext, Classical.choice, Quot.sound]
* `Aihw.Gpu.C95_inside`: [propext, Quot.sound]
* `Aihw.Gpu.C96_bounds`: [propext, Classical.choice, Quot.sound]
* `Aihw.Gpu.C96_noise_unused`: [propext, Classical.choice, Quot.sound]
* `Aihw.Gpu.C96_noise`: [propext, Classical.choice, Quot.sound]
* `Aihw.Gpu.C96_update32`: [propext, Classical.choice, Quot.sound]
* `Aihw.Gpu.C96_update64`: [propext, Classical.choice, Quot.sound]
* `Aihw.Client.C97_login`: [propext, Classical.choice, Quot.sound]
* `Aihw.Client.C97_login_refused`: [propext, Classical.choice, Quot.sound]
* `Aihw.Client.C97_requests`: [propext, Classical.choice, Quot.sound]
* `Aihw.Client.C97_handles`: [propext, Classical.choice, Quot.sound]
* `Aihw.Client.C97_create`: [propext, Classical.choice, Quot.sound]
* `Aihw.Client.C97_get`: [propext, Classical.choice, Quot.sound]
* `Aihw.Client.C97_list`: [propext, Classical.choice, Quot.sound]
* `Aihw.Client.C97_status`: [propext, Classical.choice, Quot.sound]
* `Aihw.Client.C97_failed_stays`: [propext, Classical.choice, Quot.sound]
* `Aihw.Client.C97_completed_stays`: [propext, Classical.choice, Quot.sound]
* `Aihw.Client.C97_result_early`: [propext, Classical.choice, Quot.sound]
* `Aihw.Client.C97_result`: [propext, Classical.choice, Quot.sound]
* `Aihw.Client.C97_definition_early`: [propext, Classical.choice, Quot.sound]
* `Aihw.Client.C97_definition`: [propext, Classical.choice, Quot.sound]
* `Aihw.Client.C97_created_definition`: [propext, Classical.choice, Quot.sound]
* `Aihw.Client.C97_credentials`: [propext, Classical.choice, Quot.sound]
* `Aihw.Client.C97_create_succeeds`: [propext, Classical.choice, Quot.sound]
* `Aihw.Client.C97_status_fresh`: [propext, Classical.choice, Quot.sound]
* `Aihw.GpuNm.C98_absmax`: [propext, Classical.choice, Quot.sound]
* `Aihw.GpuNm.C98_max`: [propext, Classical.choice, Quot.sound]
* `Aihw.GpuNm.C98_sums`: [propext, Classical.choice, Quot.sound]
* `Aihw.GpuNm.C98_fresh`: [propext, Quot.sound]
* `Aihw.GpuNm.C98_left_over`: [propext, Classical.choice, Quot.sound]
* `Aihw.GpuNm.C98_absmax_management`: [propext, Classical.choice, Quot.sound]
* `Aihw.GpuNm.C98_max_management`: [propext, Classical.choice, Quot.sound]
* `Aihw.GpuNm.C98_npsum_management`: [propext, Classical.choice, Quot.sound]
* `Aihw.GpuNm.C98_constant`: [propext, Classical.choice, Quot.sound]
* `Aihw.GpuNm.C98_constant_lost`: [propext, Classical.choice, Quot.sound]
* `Aihw.GpuNm.C98_average`: [propext, Classical.choice, Quot.sound]
* `Aihw.GpuNm.C98_average_small_batch`: [propext, Classical.choice, Quot.sound]
* `Aihw.GpuNm.C98_average_test`: [propext, Classical.choice, Quot.sound]
* `Aihw.GpuNm.C98_none`: [propext, Classical.choice, Quot.sound]
* `Aihw.GpuIo.C99_forward_as_cpu`: [propext, Classical.choice, Quot.sound]
* `Aihw.GpuIo.C99_backward_as_cpu`: [propext, Classical.choice, Quot.sound]
* `Aihw.GpuIo.C99_bound`: [propext, Classical.choice, Quot.sound]
* `Aihw.GpuIo.C99_lost_inputs`: [propext, Classical.choice, Quot.sound]
* `Aihw.GpuIo.C99_stride_loop`: [propext, Classical.choice, Quot.sound]
* `Aihw.GpuIo.C99_loop_is_map`: [propext, Classical.choice, Quot.sound]
* `Aihw.GpuIo.C99_product`: [propext, Classical.choice, Quot.sound]
* `Aihw.GpuIo.C99_pass`: [propext, Classical.choice, Quot.sound]
* `Aihw.GpuIo.C99_scale_batch`: [propext, Quot.sound]
* `Aihw.GpuIo.C99_scale_single`: [propext, Quot.sound]
* `Aihw.GpuIo.C99_scale_without_management`: [propext, Classical.choice, Quot.sound]
* `Aihw.GpuIo.C99_worst_repeats`: [propext, Classical.choice, Quot.sound]
