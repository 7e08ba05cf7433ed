# Axioms of every claimed theorem

Generated by walking the constants each theorem depends on, in the compiled environment (the same traversal as Lean's command that prints axioms; all theorems of MANIFEST.json).  The names are without the prefix `Zounds.`.

## none

28 theorems.

`Props.C06_open_end`, `Props.C07_rate_roundtrip_bound_sharp`, `Props.C07_nearest_tie`, `Props.C08_suggested_half`, `Buffer.C32_write_returns`, `Synth.C35_rate`, `Props.VariableRate.C45_empty`, `WindowFunc.C50_identity`, `Props.C06_and_start_fails`, `Props.HammingIndex.C16_crash_loses`, `Props.HammingIndex.C16_crash_duplicates`, `Props.HammingIndex.C16_add_all_then_listen_duplicates`, `Merge.C28_sum_always_fails`, `Merge.C83_sum`, `Learn.C39_errors_swapped_refuted`, `Learn.C91_reports`, `Datasets.C43_dataset_cache_refuted`, `WindowFunc.C50_channels_refuted`, `Ops.C188_exact`, `Ops.C188_collision_refuted`, `Ops.C199_load`, `Archives.C207_uri_refuted`, `Archives.C207_no_url`, `Archives.C209_phat_refuted`, `Blocks.C272_model_hash_refuted`, `Experiment.C282_early_refuted`, `Browser.C342_none`, `Browser.C344_refuted`

## propext

104 theorems.

`Rates.C06_compare_instant`, `Rates.C06_order_not_equality`, `Props.C06_contains_slice`, `Props.C06_contains_time`, `Props.C06_lt_iff`, `Props.C06_unit_sizes`, `Props.C09_default_step`, `Props.Growable.C10_growth_rate`, `Props.PopCount.C13_symm`, `Props.Persist.C18_chunking_invisible`, `Props.Persist.C18_oversized_metadata`, `Onset.C25_flux_refused`, `Merge.C28_unknown_source`, `Pipeline.C29_pipeline`, `Pipeline.C29_split`, `Http.C30_grammar`, `Http.C30_trailing_newline`, `Buffer.C32_length`, `Ogg.C33_aligned`, `Audio.C34_silence_count`, `Arr.C36_refused_metaslice`, `Arr.C36_new_refused`, `Arr.C36_reshape_drops`, `Datasets.C43_cached`, `BruteForce.C44_results_once_refuted`, `Tones.C61_tick_drift_refuted`, `Props.C03_final_count_depends_on_chunking_fails`, `Props.C03_step_larger_than_window_fails`, `Props.Growable.C10_oversized_position_fails`, `Props.HammingIndex.C16_restart_fails`, `Props.Persist.C18_packed_feature_unusable`, `Onset.C25_zero_length_slice`, `Onset.C25_flux_refused`, `Reservoir.C26_batches_not_uniform`, `Merge.C28_zero_width_rows_lost`, `Buffer.C32_seek_refuted`, `Learn.C38_mixing_refuted`, `Ingest.C41_serial_refuted`, `Datasets.C43_crash_refuted`, `Datasets.C43_error_page_refuted`, `Datasets.C43_cached`, `Web.C51_temp_refuted`, `BruteForce.C44_results_once_refuted`, `Tones.C61_tick_drift_refuted`, `MetaData.C147_given`, `MetaData.C147_local`, `MetaData.C147_file`, `MetaData.C147_other`, `MetaData.C152_eq`, `MetaData.C153_extra_refuted`, `MetaData.C152_eq`, `Repl.C172_stdout`, `Repl.C172_statement`, `Repl.C172_unparsed`, `Repl.C172_raised`, `Repl.C173_exact`, `Repl.C173_once_refuted`, `Repl.C172_statement`, `Repl.C172_unparsed`, `Repl.C172_statement`, `Repl.C176_no_model`, `Repl.C177_exact`, `Repl.C177_reuse_refuted`, `Ops.C185_closure_refuted`, `Ops.C186_base_refuted`, `Ops.C187_version`, `Ops.C187_version`, `Ops.C189_address_refuted`, `Ops.C190_nested_refuted`, `Ops.C192_compose`, `Ops.C195_memory_refuted`, `Ops.C195_value`, `Ops.C198_version_refuted`, `Archives.C201_refused`, `Archives.C202_attrs_refuted`, `Archives.C203_describes_refuted`, `Archives.C204_filter_refuted`, `Archives.C205_unknown_refuted`, `Archives.C206_unreadable`, `Archives.C208_musicnet_refuted`, `Training.C221_new_optimizer_refuted`, `Training.C222_before`, `Training.C222_empty`, `Training.C224_opponents`, `Training.C224_samples`, `Training.C226_flags_refuted`, `Rates.C234_onsets_refuted`, `Monitor.C240_early_refuted`, `Arr.C249_function`, `Blocks.C273_gradients_refuted`, `Forward.C277_init`, `Search.C291_empty_refuted`, `Threads.C293_exact`, `Threads.C293_own`, `Threads.C293_append_refuted`, `Threads.C293_search_refuted`, `Threads.C294_refuted`, `MergeUnits.C299_unknown`, `Arr.C313_no_axis`, `Web.C317_endpoints`, `Web.C317_post`, `Browser.C347_back_refuted`, `Browser.C347_hurry_refuted`, `Memory.C378_outside`

## propext, Quot.sound

285 theorems.

`Props.C01_default_step`, `Props.C01_bad_sizes`, `Props.C03_window_function`, `Props.C06_eq_iff`, `Props.C06_eq_hash`, `Props.C06_eq_equivalence`, `Props.C06_add_shifts`, `Props.C07_lookup`, `Props.C07_nearest`, `Props.Growable.C10_growable_is_list`, `Props.Growable.C10_prefix_preserved`, `Props.Growable.C10_growth_amount`, `Props.PopCount.C13_packed_distance`, `Props.PopCount.C13_triangle`, `Props.PopCount.C13_bound`, `Props.Codes.C14_decode_encode_bool`, `Props.Codes.C14_uint8_same`, `Props.Codes.C14_encode_decode`, `Props.Codes.C14_uint64_roundtrip`, `Props.Codes.C14_other_dtype`, `Props.Codes.C14_uint8_nonzero_is_one`, `Props.Codes.C14_injective`, `Props.HammingDb.C15_append_wrong_size`, `Props.HammingDb.C15_search_wrong_size`, `Props.HammingDb.C15_search_writeonly`, `Props.HammingDb.C15_long_text_refused`, `Props.HammingDb.C15_search_text`, `Props.HammingIndex.C16_first_run`, `Props.HammingIndex.C16_crash_prefix`, `Props.HammingIndex.C16_add_all`, `Props.Persist.C18_roundtrip`, `Props.Frequency.C20_hertz_slice`, `Props.Frequency.C21_built`, `Props.Frequency.C21_explicit_slice`, `Props.Frequency.C21_get_int`, `Props.Frequency.C21_chroma`, `Props.Frequency.C22_new`, `Props.Frequency.C22_intersect`, `Props.Frequency.C22_intersect_error`, `Props.Frequency.C22_intersect_comm`, `Props.Frequency.C22_intersect_self`, `Props.Frequency.C23_length_mismatch`, `Props.Frequency.C23_scale_eq`, `Props.Frequency.C23_validate`, `Props.Frequency.C23_explicit_validate`, `Props.FreqAdaptive.C24_contiguous`, `Props.FreqAdaptive.C24_ragged`, `Onset.C25_slices`, `Reservoir.C26_single_rows_algorithm_R`, `Reservoir.C26_new`, `Reservoir.C26_bad_index`, `Reservoir.C27_len_le_capacity`, `Reservoir.C27_get_batch_errors`, `Reservoir.C27_get_batch`, `Reservoir.C27_aligned`, `Reservoir.C27_wrong_keys_refused`, `Reservoir.C27_contributions`, `Merge.C28_needs_two`, `Merge.C28_pooled`, `Merge.C28_new`, `Merge.C28_pooled_no_series`, `Buffer.C32_read_length`, `Buffer.C32_readinto`, `Buffer.C32_chunk_size_bytes`, `Buffer.C32_seek_from_end`, `Buffer.C32_seek_relative`, `Ogg.C33_seams`, `Ogg.C33_no_duplicates`, `Audio.C34_new`, `Audio.C34_from_file`, `Audio.C34_mono_noop`, `Audio.C34_mono_idem`, `Audio.C34_stereo_value`, `Audio.C34_stereo_noop`, `Audio.C34_add_rates`, `Audio.C34_add_value`, `Audio.C34_add_lengths`, `Audio.C34_add_channels`, `Synth.C35_synthesis_window`, `Arr.C36_plain_slice`, `Arr.C36_lib_lawful`, `Arr.C36_lib_calm`, `Arr.C36_lib_install`, `Arr.C36_squeeze_empty`, `Arr.C36_concat_refused`, `Arr.C36_number`, `Nd.C37_default_step`, `Learn.C38_chunking`, `Learn.C38_bad_chunksize`, `Learn.C39_once_per_batch`, `Learn.C39_unregister`, `Datasets.C41_composite`, `Ingest.C41_in_flight`, `Ingest.C41_bad_cores`, `Datasets.C43_first_call`, `Datasets.C43_stable`, `Datasets.C43_prefix`, `Datasets.C43_file_name`, `Datasets.C43_dataset_cache`, `BruteForce.C44_alignment`, `BruteForce.C44_refused`, `BruteForce.C44_entry`, `BruteForce.C44_hamming_distance`, `Props.C44_iter_slices`, `Props.VariableRate.C45_sorted`, `Props.VariableRate.C45_getitem`, `Props.VariableRate.C45_getitem_open`, `Props.VariableRate.C45_concat`, `Props.VariableRate.C45_encode_decode`, `Web.C47_anonymous`, `Web.C47_transparent`, `Web.C47_no_secret`, `Web.C47_login_iff`, `Web.C47_sessions`, `Web.C47_library_routes`, `Web.C47_can_log_in`, `WindowFunc.C50_weights`, `Web.C51_lower_case`, `Web.C52_recent`, `Web.C52_bounded`, `Web.C102_exact`, `Tones.C61_tick_step`, `Tones.C61_ticks_errors`, `Tones.C61_noise`, `Tones.C61_silence_longer_refuted`, `ScaleApply.C64_local`, `ScaleApply.C64_ones`, `ScaleApply.C64_windowed_scale`, `ScaleApply.C64_chroma_octave`, `Props.C02_all_samples_used_fails`, `Props.Growable.C10_growable_is_list`, `Props.Growable.C69_exact`, `Props.HammingDb.C11_commit_failure_fails`, `Props.HammingDb.C15_stored_codes_fails`, `Props.HammingDb.C15_zero_size_fails`, `Props.HammingDb.C72_exact`, `Props.HammingIndex.C16_initialised_after_first`, `Props.HammingIndex.C16_crash_partial`, `Props.HammingIndex.C16_first_run`, `Props.HammingIndex.C16_crash_prefix`, `Props.HammingIndex.C16_add_all`, `Props.Persist.C18_packed_partial`, `Props.Frequency.C20_perceptual_slice_fails`, `Props.Frequency.C20_mixed_perceptual_fails`, `Props.Frequency.C21_linear_small_fails`, `Props.Frequency.C23_scale_eq`, `Onset.C80_flux`, `Reservoir.C26_late_rows_ignored`, `Reservoir.C27_refused_add_misaligns`, `Reservoir.C27_interleaved_adds_misalign`, `Reservoir.C27_negative_index_counted_twice`, `Reservoir.C27_aligned`, `Reservoir.C82_refused`, `Buffer.C32_stale_tell_refuted`, `Buffer.C87_tell`, `Ogg.C33_drift_refuted`, `Audio.C34_stereo_column_refuted`, `Audio.C34_sub_rates_refuted`, `Learn.C38_empty_refuted`, `Learn.C39_bound_method_refuted`, `Ingest.C41_duplicates_refuted`, `Datasets.C42_no_results_refuted`, `Datasets.C43_failure_refuted`, `Datasets.C43_name_refuted`, `Datasets.C43_slash_refuted`, `Datasets.C43_complete_partial`, `Datasets.C94_exact`, `Datasets.C94_crash_safe`, `Props.VariableRate.C45_span_covers_fails`, `Props.VariableRate.C95_exact`, `Web.C47_empty_secret_refuted`, `Web.C47_login_substring_refuted`, `Web.C47_patch_refuted`, `Web.C47_anonymous`, `Web.C97_exact`, `WindowFunc.C50_weights`, `Web.C52_exact_refuted`, `Web.C52_bounded`, `Web.C52_recent`, `Web.C102_exact`, `Arr.C36_squeeze_empty`, `Arr.C111_none`, `Tones.C61_silence_longer_refuted`, `Tones.C61_tick_step`, `Resample.C116_refused`, `Resample.C117_same_rate`, `Resample.C124_later_rate_refuted`, `Resample.C117_same_rate`, `Conv.C130_multiresolution`, `Conv.C131_parity_refuted`, `MetaData.C148_request`, `MetaData.C149_exact`, `MetaData.C149_range_refuted`, `MetaData.C148_request`, `MetaData.C151_file_refuted`, `MetaData.C152_new`, `Repl.C171_not_found`, `Repl.C175_status`, `Repl.C176_parser`, `Repl.C176_module`, `Repl.C176_parser`, `Ops.C184_call`, `Ops.C184_surplus`, `Ops.C184_precedence`, `Ops.C185_defaults_refuted`, `Ops.C185_module_refuted`, `Ops.C184_call`, `Ops.C191_pipeline`, `Ops.C192_int`, `Ops.C192_list`, `Ops.C193_numpy_refuted`, `Ops.C194_training`, `Ops.C196_chunk_refuted`, `Ops.C197_roundtrip`, `Ops.C197_errors`, `Archives.C206_nsynth`, `Archives.C210_directory`, `Archives.C211_freesound`, `SoundNodes.C217_unsupported`, `Training.C220_gan`, `Training.C221_exact`, `Training.C221_stateless`, `Training.C222_samples_refuted`, `Training.C224_no_batch`, `Training.C228_draws`, `Training.C229_default_refuted`, `Monitor.C235_messages`, `Monitor.C235_open`, `Monitor.C235_message`, `Monitor.C235_succeeds`, `Monitor.C236_which`, `Monitor.C236_cases`, `Monitor.C237_every_tenth_refuted`, `Monitor.C236_which`, `Monitor.C236_cases`, `Monitor.C239_leaves`, `Monitor.C239_accepting`, `Monitor.C239_leaves`, `Arr.C241_lib_noLists`, `Arr.C242_window`, `AudioIndex.C243_axes_refused`, `Arr.C249_units`, `Arr.C254_repeated`, `Arr.C255_transpose_refuted`, `Arr.C255_flatten`, `Fit.C261_cast`, `Blocks.C267_mirror`, `Blocks.C273_debug_refuted`, `Blocks.C273_plain`, `Forward.C276_network`, `Forward.C276_discriminator`, `Forward.C276_autoencoder`, `Forward.C276_autoencoder_empty`, `Forward.C277_generator_refuted`, `Forward.C277_generator`, `Forward.C277_demo_refuted`, `Forward.C277_prepared_refuted`, `Experiment.C281_trains`, `Experiment.C281_default_refuted`, `Experiment.C281_exact`, `Experiment.C282_fake`, `Experiment.C282_single_refuted`, `Experiment.C282_none_refuted`, `ComplexDomain.C302_where`, `Arr.C313_flat_refuted`, `AudioOps.C318_mono`, `AudioOps.C318_dot_refuted`, `AudioOps.C318_transpose_refuted`, `Page.C327_other_host_refuted`, `Hertz.C331_band_equality`, `Cut.C340_positions`, `Cut.C340_slices`, `Browser.C342_current`, `Browser.C342_images`, `Browser.C342_patient`, `Browser.C342_refuted`, `Browser.C343_refuted`, `Browser.C344_methods`, `Browser.C346_once_refuted`, `Shuffled.C372_none`, `Sampler.C375_ready`, `Sampler.C375_first`, `Sampler.C375_any`, `Memory.C379_refuted`, `Bins.C382_rates`

## propext, Classical.choice, Quot.sound

1175 theorems.

`Props.C01_windowed_exact`, `Props.C01_leftover_continues`, `Props.C01_window_of_one`, `Props.C02_padded_windows`, `Props.C02_all_samples_used_iff`, `Props.C03_streaming_windows`, `Props.C03_chunking_independent`, `Props.C03_final_windows`, `Props.C03_final_complete`, `Props.C03_with_leftovers`, `Props.C03_padwith`, `Props.C04_timeslice_exact`, `Props.C04_only_overlapping`, `Props.C04_all_overlapping`, `Props.C04_open_ended`, `Props.C04_tiles`, `Props.C05_python_slice`, `Rates.C06_comparisons`, `Props.C06_and_duration`, `Props.C06_and_comm`, `Props.C06_slices_tile`, `Props.C07_rate_roundtrip`, `Props.C07_rate_refused`, `Props.C07_nyquist`, `Props.C08_scheme_roundtrip`, `Props.C08_default_hop`, `Props.C08_mul_roundtrip`, `Props.C08_mul_compose`, `Props.C08_invalid`, `Props.C08_half_lapped`, `Props.C09_constructed`, `Props.C09_window_extent`, `Props.C09_window_end`, `Props.C09_compose`, `Props.HammingDb.C11_store_is_log`, `Props.HammingDb.C11_instances_agree`, `Props.HammingDb.C11_store_put_overwrites`, `Props.HammingDb.C12_nearest`, `Props.HammingDb.C12_multithreaded_same`, `Props.PopCount.C13_count_bits`, `Props.PopCount.C13_count_bits_array`, `Props.PopCount.C13_hamming_distance`, `Props.PopCount.C13_zero_iff_eq`, `Props.HammingDb.C15_size_fixed`, `Props.HammingDb.C15_open_outcome`, `Props.HammingDb.C15_stored_codes`, `Props.Persist.C17_timedelta_roundtrip`, `Props.Persist.C17_encoded_length`, `Props.Persist.C17_timeslice_roundtrip`, `Props.Persist.C18_feature_usable`, `Props.DimCodec.C19_roundtrip`, `Props.DimCodec.C19_list_roundtrip`, `Props.DimCodec.C19_eq_self`, `Props.DimCodec.C19_unknown_refused`, `Props.Frequency.C20_selects_exactly`, `Props.Frequency.C21_linear_tiles`, `Props.Frequency.C21_linear_ordered`, `Props.Frequency.C21_slice_int`, `Props.Frequency.C21_slice_band`, `Props.Frequency.C22_intersect_disjoint`, `Props.Frequency.C22_center`, `Props.Frequency.C22_from_center`, `Props.Frequency.C22_from_start`, `Props.Frequency.C22_from_center_self`, `Props.Frequency.C22_intersection_ratio`, `Props.Frequency.C22_ensure_overlap`, `Props.Frequency.C23_explicit_eq`, `Props.Frequency.C23_dimension_eq`, `Props.Frequency.C23_lookup`, `Props.Frequency.C23_range`, `Props.FreqAdaptive.C24_get_band`, `Props.FreqAdaptive.C24_roundtrip`, `Onset.C25_chunk_independent`, `Onset.C25_moving_average_chunk_independent`, `Onset.C25_starts`, `Onset.C25_tiles`, `Onset.C25_positive_durations`, `Onset.C25_mot`, `Onset.C25_mot_gain_invariant`, `Onset.C25_moving_average_rule`, `Onset.C25_mot_value`, `Reservoir.C26_samples`, `Reservoir.C26_fill_exact`, `Reservoir.C26_uniform_row_by_row`, `Reservoir.C27_add`, `Reservoir.C27_get`, `Merge.C28_merge`, `Merge.C28_order_independent`, `Merge.C28_leftover`, `Merge.C28_max`, `Pipeline.C29_assembled_in_order`, `Pipeline.C29_unit_norm`, `Pipeline.C29_instance_scaling`, `Pipeline.C29_mean_std`, `Pipeline.C29_multiply`, `Pipeline.C29_weighted`, `Pipeline.C29_mu_law`, `Pipeline.C29_log`, `Pipeline.C29_reshape`, `Pipeline.C29_slicer`, `Pipeline.C29_shapes`, `Pipeline.C29_step`, `Pipeline.C29_library_pipeline`, `Pipeline.C29_not_invertible`, `Pipeline.C29_unit_norm_norm`, `Pipeline.C29_instance_scaling_range`, `Http.C30_whole_file`, `Http.C30_open`, `Http.C30_served_is_contiguous`, `Http.C30_unit`, `Http.C30_seconds`, `Http.C30_seconds_content_range`, `Http.C30_seconds_trunc`, `TimeRequest.C30_seconds_bytes`, `Midi.C31_name`, `Midi.C31_number`, `Midi.C31_roundtrip`, `Midi.C31_injective`, `Midi.C31_name_roundtrip`, `Midi.C31_accepts_iff`, `Midi.C31_octave_text`, `Buffer.C32_fifo`, `Buffer.C32_prefix`, `Buffer.C32_bounded`, `Buffer.C32_contiguous`, `Buffer.C32_audio_stream`, `Buffer.C32_chunk_size`, `Buffer.C32_byte_depth`, `Ogg.C33_slice`, `Ogg.C33_iter_chunks_exact`, `Audio.C34_mono_value`, `Audio.C34_mono_average`, `Audio.C34_silence`, `Audio.C34_pad`, `Audio.C34_ogg_pieces`, `Synth.C35_general`, `Synth.C35_overlap_add`, `Synth.C35_concatenates`, `Synth.C35_reconstructs`, `Synth.C35_analysis_synthesis`, `Synth.C35_first_hop`, `Synth.C35_no_frames`, `Synth.C35_rate_nearest`, `Arr.C36_slice_in_bounds`, `Arr.C36_getitem`, `Arr.C36_slice_positions`, `Arr.C36_zero_bound`, `Arr.C36_new`, `Arr.C36_transpose`, `Arr.C36_reduce`, `Arr.C36_reduce_everything`, `Arr.C36_reduce_refused`, `Arr.C36_squeeze`, `Arr.C36_reshape_adds`, `Arr.C36_reshape_other`, `Arr.C36_concat`, `Arr.C36_concat_ok`, `Arr.C36_concatenate`, `Arr.C36_dot`, `Arr.C36_windows`, `Arr.C36_windows_with_leftovers`, `Arr.C36_windows_with_leftovers_identity`, `Arr.C36_none_then_time`, `Arr.C36_none_then_time_wrong`, `Arr.C36_ellipsis_time_none_wrong`, `Arr.C36_numpy_integer_refused`, `Arr.C36_integer_array_refused`, `Arr.C36_integer_and_list_swap`, `Arr.C36_two_lists_refused`, `Arr.C36_step_keeps_frequency`, `Arr.C36_dot_wrong_columns`, `Arr.C36_windows_second_axis_swap`, `Arr.C36_windows_two_time_axes`, `Arr.C36_reshape_same_shape`, `Arr.C36_ellipsis_time_none_mono`, `Arr.C36_too_many`, `Nd.C37_order`, `Nd.C37_in_bounds`, `Nd.C37_counts`, `Nd.C37_view`, `Nd.C37_windows`, `Nd.C37_memory_safe`, `Nd.C37_refused`, `Nd.C37_one_axis`, `Learn.C38_pieces`, `Learn.C39_train`, `Learn.C39_many`, `Learn.C39_batches`, `Learn.C39_exact_epochs`, `Learn.C39_triplet`, `Learn.C39_register`, `Learn.C39_not_called`, `Learn.C39_holdout`, `Pipeline.C40_bits`, `Pipeline.C40_scale_invariant`, `Pipeline.C40_negation`, `Pipeline.C40_equal_iff`, `Pipeline.C40_degenerate`, `Pipeline.C40_mismatch`, `Pipeline.C40_dot`, `Ingest.C41_exactly_once`, `Ingest.C41_duplicates`, `Ingest.C41_database`, `Ingest.C41_single_worker`, `Ingest.C41_steps_bounded`, `Ingest.C41_terminates`, `Ingest.C41_returns`, `Datasets.C42_yields`, `Datasets.C42_limit`, `Datasets.C42_negative`, `BruteForce.C44_search`, `BruteForce.C44_search_negative`, `Props.VariableRate.C45_stable`, `Props.VariableRate.C45_overlap_meaning`, `Props.Loudness.C46_log_modulus_left_inverse`, `Props.Loudness.C46_log_modulus_right_inverse`, `Props.Loudness.C46_log_modulus_strict_mono`, `Props.Loudness.C46_inverse_log_modulus_strict_mono`, `Props.Loudness.C46_log_modulus_odd`, `Props.Loudness.C46_mu_law_left_inverse`, `Props.Loudness.C46_mu_law_right_inverse`, `Props.Loudness.C46_mu_law_strict_mono`, `Props.Loudness.C46_mu_law_odd`, `Props.Loudness.C46_inverse_log_modulus_odd`, `Props.Loudness.C46_inverse_mu_law_odd`, `Props.Loudness.C46_inverse_mu_law_strict_mono`, `Props.Loudness.C46_mu_law_one`, `Props.Loudness.C46_mu_law_range`, `Props.Loudness.C46_decibel_strict_mono`, `Props.Loudness.C46_decibel_mul`, `Props.Loudness.C46_decibel_ten`, `Props.Loudness.C46_instance_scale`, `Props.Loudness.C46_instance_scale_peak`, `Props.Loudness.C46_unit_scale`, `Props.Loudness.C46_inverse_one_hot`, `Props.Loudness.C46_inverse_one_hot_empty`, `Props.Loudness.C46_instance_scale_empty`, `Props.Psycho.C48_bark_left_inverse`, `Props.Psycho.C48_bark_right_inverse`, `Props.Psycho.C48_bark_strict_mono`, `Props.Psycho.C48_to_bark_strict_mono`, `Props.Psycho.C48_mel_left_inverse`, `Props.Psycho.C48_mel_right_inverse`, `Props.Psycho.C48_mel_strict_mono`, `Props.Psycho.C48_to_mel_strict_mono`, `Props.Psycho.C48_zero`, `Props.Psycho.C48_semitones_left_inverse`, `Props.Psycho.C48_semitones_right_inverse`, `Props.Psycho.C48_octave`, `Props.Psycho.C48_bark_scale`, `Props.Psycho.C48_mel_scale`, `Props.Psycho.C48_geometric_scale`, `Props.Loudness.C49_one_hot`, `Props.Loudness.C49_total`, `Props.Loudness.C49_normalized`, `Props.Loudness.C49_empty`, `Props.Loudness.C49_no_such_category`, `WindowFunc.C50_hanning_range`, `WindowFunc.C50_ogg_range`, `WindowFunc.C50_ogg_symmetric`, `WindowFunc.C50_ogg_power`, `WindowFunc.C50_ogg_gain_bound`, `WindowFunc.C50_ogg_roundtrip`, `Web.C51_unquote_quote`, `Web.C51_roundtrip`, `Web.C51_injective`, `Web.C51_dispatch`, `Spectral.C53_mdct`, `Spectral.C53_imdct`, `Spectral.C53_alias`, `Spectral.C53_odd`, `Spectral.C53_tdac`, `Spectral.C53_roundtrip`, `Spectral.C54_fft_inverse`, `Spectral.C54_fft_padded`, `Spectral.C54_fft_roundtrip`, `Spectral.C54_dct_inverse`, `Spectral.C54_idct_inverse`, `Spectral.C54_dct_roundtrip`, `Spectral.C54_irfft_inverse`, `Spectral.C54_irfft_short`, `Spectral.C55_computes`, `Spectral.C55_single`, `Spectral.C56_inverse`, `Spectral.C56_resample_same`, `Spectral.C56_resample_length`, `Spectral.C56_window_cached`, `Spectral.C56_short_time`, `Spectral.C56_decompose`, `Spectral.C57_delay`, `Spectral.C58_stretch_length`, `Spectral.C58_unit_factor`, `Spectral.C58_pitch_length`, `Spectral.C58_vocoder`, `Spectral.C58_pitch_content`, `Decompose.C59_bands`, `Decompose.C59_refused`, `Decompose.C59_synthesis`, `Decompose.C59_reconstruct`, `Decompose.C59_disjoint`, `Decompose.C59_reconstruct_refuted`, `FaTransform.C60_dct`, `FaTransform.C60_dct_exact`, `FaTransform.C60_fft`, `FaTransform.C60_fft_exact`, `FaTransform.C60_check`, `FaTransform.C60_narrow`, `FaTransform.C60_adjoining_refuted`, `FaTransform.C60_even_mismatch_refuted`, `FaTransform.C60_fft_ends_refuted`, `Tones.C61_sine_count`, `Tones.C61_sine_count_seconds`, `Tones.C61_sine_samples`, `Tones.C61_sine_bounded`, `Tones.C61_sine_prefix`, `Tones.C61_sine_alias`, `Tones.C61_sine_perm`, `Tones.C61_sine_mix`, `Tones.C61_sine_errors`, `Tones.C61_ticks`, `Tones.C61_ticks_apart`, `Tones.C61_ticks_periodic`, `Tones.C61_ticks_bounded`, `Tones.C61_tick_step_zero`, `Tones.C61_ticks_loud_refuted`, `Tones.C61_sample_count`, `Tones.C61_whole_seconds`, `Tones.C61_sine_one_more`, `Tones.C61_silence`, `Descriptors.C62_flatness_silence`, `Descriptors.C62_flatness_ratio`, `Descriptors.C62_flatness_range`, `Descriptors.C62_flatness_one`, `Descriptors.C62_flatness_zero`, `Descriptors.C62_flatness_scale`, `Descriptors.C62_flatness_perm`, `Descriptors.C62_centroid_value`, `Descriptors.C62_centroid_brighter`, `Descriptors.C62_bfcc_length`, `Descriptors.C62_bfcc_value`, `Descriptors.C62_bfcc_volume`, `Descriptors.C62_bfcc_flat`, `Weighting.C63_a_weights`, `Weighting.C63_a_weights_min`, `Weighting.C63_a_differences`, `Weighting.C63_a_1000`, `Weighting.C63_a_lt_two`, `Weighting.C63_multiply`, `Weighting.C63_inverse`, `Weighting.C63_no_frequency_dimension`, `Weighting.C63_explicit`, `Weighting.C63_adaptive`, `Weighting.C63_weights_of_array`, `Weighting.C63_plain`, `Weighting.C63_no_bands`, `ScaleApply.C64_apply`, `ScaleApply.C64_bark_nonneg`, `ScaleApply.C64_windowed_add`, `ScaleApply.C64_chroma`, `ScaleApply.C64_chroma_tones`, `Props.C02_all_samples_used_iff`, `Props.C03_final_windows`, `Props.C03_chunking_independent`, `Props.C66_exact`, `Props.C05_negative_bounds_fails`, `Props.C05_python_slice`, `Props.C67_exact`, `Props.C06_and_duration`, `Props.C68_exact`, `Props.HammingDb.C11_instances_agree`, `Props.HammingDb.C70_exact`, `Props.HammingDb.C70_store`, `Props.HammingDb.C12_all_results_fails`, `Props.HammingDb.C12_nearest`, `Props.HammingDb.C71_exact`, `Props.HammingDb.C15_stored_codes`, `Props.HammingDb.C15_open_outcome`, `Props.Persist.C17_negative_fails`, `Props.Persist.C17_open_slice_fails`, `Props.Persist.C17_timedelta_roundtrip`, `Props.Persist.C17_timeslice_roundtrip`, `Props.Persist.C74_exact`, `Props.Persist.C74_slice_exact`, `Props.Persist.C18_feature_usable`, `Props.DimCodec.C19_scale_subclass_fails`, `Props.DimCodec.C19_geometric_subclass_fails`, `Props.DimCodec.C19_tuple_slices_fails`, `Props.DimCodec.C19_roundtrip`, `Props.DimCodec.C76_exact`, `Props.DimCodec.C76_subclass`, `Props.Frequency.C20_even_fails`, `Props.Frequency.C20_never_even`, `Props.Frequency.C20_even_partial`, `Props.Frequency.C77_exact`, `Props.Frequency.C21_slice_one_band_fails`, `Props.Frequency.C21_slice_empty_fails`, `Props.Frequency.C21_slice_forgets_even`, `Props.Frequency.C21_slice_int`, `Props.Frequency.C21_slice_band`, `Props.Frequency.C78_exact`, `Props.Frequency.C23_explicit_eq_fails`, `Props.Frequency.C23_not_symmetric`, `Props.Frequency.C23_ignores_even`, `Props.Frequency.C23_tuple_vs_list`, `Props.Frequency.C23_duplicate_band_fails`, `Props.Frequency.C23_explicit_eq`, `Props.Frequency.C23_dimension_eq`, `Props.Frequency.C23_lookup`, `Props.Frequency.C79_exact`, `Props.Frequency.C79_lookup`, `Onset.C25_isolated_peak_missed`, `Onset.C25_positive_durations`, `Onset.C25_moving_average_rule`, `Onset.C80_exact`, `Onset.C80_peak`, `Reservoir.C26_uniform_row_by_row`, `Reservoir.C81_exact`, `Reservoir.C82_order`, `Merge.C28_merge`, `Merge.C83_exact`, `Pipeline.C29_constant_feature_lost`, `Pipeline.C29_silence_is_uninitialised`, `Pipeline.C29_unit_norm_one_dimensional`, `Pipeline.C29_unit_norm_square`, `Pipeline.C29_mean_std`, `Pipeline.C29_unit_norm`, `Pipeline.C29_instance_scaling`, `Pipeline.C84_exact`, `Http.C30_inclusive_refuted`, `Http.C30_first_byte_refuted`, `Http.C30_suffix_refuted`, `Http.C30_multi_range_refuted`, `Http.C30_unsatisfiable_refuted`, `Http.C30_reversed_refuted`, `Http.C30_seconds_zero_refuted`, `Http.C30_closed_partial`, `Http.C85_exact`, `Midi.C31_spellings_refuted`, `Midi.C31_float_refuted`, `Midi.C31_accepts_iff`, `Midi.C31_octave_text`, `Buffer.C32_seek_partial`, `Buffer.C87_exact`, `Ogg.C33_iter_chunks_partial`, `Ogg.C88_exact`, `Ogg.C88_cd_rate`, `Ogg.C33_iter_chunks_exact`, `Audio.C34_mono_stereo_refuted`, `Audio.C34_stereo_mono_refuted`, `Audio.C34_silence_one_refuted`, `Audio.C34_silence_like_refuted`, `Audio.C34_pad_refuted`, `Audio.C34_duration_refuted`, `Audio.C34_duration_short_refuted`, `Audio.C34_silence`, `Audio.C34_pad`, `Audio.C34_mono_average`, `Audio.C89_mono`, `Audio.C89_silence`, `Learn.C38_pieces`, `Learn.C90_exact`, `Learn.C39_one_more_refuted`, `Learn.C39_one_call_refuted`, `Learn.C39_triplet_small_refuted`, `Learn.C39_exact_epochs`, `Learn.C39_many`, `Learn.C91_one_call`, `Learn.C91_calls`, `Ingest.C41_no_request_refuted`, `Ingest.C41_exactly_once`, `Ingest.C41_duplicates`, `Ingest.C92_exact`, `Datasets.C42_one_more_refuted`, `Datasets.C42_repeats_refuted`, `Datasets.C42_first_partial`, `Datasets.C42_yields`, `Datasets.C42_limit`, `Datasets.C42_negative`, `Props.VariableRate.C45_span_partial`, `Props.Loudness.C46_unit_scale_constant_fails`, `Props.Loudness.C46_unit_scale`, `Props.Loudness.C96_exact`, `Props.Psycho.C48_bands_inside_fails`, `Props.Psycho.C48_full_slice_fails`, `Props.Psycho.C48_bark_scale`, `Props.Psycho.C48_mel_scale`, `Props.Psycho.C98_exact`, `Props.Loudness.C49_round_trip_fails`, `Props.Loudness.C49_round_trip_partial`, `Props.Loudness.C49_normalized_silence`, `Props.Loudness.C99_exact`, `Props.Loudness.C99_not_back`, `Props.Loudness.C49_normalized`, `WindowFunc.C50_integer_refuted`, `WindowFunc.C50_hanning_stereo_refuted`, `WindowFunc.C50_ogg_stereo_refuted`, `WindowFunc.C50_hanning_shift_refuted`, `WindowFunc.C50_princen_bradley_refuted`, `WindowFunc.C50_ogg_roundtrip`, `WindowFunc.C50_ogg_power`, `Web.C51_base_path_refuted`, `Web.C51_dispatch`, `Web.C101_base_path`, `Spectral.C54_fft_odd_refuted`, `Spectral.C54_fft_padded_synthesis_refuted`, `Spectral.C54_fft_roundtrip`, `Spectral.C54_fft_padded`, `Spectral.C103_exact`, `Spectral.C55_involution_refuted`, `Spectral.C55_computes`, `Spectral.C55_single`, `Spectral.C104_exact`, `Spectral.C56_inverse_refuted`, `Spectral.C56_window_refuted`, `Spectral.C56_short_time_refuted`, `Spectral.C56_inverse`, `Spectral.C56_short_time`, `Spectral.C105_inverse`, `Spectral.C105_window`, `Spectral.C105_layout`, `Spectral.C57_half_window_refuted`, `Spectral.C57_delay`, `Spectral.C106_exact`, `Spectral.C58_unit_factor_refuted`, `Spectral.C58_pitch_length_refuted`, `Spectral.C58_semitones_fract`, `Spectral.C58_unit_factor`, `Spectral.C58_pitch_length`, `Spectral.C107_stretch`, `Spectral.C107_pitch`, `Descriptors.C62_centroid_volume_refuted`, `Descriptors.C62_centroid_order_refuted`, `Descriptors.C62_bfcc_volume_refuted`, `Descriptors.C62_centroid_partial`, `Descriptors.C62_bfcc_volume`, `Descriptors.C108_centroid`, `Descriptors.C108_bfcc`, `Weighting.C63_explicit_band_refuted`, `Weighting.C63_slice_refuted`, `Weighting.C63_plain_weights_refuted`, `Weighting.C63_weights_of_array`, `Weighting.C63_multiply`, `Weighting.C109_band`, `Weighting.C109_first`, `Weighting.C109_part`, `Weighting.C109_plain`, `ScaleApply.C64_chroma_tone_refuted`, `ScaleApply.C64_chroma`, `ScaleApply.C64_chroma_tones`, `Arr.C36_none_then_time`, `Arr.C36_none_then_time_wrong`, `Arr.C36_ellipsis_time_none_wrong`, `Arr.C36_numpy_integer_refused`, `Arr.C36_integer_array_refused`, `Arr.C36_integer_and_list_swap`, `Arr.C36_two_lists_refused`, `Arr.C36_step_keeps_frequency`, `Arr.C36_dot_wrong_columns`, `Arr.C36_windows_second_axis_swap`, `Arr.C36_windows_two_time_axes`, `Arr.C36_reshape_same_shape`, `Arr.C36_getitem`, `Arr.C111_refused`, `Arr.C111_dot`, `Arr.C111_reshape`, `Arr.C111_windows`, `AudioIndex.C243_step_refuted`, `BruteForce.C44_search`, `Decompose.C59_reconstruct_refuted`, `Decompose.C59_reconstruct`, `Decompose.C113_exact`, `FaTransform.C60_adjoining_refuted`, `FaTransform.C60_even_mismatch_refuted`, `FaTransform.C60_fft_ends_refuted`, `FaTransform.C60_dct`, `FaTransform.C60_fft`, `FaTransform.C114_dct`, `FaTransform.C114_fft`, `Tones.C61_ticks_loud_refuted`, `Tones.C61_ticks`, `Tones.C61_silence`, `Tones.C115_time`, `Tones.C115_range`, `Tones.C115_silence`, `Resample.C116_output`, `Resample.C116_succeeds`, `Resample.C118_requests`, `Resample.C119_total`, `Resample.C120_samples`, `Resample.C121_exact`, `Resample.C121_chunking_refuted`, `Resample.C119_total`, `Resample.C122_one_sample_refuted`, `Resample.C122_room`, `Resample.C123_exact`, `Resample.C123_layout_refuted`, `Resample.C118_requests`, `Resample.C124_later_ratio_refuted`, `Resample.C116_output`, `Conv.C125_convolve`, `Conv.C125_log_magnitude`, `Conv.C125_forward`, `Conv.C126_adjoint`, `Conv.C127_normalize`, `Conv.C127_single`, `Conv.C127_forward`, `Conv.C128_pooling`, `Conv.C128_transform`, `Conv.C128_single_refused`, `Conv.C128_single_frame_refused`, `Conv.C129_features`, `Conv.C129_cosine_range`, `Conv.C129_cosine_self`, `Conv.C129_squared`, `Conv.C130_gate`, `Conv.C130_sinc_band`, `Conv.C130_feature_map_size`, `Conv.C131_exact`, `Conv.C132_labels_refuted`, `Conv.C132_exact`, `Conv.C128_pooling`, `Conv.C128_transform`, `Conv.C133_sinc_order_refuted`, `Conv.C133_sinc_stop_refuted`, `Conv.C133_exact`, `Loss.C134_mu_law`, `Loss.C134_onto`, `Loss.C135_discretized`, `Loss.C135_degenerate`, `Loss.C136_one_hot`, `Loss.C136_rows`, `Loss.C137_loss`, `Loss.C137_odd_refused`, `Loss.C138_exact`, `Loss.C138_self_refuted`, `Loss.C137_loss`, `Loss.C139_exact`, `Loss.C139_nearest_refuted`, `Loss.C140_exact`, `Loss.C140_batch_refuted`, `Loss.C141_embedding_refuted`, `Loss.C142_wasserstein`, `Loss.C142_lipschitz`, `Loss.C143_between`, `Loss.C143_penalty`, `Loss.C143_sizes`, `Loss.C143_linear`, `Loss.C144_exact`, `Loss.C144_audio_refuted`, `Loss.C145_sample_norm`, `Loss.C145_unit_norm`, `Loss.C146_band_loss`, `Loss.C146_features`, `MetaData.C147_is_url`, `MetaData.C147_url`, `MetaData.C147_paths`, `MetaData.C150_encode`, `MetaData.C150_sources`, `MetaData.C150_sources`, `Square.C154_scale`, `Square.C154_layout`, `Square.C154_refused`, `Square.C155_overlap_add`, `Square.C155_half`, `Square.C155_no_overlap`, `Square.C156_refuted`, `Square.C157_refuted`, `Correlogram.C158_values`, `Correlogram.C158_refused`, `Correlogram.C159_peak`, `Correlogram.C159_volume`, `FilterBanks.C160_refused`, `FilterBanks.C160_wave`, `FilterBanks.C160_normalized`, `FilterBanks.C161_design`, `FilterBanks.C161_bank`, `FilterBanks.C162_refuted`, `Rainbow.C163_unwrap`, `Rainbow.C163_steady`, `Rainbow.C164_brightness`, `Rainbow.C164_colours`, `Rainbow.C165_apply_scale`, `Rainbow.C166_real_parts`, `Rainbow.C166_refuted`, `Rainbow.C165_apply_scale`, `Repl.C167_served_iff`, `Repl.C167_ogg`, `Repl.C167_json`, `Repl.C167_array`, `Repl.C168_every_feature_refuted`, `Repl.C167_served_iff`, `Repl.C169_search_refuted`, `Repl.C170_audio`, `Repl.C171_stable`, `Repl.C172_expression`, `Repl.C172_expression`, `Repl.C174_exact`, `Repl.C174_printed_refuted`, `Repl.C175_exact`, `Repl.C175_evaluates_refuted`, `Repl.C178_onsets`, `Repl.C178_links`, `Codebook.C179_encode`, `Codebook.C179_errors`, `Codebook.C179_decode`, `Codebook.C180_rows_refuted`, `Codebook.C180_past_end`, `Codebook.C181_roundtrip`, `Codebook.C181_refused`, `Codebook.C182_empty_refuted`, `Codebook.C183_mean_refuted`, `Ops.C192_slice`, `Ops.C199_streaming`, `Ops.C200_twice_refuted`, `Archives.C201_archive`, `Archives.C202_exact`, `Archives.C203_ends`, `Archives.C203_exact`, `Archives.C206_name`, `Archives.C206_undescribed`, `SoundNodes.C212_stream`, `SoundNodes.C213_compressed_refuted`, `SoundNodes.C214_ogg`, `SoundNodes.C215_flac_refuted`, `SoundNodes.C216_subtype_refuted`, `SoundNodes.C214_ogg`, `SoundNodes.C217_graph`, `Training.C218_minibatches`, `Training.C218_supervised`, `Training.C218_holdout`, `Training.C219_exact`, `Training.C219_one`, `Training.C219_statistics_refuted`, `Training.C218_holdout`, `Training.C220_supervised`, `Training.C221_rounds`, `Training.C221_epochs`, `Training.C223_message_refuted`, `Training.C224_gan`, `Training.C225_no_critic_refuted`, `Training.C226_frozen_refuted`, `Training.C227_loss`, `Training.C228_share`, `Training.C228_zero`, `Training.C228_negative_refuted`, `Training.C228_single_refuted`, `Rates.C230_resample`, `Rates.C230_whole`, `Rates.C230_contiguous`, `Rates.C230_back`, `Rates.C230_dimension`, `Rates.C231_exact`, `Rates.C231_back_refuted`, `Rates.C232_cd`, `Rates.C232_other_rates`, `Rates.C233_half_refuted`, `Monitor.C235_atomic`, `Monitor.C238_exact`, `Monitor.C238_disturbed_refuted`, `Monitor.C235_atomic`, `Monitor.C240_exact`, `Arr.C241_writable`, `Arr.C241_writes`, `Arr.C241_read_back`, `Arr.C241_repeated`, `Arr.C241_zeros`, `Arr.C241_empty_band_refuted`, `Arr.C242_write_through`, `Arr.C242_copy`, `AudioIndex.C243_axes`, `AudioIndex.C243_slice`, `AudioIndex.C243_position`, `AudioIndex.C243_channel_refuted`, `AudioIndex.C243_step_refuted`, `AudioIndex.C244_padded`, `AudioIndex.C244_unpadded`, `AudioIndex.C244_one_window_refuted`, `AudioIndex.C244_single_samples_refuted`, `AudioIndex.C244_nothing`, `Stft.C245_stft`, `Stft.C246_graph`, `Stft.C247_no_window_refuted`, `Stft.C248_batch_refuted`, `Arr.C249_elementwise`, `Arr.C250_expression`, `Arr.C251_mixed_refuted`, `Arr.C252_stale_refuted`, `Arr.C252_exact`, `Arr.C252_longer`, `Arr.C253_order_refuted`, `Arr.C254_mean_refuted`, `Arr.C254_exact`, `Arr.C255_exact`, `Arr.C256_augmented`, `Arr.C256_accepted`, `Fit.C257_stored`, `Fit.C258_standard`, `Fit.C258_constant_refuted`, `Fit.C259_exact`, `Fit.C259_which`, `Fit.C259_silent_refuted`, `Fit.C259_next`, `Fit.C259_others`, `Fit.C257_stored`, `Fit.C260_selection`, `Fit.C261_stream`, `Fit.C262_units`, `AudioGraph.C263_features`, `AudioGraph.C264_chunking`, `AudioGraph.C265_bfcc_refuted`, `AudioGraph.C265_exact`, `AudioGraph.C265_magnitudes`, `Blocks.C266_size`, `Blocks.C266_local`, `Blocks.C266_linear`, `Blocks.C266_delay`, `Blocks.C267_restored`, `Blocks.C267_autoencoder`, `Blocks.C268_adjoint`, `Blocks.C269_alone`, `Blocks.C269_batch`, `Blocks.C269_deterministic`, `Blocks.C270_normalised`, `Blocks.C270_running`, `Blocks.C270_single`, `Blocks.C271_single_row`, `Blocks.C271_images_refuted`, `Blocks.C273_first`, `Forward.C274_network`, `Forward.C274_autoencoder`, `Forward.C274_gan`, `Forward.C274_simhash`, `Forward.C275_stale_refuted`, `Forward.C275_same_size`, `Forward.C276_simhash`, `TimeRequest.C278_stretch`, `TimeRequest.C278_rest`, `TimeRequest.C278_consecutive`, `TimeRequest.C279_within`, `TimeRequest.C279_header`, `TimeRequest.C279_total`, `TimeRequest.C279_header_rest`, `TimeRequest.C279_past_end_refuted`, `TimeRequest.C279_reversed_refuted`, `TimeRequest.C279_empty_refuted`, `TimeRequest.C280_array`, `TimeRequest.C280_rest`, `TimeRequest.C280_other`, `Experiment.C281_checkpoints`, `Experiment.C283_scaled`, `Experiment.C283_trough_refuted`, `Experiment.C283_zero_refuted`, `Search.C284_search`, `Search.C285_self`, `Search.C286_add`, `Search.C286_half_refuted`, `Search.C287_iff`, `Search.C287_short_refuted`, `Search.C288_empty_refuted`, `Search.C289_exact`, `Search.C289_len`, `Search.C289_stale_refuted`, `Search.C290_exact`, `Search.C290_without`, `Search.C290_keyerror_refuted`, `Search.C291_drawn`, `Threads.C292_appends`, `Threads.C292_progress`, `Threads.C293_serial`, `Threads.C294_exact`, `Threads.C294_own`, `Threads.C294_searches`, `Threads.C294_store`, `Threads.C294_polite`, `Resynth.C295_fft`, `Resynth.C296_mdct`, `Resynth.C296_same`, `Resynth.C297_louder_refuted`, `Reservoir.C298_exact`, `Reservoir.C298_row_by_row`, `MergeUnits.C299_merge`, `MergeUnits.C300_spectra`, `Arr.C301_band`, `Arr.C301_band_empty`, `Arr.C301_hertz`, `Arr.C301_positions`, `Arr.C301_chroma`, `Arr.C301_explicit`, `Arr.C301_linear`, `Arr.C301_one_band_refuted`, `Arr.C301_step_refuted`, `ComplexDomain.C302_sign`, `ComplexDomain.C302_same`, `ComplexDomain.C302_deviation`, `ComplexDomain.C302_steady`, `ComplexDomain.C302_never`, `ComplexDomain.C302_spectrum`, `ScaleDefaults.C303_no_window`, `ScaleDefaults.C303_apply_scale`, `ScaleDefaults.C304_from_zero`, `ScaleDefaults.C304_counted`, `ScaleDefaults.C304_top_refuted`, `Forward.C305_network`, `Forward.C305_gan`, `Forward.C305_autoencoder`, `Forward.C305_memory_refuted`, `Onset.C306_onsets`, `Onset.C306_starts`, `Onset.C306_in_sound`, `Onset.C306_at_once_refuted`, `Onset.C306_end_refuted`, `Fit.C307_sharpen`, `Fit.C307_sharpen_one`, `Fit.C307_mu_law`, `Onset.C308_frames`, `Onset.C308_pooled`, `Onset.C308_own_frames_refuted`, `Onset.C308_partition`, `Sinc.C309_filter`, `Sinc.C309_nan_iff`, `Sinc.C309_size`, `Sinc.C309_values`, `Sinc.C309_odd_refuted`, `Sinc.C309_symmetric_refuted`, `Sinc.C309_one_tap`, `Props.Overlap.C310_geometric`, `Props.Overlap.C310_more_bands`, `Props.Overlap.C310_linear`, `Props.UnitNorm.C311_vector`, `Props.UnitNorm.C311_rows`, `Props.UnitNorm.C311_cube_refuted`, `Spectral.C312_axis`, `Spectral.C312_first_axis_refuted`, `Spectral.C312_parts`, `Arr.C313_axis`, `Arr.C313_lib`, `Adaptive.C314_ends`, `Adaptive.C314_weighted`, `Adaptive.C314_lost`, `Adaptive.C314_constant`, `Stored.C315_read`, `Stored.C315_frequency_first`, `Stored.C315_frequency_first_refuted`, `Stored.C316_audio`, `Stored.C316_other_rate_refuted`, `Stored.C316_axes_refused`, `Stored.C316_adaptive_one_axis`, `Stored.C316_adaptive`, `AudioOps.C318_sum`, `AudioOps.C318_sum_last_refuted`, `AudioOps.C318_over_time`, `AudioOps.C318_zeros_like`, `AudioOps.C318_concat`, `Float64.C319_rounding`, `Float64.C319_count`, `Float64.C319_silence`, `Float64.C319_samples_per_second`, `Float64.C319_discrete_samples`, `Float64.C319_synthesizers`, `Float64.C319_bound_needed`, `Float64.C320_slice`, `Float64.C320_exact`, `Float64.C320_open_ended`, `Float64.C320_tie_refuted`, `Float64.C321_rate`, `Float64.C321_16k`, `Float64.C321_doubling`, `Float64.C321_16k_refuted`, `Float64.C321_dct`, `Float64.C321_dctiv`, `Float64.C321_nodes_refuted`, `Float64.C322_seconds`, `Float64.C322_within_one`, `Float64.C322_milliseconds`, `Float64.C322_count_refuted`, `Float64.C322_tick_length`, `Float64.C322_step_divides`, `Float64.C322_step_within_one`, `Float64.C322_step_refuted`, `Float64.C323_within_one`, `Float64.C323_octaves`, `Float64.C323_mix`, `Float64.C323_refuted`, `FloatRange.C324_stretch`, `FloatRange.C324_rest`, `FloatRange.C324_off_by_one`, `FloatRange.C324_exact`, `FloatRange.C324_refuted`, `FloatRange.C324_consecutive`, `FloatRange.C324_repeat_refuted`, `FloatSizes.C325_out_frames`, `FloatSizes.C326_contribution`, `FloatSizes.C326_all`, `FloatSizes.C326_contribution_refuted`, `FloatSizes.C326_chunk_size`, `Page.C327_page`, `Page.C327_unique`, `Page.C327_plain`, `Page.C327_nested_refuted`, `Hertz.C328_expression`, `Hertz.C328_fails`, `Hertz.C328_float`, `Hertz.C328_twice_refuted`, `Hertz.C329_frequency`, `Hertz.C329_number`, `Hertz.C329_agree`, `Hertz.C329_compare_refuted`, `Hertz.C330_units`, `Hertz.C330_values`, `Hertz.C330_slices`, `Hertz.C331_symmetry_refuted`, `Hertz.C332_every`, `Hertz.C332_linear`, `Hertz.C332_geometric`, `Hertz.C332_perceptual`, `PhaseBand.C333_band`, `PhaseBand.C333_whole`, `PhaseBand.C333_empty`, `PhaseBand.C333_frame`, `PhaseBand.C334_first_axis_refuted`, `PhaseBand.C334_other_axes`, `BandLoss.C335_zero`, `BandLoss.C335_tells_apart`, `BandLoss.C336_volume`, `BandLoss.C337_tones`, `BandLoss.C337_resample`, `BandLoss.C337_faithful`, `Cut.C338_range`, `Cut.C338_explicit`, `Cut.C338_linear`, `Cut.C338_band`, `Cut.C338_nothing`, `Cut.C338_one_band_refuted`, `Cut.C339_again`, `Cut.C339_from_start`, `Cut.C339_refuted`, `Cut.C339_same_band`, `Cut.C340_exact`, `Browser.C341_record`, `Browser.C341_sent`, `Browser.C341_in_order`, `Browser.C341_browse`, `Browser.C341_interrupts`, `Browser.C341_refuted`, `Browser.C343_keys`, `Browser.C343_display`, `Browser.C343_one`, `Browser.C344_one`, `Browser.C345_stretch`, `Browser.C345_refuted`, `Browser.C346_round_trip`, `Browser.C346_link`, `Browser.C346_shown`, `Browser.C346_random`, `Browser.C347_agree`, `Sketch.C348_code`, `Sketch.C348_same`, `Sketch.C348_pool`, `Sketch.C348_blank_refuted`, `Sketch.C349_distance`, `Sketch.C349_stretches`, `Sketch.C350_search`, `Sketch.C351_volume`, `Sketch.C351_plain_refuted`, `Sketch.C351_silence_refuted`, `Sketch.C352_packed`, `Sketch.C353_when`, `Sketch.C353_distance`, `Sketch.C353_search`, `Vq.C354_pass`, `Vq.C354_log`, `Vq.C354_errors`, `Vq.C355_error`, `Vq.C356_mean`, `Vq.C356_quieter`, `Vq.C357_again`, `Vq.C357_again_refuted`, `Vq.C358_volume`, `Vq.C358_log_refuted`, `Filter.C359_filter`, `Filter.C359_nothing`, `Filter.C359_hertz`, `Filter.C359_explicit`, `Filter.C359_linear`, `Filter.C360_crossover`, `SynthLinear.C361_mdct`, `SynthLinear.C361_fft`, `SynthLinear.C361_dct`, `SynthLinear.C361_dctiv`, `SynthLinear.C361_crossover`, `Energy.C362_dct`, `Energy.C362_idct`, `Energy.C363_fft`, `Energy.C364_mdct`, `Energy.C364_fft`, `Energy.C364_dct`, `Analysis.C365_fft`, `Analysis.C365_mdct`, `Analysis.C365_dct`, `Analysis.C365_dctiv`, `Analysis.C366_stft`, `Analysis.C366_graph`, `Analysis.C367_stft`, `MdctBack.C368_back`, `MdctBack.C369_energy`, `MdctBack.C369_error`, `MdctBack.C370_fft`, `MdctBack.C370_dct`, `MdctBack.C370_fft_refuted`, `MdctBack.C370_dct_refuted`, `Duration.C371_whole`, `Duration.C371_picoseconds`, `Duration.C371_fraction`, `Duration.C371_exact`, `Duration.C371_refuted`, `Duration.C371_no_number`, `Duration.C371_units`, `Shuffled.C372_exact`, `Shuffled.C372_size`, `Shuffled.C372_refuted`, `Shuffled.C373_kept`, `Shuffled.C373_refuted`, `Sampler.C374_passes`, `Sampler.C374_empty_refuted`, `Sampler.C374_none`, `Sampler.C375_refuted`, `MuxThreads.C376_alone`, `MuxThreads.C376_in_turn`, `MuxThreads.C376_refuted`, `Memory.C377_values`, `Memory.C377_each_other`, `Memory.C377_input`, `Memory.C377_copy`, `Memory.C377_leftover`, `Memory.C378_stable`, `Memory.C378_store`, `Memory.C379_kept`, `Memory.C380_later`, `Memory.C380_no_overlap`, `Memory.C380_first_chunk`, `Desk.C381_as_stored`, `Desk.C381_refused`, `Desk.C381_store`, `Desk.C381_convert`, `Desk.C381_view`, `Desk.C381_new`, `Desk.C381_outside`, `Bins.C382_fft`, `Bins.C382_band`, `Bins.C382_odd_rate`, `Bins.C382_outside`, `Bins.C382_cut`, `Bins.C382_dct`, `Bins.C382_dct_band`, `ToneFilter.C383_touching`, `ToneFilter.C383_bandpass`, `SineSpectrum.C384_spectrum`, `SineSpectrum.C384_found`, `SineSpectrum.C384_single`, `SineSpectrum.C384_half_rate`, `SineSpectrum.C384_alias`, `Padded.C385_meaning`, `Padded.C385_same_frequency`, `Padded.C385_refines`, `Padded.C385_label`, `Padded.C385_bound`, `Periodic.C386_frames`, `Periodic.C386_half_lapped`, `Periodic.C386_conversely`, `Periodic.C386_sine`, `SteadyStretch.C387_same_period`, `SteadyStretch.C387_repeats`, `SteadyStretch.C387_sines`, `ScaleSine.C388_sine`, `ScaleSine.C388_refuted`
