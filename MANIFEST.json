{
 "claims": [
  {
   "property": "C01",
   "status": "proved",
   "theorems": [
    "Zounds.Props.C01_windowed_exact",
    "Zounds.Props.C01_default_step",
    "Zounds.Props.C01_leftover_continues",
    "Zounds.Props.C01_bad_sizes",
    "Zounds.Props.C01_window_of_one"
   ],
   "note": "windowed() without padding, for every signal, window and step; error branches included."
  },
  {
   "property": "C02",
   "status": "proved",
   "theorems": [
    "Zounds.Props.C02_padded_windows",
    "Zounds.Props.C02_all_samples_used_iff"
   ],
   "note": ""
  },
  {
   "property": "C03",
   "status": "proved",
   "theorems": [
    "Zounds.Props.C03_streaming_windows",
    "Zounds.Props.C03_chunking_independent",
    "Zounds.Props.C03_final_windows",
    "Zounds.Props.C03_final_complete",
    "Zounds.Props.C03_with_leftovers",
    "Zounds.Props.C03_padwith",
    "Zounds.Props.C03_window_function"
   ],
   "note": ""
  },
  {
   "property": "C04",
   "status": "proved",
   "theorems": [
    "Zounds.Props.C04_timeslice_exact",
    "Zounds.Props.C04_only_overlapping",
    "Zounds.Props.C04_all_overlapping",
    "Zounds.Props.C04_open_ended",
    "Zounds.Props.C04_tiles"
   ],
   "note": "Float rounding of timedelta division replaced by exact rationals, then the code's np.round(.., 2)."
  },
  {
   "property": "C05",
   "status": "proved",
   "theorems": [
    "Zounds.Props.C05_python_slice"
   ],
   "note": ""
  },
  {
   "property": "C06",
   "status": "proved",
   "theorems": [
    "Zounds.Rates.C06_comparisons",
    "Zounds.Rates.C06_compare_instant",
    "Zounds.Rates.C06_order_not_equality",
    "Zounds.Props.C06_and_duration",
    "Zounds.Props.C06_and_comm",
    "Zounds.Props.C06_contains_slice",
    "Zounds.Props.C06_contains_time",
    "Zounds.Props.C06_eq_iff",
    "Zounds.Props.C06_eq_hash",
    "Zounds.Props.C06_eq_equivalence",
    "Zounds.Props.C06_add_shifts",
    "Zounds.Props.C06_lt_iff",
    "Zounds.Props.C06_slices_tile",
    "Zounds.Props.C06_unit_sizes",
    "Zounds.Props.C06_open_end"
   ],
   "note": ""
  },
  {
   "property": "C07",
   "status": "proved",
   "theorems": [
    "Zounds.Props.C07_rate_roundtrip",
    "Zounds.Props.C07_rate_roundtrip_bound_sharp",
    "Zounds.Props.C07_rate_refused",
    "Zounds.Props.C07_lookup",
    "Zounds.Props.C07_nearest",
    "Zounds.Props.C07_nyquist",
    "Zounds.Props.C07_nearest_tie"
   ],
   "note": "C07_rate_refused, C07_rate_roundtrip, C07_rate_roundtrip_bound_sharp, C07_lookup, C07_nearest, C07_nearest_tie."
  },
  {
   "property": "C08",
   "status": "proved",
   "theorems": [
    "Zounds.Props.C08_scheme_roundtrip",
    "Zounds.Props.C08_default_hop",
    "Zounds.Props.C08_mul_roundtrip",
    "Zounds.Props.C08_mul_compose",
    "Zounds.Props.C08_invalid",
    "Zounds.Props.C08_half_lapped",
    "Zounds.Props.C08_suggested_half"
   ],
   "note": ""
  },
  {
   "property": "C09",
   "status": "proved",
   "theorems": [
    "Zounds.Props.C09_constructed",
    "Zounds.Props.C09_window_extent",
    "Zounds.Props.C09_window_end",
    "Zounds.Props.C09_default_step",
    "Zounds.Props.C09_compose"
   ],
   "note": "C09_window_extent, C09_window_end, C09_default_step, C09_compose, C09_constructed."
  },
  {
   "property": "C10",
   "status": "proved",
   "theorems": [
    "Zounds.Props.Growable.C10_growable_is_list",
    "Zounds.Props.Growable.C10_prefix_preserved",
    "Zounds.Props.Growable.C10_growth_rate",
    "Zounds.Props.Growable.C10_growth_amount"
   ],
   "note": ""
  },
  {
   "property": "C11",
   "status": "proved",
   "theorems": [
    "Zounds.Props.HammingDb.C11_store_is_log",
    "Zounds.Props.HammingDb.C11_instances_agree",
    "Zounds.Props.HammingDb.C11_store_put_overwrites"
   ],
   "note": ""
  },
  {
   "property": "C12",
   "status": "proved",
   "theorems": [
    "Zounds.Props.HammingDb.C12_nearest",
    "Zounds.Props.HammingDb.C12_multithreaded_same"
   ],
   "note": ""
  },
  {
   "property": "C13",
   "status": "proved",
   "theorems": [
    "Zounds.Props.PopCount.C13_count_bits",
    "Zounds.Props.PopCount.C13_count_bits_array",
    "Zounds.Props.PopCount.C13_packed_distance",
    "Zounds.Props.PopCount.C13_hamming_distance",
    "Zounds.Props.PopCount.C13_symm",
    "Zounds.Props.PopCount.C13_zero_iff_eq",
    "Zounds.Props.PopCount.C13_triangle",
    "Zounds.Props.PopCount.C13_bound"
   ],
   "note": "count_bits proved for every 64 bit word by byte decomposition; __builtin_popcountl is trusted to its documented contract."
  },
  {
   "property": "C14",
   "status": "proved",
   "theorems": [
    "Zounds.Props.Codes.C14_decode_encode_bool",
    "Zounds.Props.Codes.C14_uint8_same",
    "Zounds.Props.Codes.C14_encode_decode",
    "Zounds.Props.Codes.C14_uint64_roundtrip",
    "Zounds.Props.Codes.C14_other_dtype",
    "Zounds.Props.Codes.C14_uint8_nonzero_is_one",
    "Zounds.Props.Codes.C14_injective"
   ],
   "note": "The query encoding is the packbits bytes; there is no base64 layer in the code."
  },
  {
   "property": "C15",
   "status": "proved",
   "theorems": [
    "Zounds.Props.HammingDb.C15_size_fixed",
    "Zounds.Props.HammingDb.C15_open_outcome",
    "Zounds.Props.HammingDb.C15_append_wrong_size",
    "Zounds.Props.HammingDb.C15_search_wrong_size",
    "Zounds.Props.HammingDb.C15_search_writeonly",
    "Zounds.Props.HammingDb.C15_stored_codes",
    "Zounds.Props.HammingDb.C15_long_text_refused",
    "Zounds.Props.HammingDb.C15_search_text"
   ],
   "note": ""
  },
  {
   "property": "C16",
   "status": "proved",
   "theorems": [
    "Zounds.Props.HammingIndex.C16_first_run",
    "Zounds.Props.HammingIndex.C16_crash_prefix",
    "Zounds.Props.HammingIndex.C16_add_all"
   ],
   "note": ""
  },
  {
   "property": "C17",
   "status": "proved",
   "theorems": [
    "Zounds.Props.Persist.C17_timedelta_roundtrip",
    "Zounds.Props.Persist.C17_encoded_length",
    "Zounds.Props.Persist.C17_timeslice_roundtrip"
   ],
   "note": ""
  },
  {
   "property": "C18",
   "status": "proved",
   "theorems": [
    "Zounds.Props.Persist.C18_roundtrip",
    "Zounds.Props.Persist.C18_chunking_invisible",
    "Zounds.Props.Persist.C18_oversized_metadata",
    "Zounds.Props.Persist.C18_feature_usable"
   ],
   "note": ""
  },
  {
   "property": "C19",
   "status": "proved",
   "theorems": [
    "Zounds.Props.DimCodec.C19_roundtrip",
    "Zounds.Props.DimCodec.C19_list_roundtrip",
    "Zounds.Props.DimCodec.C19_eq_self",
    "Zounds.Props.DimCodec.C19_unknown_refused"
   ],
   "note": ""
  },
  {
   "property": "C20",
   "status": "proved",
   "theorems": [
    "Zounds.Props.Frequency.C20_selects_exactly",
    "Zounds.Props.Frequency.C20_hertz_slice"
   ],
   "note": ""
  },
  {
   "property": "C21",
   "status": "proved",
   "theorems": [
    "Zounds.Props.Frequency.C21_built",
    "Zounds.Props.Frequency.C21_linear_tiles",
    "Zounds.Props.Frequency.C21_linear_ordered",
    "Zounds.Props.Frequency.C21_slice_int",
    "Zounds.Props.Frequency.C21_slice_band",
    "Zounds.Props.Frequency.C21_explicit_slice",
    "Zounds.Props.Frequency.C21_get_int",
    "Zounds.Props.Frequency.C21_chroma"
   ],
   "note": "C21_built, C21_linear_tiles, C21_linear_ordered, C21_slice_int, C21_slice_band, C21_explicit_slice, C21_get_int, C21_chroma."
  },
  {
   "property": "C22",
   "status": "proved",
   "theorems": [
    "Zounds.Props.Frequency.C22_new",
    "Zounds.Props.Frequency.C22_intersect",
    "Zounds.Props.Frequency.C22_intersect_disjoint",
    "Zounds.Props.Frequency.C22_intersect_error",
    "Zounds.Props.Frequency.C22_intersect_comm",
    "Zounds.Props.Frequency.C22_intersect_self",
    "Zounds.Props.Frequency.C22_center",
    "Zounds.Props.Frequency.C22_from_center",
    "Zounds.Props.Frequency.C22_from_start",
    "Zounds.Props.Frequency.C22_from_center_self",
    "Zounds.Props.Frequency.C22_intersection_ratio",
    "Zounds.Props.Frequency.C22_ensure_overlap"
   ],
   "note": "Over any ordered field; float rounding not modelled."
  },
  {
   "property": "C23",
   "status": "proved",
   "theorems": [
    "Zounds.Props.Frequency.C23_explicit_eq",
    "Zounds.Props.Frequency.C23_dimension_eq",
    "Zounds.Props.Frequency.C23_lookup",
    "Zounds.Props.Frequency.C23_length_mismatch",
    "Zounds.Props.Frequency.C23_scale_eq",
    "Zounds.Props.Frequency.C23_validate",
    "Zounds.Props.Frequency.C23_explicit_validate",
    "Zounds.Props.Frequency.C23_range"
   ],
   "note": ""
  },
  {
   "property": "C24",
   "status": "proved",
   "theorems": [
    "Zounds.Props.FreqAdaptive.C24_contiguous",
    "Zounds.Props.FreqAdaptive.C24_get_band",
    "Zounds.Props.FreqAdaptive.C24_roundtrip",
    "Zounds.Props.FreqAdaptive.C24_ragged"
   ],
   "note": "For scales whose bands are pairwise different."
  },
  {
   "property": "C25",
   "status": "proved",
   "theorems": [
    "Zounds.Onset.C25_slices",
    "Zounds.Onset.C25_chunk_independent",
    "Zounds.Onset.C25_moving_average_chunk_independent",
    "Zounds.Onset.C25_starts",
    "Zounds.Onset.C25_tiles",
    "Zounds.Onset.C25_positive_durations",
    "Zounds.Onset.C25_mot",
    "Zounds.Onset.C25_mot_gain_invariant",
    "Zounds.Onset.C25_moving_average_rule",
    "Zounds.Onset.C25_mot_value",
    "Zounds.Onset.C25_flux_refused"
   ],
   "note": "ComplexDomain is covered by C302; detection function arithmetic is over rationals. The refusal of the spectral flux node is C25_flux_refused."
  },
  {
   "property": "C26",
   "status": "proved",
   "theorems": [
    "Zounds.Reservoir.C26_samples",
    "Zounds.Reservoir.C26_fill_exact",
    "Zounds.Reservoir.C26_single_rows_algorithm_R",
    "Zounds.Reservoir.C26_uniform_row_by_row",
    "Zounds.Reservoir.C26_new",
    "Zounds.Reservoir.C26_bad_index"
   ],
   "note": ""
  },
  {
   "property": "C27",
   "status": "proved",
   "theorems": [
    "Zounds.Reservoir.C27_add",
    "Zounds.Reservoir.C27_len_le_capacity",
    "Zounds.Reservoir.C27_get_batch_errors",
    "Zounds.Reservoir.C27_get",
    "Zounds.Reservoir.C27_get_batch",
    "Zounds.Reservoir.C27_aligned",
    "Zounds.Reservoir.C27_wrong_keys_refused",
    "Zounds.Reservoir.C27_contributions"
   ],
   "note": ""
  },
  {
   "property": "C28",
   "status": "proved",
   "theorems": [
    "Zounds.Merge.C28_merge",
    "Zounds.Merge.C28_order_independent",
    "Zounds.Merge.C28_needs_two",
    "Zounds.Merge.C28_unknown_source",
    "Zounds.Merge.C28_leftover",
    "Zounds.Merge.C28_pooled",
    "Zounds.Merge.C28_max",
    "Zounds.Merge.C28_new",
    "Zounds.Merge.C28_pooled_no_series"
   ],
   "note": ""
  },
  {
   "property": "C29",
   "status": "proved",
   "theorems": [
    "Zounds.Pipeline.C29_pipeline",
    "Zounds.Pipeline.C29_split",
    "Zounds.Pipeline.C29_assembled_in_order",
    "Zounds.Pipeline.C29_unit_norm",
    "Zounds.Pipeline.C29_instance_scaling",
    "Zounds.Pipeline.C29_mean_std",
    "Zounds.Pipeline.C29_multiply",
    "Zounds.Pipeline.C29_weighted",
    "Zounds.Pipeline.C29_mu_law",
    "Zounds.Pipeline.C29_log",
    "Zounds.Pipeline.C29_reshape",
    "Zounds.Pipeline.C29_slicer",
    "Zounds.Pipeline.C29_shapes",
    "Zounds.Pipeline.C29_step",
    "Zounds.Pipeline.C29_library_pipeline",
    "Zounds.Pipeline.C29_not_invertible",
    "Zounds.Pipeline.C29_unit_norm_norm",
    "Zounds.Pipeline.C29_instance_scaling_range"
   ],
   "note": "Real arithmetic; masked numpy outputs (where=) are arbitrary finite values."
  },
  {
   "property": "C30",
   "status": "proved",
   "theorems": [
    "Zounds.Http.C30_grammar",
    "Zounds.Http.C30_whole_file",
    "Zounds.Http.C30_open",
    "Zounds.Http.C30_served_is_contiguous",
    "Zounds.Http.C30_unit",
    "Zounds.Http.C30_seconds",
    "Zounds.Http.C30_seconds_content_range",
    "Zounds.Http.C30_seconds_trunc",
    "Zounds.Http.C30_trailing_newline",
    "Zounds.TimeRequest.C30_seconds_bytes"
   ],
   "note": ""
  },
  {
   "property": "C31",
   "status": "proved",
   "theorems": [
    "Zounds.Midi.C31_name",
    "Zounds.Midi.C31_number",
    "Zounds.Midi.C31_roundtrip",
    "Zounds.Midi.C31_injective",
    "Zounds.Midi.C31_name_roundtrip",
    "Zounds.Midi.C31_accepts_iff",
    "Zounds.Midi.C31_octave_text"
   ],
   "note": ""
  },
  {
   "property": "C32",
   "status": "proved",
   "theorems": [
    "Zounds.Buffer.C32_fifo",
    "Zounds.Buffer.C32_prefix",
    "Zounds.Buffer.C32_read_length",
    "Zounds.Buffer.C32_write_returns",
    "Zounds.Buffer.C32_readinto",
    "Zounds.Buffer.C32_bounded",
    "Zounds.Buffer.C32_contiguous",
    "Zounds.Buffer.C32_length",
    "Zounds.Buffer.C32_audio_stream",
    "Zounds.Buffer.C32_chunk_size",
    "Zounds.Buffer.C32_chunk_size_bytes",
    "Zounds.Buffer.C32_seek_from_end",
    "Zounds.Buffer.C32_seek_relative",
    "Zounds.Buffer.C32_byte_depth"
   ],
   "note": ""
  },
  {
   "property": "C33",
   "status": "proved",
   "theorems": [
    "Zounds.Ogg.C33_slice",
    "Zounds.Ogg.C33_seams",
    "Zounds.Ogg.C33_no_duplicates",
    "Zounds.Ogg.C33_aligned",
    "Zounds.Ogg.C33_iter_chunks_exact"
   ],
   "note": "Division is exact (float rounding not modelled)."
  },
  {
   "property": "C34",
   "status": "proved",
   "theorems": [
    "Zounds.Audio.C34_new",
    "Zounds.Audio.C34_from_file",
    "Zounds.Audio.C34_mono_noop",
    "Zounds.Audio.C34_mono_value",
    "Zounds.Audio.C34_mono_average",
    "Zounds.Audio.C34_mono_idem",
    "Zounds.Audio.C34_stereo_value",
    "Zounds.Audio.C34_stereo_noop",
    "Zounds.Audio.C34_silence_count",
    "Zounds.Audio.C34_silence",
    "Zounds.Audio.C34_pad",
    "Zounds.Audio.C34_add_rates",
    "Zounds.Audio.C34_add_value",
    "Zounds.Audio.C34_add_lengths",
    "Zounds.Audio.C34_add_channels",
    "Zounds.Audio.C34_ogg_pieces"
   ],
   "note": ""
  },
  {
   "property": "C35",
   "status": "proved",
   "theorems": [
    "Zounds.Synth.C35_general",
    "Zounds.Synth.C35_overlap_add",
    "Zounds.Synth.C35_concatenates",
    "Zounds.Synth.C35_reconstructs",
    "Zounds.Synth.C35_synthesis_window",
    "Zounds.Synth.C35_analysis_synthesis",
    "Zounds.Synth.C35_first_hop",
    "Zounds.Synth.C35_no_frames",
    "Zounds.Synth.C35_rate",
    "Zounds.Synth.C35_rate_nearest"
   ],
   "note": "For windows of audio at any rate: length, the overlap sum, concatenation for hop = window, reconstruction (gain g) for analysis/synthesis windows whose hop-shifts sum to g, ends, empty input, sample rate. C35_general covers arbitrary time dimensions."
  },
  {
   "property": "C36",
   "status": "proved",
   "theorems": [
    "Zounds.Arr.C36_slice_in_bounds",
    "Zounds.Arr.C36_getitem",
    "Zounds.Arr.C36_slice_positions",
    "Zounds.Arr.C36_plain_slice",
    "Zounds.Arr.C36_zero_bound",
    "Zounds.Arr.C36_refused_metaslice",
    "Zounds.Arr.C36_new",
    "Zounds.Arr.C36_new_refused",
    "Zounds.Arr.C36_lib_lawful",
    "Zounds.Arr.C36_lib_calm",
    "Zounds.Arr.C36_lib_install",
    "Zounds.Arr.C36_transpose",
    "Zounds.Arr.C36_reduce",
    "Zounds.Arr.C36_reduce_everything",
    "Zounds.Arr.C36_reduce_refused",
    "Zounds.Arr.C36_squeeze",
    "Zounds.Arr.C36_squeeze_empty",
    "Zounds.Arr.C36_reshape_adds",
    "Zounds.Arr.C36_reshape_other",
    "Zounds.Arr.C36_reshape_drops",
    "Zounds.Arr.C36_concat",
    "Zounds.Arr.C36_concat_ok",
    "Zounds.Arr.C36_concat_refused",
    "Zounds.Arr.C36_concatenate",
    "Zounds.Arr.C36_dot",
    "Zounds.Arr.C36_windows",
    "Zounds.Arr.C36_windows_with_leftovers",
    "Zounds.Arr.C36_windows_with_leftovers_identity",
    "Zounds.Arr.C36_none_then_time",
    "Zounds.Arr.C36_none_then_time_wrong",
    "Zounds.Arr.C36_ellipsis_time_none_wrong",
    "Zounds.Arr.C36_numpy_integer_refused",
    "Zounds.Arr.C36_integer_array_refused",
    "Zounds.Arr.C36_integer_and_list_swap",
    "Zounds.Arr.C36_two_lists_refused",
    "Zounds.Arr.C36_step_keeps_frequency",
    "Zounds.Arr.C36_dot_wrong_columns",
    "Zounds.Arr.C36_windows_second_axis_swap",
    "Zounds.Arr.C36_windows_two_time_axes",
    "Zounds.Arr.C36_reshape_same_shape",
    "Zounds.Arr.C36_ellipsis_time_none_mono",
    "Zounds.Arr.C36_too_many",
    "Zounds.Arr.C36_number"
   ],
   "note": "Indexing with Python ints, slices, one list, one ellipsis, None and semantic slices (C36_getitem, any rank, any dimensions satisfying Lawful, which C36_lib_lawful proves for the library's identity, time and frequency dimensions); construction, T, reductions, squeeze, reshape, concat, windows. The excluded forms are real defects, each refuted on a concrete array: None before a semantic slice, ellipsis+semantic slice+None, numpy integers, integer arrays, an int beside a list, two lists, steps, dot, windows over a later time axis, reshape to the same shape with a unit axis."
  },
  {
   "property": "C37",
   "status": "proved",
   "theorems": [
    "Zounds.Nd.C37_order",
    "Zounds.Nd.C37_in_bounds",
    "Zounds.Nd.C37_counts",
    "Zounds.Nd.C37_view",
    "Zounds.Nd.C37_windows",
    "Zounds.Nd.C37_default_step",
    "Zounds.Nd.C37_memory_safe",
    "Zounds.Nd.C37_refused",
    "Zounds.Nd.C37_one_axis"
   ],
   "note": "All ranks; memory model with strides; row-major order of the flattened windows; memory safety; refusals."
  },
  {
   "property": "C38",
   "status": "proved",
   "theorems": [
    "Zounds.Learn.C38_chunking",
    "Zounds.Learn.C38_pieces",
    "Zounds.Learn.C38_bad_chunksize"
   ],
   "note": ""
  },
  {
   "property": "C39",
   "status": "proved",
   "theorems": [
    "Zounds.Learn.C39_train",
    "Zounds.Learn.C39_many",
    "Zounds.Learn.C39_once_per_batch",
    "Zounds.Learn.C39_batches",
    "Zounds.Learn.C39_exact_epochs",
    "Zounds.Learn.C39_triplet",
    "Zounds.Learn.C39_register",
    "Zounds.Learn.C39_unregister",
    "Zounds.Learn.C39_not_called",
    "Zounds.Learn.C39_holdout"
   ],
   "note": ""
  },
  {
   "property": "C40",
   "status": "proved",
   "theorems": [
    "Zounds.Pipeline.C40_bits",
    "Zounds.Pipeline.C40_scale_invariant",
    "Zounds.Pipeline.C40_negation",
    "Zounds.Pipeline.C40_equal_iff",
    "Zounds.Pipeline.C40_degenerate",
    "Zounds.Pipeline.C40_mismatch",
    "Zounds.Pipeline.C40_dot"
   ],
   "note": "Per-example statement over the reals; random plane draws are arguments."
  },
  {
   "property": "C41",
   "status": "proved",
   "theorems": [
    "Zounds.Datasets.C41_composite",
    "Zounds.Ingest.C41_exactly_once",
    "Zounds.Ingest.C41_duplicates",
    "Zounds.Ingest.C41_database",
    "Zounds.Ingest.C41_single_worker",
    "Zounds.Ingest.C41_steps_bounded",
    "Zounds.Ingest.C41_terminates",
    "Zounds.Ingest.C41_in_flight",
    "Zounds.Ingest.C41_returns",
    "Zounds.Ingest.C41_bad_cores"
   ],
   "note": ""
  },
  {
   "property": "C42",
   "status": "proved",
   "theorems": [
    "Zounds.Datasets.C42_yields",
    "Zounds.Datasets.C42_limit",
    "Zounds.Datasets.C42_negative"
   ],
   "note": ""
  },
  {
   "property": "C43",
   "status": "proved",
   "theorems": [
    "Zounds.Datasets.C43_first_call",
    "Zounds.Datasets.C43_cached",
    "Zounds.Datasets.C43_stable",
    "Zounds.Datasets.C43_prefix",
    "Zounds.Datasets.C43_file_name",
    "Zounds.Datasets.C43_dataset_cache"
   ],
   "note": ""
  },
  {
   "property": "C44",
   "status": "proved",
   "theorems": [
    "Zounds.BruteForce.C44_alignment",
    "Zounds.BruteForce.C44_refused",
    "Zounds.BruteForce.C44_entry",
    "Zounds.BruteForce.C44_search",
    "Zounds.BruteForce.C44_search_negative",
    "Zounds.BruteForce.C44_hamming_distance",
    "Zounds.BruteForce.C44_results_once_refuted",
    "Zounds.Props.C44_iter_slices"
   ],
   "note": "Any legal argsort, any metric with a total comparison (no NaN distances). Search results can be read once only (recorded as C44_results_once_refuted)."
  },
  {
   "property": "C45",
   "status": "proved",
   "theorems": [
    "Zounds.Props.VariableRate.C45_sorted",
    "Zounds.Props.VariableRate.C45_stable",
    "Zounds.Props.VariableRate.C45_getitem",
    "Zounds.Props.VariableRate.C45_getitem_open",
    "Zounds.Props.VariableRate.C45_overlap_meaning",
    "Zounds.Props.VariableRate.C45_concat",
    "Zounds.Props.VariableRate.C45_encode_decode",
    "Zounds.Props.VariableRate.C45_empty"
   ],
   "note": ""
  },
  {
   "property": "C46",
   "status": "proved",
   "theorems": [
    "Zounds.Props.Loudness.C46_log_modulus_left_inverse",
    "Zounds.Props.Loudness.C46_log_modulus_right_inverse",
    "Zounds.Props.Loudness.C46_log_modulus_strict_mono",
    "Zounds.Props.Loudness.C46_inverse_log_modulus_strict_mono",
    "Zounds.Props.Loudness.C46_log_modulus_odd",
    "Zounds.Props.Loudness.C46_mu_law_left_inverse",
    "Zounds.Props.Loudness.C46_mu_law_right_inverse",
    "Zounds.Props.Loudness.C46_mu_law_strict_mono",
    "Zounds.Props.Loudness.C46_mu_law_odd",
    "Zounds.Props.Loudness.C46_inverse_log_modulus_odd",
    "Zounds.Props.Loudness.C46_inverse_mu_law_odd",
    "Zounds.Props.Loudness.C46_inverse_mu_law_strict_mono",
    "Zounds.Props.Loudness.C46_mu_law_one",
    "Zounds.Props.Loudness.C46_mu_law_range",
    "Zounds.Props.Loudness.C46_decibel_strict_mono",
    "Zounds.Props.Loudness.C46_decibel_mul",
    "Zounds.Props.Loudness.C46_decibel_ten",
    "Zounds.Props.Loudness.C46_instance_scale",
    "Zounds.Props.Loudness.C46_instance_scale_peak",
    "Zounds.Props.Loudness.C46_unit_scale",
    "Zounds.Props.Loudness.C46_inverse_one_hot",
    "Zounds.Props.Loudness.C46_inverse_one_hot_empty",
    "Zounds.Props.Loudness.C46_instance_scale_empty"
   ],
   "note": "Over the reals; float rounding is not modelled."
  },
  {
   "property": "C47",
   "status": "proved",
   "theorems": [
    "Zounds.Web.C47_anonymous",
    "Zounds.Web.C47_transparent",
    "Zounds.Web.C47_no_secret",
    "Zounds.Web.C47_login_iff",
    "Zounds.Web.C47_sessions",
    "Zounds.Web.C47_library_routes",
    "Zounds.Web.C47_can_log_in"
   ],
   "note": "Cookie signatures are assumed unforgeable."
  },
  {
   "property": "C48",
   "status": "proved",
   "theorems": [
    "Zounds.Props.Psycho.C48_bark_left_inverse",
    "Zounds.Props.Psycho.C48_bark_right_inverse",
    "Zounds.Props.Psycho.C48_bark_strict_mono",
    "Zounds.Props.Psycho.C48_to_bark_strict_mono",
    "Zounds.Props.Psycho.C48_mel_left_inverse",
    "Zounds.Props.Psycho.C48_mel_right_inverse",
    "Zounds.Props.Psycho.C48_mel_strict_mono",
    "Zounds.Props.Psycho.C48_to_mel_strict_mono",
    "Zounds.Props.Psycho.C48_zero",
    "Zounds.Props.Psycho.C48_semitones_left_inverse",
    "Zounds.Props.Psycho.C48_semitones_right_inverse",
    "Zounds.Props.Psycho.C48_octave",
    "Zounds.Props.Psycho.C48_bark_scale",
    "Zounds.Props.Psycho.C48_mel_scale",
    "Zounds.Props.Psycho.C48_geometric_scale"
   ],
   "note": ""
  },
  {
   "property": "C49",
   "status": "proved",
   "theorems": [
    "Zounds.Props.Loudness.C49_one_hot",
    "Zounds.Props.Loudness.C49_total",
    "Zounds.Props.Loudness.C49_normalized",
    "Zounds.Props.Loudness.C49_empty",
    "Zounds.Props.Loudness.C49_no_such_category"
   ],
   "note": ""
  },
  {
   "property": "C50",
   "status": "proved",
   "theorems": [
    "Zounds.WindowFunc.C50_weights",
    "Zounds.WindowFunc.C50_identity",
    "Zounds.WindowFunc.C50_hanning_range",
    "Zounds.WindowFunc.C50_ogg_range",
    "Zounds.WindowFunc.C50_ogg_symmetric",
    "Zounds.WindowFunc.C50_ogg_power",
    "Zounds.WindowFunc.C50_ogg_gain_bound",
    "Zounds.WindowFunc.C50_ogg_roundtrip"
   ],
   "note": ""
  },
  {
   "property": "C51",
   "status": "proved",
   "theorems": [
    "Zounds.Web.C51_unquote_quote",
    "Zounds.Web.C51_roundtrip",
    "Zounds.Web.C51_injective",
    "Zounds.Web.C51_dispatch",
    "Zounds.Web.C51_lower_case"
   ],
   "note": ""
  },
  {
   "property": "C52",
   "status": "proved",
   "theorems": [
    "Zounds.Web.C52_recent",
    "Zounds.Web.C52_bounded",
    "Zounds.Web.C102_exact"
   ],
   "note": "C52_recent and C52_bounded for any reports, C102_exact if every sampled batch reports the key."
  },
  {
   "property": "C53",
   "status": "proved",
   "theorems": [
    "Zounds.Spectral.C53_mdct",
    "Zounds.Spectral.C53_imdct",
    "Zounds.Spectral.C53_alias",
    "Zounds.Spectral.C53_odd",
    "Zounds.Spectral.C53_tdac",
    "Zounds.Spectral.C53_roundtrip"
   ],
   "note": "np.fft is the exact DFT, reals stand for floats. The gain is 1/oggMax^2 (slightly above one, bounded in C50_ogg_gain_bound)."
  },
  {
   "property": "C54",
   "status": "proved",
   "theorems": [
    "Zounds.Spectral.C54_fft_inverse",
    "Zounds.Spectral.C54_fft_padded",
    "Zounds.Spectral.C54_fft_roundtrip",
    "Zounds.Spectral.C54_dct_inverse",
    "Zounds.Spectral.C54_idct_inverse",
    "Zounds.Spectral.C54_dct_roundtrip",
    "Zounds.Spectral.C54_irfft_inverse",
    "Zounds.Spectral.C54_irfft_short"
   ],
   "note": ""
  },
  {
   "property": "C55",
   "status": "proved",
   "theorems": [
    "Zounds.Spectral.C55_computes",
    "Zounds.Spectral.C55_single"
   ],
   "note": ""
  },
  {
   "property": "C56",
   "status": "proved",
   "theorems": [
    "Zounds.Spectral.C56_inverse",
    "Zounds.Spectral.C56_resample_same",
    "Zounds.Spectral.C56_resample_length",
    "Zounds.Spectral.C56_window_cached",
    "Zounds.Spectral.C56_short_time",
    "Zounds.Spectral.C56_decompose"
   ],
   "note": ""
  },
  {
   "property": "C57",
   "status": "proved",
   "theorems": [
    "Zounds.Spectral.C57_delay"
   ],
   "note": ""
  },
  {
   "property": "C58",
   "status": "proved",
   "theorems": [
    "Zounds.Spectral.C58_stretch_length",
    "Zounds.Spectral.C58_unit_factor",
    "Zounds.Spectral.C58_pitch_length",
    "Zounds.Spectral.C58_vocoder",
    "Zounds.Spectral.C58_pitch_content"
   ],
   "note": ""
  },
  {
   "property": "C59",
   "status": "proved",
   "theorems": [
    "Zounds.Decompose.C59_bands",
    "Zounds.Decompose.C59_refused",
    "Zounds.Decompose.C59_synthesis",
    "Zounds.Decompose.C59_reconstruct",
    "Zounds.Decompose.C59_disjoint",
    "Zounds.Decompose.C59_reconstruct_refuted"
   ],
   "note": "scipy.signal.resample is an arbitrary function with the requested output length; reconstruction needs it to leave a row of the right length alone and zeros zero. C59_reconstruct_refuted shows what is lost when the windows' own size is not requested."
  },
  {
   "property": "C60",
   "status": "proved",
   "theorems": [
    "Zounds.FaTransform.C60_dct",
    "Zounds.FaTransform.C60_dct_exact",
    "Zounds.FaTransform.C60_fft",
    "Zounds.FaTransform.C60_fft_exact",
    "Zounds.FaTransform.C60_check",
    "Zounds.FaTransform.C60_narrow",
    "Zounds.FaTransform.C60_adjoining_refuted",
    "Zounds.FaTransform.C60_even_mismatch_refuted",
    "Zounds.FaTransform.C60_fft_ends_refuted"
   ],
   "note": "The refutations show that the conditions are needed: adjoining bands with the default window double a coefficient (C60_adjoining_refuted), the DCT node's default scale does not fit the synthesizer (C60_even_mismatch_refuted), FFT bands lose imaginary parts at their ends (C60_fft_ends_refuted)."
  },
  {
   "property": "C61",
   "status": "proved",
   "theorems": [
    "Zounds.Tones.C61_sine_count",
    "Zounds.Tones.C61_sine_count_seconds",
    "Zounds.Tones.C61_sine_samples",
    "Zounds.Tones.C61_sine_bounded",
    "Zounds.Tones.C61_sine_prefix",
    "Zounds.Tones.C61_sine_alias",
    "Zounds.Tones.C61_sine_perm",
    "Zounds.Tones.C61_sine_mix",
    "Zounds.Tones.C61_sine_errors",
    "Zounds.Tones.C61_ticks",
    "Zounds.Tones.C61_ticks_apart",
    "Zounds.Tones.C61_ticks_periodic",
    "Zounds.Tones.C61_ticks_bounded",
    "Zounds.Tones.C61_tick_step",
    "Zounds.Tones.C61_tick_drift_refuted",
    "Zounds.Tones.C61_ticks_errors",
    "Zounds.Tones.C61_tick_step_zero",
    "Zounds.Tones.C61_ticks_loud_refuted",
    "Zounds.Tones.C61_noise",
    "Zounds.Tones.C61_sample_count",
    "Zounds.Tones.C61_whole_seconds",
    "Zounds.Tones.C61_sine_one_more",
    "Zounds.Tones.C61_silence_longer_refuted",
    "Zounds.Tones.C61_silence"
   ],
   "note": "In exact arithmetic (the code computes lengths in double precision). Also shown: ticks run ahead of the clock when the tick frequency is not a whole number of samples (C61_tick_drift_refuted), ticks closer than a tenth of a second can exceed 1 (C61_ticks_loud_refuted), silence of long durations has more samples than noise of the same duration (C61_silence_longer_refuted)."
  },
  {
   "property": "C62",
   "status": "proved",
   "theorems": [
    "Zounds.Descriptors.C62_flatness_silence",
    "Zounds.Descriptors.C62_flatness_ratio",
    "Zounds.Descriptors.C62_flatness_range",
    "Zounds.Descriptors.C62_flatness_one",
    "Zounds.Descriptors.C62_flatness_zero",
    "Zounds.Descriptors.C62_flatness_scale",
    "Zounds.Descriptors.C62_flatness_perm",
    "Zounds.Descriptors.C62_centroid_value",
    "Zounds.Descriptors.C62_centroid_brighter",
    "Zounds.Descriptors.C62_bfcc_length",
    "Zounds.Descriptors.C62_bfcc_value",
    "Zounds.Descriptors.C62_bfcc_volume",
    "Zounds.Descriptors.C62_bfcc_flat"
   ],
   "note": ""
  },
  {
   "property": "C63",
   "status": "proved",
   "theorems": [
    "Zounds.Weighting.C63_a_weights",
    "Zounds.Weighting.C63_a_weights_min",
    "Zounds.Weighting.C63_a_differences",
    "Zounds.Weighting.C63_a_1000",
    "Zounds.Weighting.C63_a_lt_two",
    "Zounds.Weighting.C63_multiply",
    "Zounds.Weighting.C63_inverse",
    "Zounds.Weighting.C63_no_frequency_dimension",
    "Zounds.Weighting.C63_explicit",
    "Zounds.Weighting.C63_adaptive",
    "Zounds.Weighting.C63_weights_of_array",
    "Zounds.Weighting.C63_plain",
    "Zounds.Weighting.C63_no_bands"
   ],
   "note": "Over the reals."
  },
  {
   "property": "C64",
   "status": "proved",
   "theorems": [
    "Zounds.ScaleApply.C64_apply",
    "Zounds.ScaleApply.C64_local",
    "Zounds.ScaleApply.C64_ones",
    "Zounds.ScaleApply.C64_bark_nonneg",
    "Zounds.ScaleApply.C64_windowed_add",
    "Zounds.ScaleApply.C64_windowed_scale",
    "Zounds.ScaleApply.C64_chroma",
    "Zounds.ScaleApply.C64_chroma_octave",
    "Zounds.ScaleApply.C64_chroma_tones"
   ],
   "note": ""
  },
  {
   "property": "C65",
   "status": "proved",
   "theorems": [
    "Zounds.Props.C02_all_samples_used_fails",
    "Zounds.Props.C02_all_samples_used_iff"
   ],
   "note": "C02_all_samples_used_iff is the equivalence; C02_all_samples_used_fails windows of 5 every 4 samples that drop the 14th of 14 samples."
  },
  {
   "property": "C66",
   "status": "proved",
   "theorems": [
    "Zounds.Props.C03_final_count_depends_on_chunking_fails",
    "Zounds.Props.C03_step_larger_than_window_fails",
    "Zounds.Props.C03_final_windows",
    "Zounds.Props.C03_chunking_independent",
    "Zounds.Props.C66_exact"
   ],
   "note": "C66_exact is the equivalence; C03_final_windows proves what the padded windows are, C03_final_count_depends_on_chunking_fails that their number varies."
  },
  {
   "property": "C67",
   "status": "proved",
   "theorems": [
    "Zounds.Props.C05_negative_bounds_fails",
    "Zounds.Props.C05_python_slice",
    "Zounds.Props.C67_exact"
   ],
   "note": "C67_exact gives all such slices; C05_negative_bounds_fails one that returns samples; all other bounds are C05_python_slice."
  },
  {
   "property": "C68",
   "status": "proved",
   "theorems": [
    "Zounds.Props.C06_and_start_fails",
    "Zounds.Props.C06_and_duration",
    "Zounds.Props.C68_exact"
   ],
   "note": "C68_exact is the equivalence, C06_and_duration the duration, C06_and_start_fails a witness."
  },
  {
   "property": "C69",
   "status": "proved",
   "theorems": [
    "Zounds.Props.Growable.C10_oversized_position_fails",
    "Zounds.Props.Growable.C10_growable_is_list",
    "Zounds.Props.Growable.C69_exact"
   ],
   "note": "C69_exact; C10_oversized_position_fails a position whose append raises; C10_growable_is_list everything with a position inside the array."
  },
  {
   "property": "C70",
   "status": "proved",
   "theorems": [
    "Zounds.Props.HammingDb.C11_commit_failure_fails",
    "Zounds.Props.HammingDb.C11_instances_agree",
    "Zounds.Props.HammingDb.C70_exact",
    "Zounds.Props.HammingDb.C70_store"
   ],
   "note": "C70_exact is the equivalence, C70_store what the store holds; C11_commit_failure_fails shows what a failed commit does to later searches."
  },
  {
   "property": "C71",
   "status": "proved",
   "theorems": [
    "Zounds.Props.HammingDb.C12_all_results_fails",
    "Zounds.Props.HammingDb.C12_nearest",
    "Zounds.Props.HammingDb.C71_exact"
   ],
   "note": "C71_exact; what is found is C12_nearest."
  },
  {
   "property": "C72",
   "status": "proved",
   "theorems": [
    "Zounds.Props.HammingDb.C15_stored_codes_fails",
    "Zounds.Props.HammingDb.C15_zero_size_fails",
    "Zounds.Props.HammingDb.C15_stored_codes",
    "Zounds.Props.HammingDb.C15_open_outcome",
    "Zounds.Props.HammingDb.C72_exact"
   ],
   "note": "C72_exact, and C15_open_outcome for opening (with C15_stored_codes_fails and C15_zero_size_fails as the surprising cases)."
  },
  {
   "property": "C73",
   "status": "proved",
   "theorems": [
    "Zounds.Props.HammingIndex.C16_restart_fails",
    "Zounds.Props.HammingIndex.C16_initialised_after_first",
    "Zounds.Props.HammingIndex.C16_crash_partial",
    "Zounds.Props.HammingIndex.C16_crash_loses",
    "Zounds.Props.HammingIndex.C16_crash_duplicates",
    "Zounds.Props.HammingIndex.C16_add_all_then_listen_duplicates",
    "Zounds.Props.HammingIndex.C16_first_run",
    "Zounds.Props.HammingIndex.C16_crash_prefix",
    "Zounds.Props.HammingIndex.C16_add_all"
   ],
   "note": "C16_first_run, C16_restart_fails, C16_initialised_after_first, C16_crash_prefix, C16_crash_partial (complete description of both outcomes; the name records that the original claim fails), C16_crash_loses, C16_crash_duplicates (both occur), C16_add_all, C16_add_all_then_listen_duplicates."
  },
  {
   "property": "C74",
   "status": "proved",
   "theorems": [
    "Zounds.Props.Persist.C17_negative_fails",
    "Zounds.Props.Persist.C17_open_slice_fails",
    "Zounds.Props.Persist.C17_timedelta_roundtrip",
    "Zounds.Props.Persist.C17_timeslice_roundtrip",
    "Zounds.Props.Persist.C74_exact",
    "Zounds.Props.Persist.C74_slice_exact"
   ],
   "note": "C74_exact and C74_slice_exact; C17_negative_fails and C17_open_slice_fails name the exceptions."
  },
  {
   "property": "C75",
   "status": "proved",
   "theorems": [
    "Zounds.Props.Persist.C18_packed_feature_unusable",
    "Zounds.Props.Persist.C18_packed_partial",
    "Zounds.Props.Persist.C18_feature_usable"
   ],
   "note": "C18_packed_feature_unusable, C18_feature_usable, and C18_packed_partial for the encoder and decoder."
  },
  {
   "property": "C76",
   "status": "proved",
   "theorems": [
    "Zounds.Props.DimCodec.C19_scale_subclass_fails",
    "Zounds.Props.DimCodec.C19_geometric_subclass_fails",
    "Zounds.Props.DimCodec.C19_tuple_slices_fails",
    "Zounds.Props.DimCodec.C19_roundtrip",
    "Zounds.Props.DimCodec.C76_exact",
    "Zounds.Props.DimCodec.C76_subclass"
   ],
   "note": "C76_exact and C76_subclass; C19_tuple_slices_fails shows that what comes back from a tuple compares unequal."
  },
  {
   "property": "C77",
   "status": "proved",
   "theorems": [
    "Zounds.Props.Frequency.C20_even_fails",
    "Zounds.Props.Frequency.C20_never_even",
    "Zounds.Props.Frequency.C20_perceptual_slice_fails",
    "Zounds.Props.Frequency.C20_mixed_perceptual_fails",
    "Zounds.Props.Frequency.C20_even_partial",
    "Zounds.Props.Frequency.C77_exact"
   ],
   "note": "C77_exact, C20_never_even, C20_perceptual_slice_fails, C20_mixed_perceptual_fails."
  },
  {
   "property": "C78",
   "status": "proved",
   "theorems": [
    "Zounds.Props.Frequency.C21_linear_small_fails",
    "Zounds.Props.Frequency.C21_slice_one_band_fails",
    "Zounds.Props.Frequency.C21_slice_empty_fails",
    "Zounds.Props.Frequency.C21_slice_forgets_even",
    "Zounds.Props.Frequency.C21_slice_int",
    "Zounds.Props.Frequency.C21_slice_band",
    "Zounds.Props.Frequency.C78_exact"
   ],
   "note": "C78_exact (slices by position) and C21_slice_band (by frequency), C21_linear_small_fails."
  },
  {
   "property": "C79",
   "status": "proved",
   "theorems": [
    "Zounds.Props.Frequency.C23_explicit_eq_fails",
    "Zounds.Props.Frequency.C23_not_symmetric",
    "Zounds.Props.Frequency.C23_ignores_even",
    "Zounds.Props.Frequency.C23_tuple_vs_list",
    "Zounds.Props.Frequency.C23_duplicate_band_fails",
    "Zounds.Props.Frequency.C23_explicit_eq",
    "Zounds.Props.Frequency.C23_dimension_eq",
    "Zounds.Props.Frequency.C23_lookup",
    "Zounds.Props.Frequency.C79_exact",
    "Zounds.Props.Frequency.C79_lookup",
    "Zounds.Props.Frequency.C23_scale_eq"
   ],
   "note": "C79_exact, C79_lookup; C23_not_symmetric and C23_ignores_even for the other kinds of scales, whose equality is C23_scale_eq."
  },
  {
   "property": "C80",
   "status": "proved",
   "theorems": [
    "Zounds.Onset.C25_zero_length_slice",
    "Zounds.Onset.C25_isolated_peak_missed",
    "Zounds.Onset.C25_flux_refused",
    "Zounds.Onset.C25_positive_durations",
    "Zounds.Onset.C25_moving_average_rule",
    "Zounds.Onset.C80_exact",
    "Zounds.Onset.C80_flux",
    "Zounds.Onset.C80_peak"
   ],
   "note": "C80_exact, C80_peak, C80_flux, C25_moving_average_rule."
  },
  {
   "property": "C81",
   "status": "proved",
   "theorems": [
    "Zounds.Reservoir.C26_batches_not_uniform",
    "Zounds.Reservoir.C26_late_rows_ignored",
    "Zounds.Reservoir.C26_uniform_row_by_row",
    "Zounds.Reservoir.C81_exact"
   ],
   "note": "C81_exact; C26_uniform_row_by_row is the other half, C26_late_rows_ignored the reason."
  },
  {
   "property": "C82",
   "status": "proved",
   "theorems": [
    "Zounds.Reservoir.C27_refused_add_misaligns",
    "Zounds.Reservoir.C27_interleaved_adds_misalign",
    "Zounds.Reservoir.C27_negative_index_counted_twice",
    "Zounds.Reservoir.C27_aligned",
    "Zounds.Reservoir.C82_order",
    "Zounds.Reservoir.C82_refused"
   ],
   "note": "C27_aligned, C82_refused, C82_order; C27_interleaved_adds_misalign is a case with a common row, C27_negative_index_counted_twice another way to miscount."
  },
  {
   "property": "C83",
   "status": "proved",
   "theorems": [
    "Zounds.Merge.C28_zero_width_rows_lost",
    "Zounds.Merge.C28_sum_always_fails",
    "Zounds.Merge.C28_merge",
    "Zounds.Merge.C83_exact",
    "Zounds.Merge.C83_sum"
   ],
   "note": "C83_exact, C83_sum, and C28_merge for rows with columns under every schedule."
  },
  {
   "property": "C84",
   "status": "proved",
   "theorems": [
    "Zounds.Pipeline.C29_constant_feature_lost",
    "Zounds.Pipeline.C29_silence_is_uninitialised",
    "Zounds.Pipeline.C29_unit_norm_one_dimensional",
    "Zounds.Pipeline.C29_unit_norm_square",
    "Zounds.Pipeline.C29_mean_std",
    "Zounds.Pipeline.C29_unit_norm",
    "Zounds.Pipeline.C29_instance_scaling",
    "Zounds.Pipeline.C84_exact"
   ],
   "note": "C84_exact; C29_constant_feature_lost, C29_silence_is_uninitialised and C29_unit_norm_one_dimensional show the exceptions."
  },
  {
   "property": "C85",
   "status": "proved",
   "theorems": [
    "Zounds.Http.C30_inclusive_refuted",
    "Zounds.Http.C30_first_byte_refuted",
    "Zounds.Http.C30_suffix_refuted",
    "Zounds.Http.C30_multi_range_refuted",
    "Zounds.Http.C30_unsatisfiable_refuted",
    "Zounds.Http.C30_reversed_refuted",
    "Zounds.Http.C30_seconds_zero_refuted",
    "Zounds.Http.C30_closed_partial",
    "Zounds.Http.C85_exact"
   ],
   "note": "C85_exact is the equivalence; C30_closed_partial, C30_inclusive_refuted, C30_first_byte_refuted, C30_suffix_refuted, C30_multi_range_refuted, C30_unsatisfiable_refuted, C30_reversed_refuted, C30_seconds_zero_refuted say what each form gets, for every file and all numbers (their names record that RFC 7233 demands something else)."
  },
  {
   "property": "C86",
   "status": "proved",
   "theorems": [
    "Zounds.Midi.C31_spellings_refuted",
    "Zounds.Midi.C31_float_refuted",
    "Zounds.Midi.C31_accepts_iff",
    "Zounds.Midi.C31_octave_text"
   ],
   "note": "C31_accepts_iff and C31_octave_text are the grammar, C31_float_refuted the floats, C31_spellings_refuted the spellings that are refused."
  },
  {
   "property": "C87",
   "status": "proved",
   "theorems": [
    "Zounds.Buffer.C32_seek_refuted",
    "Zounds.Buffer.C32_stale_tell_refuted",
    "Zounds.Buffer.C32_seek_partial",
    "Zounds.Buffer.C87_exact",
    "Zounds.Buffer.C87_tell"
   ],
   "note": "C87_exact and C87_tell; C32_seek_refuted and C32_stale_tell_refuted show what happens otherwise."
  },
  {
   "property": "C88",
   "status": "proved",
   "theorems": [
    "Zounds.Ogg.C33_drift_refuted",
    "Zounds.Ogg.C33_iter_chunks_partial",
    "Zounds.Ogg.C88_exact",
    "Zounds.Ogg.C88_cd_rate",
    "Zounds.Ogg.C33_iter_chunks_exact"
   ],
   "note": "C88_exact (for rates below a million), C33_drift_refuted (which frame is skipped at 44100 and 96000 Hz), C33_iter_chunks_exact."
  },
  {
   "property": "C89",
   "status": "proved",
   "theorems": [
    "Zounds.Audio.C34_mono_stereo_refuted",
    "Zounds.Audio.C34_stereo_mono_refuted",
    "Zounds.Audio.C34_stereo_column_refuted",
    "Zounds.Audio.C34_silence_one_refuted",
    "Zounds.Audio.C34_silence_like_refuted",
    "Zounds.Audio.C34_pad_refuted",
    "Zounds.Audio.C34_sub_rates_refuted",
    "Zounds.Audio.C34_duration_refuted",
    "Zounds.Audio.C34_duration_short_refuted",
    "Zounds.Audio.C34_silence",
    "Zounds.Audio.C34_pad",
    "Zounds.Audio.C34_mono_average",
    "Zounds.Audio.C89_mono",
    "Zounds.Audio.C89_silence"
   ],
   "note": "C89_mono, C89_silence, and C34_stereo_mono_refuted, C34_stereo_column_refuted, C34_silence_one_refuted, C34_silence_like_refuted, C34_pad_refuted, C34_sub_rates_refuted, C34_duration_refuted, C34_duration_short_refuted, C34_pad, C34_mono_average, C34_silence, all for every signal."
  },
  {
   "property": "C90",
   "status": "proved",
   "theorems": [
    "Zounds.Learn.C38_empty_refuted",
    "Zounds.Learn.C38_mixing_refuted",
    "Zounds.Learn.C38_pieces",
    "Zounds.Learn.C90_exact"
   ],
   "note": "C90_exact, C38_empty_refuted; C38_pieces says what is computed for every network."
  },
  {
   "property": "C91",
   "status": "proved",
   "theorems": [
    "Zounds.Learn.C39_one_more_refuted",
    "Zounds.Learn.C39_one_call_refuted",
    "Zounds.Learn.C39_triplet_small_refuted",
    "Zounds.Learn.C39_bound_method_refuted",
    "Zounds.Learn.C39_errors_swapped_refuted",
    "Zounds.Learn.C39_exact_epochs",
    "Zounds.Learn.C39_many",
    "Zounds.Learn.C91_one_call",
    "Zounds.Learn.C91_calls",
    "Zounds.Learn.C91_reports"
   ],
   "note": "C91_one_call, C91_calls, C91_reports; C39_triplet_small_refuted, C39_bound_method_refuted, C39_one_more_refuted, C39_exact_epochs are universal."
  },
  {
   "property": "C92",
   "status": "proved",
   "theorems": [
    "Zounds.Ingest.C41_serial_refuted",
    "Zounds.Ingest.C41_duplicates_refuted",
    "Zounds.Ingest.C41_no_request_refuted",
    "Zounds.Ingest.C41_exactly_once",
    "Zounds.Ingest.C41_duplicates",
    "Zounds.Ingest.C92_exact"
   ],
   "note": "C92_exact, C41_duplicates, C41_no_request_refuted, C41_serial_refuted."
  },
  {
   "property": "C93",
   "status": "proved",
   "theorems": [
    "Zounds.Datasets.C42_one_more_refuted",
    "Zounds.Datasets.C42_repeats_refuted",
    "Zounds.Datasets.C42_no_results_refuted",
    "Zounds.Datasets.C42_first_partial",
    "Zounds.Datasets.C42_yields",
    "Zounds.Datasets.C42_limit",
    "Zounds.Datasets.C42_negative"
   ],
   "note": "C42_yields, C42_limit, C42_no_results_refuted, C42_one_more_refuted, C42_repeats_refuted, C42_negative."
  },
  {
   "property": "C94",
   "status": "proved",
   "theorems": [
    "Zounds.Datasets.C43_crash_refuted",
    "Zounds.Datasets.C43_failure_refuted",
    "Zounds.Datasets.C43_error_page_refuted",
    "Zounds.Datasets.C43_name_refuted",
    "Zounds.Datasets.C43_slash_refuted",
    "Zounds.Datasets.C43_dataset_cache_refuted",
    "Zounds.Datasets.C43_complete_partial",
    "Zounds.Datasets.C94_exact",
    "Zounds.Datasets.C94_crash_safe",
    "Zounds.Datasets.C43_cached"
   ],
   "note": "C94_exact, C94_crash_safe; C43_cached, C43_failure_refuted, C43_error_page_refuted, C43_name_refuted, C43_slash_refuted, C43_dataset_cache_refuted. Without interruptions and with proper answers files are complete: C43_complete_partial."
  },
  {
   "property": "C95",
   "status": "proved",
   "theorems": [
    "Zounds.Props.VariableRate.C45_span_covers_fails",
    "Zounds.Props.VariableRate.C45_span_partial",
    "Zounds.Props.VariableRate.C95_exact"
   ],
   "note": "C95_exact is the equivalence; C45_span_covers_fails a series whose span does not cover it."
  },
  {
   "property": "C96",
   "status": "proved",
   "theorems": [
    "Zounds.Props.Loudness.C46_unit_scale_constant_fails",
    "Zounds.Props.Loudness.C46_unit_scale",
    "Zounds.Props.Loudness.C96_exact"
   ],
   "note": "C96_exact, C46_unit_scale_constant_fails."
  },
  {
   "property": "C97",
   "status": "proved",
   "theorems": [
    "Zounds.Web.C47_empty_secret_refuted",
    "Zounds.Web.C47_login_substring_refuted",
    "Zounds.Web.C47_patch_refuted",
    "Zounds.Web.C47_anonymous",
    "Zounds.Web.C97_exact"
   ],
   "note": "C97_exact."
  },
  {
   "property": "C98",
   "status": "proved",
   "theorems": [
    "Zounds.Props.Psycho.C48_bands_inside_fails",
    "Zounds.Props.Psycho.C48_full_slice_fails",
    "Zounds.Props.Psycho.C48_bark_scale",
    "Zounds.Props.Psycho.C48_mel_scale",
    "Zounds.Props.Psycho.C98_exact"
   ],
   "note": "C98_exact, C48_full_slice_fails; the shapes are C48_bark_scale and C48_mel_scale."
  },
  {
   "property": "C99",
   "status": "proved",
   "theorems": [
    "Zounds.Props.Loudness.C49_round_trip_fails",
    "Zounds.Props.Loudness.C49_round_trip_partial",
    "Zounds.Props.Loudness.C49_normalized_silence",
    "Zounds.Props.Loudness.C99_exact",
    "Zounds.Props.Loudness.C99_not_back",
    "Zounds.Props.Loudness.C49_normalized"
   ],
   "note": "C99_exact, C99_not_back, C49_round_trip_fails, C49_normalized, C49_normalized_silence."
  },
  {
   "property": "C100",
   "status": "proved",
   "theorems": [
    "Zounds.WindowFunc.C50_integer_refuted",
    "Zounds.WindowFunc.C50_channels_refuted",
    "Zounds.WindowFunc.C50_hanning_stereo_refuted",
    "Zounds.WindowFunc.C50_ogg_stereo_refuted",
    "Zounds.WindowFunc.C50_hanning_shift_refuted",
    "Zounds.WindowFunc.C50_princen_bradley_refuted",
    "Zounds.WindowFunc.C50_weights",
    "Zounds.WindowFunc.C50_ogg_roundtrip",
    "Zounds.WindowFunc.C50_ogg_power"
   ],
   "note": "C50_integer_refuted, C50_channels_refuted, C50_hanning_stereo_refuted, C50_ogg_stereo_refuted, C50_ogg_power, C50_princen_bradley_refuted, C50_ogg_roundtrip, C50_hanning_shift_refuted: all universal."
  },
  {
   "property": "C101",
   "status": "proved",
   "theorems": [
    "Zounds.Web.C51_temp_refuted",
    "Zounds.Web.C51_base_path_refuted",
    "Zounds.Web.C51_dispatch",
    "Zounds.Web.C101_base_path"
   ],
   "note": "C101_base_path, C51_dispatch, C51_temp_refuted."
  },
  {
   "property": "C102",
   "status": "proved",
   "theorems": [
    "Zounds.Web.C52_exact_refuted",
    "Zounds.Web.C52_bounded",
    "Zounds.Web.C52_recent",
    "Zounds.Web.C102_exact"
   ],
   "note": "C102_exact; with missing values C52_recent and C52_bounded."
  },
  {
   "property": "C103",
   "status": "proved",
   "theorems": [
    "Zounds.Spectral.C54_fft_odd_refuted",
    "Zounds.Spectral.C54_fft_padded_synthesis_refuted",
    "Zounds.Spectral.C54_fft_roundtrip",
    "Zounds.Spectral.C54_fft_padded",
    "Zounds.Spectral.C103_exact"
   ],
   "note": "C103_exact, C54_fft_odd_refuted, C54_fft_padded, C54_fft_padded_synthesis_refuted, C54_fft_roundtrip."
  },
  {
   "property": "C104",
   "status": "proved",
   "theorems": [
    "Zounds.Spectral.C55_involution_refuted",
    "Zounds.Spectral.C55_computes",
    "Zounds.Spectral.C55_single",
    "Zounds.Spectral.C104_exact"
   ],
   "note": "C104_exact, C55_computes."
  },
  {
   "property": "C105",
   "status": "proved",
   "theorems": [
    "Zounds.Spectral.C56_inverse_refuted",
    "Zounds.Spectral.C56_window_refuted",
    "Zounds.Spectral.C56_short_time_refuted",
    "Zounds.Spectral.C56_inverse",
    "Zounds.Spectral.C56_short_time",
    "Zounds.Spectral.C105_inverse",
    "Zounds.Spectral.C105_window",
    "Zounds.Spectral.C105_layout"
   ],
   "note": "C105_inverse, C105_window, C105_layout; C56_inverse and C56_short_time give the results in all cases."
  },
  {
   "property": "C106",
   "status": "proved",
   "theorems": [
    "Zounds.Spectral.C57_half_window_refuted",
    "Zounds.Spectral.C57_delay",
    "Zounds.Spectral.C106_exact"
   ],
   "note": "C106_exact, C57_delay, C57_half_window_refuted."
  },
  {
   "property": "C107",
   "status": "proved",
   "theorems": [
    "Zounds.Spectral.C58_unit_factor_refuted",
    "Zounds.Spectral.C58_pitch_length_refuted",
    "Zounds.Spectral.C58_semitones_fract",
    "Zounds.Spectral.C58_unit_factor",
    "Zounds.Spectral.C58_pitch_length",
    "Zounds.Spectral.C107_stretch",
    "Zounds.Spectral.C107_pitch"
   ],
   "note": "C107_stretch, C107_pitch, C58_semitones_fract, C58_unit_factor_refuted, C58_pitch_length."
  },
  {
   "property": "C108",
   "status": "proved",
   "theorems": [
    "Zounds.Descriptors.C62_centroid_volume_refuted",
    "Zounds.Descriptors.C62_centroid_order_refuted",
    "Zounds.Descriptors.C62_bfcc_volume_refuted",
    "Zounds.Descriptors.C62_centroid_partial",
    "Zounds.Descriptors.C62_bfcc_volume",
    "Zounds.Descriptors.C108_centroid",
    "Zounds.Descriptors.C108_bfcc"
   ],
   "note": "C108_centroid, C108_bfcc, C62_bfcc_volume, C62_centroid_partial (relation to the centre of mass)."
  },
  {
   "property": "C109",
   "status": "proved",
   "theorems": [
    "Zounds.Weighting.C63_explicit_band_refuted",
    "Zounds.Weighting.C63_slice_refuted",
    "Zounds.Weighting.C63_plain_weights_refuted",
    "Zounds.Weighting.C63_weights_of_array",
    "Zounds.Weighting.C63_multiply",
    "Zounds.Weighting.C109_band",
    "Zounds.Weighting.C109_first",
    "Zounds.Weighting.C109_part",
    "Zounds.Weighting.C109_plain"
   ],
   "note": "C109_band, C109_first, C109_part, C109_plain, C63_multiply, C63_weights_of_array."
  },
  {
   "property": "C110",
   "status": "proved",
   "theorems": [
    "Zounds.ScaleApply.C64_chroma_tone_refuted",
    "Zounds.ScaleApply.C64_chroma",
    "Zounds.ScaleApply.C64_chroma_tones"
   ],
   "note": "C64_chroma, C64_chroma_tones, C64_chroma_tone_refuted."
  },
  {
   "property": "C111",
   "status": "proved",
   "theorems": [
    "Zounds.Arr.C36_none_then_time",
    "Zounds.Arr.C36_none_then_time_wrong",
    "Zounds.Arr.C36_ellipsis_time_none_wrong",
    "Zounds.Arr.C36_numpy_integer_refused",
    "Zounds.Arr.C36_integer_array_refused",
    "Zounds.Arr.C36_integer_and_list_swap",
    "Zounds.Arr.C36_two_lists_refused",
    "Zounds.Arr.C36_step_keeps_frequency",
    "Zounds.Arr.C36_dot_wrong_columns",
    "Zounds.Arr.C36_windows_second_axis_swap",
    "Zounds.Arr.C36_windows_two_time_axes",
    "Zounds.Arr.C36_reshape_same_shape",
    "Zounds.Arr.C36_squeeze_empty",
    "Zounds.Arr.C36_getitem",
    "Zounds.Arr.C111_refused",
    "Zounds.Arr.C111_none",
    "Zounds.Arr.C111_dot",
    "Zounds.Arr.C111_reshape",
    "Zounds.Arr.C111_windows",
    "Zounds.AudioIndex.C243_step_refuted"
   ],
   "note": "C111_refused, C111_none, C243_step_refuted, C111_dot, C111_reshape, C111_windows, C36_none_then_time, C36_none_then_time_wrong, C36_ellipsis_time_none_wrong, C36_numpy_integer_refused, C36_integer_array_refused, C36_integer_and_list_swap, C36_two_lists_refused, C36_step_keeps_frequency, C36_dot_wrong_columns, C36_windows_second_axis_swap, C36_windows_two_time_axes, C36_reshape_same_shape, C36_squeeze_empty, C36_getitem."
  },
  {
   "property": "C112",
   "status": "proved",
   "theorems": [
    "Zounds.BruteForce.C44_results_once_refuted",
    "Zounds.BruteForce.C44_search"
   ],
   "note": "C44_results_once_refuted (every search, every two iterations), C44_search."
  },
  {
   "property": "C113",
   "status": "proved",
   "theorems": [
    "Zounds.Decompose.C59_reconstruct_refuted",
    "Zounds.Decompose.C59_reconstruct",
    "Zounds.Decompose.C113_exact"
   ],
   "note": "C113_exact, C59_reconstruct; C59_reconstruct_refuted is a case where it does not."
  },
  {
   "property": "C114",
   "status": "proved",
   "theorems": [
    "Zounds.FaTransform.C60_adjoining_refuted",
    "Zounds.FaTransform.C60_even_mismatch_refuted",
    "Zounds.FaTransform.C60_fft_ends_refuted",
    "Zounds.FaTransform.C60_dct",
    "Zounds.FaTransform.C60_fft",
    "Zounds.FaTransform.C114_dct",
    "Zounds.FaTransform.C114_fft"
   ],
   "note": "C114_dct, C114_fft, C60_adjoining_refuted, C60_even_mismatch_refuted, C60_fft_ends_refuted."
  },
  {
   "property": "C115",
   "status": "proved",
   "theorems": [
    "Zounds.Tones.C61_tick_drift_refuted",
    "Zounds.Tones.C61_ticks_loud_refuted",
    "Zounds.Tones.C61_silence_longer_refuted",
    "Zounds.Tones.C61_ticks",
    "Zounds.Tones.C61_silence",
    "Zounds.Tones.C115_time",
    "Zounds.Tones.C115_range",
    "Zounds.Tones.C115_silence",
    "Zounds.Tones.C61_tick_step"
   ],
   "note": "C115_time, C115_range, C115_silence, C61_ticks, C61_tick_step."
  },
  {
   "property": "C116",
   "status": "proved",
   "theorems": [
    "Zounds.Resample.C116_output",
    "Zounds.Resample.C116_succeeds",
    "Zounds.Resample.C116_refused"
   ],
   "note": "The native library is an arbitrary stateful function; its contract (Honest) is a hypothesis. The product length times ratio is exact, not float64."
  },
  {
   "property": "C117",
   "status": "proved",
   "theorems": [
    "Zounds.Resample.C117_same_rate"
   ],
   "note": ""
  },
  {
   "property": "C118",
   "status": "proved",
   "theorems": [
    "Zounds.Resample.C118_requests"
   ],
   "note": "Chunks contiguous in memory (C123 for others)."
  },
  {
   "property": "C119",
   "status": "proved",
   "theorems": [
    "Zounds.Resample.C119_total"
   ],
   "note": ""
  },
  {
   "property": "C120",
   "status": "proved",
   "theorems": [
    "Zounds.Resample.C120_samples"
   ],
   "note": ""
  },
  {
   "property": "C121",
   "status": "proved",
   "theorems": [
    "Zounds.Resample.C121_exact",
    "Zounds.Resample.C121_chunking_refuted",
    "Zounds.Resample.C119_total"
   ],
   "note": "C121_exact; the number in all cases is C119_total; C121_chunking_refuted is a case that differs."
  },
  {
   "property": "C122",
   "status": "proved",
   "theorems": [
    "Zounds.Resample.C122_one_sample_refuted",
    "Zounds.Resample.C122_room"
   ],
   "note": "C122_one_sample_refuted is the bad case, C122_room all others."
  },
  {
   "property": "C123",
   "status": "proved",
   "theorems": [
    "Zounds.Resample.C123_exact",
    "Zounds.Resample.C123_layout_refuted",
    "Zounds.Resample.C118_requests"
   ],
   "note": "C123_exact, C118_requests, C123_layout_refuted."
  },
  {
   "property": "C124",
   "status": "proved",
   "theorems": [
    "Zounds.Resample.C124_later_rate_refuted",
    "Zounds.Resample.C124_later_ratio_refuted",
    "Zounds.Resample.C117_same_rate",
    "Zounds.Resample.C116_output"
   ],
   "note": "C117_same_rate, C116_output, C124_later_rate_refuted, C124_later_ratio_refuted."
  },
  {
   "property": "C125",
   "status": "proved",
   "theorems": [
    "Zounds.Conv.C125_convolve",
    "Zounds.Conv.C125_log_magnitude",
    "Zounds.Conv.C125_forward"
   ],
   "note": ""
  },
  {
   "property": "C126",
   "status": "proved",
   "theorems": [
    "Zounds.Conv.C126_adjoint"
   ],
   "note": ""
  },
  {
   "property": "C127",
   "status": "proved",
   "theorems": [
    "Zounds.Conv.C127_normalize",
    "Zounds.Conv.C127_single",
    "Zounds.Conv.C127_forward"
   ],
   "note": ""
  },
  {
   "property": "C128",
   "status": "proved",
   "theorems": [
    "Zounds.Conv.C128_pooling",
    "Zounds.Conv.C128_transform",
    "Zounds.Conv.C128_single_refused",
    "Zounds.Conv.C128_single_frame_refused"
   ],
   "note": ""
  },
  {
   "property": "C129",
   "status": "proved",
   "theorems": [
    "Zounds.Conv.C129_features",
    "Zounds.Conv.C129_cosine_range",
    "Zounds.Conv.C129_cosine_self",
    "Zounds.Conv.C129_squared"
   ],
   "note": ""
  },
  {
   "property": "C130",
   "status": "proved",
   "theorems": [
    "Zounds.Conv.C130_multiresolution",
    "Zounds.Conv.C130_gate",
    "Zounds.Conv.C130_sinc_band",
    "Zounds.Conv.C130_feature_map_size"
   ],
   "note": ""
  },
  {
   "property": "C131",
   "status": "proved",
   "theorems": [
    "Zounds.Conv.C131_parity_refuted",
    "Zounds.Conv.C131_exact"
   ],
   "note": "C131_exact is the equivalence; C131_parity_refuted kernels of sizes 3 and 4 at stride one."
  },
  {
   "property": "C132",
   "status": "proved",
   "theorems": [
    "Zounds.Conv.C132_labels_refuted",
    "Zounds.Conv.C132_exact",
    "Zounds.Conv.C128_pooling",
    "Zounds.Conv.C128_transform"
   ],
   "note": "C132_exact, C128_pooling, C128_transform, C132_labels_refuted."
  },
  {
   "property": "C133",
   "status": "proved",
   "theorems": [
    "Zounds.Conv.C133_sinc_order_refuted",
    "Zounds.Conv.C133_sinc_stop_refuted",
    "Zounds.Conv.C133_exact"
   ],
   "note": "C133_exact, C133_sinc_order_refuted, C133_sinc_stop_refuted."
  },
  {
   "property": "C134",
   "status": "proved",
   "theorems": [
    "Zounds.Loss.C134_mu_law",
    "Zounds.Loss.C134_onto"
   ],
   "note": ""
  },
  {
   "property": "C135",
   "status": "proved",
   "theorems": [
    "Zounds.Loss.C135_discretized",
    "Zounds.Loss.C135_degenerate"
   ],
   "note": "C135_discretized, C135_degenerate."
  },
  {
   "property": "C136",
   "status": "proved",
   "theorems": [
    "Zounds.Loss.C136_one_hot",
    "Zounds.Loss.C136_rows"
   ],
   "note": ""
  },
  {
   "property": "C137",
   "status": "proved",
   "theorems": [
    "Zounds.Loss.C137_loss",
    "Zounds.Loss.C137_odd_refused"
   ],
   "note": ""
  },
  {
   "property": "C138",
   "status": "proved",
   "theorems": [
    "Zounds.Loss.C138_exact",
    "Zounds.Loss.C138_self_refuted",
    "Zounds.Loss.C137_loss"
   ],
   "note": "C138_exact; C138_self_refuted is a signal whose loss with itself is over 10^11; for log probability inputs see C137_loss."
  },
  {
   "property": "C139",
   "status": "proved",
   "theorems": [
    "Zounds.Loss.C139_exact",
    "Zounds.Loss.C139_nearest_refuted"
   ],
   "note": "C139_exact is the equivalence; C139_nearest_refuted a sample of the upper half."
  },
  {
   "property": "C140",
   "status": "proved",
   "theorems": [
    "Zounds.Loss.C140_exact",
    "Zounds.Loss.C140_batch_refuted"
   ],
   "note": "C140_exact is the equivalence; C140_batch_refuted a softer example."
  },
  {
   "property": "C141",
   "status": "proved",
   "theorems": [
    "Zounds.Loss.C141_embedding_refuted"
   ],
   "note": "C141_embedding_refuted."
  },
  {
   "property": "C142",
   "status": "proved",
   "theorems": [
    "Zounds.Loss.C142_wasserstein",
    "Zounds.Loss.C142_lipschitz"
   ],
   "note": ""
  },
  {
   "property": "C143",
   "status": "proved",
   "theorems": [
    "Zounds.Loss.C143_between",
    "Zounds.Loss.C143_penalty",
    "Zounds.Loss.C143_sizes",
    "Zounds.Loss.C143_linear"
   ],
   "note": ""
  },
  {
   "property": "C144",
   "status": "proved",
   "theorems": [
    "Zounds.Loss.C144_exact",
    "Zounds.Loss.C144_audio_refuted"
   ],
   "note": "C144_exact, C144_audio_refuted. Also the penalty of wgan.py, which is the same with weight 10."
  },
  {
   "property": "C145",
   "status": "proved",
   "theorems": [
    "Zounds.Loss.C145_sample_norm",
    "Zounds.Loss.C145_unit_norm"
   ],
   "note": ""
  },
  {
   "property": "C146",
   "status": "proved",
   "theorems": [
    "Zounds.Loss.C146_band_loss",
    "Zounds.Loss.C146_features"
   ],
   "note": ""
  },
  {
   "property": "C147",
   "status": "proved",
   "theorems": [
    "Zounds.MetaData.C147_is_url",
    "Zounds.MetaData.C147_given",
    "Zounds.MetaData.C147_url",
    "Zounds.MetaData.C147_local",
    "Zounds.MetaData.C147_file",
    "Zounds.MetaData.C147_other",
    "Zounds.MetaData.C147_paths"
   ],
   "note": ""
  },
  {
   "property": "C148",
   "status": "proved",
   "theorems": [
    "Zounds.MetaData.C148_request"
   ],
   "note": ""
  },
  {
   "property": "C149",
   "status": "proved",
   "theorems": [
    "Zounds.MetaData.C149_exact",
    "Zounds.MetaData.C149_range_refuted",
    "Zounds.MetaData.C148_request"
   ],
   "note": "C149_exact, C148_request, C149_range_refuted."
  },
  {
   "property": "C150",
   "status": "proved",
   "theorems": [
    "Zounds.MetaData.C150_encode",
    "Zounds.MetaData.C150_sources"
   ],
   "note": ""
  },
  {
   "property": "C151",
   "status": "proved",
   "theorems": [
    "Zounds.MetaData.C151_file_refuted",
    "Zounds.MetaData.C150_sources"
   ],
   "note": "C151_file_refuted for files, C150_sources for everything else."
  },
  {
   "property": "C152",
   "status": "proved",
   "theorems": [
    "Zounds.MetaData.C152_new",
    "Zounds.MetaData.C152_eq"
   ],
   "note": ""
  },
  {
   "property": "C153",
   "status": "proved",
   "theorems": [
    "Zounds.MetaData.C153_extra_refuted",
    "Zounds.MetaData.C152_eq"
   ],
   "note": "C152_eq, C153_extra_refuted."
  },
  {
   "property": "C154",
   "status": "proved",
   "theorems": [
    "Zounds.Square.C154_scale",
    "Zounds.Square.C154_layout",
    "Zounds.Square.C154_refused"
   ],
   "note": ""
  },
  {
   "property": "C155",
   "status": "proved",
   "theorems": [
    "Zounds.Square.C155_overlap_add",
    "Zounds.Square.C155_half",
    "Zounds.Square.C155_no_overlap"
   ],
   "note": ""
  },
  {
   "property": "C156",
   "status": "proved",
   "theorems": [
    "Zounds.Square.C156_refuted"
   ],
   "note": "C156_refuted for all such frames; half overlap is C155, more than half C157."
  },
  {
   "property": "C157",
   "status": "proved",
   "theorems": [
    "Zounds.Square.C157_refuted"
   ],
   "note": "C157_refuted gives every entry of the result and its excess length."
  },
  {
   "property": "C158",
   "status": "proved",
   "theorems": [
    "Zounds.Correlogram.C158_values",
    "Zounds.Correlogram.C158_refused"
   ],
   "note": ""
  },
  {
   "property": "C159",
   "status": "proved",
   "theorems": [
    "Zounds.Correlogram.C159_peak",
    "Zounds.Correlogram.C159_volume"
   ],
   "note": ""
  },
  {
   "property": "C160",
   "status": "proved",
   "theorems": [
    "Zounds.FilterBanks.C160_refused",
    "Zounds.FilterBanks.C160_wave",
    "Zounds.FilterBanks.C160_normalized"
   ],
   "note": ""
  },
  {
   "property": "C161",
   "status": "proved",
   "theorems": [
    "Zounds.FilterBanks.C161_design",
    "Zounds.FilterBanks.C161_bank"
   ],
   "note": ""
  },
  {
   "property": "C162",
   "status": "proved",
   "theorems": [
    "Zounds.FilterBanks.C162_refuted"
   ],
   "note": "C162_refuted; matching windows are C161."
  },
  {
   "property": "C163",
   "status": "proved",
   "theorems": [
    "Zounds.Rainbow.C163_unwrap",
    "Zounds.Rainbow.C163_steady"
   ],
   "note": ""
  },
  {
   "property": "C164",
   "status": "proved",
   "theorems": [
    "Zounds.Rainbow.C164_brightness",
    "Zounds.Rainbow.C164_colours"
   ],
   "note": "C164_brightness, C164_colours."
  },
  {
   "property": "C165",
   "status": "proved",
   "theorems": [
    "Zounds.Rainbow.C165_apply_scale"
   ],
   "note": ""
  },
  {
   "property": "C166",
   "status": "proved",
   "theorems": [
    "Zounds.Rainbow.C166_real_parts",
    "Zounds.Rainbow.C166_refuted",
    "Zounds.Rainbow.C165_apply_scale"
   ],
   "note": "C166_real_parts, C165_apply_scale, C166_refuted."
  },
  {
   "property": "C167",
   "status": "proved",
   "theorems": [
    "Zounds.Repl.C167_served_iff",
    "Zounds.Repl.C167_ogg",
    "Zounds.Repl.C167_json",
    "Zounds.Repl.C167_array"
   ],
   "note": ""
  },
  {
   "property": "C168",
   "status": "proved",
   "theorems": [
    "Zounds.Repl.C168_every_feature_refuted",
    "Zounds.Repl.C167_served_iff"
   ],
   "note": "C168_every_feature_refuted and C167_served_iff."
  },
  {
   "property": "C169",
   "status": "proved",
   "theorems": [
    "Zounds.Repl.C169_search_refuted"
   ],
   "note": "C169_search_refuted."
  },
  {
   "property": "C170",
   "status": "proved",
   "theorems": [
    "Zounds.Repl.C170_audio"
   ],
   "note": ""
  },
  {
   "property": "C171",
   "status": "proved",
   "theorems": [
    "Zounds.Repl.C171_stable",
    "Zounds.Repl.C171_not_found"
   ],
   "note": ""
  },
  {
   "property": "C172",
   "status": "proved",
   "theorems": [
    "Zounds.Repl.C172_stdout",
    "Zounds.Repl.C172_expression",
    "Zounds.Repl.C172_statement",
    "Zounds.Repl.C172_unparsed",
    "Zounds.Repl.C172_raised"
   ],
   "note": ""
  },
  {
   "property": "C173",
   "status": "proved",
   "theorems": [
    "Zounds.Repl.C173_exact",
    "Zounds.Repl.C173_once_refuted",
    "Zounds.Repl.C172_statement",
    "Zounds.Repl.C172_expression",
    "Zounds.Repl.C172_unparsed"
   ],
   "note": "C173_exact, C173_once_refuted, C172_statement, C172_expression, C172_unparsed."
  },
  {
   "property": "C174",
   "status": "proved",
   "theorems": [
    "Zounds.Repl.C174_exact",
    "Zounds.Repl.C174_printed_refuted",
    "Zounds.Repl.C172_statement"
   ],
   "note": "C174_exact, C172_statement, C174_printed_refuted."
  },
  {
   "property": "C175",
   "status": "proved",
   "theorems": [
    "Zounds.Repl.C175_status",
    "Zounds.Repl.C175_exact",
    "Zounds.Repl.C175_evaluates_refuted"
   ],
   "note": "C175_status, C175_exact, C175_evaluates_refuted."
  },
  {
   "property": "C176",
   "status": "proved",
   "theorems": [
    "Zounds.Repl.C176_parser",
    "Zounds.Repl.C176_module",
    "Zounds.Repl.C176_no_model"
   ],
   "note": ""
  },
  {
   "property": "C177",
   "status": "proved",
   "theorems": [
    "Zounds.Repl.C177_exact",
    "Zounds.Repl.C177_reuse_refuted",
    "Zounds.Repl.C176_parser"
   ],
   "note": "C177_exact, C176_parser, C177_reuse_refuted."
  },
  {
   "property": "C178",
   "status": "proved",
   "theorems": [
    "Zounds.Repl.C178_onsets",
    "Zounds.Repl.C178_links"
   ],
   "note": ""
  },
  {
   "property": "C179",
   "status": "proved",
   "theorems": [
    "Zounds.Codebook.C179_encode",
    "Zounds.Codebook.C179_errors",
    "Zounds.Codebook.C179_decode"
   ],
   "note": ""
  },
  {
   "property": "C180",
   "status": "proved",
   "theorems": [
    "Zounds.Codebook.C180_rows_refuted",
    "Zounds.Codebook.C180_past_end"
   ],
   "note": "C180_rows_refuted counts the rows for all codes, C180_past_end is the error; codes of the forward transform are C179."
  },
  {
   "property": "C181",
   "status": "proved",
   "theorems": [
    "Zounds.Codebook.C181_roundtrip",
    "Zounds.Codebook.C181_refused"
   ],
   "note": ""
  },
  {
   "property": "C182",
   "status": "proved",
   "theorems": [
    "Zounds.Codebook.C182_empty_refuted"
   ],
   "note": "C182_empty_refuted."
  },
  {
   "property": "C183",
   "status": "proved",
   "theorems": [
    "Zounds.Codebook.C183_mean_refuted"
   ],
   "note": "C183_mean_refuted has both the result and the equivalence."
  },
  {
   "property": "C184",
   "status": "proved",
   "theorems": [
    "Zounds.Ops.C184_call",
    "Zounds.Ops.C184_surplus",
    "Zounds.Ops.C184_precedence"
   ],
   "note": ""
  },
  {
   "property": "C185",
   "status": "proved",
   "theorems": [
    "Zounds.Ops.C185_defaults_refuted",
    "Zounds.Ops.C185_closure_refuted",
    "Zounds.Ops.C185_module_refuted",
    "Zounds.Ops.C184_call"
   ],
   "note": "C184_call, C185_defaults_refuted, C185_closure_refuted, C185_module_refuted."
  },
  {
   "property": "C186",
   "status": "proved",
   "theorems": [
    "Zounds.Ops.C186_base_refuted"
   ],
   "note": "C186_base_refuted."
  },
  {
   "property": "C187",
   "status": "proved",
   "theorems": [
    "Zounds.Ops.C187_version"
   ],
   "note": ""
  },
  {
   "property": "C188",
   "status": "proved",
   "theorems": [
    "Zounds.Ops.C188_exact",
    "Zounds.Ops.C188_collision_refuted",
    "Zounds.Ops.C187_version"
   ],
   "note": "C188_exact, C187_version, C188_collision_refuted."
  },
  {
   "property": "C189",
   "status": "proved",
   "theorems": [
    "Zounds.Ops.C189_address_refuted"
   ],
   "note": "C189_address_refuted; parameters of numbers are C187."
  },
  {
   "property": "C190",
   "status": "proved",
   "theorems": [
    "Zounds.Ops.C190_nested_refuted"
   ],
   "note": "C190_nested_refuted."
  },
  {
   "property": "C191",
   "status": "proved",
   "theorems": [
    "Zounds.Ops.C191_pipeline"
   ],
   "note": ""
  },
  {
   "property": "C192",
   "status": "proved",
   "theorems": [
    "Zounds.Ops.C192_int",
    "Zounds.Ops.C192_list",
    "Zounds.Ops.C192_slice",
    "Zounds.Ops.C192_compose"
   ],
   "note": ""
  },
  {
   "property": "C193",
   "status": "proved",
   "theorems": [
    "Zounds.Ops.C193_numpy_refuted"
   ],
   "note": "C193_numpy_refuted; Python integers are C192."
  },
  {
   "property": "C194",
   "status": "proved",
   "theorems": [
    "Zounds.Ops.C194_training"
   ],
   "note": ""
  },
  {
   "property": "C195",
   "status": "proved",
   "theorems": [
    "Zounds.Ops.C195_memory_refuted",
    "Zounds.Ops.C195_value"
   ],
   "note": "C195_memory_refuted and C195_value: all outcomes."
  },
  {
   "property": "C196",
   "status": "proved",
   "theorems": [
    "Zounds.Ops.C196_chunk_refuted"
   ],
   "note": "C196_chunk_refuted."
  },
  {
   "property": "C197",
   "status": "proved",
   "theorems": [
    "Zounds.Ops.C197_roundtrip",
    "Zounds.Ops.C197_errors"
   ],
   "note": ""
  },
  {
   "property": "C198",
   "status": "proved",
   "theorems": [
    "Zounds.Ops.C198_version_refuted"
   ],
   "note": "C198_version_refuted."
  },
  {
   "property": "C199",
   "status": "proved",
   "theorems": [
    "Zounds.Ops.C199_streaming",
    "Zounds.Ops.C199_load"
   ],
   "note": ""
  },
  {
   "property": "C200",
   "status": "proved",
   "theorems": [
    "Zounds.Ops.C200_twice_refuted"
   ],
   "note": "C200_twice_refuted, for every class."
  },
  {
   "property": "C201",
   "status": "proved",
   "theorems": [
    "Zounds.Archives.C201_archive",
    "Zounds.Archives.C201_refused"
   ],
   "note": ""
  },
  {
   "property": "C202",
   "status": "proved",
   "theorems": [
    "Zounds.Archives.C202_attrs_refuted",
    "Zounds.Archives.C202_exact"
   ],
   "note": "C202_exact; C202_attrs_refuted is a case that differs."
  },
  {
   "property": "C203",
   "status": "proved",
   "theorems": [
    "Zounds.Archives.C203_describes_refuted",
    "Zounds.Archives.C203_ends",
    "Zounds.Archives.C203_exact"
   ],
   "note": "C203_exact, C203_ends, C203_describes_refuted."
  },
  {
   "property": "C204",
   "status": "proved",
   "theorems": [
    "Zounds.Archives.C204_filter_refuted"
   ],
   "note": "C204_filter_refuted."
  },
  {
   "property": "C205",
   "status": "proved",
   "theorems": [
    "Zounds.Archives.C205_unknown_refuted"
   ],
   "note": "C205_unknown_refuted."
  },
  {
   "property": "C206",
   "status": "proved",
   "theorems": [
    "Zounds.Archives.C206_nsynth",
    "Zounds.Archives.C206_name",
    "Zounds.Archives.C206_undescribed",
    "Zounds.Archives.C206_unreadable"
   ],
   "note": ""
  },
  {
   "property": "C207",
   "status": "proved",
   "theorems": [
    "Zounds.Archives.C207_uri_refuted",
    "Zounds.Archives.C207_no_url"
   ],
   "note": "C207_uri_refuted and C207_no_url: all urls."
  },
  {
   "property": "C208",
   "status": "proved",
   "theorems": [
    "Zounds.Archives.C208_musicnet_refuted"
   ],
   "note": "C208_musicnet_refuted, whatever the archive holds."
  },
  {
   "property": "C209",
   "status": "proved",
   "theorems": [
    "Zounds.Archives.C209_phat_refuted"
   ],
   "note": "C209_phat_refuted."
  },
  {
   "property": "C210",
   "status": "proved",
   "theorems": [
    "Zounds.Archives.C210_directory"
   ],
   "note": ""
  },
  {
   "property": "C211",
   "status": "proved",
   "theorems": [
    "Zounds.Archives.C211_freesound"
   ],
   "note": ""
  },
  {
   "property": "C212",
   "status": "proved",
   "theorems": [
    "Zounds.SoundNodes.C212_stream"
   ],
   "note": ""
  },
  {
   "property": "C213",
   "status": "proved",
   "theorems": [
    "Zounds.SoundNodes.C213_compressed_refuted"
   ],
   "note": "C213_compressed_refuted, for all files and chunkings that have such a chunk; uncompressed files are C212."
  },
  {
   "property": "C214",
   "status": "proved",
   "theorems": [
    "Zounds.SoundNodes.C214_ogg"
   ],
   "note": ""
  },
  {
   "property": "C215",
   "status": "proved",
   "theorems": [
    "Zounds.SoundNodes.C215_flac_refuted"
   ],
   "note": "C215_flac_refuted."
  },
  {
   "property": "C216",
   "status": "proved",
   "theorems": [
    "Zounds.SoundNodes.C216_subtype_refuted",
    "Zounds.SoundNodes.C214_ogg"
   ],
   "note": "C216_subtype_refuted and C214_ogg."
  },
  {
   "property": "C217",
   "status": "proved",
   "theorems": [
    "Zounds.SoundNodes.C217_graph",
    "Zounds.SoundNodes.C217_unsupported"
   ],
   "note": ""
  },
  {
   "property": "C218",
   "status": "proved",
   "theorems": [
    "Zounds.Training.C218_minibatches",
    "Zounds.Training.C218_supervised",
    "Zounds.Training.C218_holdout"
   ],
   "note": ""
  },
  {
   "property": "C219",
   "status": "proved",
   "theorems": [
    "Zounds.Training.C219_exact",
    "Zounds.Training.C219_one",
    "Zounds.Training.C219_statistics_refuted",
    "Zounds.Training.C218_holdout"
   ],
   "note": "C219_exact, C219_one, C219_statistics_refuted; for networks without such statistics see C218_holdout."
  },
  {
   "property": "C220",
   "status": "proved",
   "theorems": [
    "Zounds.Training.C220_supervised",
    "Zounds.Training.C220_gan"
   ],
   "note": ""
  },
  {
   "property": "C221",
   "status": "proved",
   "theorems": [
    "Zounds.Training.C221_exact",
    "Zounds.Training.C221_stateless",
    "Zounds.Training.C221_rounds",
    "Zounds.Training.C221_new_optimizer_refuted",
    "Zounds.Training.C221_epochs"
   ],
   "note": "C221_exact, C221_stateless, C221_epochs, C221_new_optimizer_refuted."
  },
  {
   "property": "C222",
   "status": "proved",
   "theorems": [
    "Zounds.Training.C222_samples_refuted",
    "Zounds.Training.C222_before",
    "Zounds.Training.C222_empty"
   ],
   "note": "C222_samples_refuted, C222_before, C222_empty."
  },
  {
   "property": "C223",
   "status": "proved",
   "theorems": [
    "Zounds.Training.C223_message_refuted"
   ],
   "note": "C223_message_refuted."
  },
  {
   "property": "C224",
   "status": "proved",
   "theorems": [
    "Zounds.Training.C224_gan",
    "Zounds.Training.C224_opponents",
    "Zounds.Training.C224_samples",
    "Zounds.Training.C224_no_batch"
   ],
   "note": ""
  },
  {
   "property": "C225",
   "status": "proved",
   "theorems": [
    "Zounds.Training.C225_no_critic_refuted"
   ],
   "note": "C225_no_critic_refuted."
  },
  {
   "property": "C226",
   "status": "proved",
   "theorems": [
    "Zounds.Training.C226_flags_refuted",
    "Zounds.Training.C226_frozen_refuted"
   ],
   "note": "C226_frozen_refuted, C226_flags_refuted."
  },
  {
   "property": "C227",
   "status": "proved",
   "theorems": [
    "Zounds.Training.C227_loss"
   ],
   "note": ""
  },
  {
   "property": "C228",
   "status": "proved",
   "theorems": [
    "Zounds.Training.C228_share",
    "Zounds.Training.C228_zero",
    "Zounds.Training.C228_draws",
    "Zounds.Training.C228_negative_refuted",
    "Zounds.Training.C228_single_refuted"
   ],
   "note": "C228_share, C228_zero, C228_draws, C228_negative_refuted, C228_single_refuted."
  },
  {
   "property": "C229",
   "status": "proved",
   "theorems": [
    "Zounds.Training.C229_default_refuted"
   ],
   "note": "C229_default_refuted."
  },
  {
   "property": "C230",
   "status": "proved",
   "theorems": [
    "Zounds.Rates.C230_resample",
    "Zounds.Rates.C230_whole",
    "Zounds.Rates.C230_contiguous",
    "Zounds.Rates.C230_back",
    "Zounds.Rates.C230_dimension"
   ],
   "note": ""
  },
  {
   "property": "C231",
   "status": "proved",
   "theorems": [
    "Zounds.Rates.C231_exact",
    "Zounds.Rates.C231_back_refuted"
   ],
   "note": "C231_exact is the equivalence; C231_back_refuted a third of CD audio's rate."
  },
  {
   "property": "C232",
   "status": "proved",
   "theorems": [
    "Zounds.Rates.C232_cd",
    "Zounds.Rates.C232_other_rates"
   ],
   "note": ""
  },
  {
   "property": "C233",
   "status": "proved",
   "theorems": [
    "Zounds.Rates.C233_half_refuted"
   ],
   "note": "C233_half_refuted decides all supported rates (a finite list, by evaluation of the model), for arrays of every size."
  },
  {
   "property": "C234",
   "status": "proved",
   "theorems": [
    "Zounds.Rates.C234_onsets_refuted"
   ],
   "note": "C234_onsets_refuted."
  },
  {
   "property": "C235",
   "status": "proved",
   "theorems": [
    "Zounds.Monitor.C235_messages",
    "Zounds.Monitor.C235_open",
    "Zounds.Monitor.C235_message",
    "Zounds.Monitor.C235_succeeds",
    "Zounds.Monitor.C235_atomic"
   ],
   "note": ""
  },
  {
   "property": "C236",
   "status": "proved",
   "theorems": [
    "Zounds.Monitor.C236_which",
    "Zounds.Monitor.C236_cases"
   ],
   "note": ""
  },
  {
   "property": "C237",
   "status": "proved",
   "theorems": [
    "Zounds.Monitor.C237_every_tenth_refuted",
    "Zounds.Monitor.C236_which",
    "Zounds.Monitor.C236_cases"
   ],
   "note": "C236_which and C236_cases; C237_every_tenth_refuted: with the default frequency of 10, every fifth batch of 64 rows."
  },
  {
   "property": "C238",
   "status": "proved",
   "theorems": [
    "Zounds.Monitor.C238_exact",
    "Zounds.Monitor.C238_disturbed_refuted",
    "Zounds.Monitor.C235_atomic"
   ],
   "note": "C238_exact, C235_atomic, C238_disturbed_refuted."
  },
  {
   "property": "C239",
   "status": "proved",
   "theorems": [
    "Zounds.Monitor.C239_leaves",
    "Zounds.Monitor.C239_accepting"
   ],
   "note": ""
  },
  {
   "property": "C240",
   "status": "proved",
   "theorems": [
    "Zounds.Monitor.C240_exact",
    "Zounds.Monitor.C240_early_refuted",
    "Zounds.Monitor.C239_leaves"
   ],
   "note": "C240_exact, C240_early_refuted, C239_leaves."
  },
  {
   "property": "C241",
   "status": "proved",
   "theorems": [
    "Zounds.Arr.C241_writable",
    "Zounds.Arr.C241_writes",
    "Zounds.Arr.C241_read_back",
    "Zounds.Arr.C241_repeated",
    "Zounds.Arr.C241_zeros",
    "Zounds.Arr.C241_lib_noLists",
    "Zounds.Arr.C241_empty_band_refuted"
   ],
   "note": "C241_writable, C241_writes, C241_read_back, C241_repeated, C241_zeros, C241_lib_noLists, C241_empty_band_refuted."
  },
  {
   "property": "C242",
   "status": "proved",
   "theorems": [
    "Zounds.Arr.C242_window",
    "Zounds.Arr.C242_write_through",
    "Zounds.Arr.C242_copy"
   ],
   "note": ""
  },
  {
   "property": "C243",
   "status": "proved",
   "theorems": [
    "Zounds.AudioIndex.C243_axes",
    "Zounds.AudioIndex.C243_axes_refused",
    "Zounds.AudioIndex.C243_slice",
    "Zounds.AudioIndex.C243_position",
    "Zounds.AudioIndex.C243_channel_refuted",
    "Zounds.AudioIndex.C243_step_refuted"
   ],
   "note": "C243_slice, C243_position, C243_axes, C243_axes_refused, C243_channel_refuted, C243_step_refuted."
  },
  {
   "property": "C244",
   "status": "proved",
   "theorems": [
    "Zounds.AudioIndex.C244_padded",
    "Zounds.AudioIndex.C244_unpadded",
    "Zounds.AudioIndex.C244_one_window_refuted",
    "Zounds.AudioIndex.C244_single_samples_refuted",
    "Zounds.AudioIndex.C244_nothing"
   ],
   "note": "C244_padded, C244_unpadded, C244_one_window_refuted, C244_single_samples_refuted and C244_nothing."
  },
  {
   "property": "C245",
   "status": "proved",
   "theorems": [
    "Zounds.Stft.C245_stft"
   ],
   "note": ""
  },
  {
   "property": "C246",
   "status": "proved",
   "theorems": [
    "Zounds.Stft.C246_graph"
   ],
   "note": ""
  },
  {
   "property": "C247",
   "status": "proved",
   "theorems": [
    "Zounds.Stft.C247_no_window_refuted"
   ],
   "note": "C247_no_window_refuted."
  },
  {
   "property": "C248",
   "status": "proved",
   "theorems": [
    "Zounds.Stft.C248_batch_refuted"
   ],
   "note": "C248_batch_refuted has the three cases."
  },
  {
   "property": "C249",
   "status": "proved",
   "theorems": [
    "Zounds.Arr.C249_elementwise",
    "Zounds.Arr.C249_function",
    "Zounds.Arr.C249_units"
   ],
   "note": ""
  },
  {
   "property": "C250",
   "status": "proved",
   "theorems": [
    "Zounds.Arr.C250_expression"
   ],
   "note": ""
  },
  {
   "property": "C251",
   "status": "proved",
   "theorems": [
    "Zounds.Arr.C251_mixed_refuted"
   ],
   "note": "C251_mixed_refuted."
  },
  {
   "property": "C252",
   "status": "proved",
   "theorems": [
    "Zounds.Arr.C252_stale_refuted",
    "Zounds.Arr.C252_exact",
    "Zounds.Arr.C252_longer"
   ],
   "note": "C252_exact, C252_longer, C252_stale_refuted."
  },
  {
   "property": "C253",
   "status": "proved",
   "theorems": [
    "Zounds.Arr.C253_order_refuted"
   ],
   "note": "C253_order_refuted has both orders."
  },
  {
   "property": "C254",
   "status": "proved",
   "theorems": [
    "Zounds.Arr.C254_mean_refuted",
    "Zounds.Arr.C254_repeated",
    "Zounds.Arr.C254_exact"
   ],
   "note": "C254_exact, C254_repeated, C254_mean_refuted."
  },
  {
   "property": "C255",
   "status": "proved",
   "theorems": [
    "Zounds.Arr.C255_transpose_refuted",
    "Zounds.Arr.C255_exact",
    "Zounds.Arr.C255_flatten"
   ],
   "note": "C255_exact, C255_flatten, C255_transpose_refuted."
  },
  {
   "property": "C256",
   "status": "proved",
   "theorems": [
    "Zounds.Arr.C256_augmented",
    "Zounds.Arr.C256_accepted"
   ],
   "note": ""
  },
  {
   "property": "C257",
   "status": "proved",
   "theorems": [
    "Zounds.Fit.C257_stored"
   ],
   "note": ""
  },
  {
   "property": "C258",
   "status": "proved",
   "theorems": [
    "Zounds.Fit.C258_standard",
    "Zounds.Fit.C258_constant_refuted"
   ],
   "note": "C258_standard and C258_constant_refuted are the two cases."
  },
  {
   "property": "C259",
   "status": "proved",
   "theorems": [
    "Zounds.Fit.C259_exact",
    "Zounds.Fit.C259_which",
    "Zounds.Fit.C259_silent_refuted",
    "Zounds.Fit.C259_next",
    "Zounds.Fit.C259_others",
    "Zounds.Fit.C257_stored"
   ],
   "note": "C259_exact, C259_which, C259_next, C259_others, C257_stored, C259_silent_refuted."
  },
  {
   "property": "C260",
   "status": "proved",
   "theorems": [
    "Zounds.Fit.C260_selection"
   ],
   "note": ""
  },
  {
   "property": "C261",
   "status": "proved",
   "theorems": [
    "Zounds.Fit.C261_stream",
    "Zounds.Fit.C261_cast"
   ],
   "note": ""
  },
  {
   "property": "C262",
   "status": "proved",
   "theorems": [
    "Zounds.Fit.C262_units"
   ],
   "note": ""
  },
  {
   "property": "C263",
   "status": "proved",
   "theorems": [
    "Zounds.AudioGraph.C263_features"
   ],
   "note": ""
  },
  {
   "property": "C264",
   "status": "proved",
   "theorems": [
    "Zounds.AudioGraph.C264_chunking"
   ],
   "note": ""
  },
  {
   "property": "C265",
   "status": "proved",
   "theorems": [
    "Zounds.AudioGraph.C265_bfcc_refuted",
    "Zounds.AudioGraph.C265_exact",
    "Zounds.AudioGraph.C265_magnitudes"
   ],
   "note": "C265_exact, C265_magnitudes, C265_bfcc_refuted."
  },
  {
   "property": "C266",
   "status": "proved",
   "theorems": [
    "Zounds.Blocks.C266_size",
    "Zounds.Blocks.C266_local",
    "Zounds.Blocks.C266_linear",
    "Zounds.Blocks.C266_delay"
   ],
   "note": "Real arithmetic; torch modelled from its documentation."
  },
  {
   "property": "C267",
   "status": "proved",
   "theorems": [
    "Zounds.Blocks.C267_mirror",
    "Zounds.Blocks.C267_restored",
    "Zounds.Blocks.C267_autoencoder"
   ],
   "note": ""
  },
  {
   "property": "C268",
   "status": "proved",
   "theorems": [
    "Zounds.Blocks.C268_adjoint"
   ],
   "note": ""
  },
  {
   "property": "C269",
   "status": "proved",
   "theorems": [
    "Zounds.Blocks.C269_alone",
    "Zounds.Blocks.C269_batch",
    "Zounds.Blocks.C269_deterministic"
   ],
   "note": "Activations are functions of single numbers."
  },
  {
   "property": "C270",
   "status": "proved",
   "theorems": [
    "Zounds.Blocks.C270_normalised",
    "Zounds.Blocks.C270_running",
    "Zounds.Blocks.C270_single"
   ],
   "note": ""
  },
  {
   "property": "C271",
   "status": "proved",
   "theorems": [
    "Zounds.Blocks.C271_single_row",
    "Zounds.Blocks.C271_images_refuted"
   ],
   "note": "C271_single_row and C271_images_refuted: all sizes."
  },
  {
   "property": "C272",
   "status": "proved",
   "theorems": [
    "Zounds.Blocks.C272_model_hash_refuted"
   ],
   "note": "C272_model_hash_refuted."
  },
  {
   "property": "C273",
   "status": "proved",
   "theorems": [
    "Zounds.Blocks.C273_gradients_refuted",
    "Zounds.Blocks.C273_first",
    "Zounds.Blocks.C273_debug_refuted",
    "Zounds.Blocks.C273_plain"
   ],
   "note": "C273_gradients_refuted, C273_debug_refuted, C273_plain."
  },
  {
   "property": "C274",
   "status": "proved",
   "theorems": [
    "Zounds.Forward.C274_network",
    "Zounds.Forward.C274_autoencoder",
    "Zounds.Forward.C274_gan",
    "Zounds.Forward.C274_simhash"
   ],
   "note": "For the identity, time and frequency dimensions of the library."
  },
  {
   "property": "C275",
   "status": "proved",
   "theorems": [
    "Zounds.Forward.C275_stale_refuted",
    "Zounds.Forward.C275_same_size"
   ],
   "note": "C275_same_size and C275_stale_refuted."
  },
  {
   "property": "C276",
   "status": "proved",
   "theorems": [
    "Zounds.Forward.C276_network",
    "Zounds.Forward.C276_discriminator",
    "Zounds.Forward.C276_autoencoder",
    "Zounds.Forward.C276_autoencoder_empty",
    "Zounds.Forward.C276_simhash"
   ],
   "note": "The network is any function of examples one by one (what evaluation mode gives, C269)."
  },
  {
   "property": "C277",
   "status": "proved",
   "theorems": [
    "Zounds.Forward.C277_generator_refuted",
    "Zounds.Forward.C277_generator",
    "Zounds.Forward.C277_demo_refuted",
    "Zounds.Forward.C277_init",
    "Zounds.Forward.C277_prepared_refuted"
   ],
   "note": "C277_generator is the equivalence, C277_generator_refuted both results, C277_prepared_refuted PyTorchNetwork, C276 the remaining cases."
  },
  {
   "property": "C278",
   "status": "proved",
   "theorems": [
    "Zounds.TimeRequest.C278_stretch",
    "Zounds.TimeRequest.C278_rest",
    "Zounds.TimeRequest.C278_consecutive"
   ],
   "note": "Frames before they are encoded again; frames are counted at the truncated period the code uses (C88)."
  },
  {
   "property": "C279",
   "status": "proved",
   "theorems": [
    "Zounds.TimeRequest.C279_within",
    "Zounds.TimeRequest.C279_header",
    "Zounds.TimeRequest.C279_total",
    "Zounds.TimeRequest.C279_header_rest",
    "Zounds.TimeRequest.C279_past_end_refuted",
    "Zounds.TimeRequest.C279_reversed_refuted",
    "Zounds.TimeRequest.C279_empty_refuted"
   ],
   "note": "C279_header, C279_within, C279_total, C279_header_rest, C279_past_end_refuted, C279_reversed_refuted, C279_empty_refuted."
  },
  {
   "property": "C280",
   "status": "proved",
   "theorems": [
    "Zounds.TimeRequest.C280_array",
    "Zounds.TimeRequest.C280_rest",
    "Zounds.TimeRequest.C280_other"
   ],
   "note": ""
  },
  {
   "property": "C281",
   "status": "proved",
   "theorems": [
    "Zounds.Experiment.C281_trains",
    "Zounds.Experiment.C281_checkpoints",
    "Zounds.Experiment.C281_default_refuted",
    "Zounds.Experiment.C281_exact"
   ],
   "note": "C281_exact is the equivalence, C281_trains and C281_checkpoints count the steps, C281_default_refuted is the default."
  },
  {
   "property": "C282",
   "status": "proved",
   "theorems": [
    "Zounds.Experiment.C282_fake",
    "Zounds.Experiment.C282_single_refuted",
    "Zounds.Experiment.C282_early_refuted",
    "Zounds.Experiment.C282_none_refuted"
   ],
   "note": "C282_fake, C282_single_refuted, C282_early_refuted: all batch sizes."
  },
  {
   "property": "C283",
   "status": "proved",
   "theorems": [
    "Zounds.Experiment.C283_scaled",
    "Zounds.Experiment.C283_trough_refuted",
    "Zounds.Experiment.C283_zero_refuted"
   ],
   "note": "C283_scaled is the equivalence; C283_trough_refuted, C283_zero_refuted what happens otherwise."
  },
  {
   "property": "C284",
   "status": "proved",
   "theorems": [
    "Zounds.Search.C284_search"
   ],
   "note": "Times must not be negative (C17); asking for all segments fails (C71). JSON is a parameter that can be read back."
  },
  {
   "property": "C285",
   "status": "proved",
   "theorems": [
    "Zounds.Search.C285_self"
   ],
   "note": ""
  },
  {
   "property": "C286",
   "status": "proved",
   "theorems": [
    "Zounds.Search.C286_add",
    "Zounds.Search.C286_half_refuted"
   ],
   "note": "C286_add, for every history; C286_half_refuted a document that is indexed in part."
  },
  {
   "property": "C287",
   "status": "proved",
   "theorems": [
    "Zounds.Search.C287_iff",
    "Zounds.Search.C287_short_refuted"
   ],
   "note": "C287_iff is the equivalence; C287_short_refuted all codes of up to 56 bits."
  },
  {
   "property": "C288",
   "status": "proved",
   "theorems": [
    "Zounds.Search.C288_empty_refuted"
   ],
   "note": "C288_empty_refuted, for every history."
  },
  {
   "property": "C289",
   "status": "proved",
   "theorems": [
    "Zounds.Search.C289_exact",
    "Zounds.Search.C289_len",
    "Zounds.Search.C289_stale_refuted"
   ],
   "note": "C289_exact is the equivalence, for every history; C289_stale_refuted an object that says zero."
  },
  {
   "property": "C290",
   "status": "proved",
   "theorems": [
    "Zounds.Search.C290_exact",
    "Zounds.Search.C290_without",
    "Zounds.Search.C290_keyerror_refuted"
   ],
   "note": "C290_exact, C290_without, C290_keyerror_refuted."
  },
  {
   "property": "C291",
   "status": "proved",
   "theorems": [
    "Zounds.Search.C291_drawn",
    "Zounds.Search.C291_empty_refuted"
   ],
   "note": "C291_drawn for every history and sequence of draws; C291_empty_refuted the empty database."
  },
  {
   "property": "C292",
   "status": "proved",
   "theorems": [
    "Zounds.Threads.C292_appends",
    "Zounds.Threads.C292_progress"
   ],
   "note": "The steps of append between which a thread may be interrupted are those of Model/Threads.lean; LMDB write transactions exclude each other."
  },
  {
   "property": "C293",
   "status": "proved",
   "theorems": [
    "Zounds.Threads.C293_exact",
    "Zounds.Threads.C293_own",
    "Zounds.Threads.C293_serial",
    "Zounds.Threads.C293_append_refuted",
    "Zounds.Threads.C293_search_refuted"
   ],
   "note": "C293_exact, C293_own, C293_serial, C293_append_refuted, C293_search_refuted."
  },
  {
   "property": "C294",
   "status": "proved",
   "theorems": [
    "Zounds.Threads.C294_exact",
    "Zounds.Threads.C294_own",
    "Zounds.Threads.C294_searches",
    "Zounds.Threads.C294_store",
    "Zounds.Threads.C294_polite",
    "Zounds.Threads.C294_refuted"
   ],
   "note": "C294_exact, C294_own, C294_searches, C294_store, C294_polite, C294_refuted."
  },
  {
   "property": "C295",
   "status": "proved",
   "theorems": [
    "Zounds.Resynth.C295_fft"
   ],
   "note": "Exact reals; any chunking, any even window size, half lapped ogg vorbis windows."
  },
  {
   "property": "C296",
   "status": "proved",
   "theorems": [
    "Zounds.Resynth.C296_mdct",
    "Zounds.Resynth.C296_same"
   ],
   "note": "Exact reals; any chunking, any even window size."
  },
  {
   "property": "C297",
   "status": "proved",
   "theorems": [
    "Zounds.Resynth.C297_louder_refuted"
   ],
   "note": "C297_louder_refuted; the factor is C295."
  },
  {
   "property": "C298",
   "status": "proved",
   "theorems": [
    "Zounds.Reservoir.C298_exact",
    "Zounds.Reservoir.C298_row_by_row"
   ],
   "note": "C298_exact, C298_row_by_row."
  },
  {
   "property": "C299",
   "status": "proved",
   "theorems": [
    "Zounds.MergeUnits.C299_merge",
    "Zounds.MergeUnits.C299_unknown"
   ],
   "note": "C299_merge (over C28_merge, C36_concat, C36_concatenate)."
  },
  {
   "property": "C300",
   "status": "proved",
   "theorems": [
    "Zounds.MergeUnits.C300_spectra"
   ],
   "note": "C300_spectra: the joined axis would need a frequency dimension of another size."
  },
  {
   "property": "C301",
   "status": "proved",
   "theorems": [
    "Zounds.Arr.C301_band",
    "Zounds.Arr.C301_band_empty",
    "Zounds.Arr.C301_hertz",
    "Zounds.Arr.C301_positions",
    "Zounds.Arr.C301_chroma",
    "Zounds.Arr.C301_explicit",
    "Zounds.Arr.C301_linear",
    "Zounds.Arr.C301_one_band_refuted",
    "Zounds.Arr.C301_step_refuted"
   ],
   "note": "C301_band, C301_linear, C301_explicit, C301_hertz, C301_positions, C301_band_empty; refuted parts: C301_one_band_refuted, C301_step_refuted, C301_chroma."
  },
  {
   "property": "C302",
   "status": "proved",
   "theorems": [
    "Zounds.ComplexDomain.C302_sign",
    "Zounds.ComplexDomain.C302_same",
    "Zounds.ComplexDomain.C302_deviation",
    "Zounds.ComplexDomain.C302_steady",
    "Zounds.ComplexDomain.C302_where",
    "Zounds.ComplexDomain.C302_never",
    "Zounds.ComplexDomain.C302_spectrum"
   ],
   "note": "C302_never, C302_where, C302_spectrum (which error), C302_sign."
  },
  {
   "property": "C303",
   "status": "proved",
   "theorems": [
    "Zounds.ScaleDefaults.C303_no_window",
    "Zounds.ScaleDefaults.C303_apply_scale"
   ],
   "note": "C303_no_window, C303_apply_scale."
  },
  {
   "property": "C304",
   "status": "proved",
   "theorems": [
    "Zounds.ScaleDefaults.C304_from_zero",
    "Zounds.ScaleDefaults.C304_counted",
    "Zounds.ScaleDefaults.C304_top_refuted"
   ],
   "note": "C304_counted, C304_from_zero; refuted expectation: C304_top_refuted."
  },
  {
   "property": "C305",
   "status": "proved",
   "theorems": [
    "Zounds.Forward.C305_network",
    "Zounds.Forward.C305_gan",
    "Zounds.Forward.C305_autoencoder",
    "Zounds.Forward.C305_memory_refuted"
   ],
   "note": ""
  },
  {
   "property": "C306",
   "status": "proved",
   "theorems": [
    "Zounds.Onset.C306_onsets",
    "Zounds.Onset.C306_starts",
    "Zounds.Onset.C306_in_sound",
    "Zounds.Onset.C306_at_once_refuted",
    "Zounds.Onset.C306_end_refuted"
   ],
   "note": ""
  },
  {
   "property": "C307",
   "status": "proved",
   "theorems": [
    "Zounds.Fit.C307_sharpen",
    "Zounds.Fit.C307_sharpen_one",
    "Zounds.Fit.C307_mu_law"
   ],
   "note": ""
  },
  {
   "property": "C308",
   "status": "proved",
   "theorems": [
    "Zounds.Onset.C308_frames",
    "Zounds.Onset.C308_pooled",
    "Zounds.Onset.C308_own_frames_refuted",
    "Zounds.Onset.C308_partition"
   ],
   "note": ""
  },
  {
   "property": "C309",
   "status": "proved",
   "theorems": [
    "Zounds.Sinc.C309_filter",
    "Zounds.Sinc.C309_nan_iff",
    "Zounds.Sinc.C309_size",
    "Zounds.Sinc.C309_values",
    "Zounds.Sinc.C309_odd_refuted",
    "Zounds.Sinc.C309_symmetric_refuted",
    "Zounds.Sinc.C309_one_tap"
   ],
   "note": ""
  },
  {
   "property": "C310",
   "status": "proved",
   "theorems": [
    "Zounds.Props.Overlap.C310_geometric",
    "Zounds.Props.Overlap.C310_more_bands",
    "Zounds.Props.Overlap.C310_linear"
   ],
   "note": ""
  },
  {
   "property": "C311",
   "status": "proved",
   "theorems": [
    "Zounds.Props.UnitNorm.C311_vector",
    "Zounds.Props.UnitNorm.C311_rows",
    "Zounds.Props.UnitNorm.C311_cube_refuted"
   ],
   "note": ""
  },
  {
   "property": "C312",
   "status": "proved",
   "theorems": [
    "Zounds.Spectral.C312_axis",
    "Zounds.Spectral.C312_first_axis_refuted",
    "Zounds.Spectral.C312_parts"
   ],
   "note": ""
  },
  {
   "property": "C313",
   "status": "proved",
   "theorems": [
    "Zounds.Arr.C313_axis",
    "Zounds.Arr.C313_lib",
    "Zounds.Arr.C313_flat_refuted",
    "Zounds.Arr.C313_no_axis"
   ],
   "note": ""
  },
  {
   "property": "C314",
   "status": "proved",
   "theorems": [
    "Zounds.Adaptive.C314_ends",
    "Zounds.Adaptive.C314_weighted",
    "Zounds.Adaptive.C314_lost",
    "Zounds.Adaptive.C314_constant"
   ],
   "note": ""
  },
  {
   "property": "C315",
   "status": "proved",
   "theorems": [
    "Zounds.Stored.C315_read",
    "Zounds.Stored.C315_frequency_first",
    "Zounds.Stored.C315_frequency_first_refuted"
   ],
   "note": ""
  },
  {
   "property": "C316",
   "status": "proved",
   "theorems": [
    "Zounds.Stored.C316_audio",
    "Zounds.Stored.C316_other_rate_refuted",
    "Zounds.Stored.C316_axes_refused",
    "Zounds.Stored.C316_adaptive_one_axis",
    "Zounds.Stored.C316_adaptive"
   ],
   "note": ""
  },
  {
   "property": "C317",
   "status": "proved",
   "theorems": [
    "Zounds.Web.C317_endpoints",
    "Zounds.Web.C317_post"
   ],
   "note": ""
  },
  {
   "property": "C318",
   "status": "proved",
   "theorems": [
    "Zounds.AudioOps.C318_sum",
    "Zounds.AudioOps.C318_sum_last_refuted",
    "Zounds.AudioOps.C318_over_time",
    "Zounds.AudioOps.C318_mono",
    "Zounds.AudioOps.C318_dot_refuted",
    "Zounds.AudioOps.C318_zeros_like",
    "Zounds.AudioOps.C318_transpose_refuted",
    "Zounds.AudioOps.C318_concat"
   ],
   "note": ""
  },
  {
   "property": "C319",
   "status": "proved",
   "theorems": [
    "Zounds.Float64.C319_rounding",
    "Zounds.Float64.C319_count",
    "Zounds.Float64.C319_silence",
    "Zounds.Float64.C319_samples_per_second",
    "Zounds.Float64.C319_discrete_samples",
    "Zounds.Float64.C319_synthesizers",
    "Zounds.Float64.C319_bound_needed"
   ],
   "note": ""
  },
  {
   "property": "C320",
   "status": "proved",
   "theorems": [
    "Zounds.Float64.C320_slice",
    "Zounds.Float64.C320_exact",
    "Zounds.Float64.C320_open_ended",
    "Zounds.Float64.C320_tie_refuted"
   ],
   "note": ""
  },
  {
   "property": "C321",
   "status": "proved",
   "theorems": [
    "Zounds.Float64.C321_rate",
    "Zounds.Float64.C321_16k",
    "Zounds.Float64.C321_doubling",
    "Zounds.Float64.C321_16k_refuted",
    "Zounds.Float64.C321_dct",
    "Zounds.Float64.C321_dctiv",
    "Zounds.Float64.C321_nodes_refuted"
   ],
   "note": ""
  },
  {
   "property": "C322",
   "status": "proved",
   "theorems": [
    "Zounds.Float64.C322_seconds",
    "Zounds.Float64.C322_within_one",
    "Zounds.Float64.C322_milliseconds",
    "Zounds.Float64.C322_count_refuted",
    "Zounds.Float64.C322_tick_length",
    "Zounds.Float64.C322_step_divides",
    "Zounds.Float64.C322_step_within_one",
    "Zounds.Float64.C322_step_refuted"
   ],
   "note": ""
  },
  {
   "property": "C323",
   "status": "proved",
   "theorems": [
    "Zounds.Float64.C323_within_one",
    "Zounds.Float64.C323_octaves",
    "Zounds.Float64.C323_mix",
    "Zounds.Float64.C323_refuted"
   ],
   "note": ""
  },
  {
   "property": "C324",
   "status": "proved",
   "theorems": [
    "Zounds.FloatRange.C324_stretch",
    "Zounds.FloatRange.C324_rest",
    "Zounds.FloatRange.C324_off_by_one",
    "Zounds.FloatRange.C324_exact",
    "Zounds.FloatRange.C324_refuted",
    "Zounds.FloatRange.C324_consecutive",
    "Zounds.FloatRange.C324_repeat_refuted"
   ],
   "note": "Model/FloatRange.lean; C324_stretch, C324_rest, C324_off_by_one, C324_exact, C324_consecutive, C324_refuted, C324_repeat_refuted. Infinities and not-a-number are not modelled."
  },
  {
   "property": "C325",
   "status": "proved",
   "theorems": [
    "Zounds.FloatSizes.C325_out_frames"
   ],
   "note": "Model/FloatSizes.lean; C325_out_frames."
  },
  {
   "property": "C326",
   "status": "proved",
   "theorems": [
    "Zounds.FloatSizes.C326_contribution",
    "Zounds.FloatSizes.C326_all",
    "Zounds.FloatSizes.C326_contribution_refuted",
    "Zounds.FloatSizes.C326_chunk_size"
   ],
   "note": "Model/FloatSizes.lean; C326_contribution, C326_all, C326_contribution_refuted, C326_chunk_size."
  },
  {
   "property": "C327",
   "status": "proved",
   "theorems": [
    "Zounds.Page.C327_page",
    "Zounds.Page.C327_unique",
    "Zounds.Page.C327_plain",
    "Zounds.Page.C327_other_host_refuted",
    "Zounds.Page.C327_nested_refuted"
   ],
   "note": "C327_page is an iff against the one-pass specification Inlined; C327_unique shows the specification determines the page; the two refuted theorems show what the conditions exclude."
  },
  {
   "property": "C328",
   "status": "proved",
   "theorems": [
    "Zounds.Hertz.C328_expression",
    "Zounds.Hertz.C328_fails",
    "Zounds.Hertz.C328_float",
    "Zounds.Hertz.C328_twice_refuted"
   ],
   "note": "C328_expression, C328_fails, C328_float, C328_twice_refuted. Rounding and overflow not modelled."
  },
  {
   "property": "C329",
   "status": "proved",
   "theorems": [
    "Zounds.Hertz.C329_frequency",
    "Zounds.Hertz.C329_number",
    "Zounds.Hertz.C329_agree",
    "Zounds.Hertz.C329_compare_refuted"
   ],
   "note": "C329_frequency, C329_number, C329_agree, C329_compare_refuted."
  },
  {
   "property": "C330",
   "status": "proved",
   "theorems": [
    "Zounds.Hertz.C330_units",
    "Zounds.Hertz.C330_values",
    "Zounds.Hertz.C330_slices"
   ],
   "note": "C330_units, C330_slices."
  },
  {
   "property": "C331",
   "status": "proved",
   "theorems": [
    "Zounds.Hertz.C331_band_equality",
    "Zounds.Hertz.C331_symmetry_refuted"
   ],
   "note": "C331_band_equality, C331_symmetry_refuted."
  },
  {
   "property": "C332",
   "status": "proved",
   "theorems": [
    "Zounds.Hertz.C332_every",
    "Zounds.Hertz.C332_linear",
    "Zounds.Hertz.C332_geometric",
    "Zounds.Hertz.C332_perceptual"
   ],
   "note": "C332_every, C332_linear, C332_geometric, C332_perceptual. Over any ordered field (the last two over the reals); float rounding not modelled."
  },
  {
   "property": "C333",
   "status": "proved",
   "theorems": [
    "Zounds.PhaseBand.C333_band",
    "Zounds.PhaseBand.C333_whole",
    "Zounds.PhaseBand.C333_empty",
    "Zounds.PhaseBand.C333_frame"
   ],
   "note": "C333_band, C333_whole, C333_frame, C333_empty."
  },
  {
   "property": "C334",
   "status": "proved",
   "theorems": [
    "Zounds.PhaseBand.C334_first_axis_refuted",
    "Zounds.PhaseBand.C334_other_axes"
   ],
   "note": "C334_first_axis_refuted is the refutation, C334_other_axes the errors."
  },
  {
   "property": "C335",
   "status": "proved",
   "theorems": [
    "Zounds.BandLoss.C335_zero",
    "Zounds.BandLoss.C335_tells_apart"
   ],
   "note": "C335_zero, C335_tells_apart. Amount is the specification of what is compared: the correlation with a cosine. The factors are exact rationals; floating point rounding of int(factor * size) is not modelled."
  },
  {
   "property": "C336",
   "status": "proved",
   "theorems": [
    "Zounds.BandLoss.C336_volume"
   ],
   "note": "C336_volume, over real numbers."
  },
  {
   "property": "C337",
   "status": "proved",
   "theorems": [
    "Zounds.BandLoss.C337_tones",
    "Zounds.BandLoss.C337_resample",
    "Zounds.BandLoss.C337_faithful"
   ],
   "note": "C337_tones (existence and uniqueness), C337_resample, C337_faithful. Tones is the specification. Real arithmetic; the new size is given as a number of samples."
  },
  {
   "property": "C338",
   "status": "proved",
   "theorems": [
    "Zounds.Cut.C338_range",
    "Zounds.Cut.C338_explicit",
    "Zounds.Cut.C338_linear",
    "Zounds.Cut.C338_band",
    "Zounds.Cut.C338_nothing",
    "Zounds.Cut.C338_one_band_refuted"
   ],
   "note": "Complete for all cases in the statement. C338_range states the hypotheses on the sub-scale (constructible, as long as its bands, with bands), discharged for explicit and geometric scales by C338_explicit and for linear runs of two or more by C338_linear; the one-band linear case is refuted."
  },
  {
   "property": "C339",
   "status": "proved",
   "theorems": [
    "Zounds.Cut.C339_again",
    "Zounds.Cut.C339_from_start",
    "Zounds.Cut.C339_refuted",
    "Zounds.Cut.C339_same_band"
   ],
   "note": "C339_again gives the exact result, C339_from_start the case that is right, C339_refuted and C339_same_band the cases that are not."
  },
  {
   "property": "C340",
   "status": "proved",
   "theorems": [
    "Zounds.Cut.C340_positions",
    "Zounds.Cut.C340_slices",
    "Zounds.Cut.C340_exact"
   ],
   "note": "C340_slices and C340_positions give the exact result, C340_exact when it agrees with the bands."
  },
  {
   "property": "C341",
   "status": "proved",
   "theorems": [
    "Zounds.Browser.C341_record",
    "Zounds.Browser.C341_sent",
    "Zounds.Browser.C341_in_order",
    "Zounds.Browser.C341_browse",
    "Zounds.Browser.C341_interrupts",
    "Zounds.Browser.C341_refuted"
   ],
   "note": "Model/Browser.lean Console: keys, requests and answers as a state machine; jQuery's callback order as documented."
  },
  {
   "property": "C342",
   "status": "proved",
   "theorems": [
    "Zounds.Browser.C342_current",
    "Zounds.Browser.C342_none",
    "Zounds.Browser.C342_images",
    "Zounds.Browser.C342_patient",
    "Zounds.Browser.C342_refuted"
   ],
   "note": "Model/Browser.lean Carousel: arrivals in any order; C342_refuted shows the stale image."
  },
  {
   "property": "C343",
   "status": "proved",
   "theorems": [
    "Zounds.Browser.C343_keys",
    "Zounds.Browser.C343_display",
    "Zounds.Browser.C343_one",
    "Zounds.Browser.C343_refuted"
   ],
   "note": "Model/Browser.lean Visual: unsubscribe removes all handlers of an event, as $(document).off does."
  },
  {
   "property": "C344",
   "status": "proved",
   "theorems": [
    "Zounds.Browser.C344_methods",
    "Zounds.Browser.C344_one",
    "Zounds.Browser.C344_refuted"
   ],
   "note": "Model/Browser.lean clientMethods."
  },
  {
   "property": "C345",
   "status": "proved",
   "theorems": [
    "Zounds.Browser.C345_stretch",
    "Zounds.Browser.C345_refuted"
   ],
   "note": "Rests on C324; how JavaScript writes and Python reads numbers is a hypothesis (Writes), met by an example."
  },
  {
   "property": "C346",
   "status": "proved",
   "theorems": [
    "Zounds.Browser.C346_round_trip",
    "Zounds.Browser.C346_link",
    "Zounds.Browser.C346_shown",
    "Zounds.Browser.C346_random",
    "Zounds.Browser.C346_once_refuted"
   ],
   "note": "ASCII text; control characters inside a query are not modelled. The server's answer to such a request still fails (C169)."
  },
  {
   "property": "C347",
   "status": "proved",
   "theorems": [
    "Zounds.Browser.C347_agree",
    "Zounds.Browser.C347_back_refuted",
    "Zounds.Browser.C347_hurry_refuted"
   ],
   "note": "The server's answer is taken to be for the query asked for; a random search may be for any query."
  },
  {
   "property": "C348",
   "status": "proved",
   "theorems": [
    "Zounds.Sketch.C348_code",
    "Zounds.Sketch.C348_same",
    "Zounds.Sketch.C348_pool",
    "Zounds.Sketch.C348_blank_refuted"
   ],
   "note": "Codes by sets of nearest codewords. Real numbers for floats. C348_blank_refuted is the counterexample."
  },
  {
   "property": "C349",
   "status": "proved",
   "theorems": [
    "Zounds.Sketch.C349_distance",
    "Zounds.Sketch.C349_stretches"
   ],
   "note": "Specification: symmetric difference of finite sets of codewords."
  },
  {
   "property": "C350",
   "status": "proved",
   "theorems": [
    "Zounds.Sketch.C350_search"
   ],
   "note": "Over the index's event-sourced history (C285 ff.)."
  },
  {
   "property": "C351",
   "status": "proved",
   "theorems": [
    "Zounds.Sketch.C351_volume",
    "Zounds.Sketch.C351_plain_refuted",
    "Zounds.Sketch.C351_silence_refuted"
   ],
   "note": "Refutations: C351_plain_refuted, C351_silence_refuted."
  },
  {
   "property": "C352",
   "status": "proved",
   "theorems": [
    "Zounds.Sketch.C352_packed"
   ],
   "note": "An equivalence on lengths and an equality of encoded bytes."
  },
  {
   "property": "C353",
   "status": "proved",
   "theorems": [
    "Zounds.Sketch.C353_when",
    "Zounds.Sketch.C353_distance",
    "Zounds.Sketch.C353_search"
   ],
   "note": "Both packings may be mixed between index and query."
  },
  {
   "property": "C354",
   "status": "proved",
   "theorems": [
    "Zounds.Vq.C354_pass",
    "Zounds.Vq.C354_log",
    "Zounds.Vq.C354_errors"
   ],
   "note": "Specification: Quantised. Real numbers for floats; that the codebook has any content scipy may return is not used."
  },
  {
   "property": "C355",
   "status": "proved",
   "theorems": [
    "Zounds.Vq.C355_error"
   ],
   "note": "Stated for frames and results as C354 relates them."
  },
  {
   "property": "C356",
   "status": "proved",
   "theorems": [
    "Zounds.Vq.C356_mean",
    "Zounds.Vq.C356_quieter"
   ],
   "note": "The codewords are assumed to be means of unit frames (what k-means computes of unit-normed data)."
  },
  {
   "property": "C357",
   "status": "proved",
   "theorems": [
    "Zounds.Vq.C357_again",
    "Zounds.Vq.C357_again_refuted"
   ],
   "note": "Refutation: C357_again_refuted."
  },
  {
   "property": "C358",
   "status": "proved",
   "theorems": [
    "Zounds.Vq.C358_volume",
    "Zounds.Vq.C358_log_refuted"
   ],
   "note": "Refutation: C358_log_refuted."
  },
  {
   "property": "C359",
   "status": "proved",
   "theorems": [
    "Zounds.Filter.C359_filter",
    "Zounds.Filter.C359_nothing",
    "Zounds.Filter.C359_hertz",
    "Zounds.Filter.C359_explicit",
    "Zounds.Filter.C359_linear"
   ],
   "note": "Touching (touches): the column's band ends at or after the start of the band and begins before its end. The zero-column case of x itself aside, all scales but chroma and the rounding to even numbers of bands."
  },
  {
   "property": "C360",
   "status": "proved",
   "theorems": [
    "Zounds.Filter.C360_crossover"
   ],
   "note": "Stated as what the two halves do add up to; the literal claim is false whenever the doubled column is not zero."
  },
  {
   "property": "C361",
   "status": "proved",
   "theorems": [
    "Zounds.SynthLinear.C361_mdct",
    "Zounds.SynthLinear.C361_fft",
    "Zounds.SynthLinear.C361_dct",
    "Zounds.SynthLinear.C361_dctiv",
    "Zounds.SynthLinear.C361_crossover"
   ],
   "note": "Real and complex numbers for floats. DCT-IV: frame by frame. C361_crossover combines C360 with the MDCT synthesizer."
  },
  {
   "property": "C362",
   "status": "proved",
   "theorems": [
    "Zounds.Energy.C362_dct",
    "Zounds.Energy.C362_idct"
   ],
   "note": "Real numbers for floats; scipy's dct with norm='ortho' as documented."
  },
  {
   "property": "C363",
   "status": "proved",
   "theorems": [
    "Zounds.Energy.C363_fft"
   ],
   "note": "spectrumEnergy counts every coefficient but the first and the last twice."
  },
  {
   "property": "C364",
   "status": "proved",
   "theorems": [
    "Zounds.Energy.C364_mdct",
    "Zounds.Energy.C364_fft",
    "Zounds.Energy.C364_dct"
   ],
   "note": "EnergyKept states the two bounds and the exact case. oggMax: the largest raw value of the window (C50)."
  },
  {
   "property": "C365",
   "status": "proved",
   "theorems": [
    "Zounds.Analysis.C365_fft",
    "Zounds.Analysis.C365_mdct",
    "Zounds.Analysis.C365_dct",
    "Zounds.Analysis.C365_dctiv"
   ],
   "note": "MixesRows: fail together, same sizes, and the third result is the mix of the first two. What a node has emitted before an error is not represented."
  },
  {
   "property": "C366",
   "status": "proved",
   "theorems": [
    "Zounds.Analysis.C366_stft",
    "Zounds.Analysis.C366_graph"
   ],
   "note": "Short sounds (not longer than a window) have one frame each way, so the count is stated for longer ones."
  },
  {
   "property": "C367",
   "status": "proved",
   "theorems": [
    "Zounds.Analysis.C367_stft"
   ],
   "note": "Combines C245 and C364."
  },
  {
   "property": "C368",
   "status": "proved",
   "theorems": [
    "Zounds.MdctBack.C368_back"
   ],
   "note": "exact arithmetic over the reals; any number of frames and coefficients"
  },
  {
   "property": "C369",
   "status": "proved",
   "theorems": [
    "Zounds.MdctBack.C369_energy",
    "Zounds.MdctBack.C369_error"
   ],
   "note": "exact arithmetic over the reals; the energy of a sound and of a difference of sounds"
  },
  {
   "property": "C370",
   "status": "proved",
   "theorems": [
    "Zounds.MdctBack.C370_fft",
    "Zounds.MdctBack.C370_dct",
    "Zounds.MdctBack.C370_fft_refuted",
    "Zounds.MdctBack.C370_dct_refuted"
   ],
   "note": "exact arithmetic over the reals; the bound and the refutation for every size"
  },
  {
   "property": "C371",
   "status": "proved",
   "theorems": [
    "Zounds.Duration.C371_whole",
    "Zounds.Duration.C371_picoseconds",
    "Zounds.Duration.C371_fraction",
    "Zounds.Duration.C371_exact",
    "Zounds.Duration.C371_refuted",
    "Zounds.Duration.C371_no_number",
    "Zounds.Duration.C371_units"
   ],
   "note": "numpy's 64-bit limit is not modelled; a float argument is its exact value"
  },
  {
   "property": "C372",
   "status": "proved",
   "theorems": [
    "Zounds.Shuffled.C372_exact",
    "Zounds.Shuffled.C372_size",
    "Zounds.Shuffled.C372_refuted",
    "Zounds.Shuffled.C372_none"
   ],
   "note": "one node; the draws are parameters, so for every outcome"
  },
  {
   "property": "C373",
   "status": "proved",
   "theorems": [
    "Zounds.Shuffled.C373_kept",
    "Zounds.Shuffled.C373_refuted"
   ],
   "note": "a count over all sequences of draws; Kept is characterised by C372_exact"
  },
  {
   "property": "C374",
   "status": "proved",
   "theorems": [
    "Zounds.Sampler.C374_passes",
    "Zounds.Sampler.C374_empty_refuted",
    "Zounds.Sampler.C374_none"
   ],
   "note": "the plain reservoir (multiplexed=False), parallel=False; the draws are parameters. The TypeError without documents is that of indexing None in get"
  },
  {
   "property": "C375",
   "status": "proved",
   "theorems": [
    "Zounds.Sampler.C375_ready",
    "Zounds.Sampler.C375_first",
    "Zounds.Sampler.C375_any",
    "Zounds.Sampler.C375_refuted"
   ],
   "note": "a step is what one thread does between two points where another could run: looking for the array, making it, reading self.arr, writing, adding the indices"
  },
  {
   "property": "C376",
   "status": "proved",
   "theorems": [
    "Zounds.MuxThreads.C376_alone",
    "Zounds.MuxThreads.C376_in_turn",
    "Zounds.MuxThreads.C376_refuted"
   ],
   "note": "after the first pass has made the arrays; a step is the assignment of the rows of one key, done while holding the interpreter lock"
  },
  {
   "property": "C377",
   "status": "proved",
   "theorems": [
    "Zounds.Memory.C377_values",
    "Zounds.Memory.C377_each_other",
    "Zounds.Memory.C377_input",
    "Zounds.Memory.C377_copy",
    "Zounds.Memory.C377_leftover"
   ],
   "note": "arrays of one axis, windows of at least two numbers; a store of one number"
  },
  {
   "property": "C378",
   "status": "proved",
   "theorems": [
    "Zounds.Memory.C378_stable",
    "Zounds.Memory.C378_outside",
    "Zounds.Memory.C378_store"
   ],
   "note": "one thread; numpy's np.concatenate always makes a new array"
  },
  {
   "property": "C379",
   "status": "proved",
   "theorems": [
    "Zounds.Memory.C379_kept",
    "Zounds.Memory.C379_refuted"
   ],
   "note": "parallel=False, multiplexed=False; numpy's index with a list always copies"
  },
  {
   "property": "C380",
   "status": "proved",
   "theorems": [
    "Zounds.Memory.C380_later",
    "Zounds.Memory.C380_no_overlap",
    "Zounds.Memory.C380_first_chunk"
   ],
   "note": "arrays of one axis, windows of at least two samples, no padwith; one store between two chunks"
  },
  {
   "property": "C381",
   "status": "proved",
   "theorems": [
    "Zounds.Desk.C381_as_stored",
    "Zounds.Desk.C381_refused",
    "Zounds.Desk.C381_store",
    "Zounds.Desk.C381_convert",
    "Zounds.Desk.C381_view",
    "Zounds.Desk.C381_new",
    "Zounds.Desk.C381_outside"
   ],
   "note": "numpy's np.frombuffer of bytes gives a read-only array and views inherit this; empty stored arrays have no numbers to store; which elements a view picks is left open (any list of places); stores of one number"
  },
  {
   "property": "C382",
   "status": "proved",
   "theorems": [
    "Zounds.Bins.C382_fft",
    "Zounds.Bins.C382_band",
    "Zounds.Bins.C382_odd_rate",
    "Zounds.Bins.C382_rates",
    "Zounds.Bins.C382_outside",
    "Zounds.Bins.C382_cut",
    "Zounds.Bins.C382_dct",
    "Zounds.Bins.C382_dct_band"
   ],
   "note": "real numbers for samples and rationals for frequencies (no rounding); the rate is the whole number samples_per_second, which differs from 10^12 divided by the picoseconds between samples by less than one part in 10^7"
  },
  {
   "property": "C383",
   "status": "proved",
   "theorems": [
    "Zounds.ToneFilter.C383_touching",
    "Zounds.ToneFilter.C383_bandpass"
   ],
   "note": "real and complex numbers without rounding; no window function; tones at the centres of coefficients; the band meets the scale (else ValueError, C359)"
  },
  {
   "property": "C384",
   "status": "proved",
   "theorems": [
    "Zounds.SineSpectrum.C384_spectrum",
    "Zounds.SineSpectrum.C384_found",
    "Zounds.SineSpectrum.C384_single",
    "Zounds.SineSpectrum.C384_half_rate",
    "Zounds.SineSpectrum.C384_alias"
   ],
   "note": "real numbers without rounding, quotients of durations exact (C322, C323 say what double precision adds); frequencies of whole numbers of periods per window"
  },
  {
   "property": "C385",
   "status": "proved",
   "theorems": [
    "Zounds.Padded.C385_meaning",
    "Zounds.Padded.C385_same_frequency",
    "Zounds.Padded.C385_refines",
    "Zounds.Padded.C385_label",
    "Zounds.Padded.C385_bound"
   ],
   "note": "real and complex numbers without rounding; the node's other step, taking the scale's rate from the distance of the samples, in exact arithmetic"
  },
  {
   "property": "C386",
   "status": "proved",
   "theorems": [
    "Zounds.Periodic.C386_frames",
    "Zounds.Periodic.C386_half_lapped",
    "Zounds.Periodic.C386_conversely",
    "Zounds.Periodic.C386_sine"
   ],
   "note": "real and complex numbers without rounding; the converse is for even windows (the inverse transform has an even number of samples, C54)"
  },
  {
   "property": "C387",
   "status": "proved",
   "theorems": [
    "Zounds.SteadyStretch.C387_same_period",
    "Zounds.SteadyStretch.C387_repeats",
    "Zounds.SteadyStretch.C387_sines"
   ],
   "note": "real numbers without rounding. The end of the analysis: sample t with t//hop times the factor below the number of the last frame; the frames after it are mixed with the zeros the code appends (C58_vocoder)"
  },
  {
   "property": "C388",
   "status": "proved",
   "theorems": [
    "Zounds.ScaleSine.C388_sine",
    "Zounds.ScaleSine.C388_refuted"
   ],
   "note": "real and complex numbers without rounding (in floats the zeros are of the size of the rounding errors); the expectation that bands holding a synthesized frequency are not silent is refuted: C388_refuted"
  }
 ]
}