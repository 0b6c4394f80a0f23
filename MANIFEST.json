{
 "claims": [
  {
   "property": "C01",
   "status": "proved",
   "theorems": [
    "F3D.Props.C01_dense_faithful_map",
    "F3D.Props.C01_dense_index_bijective"
   ],
   "note": ""
  },
  {
   "property": "C02",
   "status": "proved",
   "theorems": [
    "F3D.Props.C02_sparse_faithful_map"
   ],
   "note": ""
  },
  {
   "property": "C03",
   "status": "proved",
   "theorems": [
    "F3D.Props.C03_block_addressing",
    "F3D.Props.C03_valid_block_indices",
    "F3D.Props.C03_wide_field_out_of_table"
   ],
   "note": ""
  },
  {
   "property": "C04",
   "status": "proved",
   "theorems": [
    "F3D.Props.C04_release_keeps_values"
   ],
   "note": ""
  },
  {
   "property": "C05",
   "status": "proved",
   "theorems": [
    "F3D.Props.C05_release_scalars",
    "F3D.Props.C05_release_vectors",
    "F3D.Props.C05_vector_witness",
    "F3D.Props.C05_release_by_threshold",
    "F3D.Props.C05_release_can_flip_sign"
   ],
   "note": ""
  },
  {
   "property": "C06",
   "status": "proved",
   "theorems": [
    "F3D.Props.C06_write_allocates_one_block",
    "F3D.Props.C06_clear_deallocates"
   ],
   "note": ""
  },
  {
   "property": "C07",
   "status": "proved",
   "theorems": [
    "F3D.Props.C07_copies_equal_and_independent",
    "F3D.Props.C07_mapping_private_without_assignment",
    "F3D.Props.C07_assignment_shares_mapping"
   ],
   "note": ""
  },
  {
   "property": "C08",
   "status": "proved",
   "theorems": [
    "F3D.Props.C08_mac_faithful_faces",
    "F3D.Props.C08_mac_value_is_face_average",
    "F3D.Props.C08_mac_resize_exception",
    "F3D.Props.C08_mac_resize_keeps_stale_faces",
    "F3D.Props.C08_copyMAC"
   ],
   "note": ""
  },
  {
   "property": "C09",
   "status": "proved",
   "theorems": [
    "F3D.Props.C09_dense_resize",
    "F3D.Props.C09_size_windows",
    "F3D.Props.C09_sparse_resize"
   ],
   "note": ""
  },
  {
   "property": "C10",
   "status": "proved",
   "theorems": [
    "F3D.Props.C10_subset_iteration",
    "F3D.Props.C10_window_iteration",
    "F3D.Props.C10_empty_subset",
    "F3D.Props.C10_default_field",
    "F3D.Props.C10_partly_empty_window_never_ends"
   ],
   "note": ""
  },
  {
   "property": "C11",
   "status": "proved",
   "theorems": [
    "F3D.Props.C11_dense_iterator",
    "F3D.Props.C11_dense_iterator_whole",
    "F3D.Props.C11_dense_iterator_empty"
   ],
   "note": ""
  },
  {
   "property": "C12",
   "status": "proved",
   "theorems": [
    "F3D.Props.C12_sparse_iterator",
    "F3D.Props.C12_sparse_iterator_whole",
    "F3D.Props.C12_sparse_fill",
    "F3D.Props.C12_dynamic_iterator_aligned",
    "F3D.Props.C12_dynamic_iterator_misaligned"
   ],
   "note": ""
  },
  {
   "property": "C13",
   "status": "proved",
   "theorems": [
    "F3D.Props.C13_mac_component_iterator",
    "F3D.Props.C13_mac_component_iterator_whole"
   ],
   "note": ""
  },
  {
   "property": "C14",
   "status": "proved",
   "theorems": [
    "F3D.Props.C14_bounding_boxes_right_iff",
    "F3D.Props.C14_negative_voxels_in_no_box",
    "F3D.Props.C14_block_iteration",
    "F3D.Props.C14_block_bounding_box",
    "F3D.Props.C14_bounding_box_ignores_origin"
   ],
   "note": ""
  },
  {
   "property": "C15",
   "status": "proved",
   "theorems": [
    "F3D.Props.C15_dense_grains",
    "F3D.Props.C15_dense_grain_contiguous",
    "F3D.Props.C15_empty_counts",
    "F3D.Props.C15_sparse_grain_whole",
    "F3D.Props.C15_sparse_grain_is_block",
    "F3D.Props.C15_sparse_grains_partition"
   ],
   "note": ""
  },
  {
   "property": "C16",
   "status": "proved",
   "theorems": [
    "F3D.Props.C16_index_to_coord_bijective",
    "F3D.Props.C16_index_follows_iterator"
   ],
   "note": ""
  },
  {
   "property": "C17",
   "status": "proved",
   "theorems": [
    "F3D.Props.C17_contToDisc_is_cell",
    "F3D.Props.C17_round_trip",
    "F3D.Props.C17_discreteBounds_covers",
    "F3D.Props.C17_discreteBounds_misses_negative",
    "F3D.Props.C17_continuousBounds_exact",
    "F3D.Props.C17_continuousBounds_inexact",
    "F3D.Props.C17_clip_is_intersection"
   ],
   "note": ""
  },
  {
   "property": "C18",
   "status": "proved",
   "theorems": [
    "F3D.Props.C18_linear_reads_window_only",
    "F3D.Props.C18_linear_exact_at_centers",
    "F3D.Props.C18_linear_in_range",
    "F3D.Props.C18_linear_clamps",
    "F3D.Props.C18_linear_reproduces_affine",
    "F3D.Props.C18_linear_on_dense"
   ],
   "note": ""
  },
  {
   "property": "C19",
   "status": "proved",
   "theorems": [
    "F3D.Props.C19_sparse_fast_path"
   ],
   "note": ""
  },
  {
   "property": "C20",
   "status": "proved",
   "theorems": [
    "F3D.Props.C20_mac_component_agrees",
    "F3D.Props.C20_mac_exact_on_faces",
    "F3D.Props.C20_mac_in_range"
   ],
   "note": ""
  },
  {
   "property": "C21",
   "status": "proved",
   "theorems": [
    "F3D.Props.C21_cubic_reads_window_only",
    "F3D.Props.C21_cubic_exact_at_centers",
    "F3D.Props.C21_cubic_constant",
    "F3D.Props.C21_cubic_reproduces_affine",
    "F3D.Props.C21_cubic_overshoots",
    "F3D.Props.C21_cubic_wrong_below_zero",
    "F3D.Props.C21_cubic_wrong_above_zero",
    "F3D.Props.C21_cubic_mac_exact_on_faces"
   ],
   "note": ""
  },
  {
   "property": "C22",
   "status": "proved",
   "theorems": [
    "F3D.Props.C22_brackets",
    "F3D.Props.C22_finest",
    "F3D.Props.C22_blended",
    "F3D.Props.C22_within_levels",
    "F3D.Props.C22_continuous"
   ],
   "note": ""
  },
  {
   "property": "C23",
   "status": "proved",
   "theorems": [
    "F3D.Props.C23_level_zero",
    "F3D.Props.C23_cells",
    "F3D.Props.C23_steps",
    "F3D.Props.C23_nested",
    "F3D.Props.C23_scale"
   ],
   "note": ""
  },
  {
   "property": "C24",
   "status": "proved",
   "theorems": [
    "F3D.Props.C24_reads_return_file_data",
    "F3D.Props.C24_single_reader_completes"
   ],
   "note": ""
  },
  {
   "property": "C25",
   "status": "proved",
   "theorems": [
    "F3D.Props.C25_accounted_is_loaded",
    "F3D.Props.C25_single_reader_within_limit",
    "F3D.Props.C25_many_readers_bound",
    "F3D.Props.C25_many_readers_bound_tight"
   ],
   "note": ""
  },
  {
   "property": "C26",
   "status": "proved",
   "theorems": [
    "F3D.Props.C26_list_flags_data_agree"
   ],
   "note": ""
  },
  {
   "property": "C27",
   "status": "proved",
   "theorems": [
    "F3D.Props.C27_pinned_stays_loaded",
    "F3D.Props.C27_reader_finds_block",
    "F3D.Props.C27_flush_breaks_reader"
   ],
   "note": ""
  },
  {
   "property": "C28",
   "status": "proved",
   "theorems": [
    "F3D.Props.C28_eviction_terminates_unpinned",
    "F3D.Props.C28_eviction_terminates_iff",
    "F3D.Props.C28_all_pinned_never_stops",
    "F3D.Props.C28_stuck_state_reachable"
   ],
   "note": ""
  },
  {
   "property": "C29",
   "status": "proved",
   "theorems": [
    "F3D.Props.C29_victims_in_second_chance_order",
    "F3D.Props.C29_no_more_than_needed",
    "F3D.Props.C29_used_after_unused",
    "F3D.Props.C29_loaded_block_is_met_last"
   ],
   "note": ""
  },
  {
   "property": "C30",
   "status": "proved",
   "theorems": [
    "F3D.Props.C30_archive_reads_back",
    "F3D.Props.C30_unclosed_archive",
    "F3D.Props.C30_zero_length_data",
    "F3D.Props.C30_tree_round_trip"
   ],
   "note": ""
  },
  {
   "property": "C31",
   "status": "proved",
   "theorems": [
    "F3D.Props.C31_crash_between_writes",
    "F3D.Props.C31_torn_write",
    "F3D.Props.C31_torn_header_out_of_bounds"
   ],
   "note": ""
  },
  {
   "property": "C32",
   "status": "proved",
   "theorems": [
    "F3D.Props.C32_read_inside_block",
    "F3D.Props.C32_wrapping_read_escapes"
   ],
   "note": ""
  },
  {
   "property": "C33",
   "status": "proved",
   "theorems": [
    "F3D.Props.C33_one_slot_per_item",
    "F3D.Props.C33_reader_counts_items",
    "F3D.Props.C33_zero_length_takes_two",
    "F3D.Props.C33_zero_length_shifts_index"
   ],
   "note": ""
  },
  {
   "property": "C34",
   "status": "proved",
   "theorems": [
    "F3D.Props.C34_light_same_children",
    "F3D.Props.C34_light_same_tree",
    "F3D.Props.C34_full_kinds",
    "F3D.Props.C34_light_kind_queries_fail"
   ],
   "note": ""
  },
  {
   "property": "C35",
   "status": "proved",
   "theorems": [
    "F3D.Props.C35_first_of_kind",
    "F3D.Props.C35_path",
    "F3D.Props.C35_listing",
    "F3D.Props.C35_empty_name_hides",
    "F3D.Props.C35_listed_but_not_found",
    "F3D.Props.C35_slash_in_name"
   ],
   "note": ""
  },
  {
   "property": "C36",
   "status": "proved",
   "theorems": [
    "F3D.Props.C36_attribute_round_trip",
    "F3D.Props.C36_string_without_nul",
    "F3D.Props.C36_wrong_size",
    "F3D.Props.C36_absent",
    "F3D.Props.C36_value_of_absent_crashes",
    "F3D.Props.C36_dataset_round_trip",
    "F3D.Props.C36_empty_element_shifts",
    "F3D.Props.C36_through_the_file"
   ],
   "note": ""
  },
  {
   "property": "C37",
   "status": "proved",
   "theorems": [
    "F3D.Props.C37_dense_round_trip",
    "F3D.Props.C37_other_type_is_null",
    "F3D.Props.C37_unsized_field_unreadable",
    "F3D.Props.C37_stated_format"
   ],
   "note": ""
  },
  {
   "property": "C38",
   "status": "proved",
   "theorems": [
    "F3D.Props.C38_write_never_crashes",
    "F3D.Props.C38_sparse_round_trip",
    "F3D.Props.C38_fully_allocated_round_trip",
    "F3D.Props.C38_any_schedule",
    "F3D.Props.C38_race_exchanges_voxels",
    "F3D.Props.C38_stated_format"
   ],
   "note": ""
  },
  {
   "property": "C39",
   "status": "proved",
   "theorems": [
    "F3D.Props.C39_every_block_once",
    "F3D.Props.C39_terminates"
   ],
   "note": ""
  },
  {
   "property": "C40",
   "status": "proved",
   "theorems": [
    "F3D.Props.C40_one_thread",
    "F3D.Props.C40_one_thread_ends",
    "F3D.Props.C40_atomic_update",
    "F3D.Props.C40_atomic_update_ends",
    "F3D.Props.C40_all_allocated",
    "F3D.Props.C40_each_block_at_most_once",
    "F3D.Props.C40_race_swaps_blocks",
    "F3D.Props.C40_race_loses_a_block",
    "F3D.Props.C40_race_reads_past_the_end"
   ],
   "note": ""
  },
  {
   "property": "C41",
   "status": "proved",
   "theorems": [
    "F3D.Props.C41_every_block_gets_its_row",
    "F3D.Props.C41_rows_are_distinct",
    "F3D.Props.C41_memory_per_pass",
    "F3D.Props.C41_zero_limit_reads_nothing"
   ],
   "note": ""
  },
  {
   "property": "C42",
   "status": "proved",
   "theorems": [
    "F3D.Props.C42_mac_lost",
    "F3D.Props.C42_dense_kept"
   ],
   "note": ""
  },
  {
   "property": "C43",
   "status": "proved",
   "theorems": [
    "F3D.Props.C43_read_back",
    "F3D.Props.C43_layer_named_mapping",
    "F3D.Props.C43_partition_per_mapping",
    "F3D.Props.C43_identical_mappings_shared",
    "F3D.Props.C43_writes_succeed",
    "F3D.Props.C43_order_of_partitions",
    "F3D.Props.C43_unwritable_mapping_crash",
    "F3D.Props.C43_slash_in_layer_name",
    "F3D.Props.C43_read_all",
    "F3D.Props.C43_file_metadata",
    "F3D.Props.C43_failed_create",
    "F3D.Props.C43_layer_without_metadata",
    "F3D.Props.C43_class_without_io",
    "F3D.Props.C43_class_without_io_witness"
   ],
   "note": ""
  },
  {
   "property": "C44",
   "status": "proved",
   "theorems": [
    "F3D.Props.C44_listing_while_writing",
    "F3D.Props.C44_listing_of_file",
    "F3D.Props.C44_second_file_loses_layers",
    "F3D.Props.C44_reuse_witness"
   ],
   "note": ""
  },
  {
   "property": "C45",
   "status": "proved",
   "theorems": [
    "F3D.Props.C45_getters",
    "F3D.Props.C45_last_set",
    "F3D.Props.C45_notified",
    "F3D.Props.C45_iteration_order"
   ],
   "note": ""
  },
  {
   "property": "C46",
   "status": "proved",
   "theorems": [
    "F3D.Props.C46_read_back",
    "F3D.Props.C46_into_existing",
    "F3D.Props.C46_round_trip",
    "F3D.Props.C46_shared_name_lost",
    "F3D.Props.C46_wrong_size",
    "F3D.Props.C46_empty_name_hides"
   ],
   "note": ""
  },
  {
   "property": "C47",
   "status": "proved",
   "theorems": [
    "F3D.Props.C47_matrix_round_trip",
    "F3D.Props.C47_matrix_hdf5_round_trip",
    "F3D.Props.C47_matrix_hdf5_old_format",
    "F3D.Props.C47_null_round_trip",
    "F3D.Props.C47_unknown_class",
    "F3D.Props.C47_frustum_write_defined",
    "F3D.Props.C47_frustum_hdf5_round_trip",
    "F3D.Props.C47_incomplete_matrix",
    "F3D.Props.C47_numbers_distinct",
    "F3D.Props.C47_frustum_hdf5_no_distribution",
    "F3D.Props.C47_frustum_ogawa_forgets",
    "F3D.Props.C47_frustum_ogawa_witness"
   ],
   "note": ""
  },
  {
   "property": "C48",
   "status": "proved",
   "theorems": [
    "F3D.Props.C48_keys_distinct",
    "F3D.Props.C48_slash_collides",
    "F3D.Props.C48_get",
    "F3D.Props.C48_dying_field_returned",
    "F3D.Props.C48_live_when_quiet",
    "F3D.Props.C48_kept_alive",
    "F3D.Props.C48_stale"
   ],
   "note": ""
  },
  {
   "property": "C49",
   "status": "proved",
   "theorems": [
    "F3D.Props.C49_levels",
    "F3D.Props.C49_offset_sizes",
    "F3D.Props.C49_offset_covers",
    "F3D.Props.C49_offset_loses_voxels",
    "F3D.Props.C49_offset_rejected",
    "F3D.Props.C49_origin_undefined",
    "F3D.Props.C49_large_resolution",
    "F3D.Props.C49_accepted"
   ],
   "note": ""
  },
  {
   "property": "C50",
   "status": "proved",
   "theorems": [
    "F3D.Props.C50_box_mean",
    "F3D.Props.C50_min_least",
    "F3D.Props.C50_max_greatest",
    "F3D.Props.C50_within",
    "F3D.Props.C50_min_of_base",
    "F3D.Props.C50_max_of_base",
    "F3D.Props.C50_min_lost"
   ],
   "note": ""
  },
  {
   "property": "C51",
   "status": "proved",
   "theorems": [
    "F3D.Props.C51_schedule_independent",
    "F3D.Props.C51_each_once",
    "F3D.Props.C51_terminates",
    "F3D.Props.C51_no_threads",
    "F3D.Props.C51_sparse_blocks_owned",
    "F3D.Props.C51_sparse",
    "F3D.Props.C51_sparse_blocks_shared",
    "F3D.Props.C51_sparse_race"
   ],
   "note": ""
  },
  {
   "property": "C52",
   "status": "proved",
   "theorems": [
    "F3D.Props.C52_defined",
    "F3D.Props.C52_skip_sound",
    "F3D.Props.C52_filters",
    "F3D.Props.C52_mitchell_dropped",
    "F3D.Props.C52_gaussian_dropped"
   ],
   "note": ""
  },
  {
   "property": "C53",
   "status": "proved",
   "theorems": [
    "F3D.Props.C53_placed",
    "F3D.Props.C53_window_stretched",
    "F3D.Props.C53_defined",
    "F3D.Props.C53_refused",
    "F3D.Props.C53_box_mean",
    "F3D.Props.C53_min_least",
    "F3D.Props.C53_max_greatest",
    "F3D.Props.C53_within",
    "F3D.Props.C53_constant",
    "F3D.Props.C53_identity"
   ],
   "note": ""
  },
  {
   "property": "C54",
   "status": "proved",
   "theorems": [
    "F3D.Props.C54_local_voxel_inverse",
    "F3D.Props.C54_unit_cube",
    "F3D.Props.C54_matrix_forward",
    "F3D.Props.C54_matrix_inverse",
    "F3D.Props.C54_matrix_time_zero",
    "F3D.Props.C54_matrix_total",
    "F3D.Props.C54_between_samples_collapses",
    "F3D.Props.C54_frustum_perspective",
    "F3D.Props.C54_frustum_uniform",
    "F3D.Props.C54_frustum_misaligned",
    "F3D.Props.C54_frustum_samples",
    "F3D.Props.C54_frustum_stale_sample",
    "F3D.Props.C54_frustum_planes",
    "F3D.Props.C54_frustum_set_keeps_samples",
    "F3D.Props.C54_frustum_extents_constructor"
   ],
   "note": ""
  },
  {
   "property": "C55",
   "status": "proved",
   "theorems": [
    "F3D.Props.C55_transform_bounds",
    "F3D.Props.C55_matrix_bounds",
    "F3D.Props.C55_frustum_perspective_bounds",
    "F3D.Props.C55_frustum_uniform_bounds",
    "F3D.Props.C55_frustum_straddling"
   ],
   "note": ""
  },
  {
   "property": "C56",
   "status": "proved",
   "theorems": [
    "F3D.Props.C56_samples",
    "F3D.Props.C56_order_irrelevant",
    "F3D.Props.C56_at_samples",
    "F3D.Props.C56_outside",
    "F3D.Props.C56_between",
    "F3D.Props.C56_bounds"
   ],
   "note": ""
  },
  {
   "property": "C57",
   "status": "proved",
   "theorems": [
    "F3D.Props.C57_range_of_digits",
    "F3D.Props.C57_range",
    "F3D.Props.C57_existing_file",
    "F3D.Props.C57_marks",
    "F3D.Props.C57_not_a_range",
    "F3D.Props.C57_dash_in_name"
   ],
   "note": ""
  },
  {
   "property": "C58",
   "status": "proved",
   "theorems": [
    "F3D.Props.C58_match_iff",
    "F3D.Props.C58_match_attribute_iff",
    "F3D.Props.C58_empty_list",
    "F3D.Props.C58_order_irrelevant",
    "F3D.Props.C58_one_empty_pattern",
    "F3D.Props.C58_split",
    "F3D.Props.C58_string_form"
   ],
   "note": ""
  },
  {
   "property": "C59",
   "status": "proved",
   "theorems": [
    "F3D.Props.C59_first_registration",
    "F3D.Props.C59_stable",
    "F3D.Props.C59_names"
   ],
   "note": ""
  },
  {
   "property": "C60",
   "status": "proved",
   "theorems": [
    "F3D.Props.C60_sequential",
    "F3D.Props.C60_not_too_early",
    "F3D.Props.C60_race_deletes_repeatedly",
    "F3D.Props.C60_race_reads_deleted",
    "F3D.Props.C60_atomic_release"
   ],
   "note": ""
  },
  {
   "property": "C61",
   "status": "proved",
   "theorems": [
    "F3D.Props.C61_sample_sum",
    "F3D.Props.C61_sample_mip_sum",
    "F3D.Props.C61_group_sample",
    "F3D.Props.C61_intersects",
    "F3D.Props.C61_multiple_points",
    "F3D.Props.C61_mip_multiple_points",
    "F3D.Props.C61_mip_uninitialised_flag",
    "F3D.Props.C61_group_wrappers",
    "F3D.Props.C61_minmax",
    "F3D.Props.C61_minmax_covers",
    "F3D.Props.C61_minmax_stops",
    "F3D.Props.C61_minmax_misses_fields",
    "F3D.Props.C61_minmax_not_interpolated",
    "F3D.Props.C61_minmax_negative",
    "F3D.Props.C61_minmax_half",
    "F3D.Props.C61_prefiltered",
    "F3D.Props.C61_prefiltered_level",
    "F3D.Props.C61_prefiltered_everywhere"
   ],
   "note": ""
  },
  {
   "property": "C62",
   "status": "proved",
   "theorems": [
    "F3D.Props.C62_cells_to_faces",
    "F3D.Props.C62_faces_to_cells",
    "F3D.Props.C62_round_trip",
    "F3D.Props.C62_constant",
    "F3D.Props.C62_one_axis",
    "F3D.Props.C62_two_axes"
   ],
   "note": ""
  },
  {
   "property": "C63",
   "status": "proved",
   "theorems": [
    "F3D.Props.C63_defined",
    "F3D.Props.C63_smallest_grid_box",
    "F3D.Props.C63_covers",
    "F3D.Props.C63_negative_missed",
    "F3D.Props.C63_voxels_too_small",
    "F3D.Props.C63_exact_voxels"
   ],
   "note": ""
  },
  {
   "property": "C64",
   "status": "proved",
   "theorems": [
    "F3D.Props.C64_defined",
    "F3D.Props.C64_loaded_once",
    "F3D.Props.C64_same_field",
    "F3D.Props.C64_exceptions",
    "F3D.Props.C64_on_demand",
    "F3D.Props.C64_ready",
    "F3D.Props.C64_terminates",
    "F3D.Props.C64_early"
   ],
   "note": ""
  },
  {
   "property": "C65",
   "status": "proved",
   "theorems": [
    "F3D.Props.C65_no_leak_no_double_free"
   ],
   "note": ""
  },
  {
   "property": "C66",
   "status": "proved",
   "theorems": [
    "F3D.Props.C66_no_deadlock_with_room",
    "F3D.Props.C66_deadlock"
   ],
   "note": ""
  },
  {
   "property": "C67",
   "status": "proved",
   "theorems": [
    "F3D.Props.C67_dense_overrun",
    "F3D.Props.C67_dense_without_data"
   ],
   "note": ""
  },
  {
   "property": "C68",
   "status": "proved",
   "theorems": [
    "F3D.Props.C68_matrix_voxel_size",
    "F3D.Props.C68_frustum_voxel_size",
    "F3D.Props.C68_single_slice"
   ],
   "note": ""
  },
  {
   "property": "C69",
   "status": "proved",
   "theorems": [
    "F3D.Props.C69_ray_box",
    "F3D.Props.C69_tiny_direction",
    "F3D.Props.C69_matrix",
    "F3D.Props.C69_object_space",
    "F3D.Props.C69_object_matrix",
    "F3D.Props.C69_frustum",
    "F3D.Props.C69_frustum_parallel",
    "F3D.Props.C69_frustum_reversed",
    "F3D.Props.C69_frustum_mirrored",
    "F3D.Props.C69_bounds",
    "F3D.Props.C69_intervals"
   ],
   "note": ""
  },
  {
   "property": "C70",
   "status": "proved",
   "theorems": [
    "F3D.Props.C70_file_round_trip_own_mappings",
    "F3D.Props.C70_file_round_trip"
   ],
   "note": ""
  },
  {
   "property": "C71",
   "status": "proved",
   "theorems": [
    "F3D.Props.C71_file_comparison",
    "F3D.Props.C71_shear_lost_in_files",
    "F3D.Props.C71_defined",
    "F3D.Props.C71_equivalence",
    "F3D.Props.C71_identical_transforms",
    "F3D.Props.C71_shear_ignored",
    "F3D.Props.C71_mirror_seen",
    "F3D.Props.C71_tolerance_not_symmetric_nor_transitive"
   ],
   "note": ""
  },
  {
   "property": "C72",
   "status": "proved",
   "theorems": [
    "F3D.Props.C72_copy_to_dense",
    "F3D.Props.C72_self_copy_loses_data",
    "F3D.Props.C72_copy_to_sparse",
    "F3D.Props.C72_copy_to_mac_copies_nothing",
    "F3D.Props.C72_definition",
    "F3D.Props.C72_definition_defined",
    "F3D.Props.C72_comparison",
    "F3D.Props.C72_copy_is_identical",
    "F3D.Props.C72_nan_not_identical"
   ],
   "note": ""
  },
  {
   "property": "C73",
   "status": "proved",
   "theorems": [
    "F3D.Props.C73_matrix",
    "F3D.Props.C73_cells",
    "F3D.Props.C73_growing_misplaced",
    "F3D.Props.C73_unset_misplaced",
    "F3D.Props.C73_frustum",
    "F3D.Props.C73_frustum_placed",
    "F3D.Props.C73_frustum_misplaced",
    "F3D.Props.C73_offset_rounds",
    "F3D.Props.C73_common_grid"
   ],
   "note": ""
  },
  {
   "property": "C74",
   "status": "proved",
   "theorems": [
    "F3D.Props.C74_bounds",
    "F3D.Props.C74_covered",
    "F3D.Props.C74_refused",
    "F3D.Props.C74_placed",
    "F3D.Props.C74_everywhere",
    "F3D.Props.C74_below_min"
   ],
   "note": ""
  },
  {
   "property": "C75",
   "status": "proved",
   "theorems": [
    "F3D.Props.C75_round_trip",
    "F3D.Props.C75_other_type_is_null",
    "F3D.Props.C75_levels_checked"
   ],
   "note": ""
  },
  {
   "property": "C76",
   "status": "proved",
   "theorems": [
    "F3D.Props.C76_offset",
    "F3D.Props.C76_offset_taken",
    "F3D.Props.C76_levels_agree",
    "F3D.Props.C76_make",
    "F3D.Props.C76_lazy",
    "F3D.Props.C76_refused",
    "F3D.Props.C76_refused_then_mapped",
    "F3D.Props.C76_new_level_unusable",
    "F3D.Props.C76_stale",
    "F3D.Props.C76_metadata_edit"
   ],
   "note": ""
  },
  {
   "property": "C77",
   "status": "proved",
   "theorems": [
    "F3D.Props.C77_dense_faithful",
    "F3D.Props.C77_dense_elements",
    "F3D.Props.C77_dense_wraps",
    "F3D.Props.C77_dense_counts",
    "F3D.Props.C77_dense_file_wraps",
    "F3D.Props.C77_inverted_refused",
    "F3D.Props.C77_sides",
    "F3D.Props.C77_mac_faithful",
    "F3D.Props.C77_mac_limit",
    "F3D.Props.C77_sparse_faithful",
    "F3D.Props.C77_sparse_limit",
    "F3D.Props.C77_block_order",
    "F3D.Props.C77_dense_grains",
    "F3D.Props.C77_sparse_grains",
    "F3D.Props.C77_sparse_grain_overflow",
    "F3D.Props.C77_end_position"
   ],
   "note": ""
  },
  {
   "property": "C78",
   "status": "proved",
   "theorems": [
    "F3D.Props.C78_fields_are_maps",
    "F3D.Props.C78_ownership",
    "F3D.Props.C78_flush_frees",
    "F3D.Props.C78_reset_after_read_dangles",
    "F3D.Props.C78_assign_after_read_dangles",
    "F3D.Props.C78_release_unloaded_undefined",
    "F3D.Props.C78_edited_copy_reads_wrong_block"
   ],
   "note": ""
  },
  {
   "property": "C79",
   "status": "proved",
   "theorems": [
    "F3D.Props.C79_dense_round_trip",
    "F3D.Props.C79_dense_other_type_is_null",
    "F3D.Props.C79_dense_single_value_not_written",
    "F3D.Props.C79_dense_second_field_refused",
    "F3D.Props.C79_dense_extra_values_overrun",
    "F3D.Props.C79_mac_round_trip",
    "F3D.Props.C79_mac_other_type_is_null",
    "F3D.Props.C79_mac_extra_values_overrun",
    "F3D.Props.C79_sparse_round_trip",
    "F3D.Props.C79_sparse_other_type_is_null",
    "F3D.Props.C79_block_not_in_memory_crashes"
   ],
   "note": ""
  },
  {
   "property": "C80",
   "status": "proved",
   "theorems": [
    "F3D.Props.C80_read_all",
    "F3D.Props.C80_read_back",
    "F3D.Props.C80_writes_succeed",
    "F3D.Props.C80_file_metadata_once",
    "F3D.Props.C80_listing",
    "F3D.Props.C80_dense_and_sparse_fit",
    "F3D.Props.C80_mixed_kinds_fail",
    "F3D.Props.C80_layer_named_mapping_fails",
    "F3D.Props.C80_metadata_two_kinds_fail",
    "F3D.Props.C80_reopen_fails",
    "F3D.Props.C80_failed_mapping_spoils_file",
    "F3D.Props.C80_second_file_fails",
    "F3D.Props.C80_failed_field_spoils_reading",
    "F3D.Props.C80_absolute_layer_name_spoils_file",
    "F3D.Props.C80_only_marked_layers"
   ],
   "note": ""
  },
  {
   "property": "C81",
   "status": "proved",
   "theorems": [
    "F3D.Props.C81_hdf5_after_anything",
    "F3D.Props.C81_ogawa_after_ogawa",
    "F3D.Props.C81_new_object_ogawa",
    "F3D.Props.C81_no_ogawa_after_hdf5",
    "F3D.Props.C81_open_still_true",
    "F3D.Props.C81_typed_read_of_hdf5_is_empty",
    "F3D.Props.C81_metadata_stays",
    "F3D.Props.C81_write_hdf5_after_anything",
    "F3D.Props.C81_write_ogawa",
    "F3D.Props.C81_no_ogawa_written_after_hdf5",
    "F3D.Props.C81_typed_write_refused",
    "F3D.Props.C81_typed_write_goes_to_earlier_file"
   ],
   "note": ""
  },
  {
   "property": "C82",
   "status": "proved",
   "theorems": [
    "F3D.Props.C82_proxies_by_name",
    "F3D.Props.C82_all_proxies",
    "F3D.Props.C82_whole_file",
    "F3D.Props.C82_layer_without_windows",
    "F3D.Props.C82_second_file_has_no_proxies",
    "F3D.Props.C82_hdf5_by_name",
    "F3D.Props.C82_hdf5_all",
    "F3D.Props.C82_hdf5_fields",
    "F3D.Props.C82_through_file_object"
   ],
   "note": ""
  },
  {
   "property": "C83",
   "status": "proved",
   "theorems": [
    "F3D.Props.C83_empty_field",
    "F3D.Props.C83_write_outside",
    "F3D.Props.C83_values_are_not_kept",
    "F3D.Props.C83_proxy_has_no_values"
   ],
   "note": ""
  },
  {
   "property": "C84",
   "status": "proved",
   "theorems": [
    "F3D.Props.C84_mapping_round_trip",
    "F3D.Props.C84_frustum_write_defined",
    "F3D.Props.C84_unknown_class",
    "F3D.Props.C84_comparison",
    "F3D.Props.C84_old_format",
    "F3D.Props.C84_incomplete_matrix",
    "F3D.Props.C84_incomplete_frustum",
    "F3D.Props.C84_file_round_trip",
    "F3D.Props.C84_file_round_trip_own_mappings"
   ],
   "note": ""
  },
  {
   "property": "C85",
   "status": "proved",
   "theorems": [
    "F3D.Props.C85_round_trip",
    "F3D.Props.C85_other_type_is_null",
    "F3D.Props.C85_single_value_level_lost",
    "F3D.Props.C85_load_not_null",
    "F3D.Props.C85_levels_checked",
    "F3D.Props.C85_file_round_trip",
    "F3D.Props.C85_proxies"
   ],
   "note": ""
  },
  {
   "property": "C86",
   "status": "proved",
   "theorems": [
    "F3D.Props.C86_cast",
    "F3D.Props.C86_cast_to_base",
    "F3D.Props.C86_fieldBase_never",
    "F3D.Props.C86_emptyField_confused",
    "F3D.Props.C86_generic_interp_confused",
    "F3D.Props.C86_mip_helpers_confused",
    "F3D.Props.C86_partition_confused",
    "F3D.Props.C86_dense_writer",
    "F3D.Props.C86_sparse_writer",
    "F3D.Props.C86_mac_writer",
    "F3D.Props.C86_mip_writer",
    "F3D.Props.C86_group",
    "F3D.Props.C86_group_ignores",
    "F3D.Props.C86_group_takes"
   ],
   "note": ""
  },
  {
   "property": "C87",
   "status": "proved",
   "theorems": [
    "F3D.Props.C87_round_trip",
    "F3D.Props.C87_layers_unaffected",
    "F3D.Props.C87_not_written",
    "F3D.Props.C87_second_write_fails",
    "F3D.Props.C87_create_keeps_groups",
    "F3D.Props.C87_texts_run_together",
    "F3D.Props.C87_plain_names",
    "F3D.Props.C87_dots_lost"
   ],
   "note": ""
  },
  {
   "property": "C88",
   "status": "proved",
   "theorems": [
    "F3D.Props.C88_names",
    "F3D.Props.C88_classes_lost",
    "F3D.Props.C88_only_the_library",
    "F3D.Props.C88_library_types",
    "F3D.Props.C88_factory_in_use",
    "F3D.Props.C88_factory_exists",
    "F3D.Props.C88_loaded_later",
    "F3D.Props.C88_first_plugin_only",
    "F3D.Props.C88_at_most_once",
    "F3D.Props.C88_hidden"
   ],
   "note": ""
  },
  {
   "property": "C89",
   "status": "proved",
   "theorems": [
    "F3D.Props.C89_limited_agrees",
    "F3D.Props.C89_written_files",
    "F3D.Props.C89_any_schedule",
    "F3D.Props.C89_whole_file",
    "F3D.Props.C89_uncompressed_throws",
    "F3D.Props.C89_wrong_count",
    "F3D.Props.C89_damaged_blocks",
    "F3D.Props.C89_count_of_blocks",
    "F3D.Props.C89_other_type"
   ],
   "note": ""
  },
  {
   "property": "C90",
   "status": "proved",
   "theorems": [
    "F3D.Props.C90_ogawa",
    "F3D.Props.C90_hdf5",
    "F3D.Props.C90_named_layer_swapped",
    "F3D.Props.C90_no_name"
   ],
   "note": ""
  },
  {
   "property": "C91",
   "status": "proved",
   "theorems": [
    "F3D.Props.C91_layer",
    "F3D.Props.C91_layers",
    "F3D.Props.C91_layer_without_voxels",
    "F3D.Props.C91_as_mac_loses_voxels",
    "F3D.Props.C91_as_sparse_is_full",
    "F3D.Props.C91_file"
   ],
   "note": ""
  },
  {
   "property": "C92",
   "status": "proved",
   "theorems": [
    "F3D.Props.C92_graph",
    "F3D.Props.C92_questions",
    "F3D.Props.C92_parts",
    "F3D.Props.C92_created_without_bytes",
    "F3D.Props.C92_rewrite_wraps"
   ],
   "note": ""
  },
  {
   "property": "C93",
   "status": "proved",
   "theorems": [
    "F3D.Props.C93_blocks_in_memory",
    "F3D.Props.C93_blocks_ever_loaded",
    "F3D.Props.C93_loads_of_blocks",
    "F3D.Props.C93_loading_steps",
    "F3D.Props.C93_ratios",
    "F3D.Props.C93_efficiency",
    "F3D.Props.C93_unlimited_loads_once",
    "F3D.Props.C93_efficiency_after_reset",
    "F3D.Props.C93_destroying_forgets_loads"
   ],
   "note": ""
  },
  {
   "property": "C94",
   "status": "proved",
   "theorems": [
    "F3D.Props.C94_members",
    "F3D.Props.C94_size",
    "F3D.Props.C94_load",
    "F3D.Props.C94_fields",
    "F3D.Props.C94_prefiltered",
    "F3D.Props.C94_range",
    "F3D.Props.C94_range_not_updated",
    "F3D.Props.C94_fields_not_members",
    "F3D.Props.C94_range_stale",
    "F3D.Props.C94_bounds_stay"
   ],
   "note": ""
  },
  {
   "property": "C95",
   "status": "proved",
   "theorems": [
    "F3D.Props.C95_copy",
    "F3D.Props.C95_copy_independent",
    "F3D.Props.C95_original_independent",
    "F3D.Props.C95_reading",
    "F3D.Props.C95_assign",
    "F3D.Props.C95_setup",
    "F3D.Props.C95_lazy",
    "F3D.Props.C95_level",
    "F3D.Props.C95_undefined_before_setup",
    "F3D.Props.C95_copies_after_setup",
    "F3D.Props.C95_assign_keeps_old_level"
   ],
   "note": ""
  },
  {
   "property": "C96",
   "status": "proved",
   "theorems": [
    "F3D.Props.C96_linear_step",
    "F3D.Props.C96_sparse_step",
    "F3D.Props.C96_mac_step",
    "F3D.Props.C96_cubic_jumps",
    "F3D.Props.C96_cubic_step_along_x"
   ],
   "note": ""
  },
  {
   "property": "C97",
   "status": "proved",
   "theorems": [
    "F3D.Props.C97_console",
    "F3D.Props.C97_size_text",
    "F3D.Props.C97_size_exact",
    "F3D.Props.C97_size_digits",
    "F3D.Props.C97_size_order",
    "F3D.Props.C97_thousand_and_twenty_four",
    "F3D.Props.C97_least_undefined",
    "F3D.Props.C97_rss_field",
    "F3D.Props.C97_rss_right",
    "F3D.Props.C97_rss_wrong"
   ],
   "note": ""
  },
  {
   "property": "C98",
   "status": "proved",
   "theorems": [
    "F3D.Props.C98_merge",
    "F3D.Props.C98_merged_listing",
    "F3D.Props.C98_merged_read",
    "F3D.Props.C98_missing_file"
   ],
   "note": ""
  },
  {
   "property": "C99",
   "status": "proved",
   "theorems": [
    "F3D.Props.C99_make_mip",
    "F3D.Props.C99_listing",
    "F3D.Props.C99_padded_crashes",
    "F3D.Props.C99_padded_first",
    "F3D.Props.C99_null_iff",
    "F3D.Props.C99_missing_file"
   ],
   "note": ""
  },
  {
   "property": "C100",
   "status": "proved",
   "theorems": [
    "F3D.Props.C100_parameter",
    "F3D.Props.C100_vector_parameter",
    "F3D.Props.C100_default_fraction_lost",
    "F3D.Props.C100_half_range",
    "F3D.Props.C100_float_parameter",
    "F3D.Props.C100_float_vector_parameter",
    "F3D.Props.C100_float_default"
   ],
   "note": ""
  },
  {
   "property": "C101",
   "status": "proved",
   "theorems": [
    "F3D.Props.C101_counts",
    "F3D.Props.C101_pinned",
    "F3D.Props.C101_defined",
    "F3D.Props.C101_copy_unpins"
   ],
   "note": ""
  },
  {
   "property": "C102",
   "status": "proved",
   "theorems": [
    "F3D.Props.C102_by_components",
    "F3D.Props.C102_linear",
    "F3D.Props.C102_cubic",
    "F3D.Props.C102_linear_map",
    "F3D.Props.C102_cubic_not_linear"
   ],
   "note": ""
  },
  {
   "property": "C103",
   "status": "proved",
   "theorems": [
    "F3D.Props.C103_numbers",
    "F3D.Props.C103_memory",
    "F3D.Props.C103_flush",
    "F3D.Props.C103_activate",
    "F3D.Props.C103_evict",
    "F3D.Props.C103_remove",
    "F3D.Props.C103_witness"
   ],
   "note": ""
  },
  {
   "property": "C104",
   "status": "proved",
   "theorems": [
    "F3D.Props.C104_sparse_figure",
    "F3D.Props.C104_sparse_write",
    "F3D.Props.C104_sparse_release",
    "F3D.Props.C104_sparse_order_limit",
    "F3D.Props.C104_sparse_clear",
    "F3D.Props.C104_dense",
    "F3D.Props.C104_mip",
    "F3D.Props.C104_mac",
    "F3D.Props.C104_mac_witness",
    "F3D.Props.C104_base_twice",
    "F3D.Props.C104_witness"
   ],
   "note": ""
  },
  {
   "property": "C105",
   "status": "proved",
   "theorems": [
    "F3D.Props.C105_lists",
    "F3D.Props.C105_missing_file",
    "F3D.Props.C105_case"
   ],
   "note": ""
  },
  {
   "property": "C106",
   "status": "proved",
   "theorems": [
    "F3D.Props.C106_field",
    "F3D.Props.C106_file",
    "F3D.Props.C106_not_created",
    "F3D.Props.C106_witness"
   ],
   "note": ""
  }
 ]
}