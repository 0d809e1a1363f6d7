# Axioms of the claimed theorems

From `#print axioms`.

| property | theorem | axioms |
|---|---|---|
| C01 | `c01_no_sample_lost_or_repeated` | propext, Classical.choice, Quot.sound |
| C01 | `c01_nodup` | propext, Classical.choice, Quot.sound |
| C01 | `c01_pieces_from_chunks` | propext, Quot.sound |
| C01 | `c01_raises_iff` | propext, Quot.sound |
| C02 | `c02_drop_last_equal_ranks` | propext, Classical.choice, Quot.sound |
| C02 | `c02_no_drop_last_ranks` | propext, Classical.choice, Quot.sound |
| C03 | `c03_balanced` | propext, Classical.choice, Quot.sound |
| C04 | `c04_shuffle_is_permutation` | propext, Classical.choice, Quot.sound |
| C04 | `c04_shuffle_drop_last` | propext, Classical.choice, Quot.sound |
| C04 | `c04_multi_node_partial` | propext, Classical.choice, Quot.sound |
| C04 | `c04_multi_node_repeats` | propext, Quot.sound |
| C04 | `c04_uneven_nodes_raise` | propext |
| C04 | `c04_multi_node_counts` | propext, Classical.choice, Quot.sound |
| C04 | `c04_multi_node_iff` | propext, Classical.choice, Quot.sound |
| C04 | `c04_multi_node_drop_last` | propext, Classical.choice, Quot.sound |
| C05 | `c05_one_pass` | propext, Classical.choice, Quot.sound |
| C05 | `c05_one_pass_no_shuffle` | propext, Classical.choice, Quot.sound |
| C05 | `c05_epoch_delivers_dataset` | propext, Classical.choice, Quot.sound |
| C06 | `c06_single_worker` | propext, Classical.choice, Quot.sound |
| C06 | `c06_worker_continues_partial` | propext, Classical.choice, Quot.sound |
| C06 | `c06_loader_continues_partial` | propext, Classical.choice, Quot.sound |
| C06 | `c06_resume_finished_worker_raises` | propext, Classical.choice, Quot.sound |
| C06 | `c06_resume_fails_witness` | propext |
| C06 | `c06_replay_total` | propext, Quot.sound |
| C07 | `c07_accept_iff_fits` | propext, Quot.sound |
| C07 | `c07_override` | propext, Classical.choice, Quot.sound |
| C07 | `c07_batch_and_world_size_not_checked` | propext, Quot.sound |
| C07 | `c07_empty_path` | none |
| C08 | `c08_writer_stores_all_partial` | propext, Classical.choice, Quot.sound |
| C08 | `c08_any_order` | propext, Classical.choice, Quot.sound |
| C08 | `c08_duplicate_refused` | propext, Classical.choice, Quot.sound |
| C08 | `c08_out_of_order_fails` | propext |
| C08 | `c08_late_index_fails` | propext |
| C08 | `c08_empty_item_fails` | propext |
| C09 | `c09_chunk_limits_partial` | propext, Classical.choice, Quot.sound |
| C09 | `c09_options` | propext, Quot.sound |
| C09 | `c09_empty_item_exceeds` | propext |
| C10 | `c10_chunk_roundtrip` | propext, Quot.sound |
| C10 | `c10_empty_chunk_raises` | propext, Quot.sound |
| C10 | `c10_too_big_not_read` | propext, Quot.sound |
| C10 | `c10_closed_loader_same_chunk_raises` | propext, Quot.sound |
| C11 | `c11_unflatten_flatten` | propext, Quot.sound |
| C11 | `c11_through_index_partial` | propext, Classical.choice, Quot.sound |
| C11 | `c11_structure_survives` | propext, Classical.choice, Quot.sound |
| C11 | `c11_wrong_number` | propext |
| C11 | `c11_is_leaf` | propext, Classical.choice, Quot.sound |
| C11 | `c11_bytes_key_refused` | propext, Classical.choice, Quot.sound |
| C11 | `c11_tuple_key_breaks` | propext, Classical.choice, Quot.sound |
| C11 | `c11_jpeg_list` | propext, Quot.sound |
| C11 | `c11_no_factory_refused` | propext, Classical.choice, Quot.sound |
| C12 | `c12_roundtrip_partial` | propext, Classical.choice, Quot.sound |
| C12 | `c12_palette_lost` | propext, Classical.choice, Quot.sound |
| C12 | `c12_jpeg_array` | propext, Quot.sound |
| C12 | `c12_jpeg` | propext |
| C12 | `c12_big_int_refused` | propext, Quot.sound |
| C12 | `c12_bfloat16_refused` | propext, Classical.choice, Quot.sound |
| C12 | `c12_dtype_index_injective` | propext |
| C12 | `c12_itemsizes` | none |
| C12 | `c12_bad_text` | propext, Classical.choice, Quot.sound |
| C12 | `c12_jpeg_truncated` | propext, Quot.sound |
| C13 | `c13_samples_read_back_partial` | propext, Classical.choice, Quot.sound |
| C13 | `c13_end_to_end_partial` | propext, Classical.choice, Quot.sound |
| C13 | `c13_workers_to_dataset_partial` | propext, Classical.choice, Quot.sound |
| C13 | `c13_any_serializers` | propext, Classical.choice, Quot.sound |
| C13 | `c13_no_leaves_fails` | propext |
| C13 | `c13_other_dtype_misread` | propext, Classical.choice, Quot.sound |
| C13 | `c13_key_order_swaps` | propext, Classical.choice, Quot.sound |
| C13 | `c13_any_workers` | propext, Classical.choice, Quot.sound |
| C13 | `c13_jpeg_lists` | propext, Classical.choice, Quot.sound |
| C14 | `c14_merge_keeps_all` | propext, Classical.choice, Quot.sound |
| C14 | `c14_rank_order_partial` | propext, Classical.choice, Quot.sound |
| C14 | `c14_eleven_workers_out_of_order` | propext, Classical.choice, Quot.sound |
| C14 | `c14_config_mismatch` | propext, Classical.choice, Quot.sound |
| C14 | `c14_retry_loses_chunks` | propext, Classical.choice, Quot.sound |
| C14 | `c14_empty_node_fails` | propext, Classical.choice, Quot.sound |
| C14 | `c14_waits_for_idle_worker` | propext, Classical.choice, Quot.sound |
| C14 | `c14_order` | propext, Classical.choice, Quot.sound |
| C15 | `c15_lookup` | propext, Classical.choice, Quot.sound |
| C15 | `c15_out_of_range` | propext, Quot.sound |
| C15 | `c15_distinct` | propext, Classical.choice, Quot.sound |
| C15 | `c15_reads` | propext, Classical.choice, Quot.sound |
| C15 | `c15_cache_length_overcounts` | propext |
| C15 | `c15_length` | propext, Classical.choice, Quot.sound |
| C16 | `c16_subsample` | propext, Classical.choice, Quot.sound |
| C16 | `c16_oversample` | propext, Classical.choice, Quot.sound |
| C16 | `c16_cut` | propext, Classical.choice, Quot.sound |
| C16 | `c16_reads` | propext, Classical.choice, Quot.sound |
| C16 | `c16_too_many_reaches_beyond` | propext |
| C16 | `c16_double` | propext, Classical.choice, Quot.sound |
| C16 | `c16_close` | propext, Quot.sound |
| C16 | `c16_fraction` | propext, Classical.choice, Quot.sound |
| C16 | `c16_sample_lost` | none |
| C16 | `c16_rounds_up` | none |
| C17 | `c17_splits_partial` | propext, Classical.choice, Quot.sound |
| C17 | `c17_counts` | propext, Classical.choice, Quot.sound |
| C17 | `c17_bad_ratios` | propext, Classical.choice, Quot.sound |
| C17 | `c17_mispairs_shuffled` | propext |
| C17 | `c17_repeated_refused` | propext |
| C17 | `c17_missing_file` | propext, Quot.sound |
| C17 | `c17_doubles` | propext, Classical.choice, Quot.sound |
| C17 | `c17_two_fractions` | propext, Classical.choice, Quot.sound |
| C17 | `c17_bad_doubles` | propext, Classical.choice, Quot.sound |
| C17 | `c17_valid_refused` | propext, Classical.choice, Quot.sound |
| C17 | `c17_sample_lost` | propext |
| C17 | `c17_reads_partial` | propext, Classical.choice, Quot.sound |
| C18 | `c18_all_once_partial` | propext, Classical.choice, Quot.sound |
| C18 | `c18_progress_partial` | propext, Classical.choice, Quot.sound |
| C18 | `c18_empty_dataset_fails` | propext |
| C18 | `c18_no_weights` | none |
| C18 | `c86_zero_weight_fails` | propext, Classical.choice, Quot.sound |
| C19 | `c19_stops_at_first_partial` | propext, Classical.choice, Quot.sound |
| C19 | `c19_stale_counters` | propext |
| C20 | `c20_resume_first` | propext, Classical.choice, Quot.sound |
| C20 | `c20_resume_all_partial` | propext, Classical.choice, Quot.sound |
| C20 | `c20_exhausted_differs` | propext |
| C20 | `c20_per_stream_differs` | propext |
| C20 | `c20_each_worker` | propext, Classical.choice, Quot.sound |
| C21 | `c21_recorded` | propext, Quot.sound |
| C21 | `c21_restart_partial` | propext, Classical.choice, Quot.sound |
| C21 | `c21_combined_counters` | propext, Classical.choice, Quot.sound |
| C21 | `c21_finished_worker_recorded_wrong` | propext |
| C21 | `c21_last_batches_lost` | propext |
| C21 | `c21_state_without_batches` | propext |
| C21 | `c21_resave_drifts` | propext |
| C21 | `c21_used_loader_differs` | none |
| C21 | `c21_next_epoch` | propext |
| C21 | `c21_combined_latest` | propext, Quot.sound |
| C21 | `c21_combined_restart` | propext, Quot.sound |
| C21 | `c21_weights_repeat_epoch` | propext, Quot.sound |
| C22 | `c22_partition_partial` | propext, Classical.choice, Quot.sound |
| C22 | `c22_validate` | propext, Classical.choice, Quot.sound |
| C22 | `c22_read_partial` | propext, Classical.choice, Quot.sound |
| C22 | `c22_idle_replica_raises` | propext, Quot.sound |
| C22 | `c22_own_permutations_repeat` | propext |
| C22 | `c22_share` | propext, Classical.choice, Quot.sound |
| C22 | `c22_size_zero` | none |
| C22 | `c22_dropEmpty` | propext, Quot.sound |
| C23 | `c23_sequential` | propext, Classical.choice, Quot.sound |
| C23 | `c23_refused` | propext, Classical.choice, Quot.sound |
| C24 | `c24_packing` | propext, Classical.choice, Quot.sound |
| C24 | `c24_balanced` | propext, Classical.choice, Quot.sound |
| C24 | `c24_refused` | propext, Classical.choice, Quot.sound |
| C24 | `c24_nodes` | propext, Classical.choice, Quot.sound |
| C24 | `c24_item_without_file_refused` | propext, Classical.choice, Quot.sound |
| C24 | `c24_weights_length` | propext |
| C25 | `c25_resume_partial` | propext, Classical.choice, Quot.sound |
| C25 | `c25_skipped_inputs_repeat` | propext, Classical.choice, Quot.sound |
| C25 | `c25_two_uploaders_lose` | propext, Classical.choice, Quot.sound |
| C25 | `c25_downloaders_lose` | propext, Classical.choice, Quot.sound |
| C25 | `c25_finished_worker_breaks_merge` | propext, Classical.choice, Quot.sound |
| C25 | `c25_tuple_inputs_refused` | propext, Classical.choice, Quot.sound |
| C25 | `c25_only_same_run` | propext, Classical.choice, Quot.sound |
| C25 | `c25_counts_inputs` | propext, Quot.sound |
| C26 | `c26_extract` | propext, Classical.choice, Quot.sound |
| C26 | `c26_names_new_partial` | propext, Classical.choice, Quot.sound |
| C26 | `c26_index` | propext, Classical.choice, Quot.sound |
| C26 | `c26_other_config_raises` | propext, Classical.choice, Quot.sound |
| C26 | `c26_second_node_overwrites` | propext, Classical.choice, Quot.sound |
| C26 | `c26_nodes_repeat_old_chunks` | propext, Classical.choice, Quot.sound |
| C26 | `c26_other_names_raise` | propext, Classical.choice, Quot.sound |
| C27 | `c27_merged` | propext, Classical.choice, Quot.sound |
| C27 | `c27_refused` | propext, Classical.choice, Quot.sound |
| C27 | `c27_safe` | propext, Classical.choice, Quot.sound |
| C27 | `c27_other_config_ignored` | propext, Classical.choice, Quot.sound |
| C27 | `c27_empty_dataset_raises` | propext, Classical.choice, Quot.sound |
| C27 | `c27_copy_error` | propext, Quot.sound |
| C28 | `c28_order` | propext, Quot.sound |
| C28 | `c28_bound` | propext, Quot.sound |
| C28 | `c28_never_stuck` | Quot.sound |
| C28 | `c28_progress_partial` | propext, Classical.choice, Quot.sound |
| C28 | `c28_one_ahead` | propext |
| C28 | `c28_no_limit` | propext |
| C28 | `c28_forced_stall` | propext |
| C28 | `c28_present` | propext, Quot.sound |
| C28 | `c28_eager` | propext, Classical.choice, Quot.sound |
| C28 | `c28_eager_keeps` | propext |
| C28 | `c28_eager_three` | propext, Classical.choice, Quot.sound |
| C28 | `c28_warm_kept` | propext, Quot.sound |
| C29 | `c29_counter` | propext, Classical.choice, Quot.sound |
| C29 | `c29_removed_unused_partial` | propext, Classical.choice, Quot.sound |
| C29 | `c29_removable` | propext, Classical.choice, Quot.sound |
| C29 | `c29_race` | propext, Quot.sound |
| C29 | `c29_timeout` | propext, Quot.sound |
| C29 | `c29_forced` | propext, Quot.sound |
| C29 | `c29_early` | propext, Quot.sound |
| C29 | `c29_late` | propext, Quot.sound |
| C29 | `c29_lost_count` | propext, Quot.sound |
| C30 | `c30_whole_or_absent_partial` | propext, Classical.choice, Quot.sound |
| C30 | `c30_opened_stays_partial` | propext, Classical.choice, Quot.sound |
| C30 | `c30_fetches` | propext, Classical.choice, Quot.sound |
| C30 | `c30_deleted_lock` | propext |
| C31 | `c31_decompressed_partial` | propext, Classical.choice, Quot.sound |
| C31 | `c31_opened_stays_partial` | propext, Classical.choice, Quot.sound |
| C31 | `c31_direct` | propext, Classical.choice, Quot.sound |
| C31 | `c31_direct_stays` | propext, Classical.choice, Quot.sound |
| C31 | `c31_two_workers` | none |
| C31 | `c31_thread_dies` | none |
| C31 | `c31_crash_unreadable` | propext, Classical.choice, Quot.sound |
| C31 | `c31_s5cmd` | propext |
| C31 | `c31_decompressed_complete` | propext, Classical.choice, Quot.sound |
| C31 | `c31_direct_complete` | propext, Classical.choice, Quot.sound |
| C32 | `c32_block_partial` | propext, Quot.sound |
| C32 | `c32_cover` | propext, Classical.choice, Quot.sound |
| C32 | `c32_dataset_partial` | propext, Classical.choice, Quot.sound |
| C32 | `c32_view_stays` | propext, Classical.choice, Quot.sound |
| C32 | `c32_view_after_delete` | propext |
| C32 | `c32_encrypted_misread` | propext |
| C32 | `c32_empty_first_item` | propext |
| C32 | `c32_partial_file` | propext |
| C32 | `c32_regions_partial` | propext, Classical.choice, Quot.sound |
| C32 | `c32_setup` | propext, Quot.sound |
| C33 | `c33_row_partial` | propext, Quot.sound |
| C33 | `c33_uneven_groups` | propext |
| C33 | `c33_low_iff` | propext, Quot.sound |
| C34 | `c34_reshard_partial` | propext, Classical.choice, Quot.sound |
| C34 | `c34_same_name` | propext, Classical.choice, Quot.sound |
| C34 | `c34_stale_cache` | propext, Classical.choice, Quot.sound |
| C35 | `c35_encrypted_reads_back` | propext, Classical.choice, Quot.sound |
| C35 | `c35_mismatch_refused` | propext, Quot.sound |
| C35 | `c35_reads_back_on` | propext, Classical.choice, Quot.sound |
| C36 | `c36_none_refuses` | propext, Classical.choice, Quot.sound |
| C36 | `c36_only_dataset` | propext, Classical.choice, Quot.sound |
| C36 | `c36_kept` | propext, Classical.choice, Quot.sound |
| C36 | `c36_overwrite_clears` | propext, Classical.choice, Quot.sound |
| C36 | `c36_overwrite_returns` | propext, Classical.choice, Quot.sound |
| C36 | `c36_remote_none_refuses` | propext, Classical.choice, Quot.sound |
| C36 | `c36_remote_prefix_partial` | propext, Classical.choice, Quot.sound |
| C36 | `c36_remote_overwrite_clears` | propext, Classical.choice, Quot.sound |
| C36 | `c36_sibling_removed` | propext, Classical.choice, Quot.sound |
| C36 | `c36_refused_request_removes` | propext, Classical.choice, Quot.sound |
| C36 | `c36_no_index_refused` | propext, Classical.choice, Quot.sound |
| C36 | `c36_second_page_kept` | propext, Classical.choice, Quot.sound |
| C36 | `c36_map_check` | propext |
| C37 | `c37_exact` | propext, Classical.choice, Quot.sound |
| C37 | `c37_integer` | propext, Classical.choice, Quot.sound |
| C37 | `c37_rounded` | propext, Classical.choice, Quot.sound |
| C37 | `c37_unknown_suffix` | propext, Classical.choice, Quot.sound |
| C37 | `c37_gib_refused` | propext, Classical.choice, Quot.sound |
| C37 | `c37_truncates` | propext, Classical.choice, Quot.sound |
| C37 | `c37_odd_numbers` | propext, Classical.choice, Quot.sound |
| C37 | `c37_only_numbers` | propext, Classical.choice, Quot.sound |
| C37 | `c37_ties_to_even` | propext, Classical.choice, Quot.sound |
| C38 | `c38_one_deleter` | propext, Classical.choice, Quot.sound |
| C38 | `c38_keep_lists` | propext, Classical.choice, Quot.sound |
| C38 | `c38_last_partial` | propext, Classical.choice, Quot.sound |
| C38 | `c38_finish_visit` | propext, Quot.sound |
| C38 | `c38_assigned` | propext, Classical.choice, Quot.sound |
| C38 | `c38_one_rank` | propext, Quot.sound |
| C38 | `c38_small_chunks` | propext |
| C38 | `c38_cross_rank` | propext |
| C38 | `c38_second_node` | none |
| C38 | `c38_node_slice_partial` | propext |
| C38 | `c38_iterate` | propext, Classical.choice, Quot.sound |
| C38 | `c38_resumed` | propext |
| C38 | `c38_ignored` | none |
| C39 | `c39_round_robin` | propext, Classical.choice, Quot.sound |
| C39 | `c39_complete` | propext, Classical.choice, Quot.sound |
| C39 | `c39_terminates` | propext, Classical.choice, Quot.sound |
| C40 | `c40_groups` | propext, Quot.sound |
| C40 | `c40_no_groups` | propext |
| C41 | `c41_len_is_delivered` | propext |
| C41 | `c41_len_closed_form` | propext, Classical.choice, Quot.sound |
| C42 | `c42_first_accepting` | propext, Quot.sound |
| C42 | `c42_always_some` | propext, Classical.choice, Quot.sound |
| C42 | `c42_reading_uses_writer_partial` | propext, Classical.choice, Quot.sound |
| C42 | `c42_builtins_named` | propext, Classical.choice, Quot.sound |
| C42 | `c42_colon_name_breaks` | propext, Classical.choice, Quot.sound |
| C42 | `c42_suffix_captures` | propext, Classical.choice, Quot.sound |
| C43 | `c43_index_after_files_partial` | propext, Classical.choice, Quot.sound |
| C43 | `c43_terminates` | propext, Classical.choice, Quot.sound |
| C43 | `c43_complete_partial` | propext, Classical.choice, Quot.sound |
| C43 | `c43_optimize_partial` | propext, Classical.choice, Quot.sound |
| C43 | `c43_shared_file_fails` | propext |
| C43 | `c43_lost_upload` | propext, Quot.sound |
| C44 | `c44_prefixes_once` | propext, Quot.sound |
| C44 | `c44_register_refused` | propext, Quot.sound |
| C44 | `c44_register` | propext, Quot.sound |
| C44 | `c44_unregister` | propext, Quot.sound |
| C44 | `c44_first_prefix` | propext, Classical.choice, Quot.sound |
| C44 | `c44_new_prefix` | propext, Classical.choice, Quot.sound |
| C44 | `c44_builtin` | propext, Classical.choice, Quot.sound |
| C45 | `c45_fast_dev_run` | propext, Classical.choice, Quot.sound |
| C45 | `c45_fast_dev_run_flag` | none |
| C46 | `c46_per_stream` | propext, Classical.choice, Quot.sound |
| C46 | `c46_per_stream_all_partial` | propext, Classical.choice, Quot.sound |
| C46 | `c46_all_mixes` | propext |
| C46 | `c46_after_length` | propext, Classical.choice, Quot.sound |
| C46 | `c46_length_mixes` | propext |
| C47 | `c47_walk` | propext, Classical.choice, Quot.sound |
| C47 | `c47_never_twice` | propext, Classical.choice, Quot.sound |
| C47 | `c47_terminates` | propext, Classical.choice, Quot.sound |
| C47 | `c47_progress` | propext, Classical.choice, Quot.sound |
| C47 | `c47_no_error` | propext, Classical.choice, Quot.sound |
| C47 | `c47_returns` | propext, Classical.choice, Quot.sound |
| C47 | `c47_broken_link` | propext, Classical.choice, Quot.sound |
| C47 | `c47_second_pass` | propext, Classical.choice, Quot.sound |
| C48 | `c48_slice` | propext, Classical.choice, Quot.sound |
| C48 | `c48_usual` | propext, Classical.choice, Quot.sound |
| C48 | `c48_ranks` | propext, Classical.choice, Quot.sound |
| C49 | `c49_user_files_partial` | propext, Classical.choice, Quot.sound |
| C49 | `c49_copies_partial` | propext, Classical.choice, Quot.sound |
| C49 | `c49_worker_reads` | propext, Classical.choice, Quot.sound |
| C49 | `c49_copy_path` | propext, Quot.sound |
| C49 | `c49_removes_copies` | propext, Quot.sound |
| C49 | `c49_prefix_deleted` | propext, Classical.choice, Quot.sound |
| C49 | `c49_tmp_dataset_deleted` | propext, Classical.choice, Quot.sound |
| C49 | `c49_outside_deleted` | propext, Classical.choice, Quot.sound |
| C49 | `c49_mixed_fails` | propext, Classical.choice, Quot.sound |
| C49 | `c49_shared_copy` | propext, Classical.choice, Quot.sound |
| C49 | `c49_this_studio` | propext, Classical.choice, Quot.sound |
| C50 | `c50_returns_complete` | propext, Classical.choice, Quot.sound |
| C50 | `c50_failure_never_returns` | propext, Classical.choice, Quot.sound |
| C50 | `c50_terminates` | propext, Quot.sound |
| C50 | `c50_ends` | propext, Classical.choice, Quot.sound |
| C50 | `c50_outcome` | propext, Classical.choice, Quot.sound |
| C50 | `c50_worker_proceeds` | propext, Classical.choice, Quot.sound |
| C50 | `c50_raises_only_on_failure` | propext, Classical.choice, Quot.sound |
| C50 | `c50_killed_hangs` | propext, Quot.sound |
| C50 | `c50_idle_failure_missed` | none |
| C51 | `c51_detect` | propext |
| C51 | `c51_shards` | propext, Quot.sound |
| C51 | `c51_optimize` | propext, Classical.choice, Quot.sound |
| C51 | `c51_uninitialized` | propext, Classical.choice, Quot.sound |
| C51 | `c51_uninitialized_reads` | propext, Classical.choice, Quot.sound |
| C51 | `c51_cpu_nodes` | propext |
| C51 | `c51_shard_of` | propext |
| C51 | `c51_optimize_shard` | propext, Classical.choice, Quot.sound |
| C52 | `c52_parquet_close` | propext, Quot.sound |
| C52 | `c52_row_groups` | propext, Classical.choice, Quot.sound |
| C52 | `c52_tokens_close` | propext, Quot.sound |
| C52 | `c52_tokens_delete` | propext |
| C52 | `c52_tokens_leak` | propext |
| C53 | `c53_shuffled` | propext, Classical.choice, Quot.sound |
| C53 | `c53_in_order` | propext, Classical.choice, Quot.sound |
| C53 | `c53_end_to_end` | propext, Classical.choice, Quot.sound |
| C53 | `c53_resumed` | propext, Classical.choice, Quot.sound |
| C54 | `c54_raw` | propext, Classical.choice, Quot.sound |
| C54 | `c54_sample` | propext, Classical.choice, Quot.sound |
| C54 | `c54_loaded_iff` | propext, Classical.choice, Quot.sound |
| C54 | `c54_uncompressed_raises` | propext, Classical.choice, Quot.sound |
| C54 | `c54_zip_larger` | propext, Quot.sound |
| C54 | `c54_size_zero_misread` | propext |
| C54 | `c54_unknown_encoding` | propext, Classical.choice, Quot.sound |
| C54 | `c54_decompressed` | propext, Quot.sound |
| C54 | `c54_level_not_decompressed` | propext, Quot.sound |
| C55 | `c55_index` | propext, Classical.choice, Quot.sound |
| C55 | `c55_consistent` | propext, Classical.choice, Quot.sound |
| C55 | `c55_listing` | propext, Classical.choice, Quot.sound |
| C55 | `c55_footer` | propext, Classical.choice, Quot.sound |
| C55 | `c55_same_metadata` | propext, Classical.choice, Quot.sound |
| C55 | `c55_uploaded` | propext, Quot.sound |
| C55 | `c55_rows_partial` | propext, Classical.choice, Quot.sound |
| C55 | `c55_pattern` | propext, Classical.choice, Quot.sound |
| C55 | `c55_folder` | propext, Classical.choice, Quot.sound |
| C55 | `c55_other_names` | propext, Classical.choice, Quot.sound |
| C55 | `c55_no_columns` | propext, Classical.choice, Quot.sound |
| C55 | `c55_hf_stale` | propext, Classical.choice, Quot.sound |
| C55 | `c55_schemes` | propext, Classical.choice, Quot.sound |
| C55 | `c55_truncated` | propext, Classical.choice, Quot.sound |
| C55 | `c55_root` | propext |
| C55 | `c55_storage_options` | propext, Classical.choice, Quot.sound |
| C55 | `c55_low_iff` | propext, Classical.choice, Quot.sound |
| C56 | `cache_filled` | propext, Classical.choice, Quot.sound |
| C56 | `c56_cached` | propext, Classical.choice, Quot.sound |
| C56 | `c56_later_pass_partial` | propext, Classical.choice, Quot.sound |
| C56 | `c56_collated` | propext, Classical.choice, Quot.sound |
| C56 | `c56_check_passes` | propext, Classical.choice, Quot.sound |
| C56 | `c56_first_sample_checked` | propext, Classical.choice, Quot.sound |
| C56 | `c56_arrays_refused` | propext, Classical.choice, Quot.sound |
| C56 | `c56_few_samples_wait` | propext, Classical.choice, Quot.sound |
| C56 | `c56_batch_size_refused` | propext |
| C56 | `c56_cache_made` | propext |
| C56 | `c56_length` | propext, Classical.choice, Quot.sound |
| C56 | `c56_stale_index` | propext, Classical.choice, Quot.sound |
| C56 | `c56_float_equal` | propext, Classical.choice, Quot.sound |
| C56 | `c56_check_exact` | propext, Classical.choice, Quot.sound |
| C57 | `c57_bound` | propext, Classical.choice, Quot.sound |
| C57 | `c57_folder_size` | propext, Classical.choice, Quot.sound |
| C57 | `c57_chunk_counted` | propext, Classical.choice, Quot.sound |
| C57 | `c57_eager_bound` | propext, Classical.choice, Quot.sound |
| C57 | `c57_one_node` | propext, Classical.choice, Quot.sound |
| C57 | `c57_when_processed` | propext |
| C57 | `c57_eager_unbounded` | propext, Classical.choice, Quot.sound |
| C57 | `c57_late_force` | propext, Classical.choice, Quot.sound |
| C57 | `c57_locked_kept` | propext, Quot.sound |
| C57 | `c57_eager_bound_three` | propext, Classical.choice, Quot.sound |
| C57 | `c57_warm_returns` | propext, Classical.choice, Quot.sound |
| C57 | `c57_other_files` | propext, Classical.choice, Quot.sound |
| C58 | `c58_history` | propext, Classical.choice, Quot.sound |
| C58 | `c58_create` | propext, Quot.sound |
| C58 | `c58_reuse` | propext, Classical.choice, Quot.sound |
| C58 | `c58_second_session` | propext, Classical.choice, Quot.sound |
| C58 | `c58_current_safe` | propext, Quot.sound |
| C58 | `c58_no_timestamp` | propext, Classical.choice, Quot.sound |
| C58 | `c58_running_job` | propext, Quot.sound |
| C58 | `c58_without_url` | propext, Quot.sound |
| C58 | `c58_own_path` | propext, Classical.choice, Quot.sound |
| C58 | `c58_update_race` | propext, Classical.choice, Quot.sound |
| C58 | `c58_fresh_race` | propext, Quot.sound |
| C58 | `c58_detects` | propext, Quot.sound |
| C58 | `c58_index_path` | propext, Classical.choice, Quot.sound |
| C59 | `c59_remote` | propext, Classical.choice, Quot.sound |
| C59 | `c59_local` | propext, Classical.choice, Quot.sound |
| C59 | `c59_connection` | propext, Classical.choice, Quot.sound |
| C59 | `c59_folder` | propext, Classical.choice, Quot.sound |
| C59 | `c59_dataset` | propext, Classical.choice, Quot.sound |
| C59 | `c59_studio` | propext, Classical.choice, Quot.sound |
| C59 | `c59_connection_injective` | propext, Classical.choice, Quot.sound |
| C59 | `c59_unknown` | propext, Classical.choice, Quot.sound |
| C59 | `c59_idempotent` | propext, Classical.choice, Quot.sound |
| C59 | `c59_replaced` | propext, Classical.choice, Quot.sound |
| C59 | `c59_template` | propext, Quot.sound |
| C59 | `c59_gcs_without_url` | propext, Classical.choice, Quot.sound |
| C59 | `c59_prefix_confused` | propext, Classical.choice, Quot.sound |
| C59 | `c59_studio_ambiguous` | propext, Classical.choice, Quot.sound |
| C59 | `c59_template_missed` | propext, Classical.choice, Quot.sound |
| C59 | `c59_remote_replaced` | propext, Classical.choice, Quot.sound |
| C60 | `c60_chunk` | propext, Classical.choice, Quot.sound |
| C60 | `c60_map` | propext, Classical.choice, Quot.sound |
| C60 | `c60_checkpoint` | propext, Classical.choice, Quot.sound |
| C60 | `c60_checkpoint_found` | propext, Classical.choice, Quot.sound |
| C60 | `c60_optimize` | propext, Classical.choice, Quot.sound |
| C60 | `c60_map_all` | propext, Classical.choice, Quot.sound |
| C60 | `c60_other_nodes` | propext, Classical.choice, Quot.sound |
| C60 | `c60_output_with_checkpoints` | propext, Classical.choice, Quot.sound |
| C60 | `c60_map_with_checkpoints` | propext, Classical.choice, Quot.sound |
| C60 | `c60_map_same_name` | propext, Classical.choice, Quot.sound |
| C60 | `c60_map_calls` | propext, Classical.choice, Quot.sound |
| C61 | `c61_base64` | propext, Classical.choice, Quot.sound |
| C61 | `c61_fernet_roundtrip` | propext, Classical.choice, Quot.sound |
| C61 | `c61_fernet_reads` | propext, Classical.choice, Quot.sound |
| C61 | `c61_fernet_wrong_password` | propext, Classical.choice, Quot.sound |
| C61 | `c61_fernet_file` | propext, Classical.choice, Quot.sound |
| C61 | `c61_fernet_no_salt` | propext, Classical.choice, Quot.sound |
| C61 | `c61_levels` | none |
| C61 | `c61_rsa_pickle` | propext, Quot.sound |
| C61 | `c61_rsa_roundtrip` | propext, Classical.choice, Quot.sound |
| C61 | `c61_rsa_reads` | propext, Classical.choice, Quot.sound |
| C61 | `c61_rsa_password_in_file` | propext, Classical.choice, Quot.sound |
| C61 | `c61_rsa_keys` | propext |
| C61 | `c61_rsa_keys_unreadable` | propext |
| C61 | `c61_rsa_limit` | propext, Quot.sound |
| C61 | `c61_rsa_missing_key` | propext |
| C62 | `c62_dataset` | propext, Classical.choice, Quot.sound |
| C62 | `c62_streams` | propext, Classical.choice, Quot.sound |
| C62 | `c62_optimize_partial` | propext, Classical.choice, Quot.sound |
| C63 | `c63_index` | propext, Classical.choice, Quot.sound |
| C63 | `c63_all_chunks` | propext, Classical.choice, Quot.sound |
| C63 | `c63_dataset` | propext, Classical.choice, Quot.sound |
| C63 | `c63_optimize_partial` | propext, Classical.choice, Quot.sound |
| C63 | `c63_folder_last_first` | propext, Classical.choice, Quot.sound |
| C63 | `c63_folder_keeps_node_index` | propext, Classical.choice, Quot.sound |
| C63 | `c63_stale_index` | propext, Classical.choice, Quot.sound |
| C63 | `c63_empty_node` | propext, Classical.choice, Quot.sound |
| C63 | `c63_late_node_refused` | propext, Classical.choice, Quot.sound |
| C63 | `c63_late_node_removes` | propext, Classical.choice, Quot.sound |
| C63 | `c63_result` | propext, Quot.sound |
| C63 | `c63_result_bytes_wrong` | none |
| C63 | `c63_result_dims` | propext |
| C64 | `c64_succeeds_iff` | propext, Classical.choice, Quot.sound |
| C64 | `c64_drop_last_iff` | propext, Classical.choice, Quot.sound |
| C64 | `c64_failure` | propext, Classical.choice, Quot.sound |
| C64 | `c64_complete` | propext, Classical.choice, Quot.sound |
| C64 | `c64_distinct` | propext, Classical.choice, Quot.sound |
| C64 | `c64_resume_restarts` | propext, Classical.choice, Quot.sound |
| C64 | `c64_too_small` | propext, Classical.choice, Quot.sound |
| C64 | `c64_skipped_test` | propext |
| C64 | `loaderOut_executions` | propext, Classical.choice, Quot.sound |
| C65 | `c65_len_exact_partial` | propext, Classical.choice, Quot.sound |
| C65 | `c65_settings_reach_all` | propext, Quot.sound |
| C65 | `c65_length_keeps` | propext, Quot.sound |
| C65 | `c65_len_resets` | propext, Quot.sound |
| C65 | `c65_load_resets` | propext, Quot.sound |
| C65 | `c65_load_keeps` | propext |
| C65 | `c65_stale_drop_last` | propext |
| C65 | `c65_no_length` | propext |
| C65 | `c65_combined_len_partial` | propext, Classical.choice, Quot.sound |
| C65 | `c65_combined_len_short` | propext |
| C65 | `c65_split_follows` | propext |
| C65 | `c65_wrong_states` | propext |
| C65 | `c65_own_states` | propext, Quot.sound |
| C66 | `c66_resumed` | propext, Classical.choice, Quot.sound |
| C66 | `c66_right_iff` | propext, Classical.choice, Quot.sound |
| C66 | `c66_lost_and_repeated` | propext, Classical.choice, Quot.sound |
| C66 | `c66_one_worker` | propext, Classical.choice, Quot.sound |
| C66 | `c66_batch_one` | propext, Classical.choice, Quot.sound |
| C66 | `c66_rounds_iff` | propext, Classical.choice, Quot.sound |
| C66 | `c66_continues` | propext, Classical.choice, Quot.sound |
| C66 | `c66_all_batch_one` | propext, Classical.choice, Quot.sound |
| C66 | `c66_all_one_worker` | propext, Classical.choice, Quot.sound |
| C66 | `c66_empty_share_raises` | propext, Classical.choice, Quot.sound |
| C66 | `c66_two_workers` | propext, Classical.choice, Quot.sound |
| C66 | `c66_split_changes` | propext |
| C66 | `c66_collate` | propext, Classical.choice, Quot.sound |
| C66 | `c66_plain` | propext, Quot.sound |
| C67 | `c67_store` | propext, Classical.choice, Quot.sound |
| C67 | `c67_object` | propext, Classical.choice, Quot.sound |
| C67 | `c67_upload` | propext, Classical.choice, Quot.sound |
| C67 | `c67_upload_all` | propext, Classical.choice, Quot.sound |
| C67 | `c67_copy` | propext, Classical.choice, Quot.sound |
| C67 | `c67_download_directory_partial` | propext, Classical.choice, Quot.sound |
| C67 | `c67_bucket_only` | propext, Classical.choice, Quot.sound |
| C67 | `c67_gcs_markers` | propext, Classical.choice, Quot.sound |
| C67 | `c67_fragment` | propext, Classical.choice, Quot.sound |
| C67 | `c67_copy_slash` | propext, Classical.choice, Quot.sound |
| C67 | `c67_folder_marker` | propext, Classical.choice, Quot.sound |
| C67 | `c67_other_scheme` | propext, Classical.choice, Quot.sound |
| C68 | `c68_load_partial` | propext, Classical.choice, Quot.sound |
| C68 | `c68_nothing_partial` | propext, Classical.choice, Quot.sound |
| C68 | `c68_resume_partial` | propext, Classical.choice, Quot.sound |
| C68 | `c68_local_partial` | propext, Classical.choice, Quot.sound |
| C68 | `c68_append` | propext, Classical.choice, Quot.sound |
| C68 | `c68_overwrite` | propext, Classical.choice, Quot.sound |
| C68 | `c68_cleanup_partial` | propext, Classical.choice, Quot.sound |
| C68 | `c68_current_folder` | propext, Classical.choice, Quot.sound |
| C68 | `c68_tuples` | propext, Classical.choice, Quot.sound |
| C68 | `c68_nodes` | propext, Classical.choice, Quot.sound |
| C68 | `c68_many_workers` | propext, Classical.choice, Quot.sound |
| C68 | `c68_many_run` | propext, Classical.choice, Quot.sound |
| C68 | `c68_refused` | propext, Classical.choice, Quot.sound |
| C68 | `c68_cleanup_many` | propext, Classical.choice, Quot.sound |
| C69 | `c69_exact_iff` | propext, Classical.choice, Quot.sound |
| C69 | `c69_inputs_partial` | propext, Classical.choice, Quot.sound |
| C69 | `c69_values` | propext, Classical.choice, Quot.sound |
| C69 | `c69_sequential` | propext, Classical.choice, Quot.sound |
| C69 | `c69_ragged_refused` | propext, Classical.choice, Quot.sound |
| C69 | `c69_short_batch_refused` | propext, Classical.choice, Quot.sound |
| C69 | `c69_labels_become_texts` | propext, Classical.choice, Quot.sound |
| C69 | `c69_depends_on_workers` | propext, Classical.choice, Quot.sound |
| C69 | `c69_checkpoint_accepts` | propext, Classical.choice, Quot.sound |
| C70 | `c70_refused_early` | propext, Classical.choice, Quot.sound |
| C70 | `c70_map_refused_early` | propext, Classical.choice, Quot.sound |
| C70 | `c70_checkpoint_keeps` | propext, Classical.choice, Quot.sound |
| C70 | `c70_none_keeps` | propext, Classical.choice, Quot.sound |
| C70 | `c70_append_keeps` | propext, Classical.choice, Quot.sound |
| C70 | `c70_overwrite_destroys` | propext, Classical.choice, Quot.sound |
| C70 | `c70_inputs_partial` | propext, Classical.choice, Quot.sound |
| C70 | `c70_batches` | propext, Classical.choice, Quot.sound |
| C70 | `c70_loader` | propext, Classical.choice, Quot.sound |
| C70 | `c70_map_inputs_partial` | propext, Classical.choice, Quot.sound |
| C70 | `c70_map_not_empty` | propext, Classical.choice, Quot.sound |
| C70 | `c70_first_chunks` | propext, Classical.choice, Quot.sound |
| C70 | `c70_weights_ignored` | propext, Classical.choice, Quot.sound |
| C70 | `c70_map_weights_batch` | propext, Classical.choice, Quot.sound |
| C70 | `c70_tuple_refused` | propext, Classical.choice, Quot.sound |
| C70 | `c70_url_input` | propext, Classical.choice, Quot.sound |
| C70 | `c70_first_two_inputs` | propext, Classical.choice, Quot.sound |
| C70 | `c70_launched` | propext, Classical.choice, Quot.sound |
| C70 | `c70_cloudspaces` | propext, Classical.choice, Quot.sound |
| C70 | `c70_node_works` | propext, Classical.choice, Quot.sound |
| C70 | `c70_node_works_map` | propext, Classical.choice, Quot.sound |
| C70 | `c70_guess` | propext, Classical.choice, Quot.sound |
| C70 | `c70_sizes` | propext, Classical.choice, Quot.sound |
| C70 | `c70_output` | propext, Classical.choice, Quot.sound |
| C70 | `c70_cleanup_keeps` | propext, Classical.choice, Quot.sound |
| C71 | `c71_inputs_kept` | propext, Classical.choice, Quot.sound |
| C71 | `c71_refused` | propext, Classical.choice, Quot.sound |
| C71 | `c71_replaced` | propext, Classical.choice, Quot.sound |
| C71 | `c71_local_partial` | propext, Classical.choice, Quot.sound |
| C71 | `c71_remote_partial` | propext, Classical.choice, Quot.sound |
| C71 | `c71_missing` | propext, Classical.choice, Quot.sound |
| C71 | `c71_label` | propext, Classical.choice, Quot.sound |
| C71 | `c71_arguments` | propext, Classical.choice, Quot.sound |
| C71 | `c71_partial_arguments` | none |
| C71 | `c71_last` | propext, Classical.choice, Quot.sound |
| C71 | `c71_device` | propext, Classical.choice, Quot.sound |
| C71 | `c71_result_dropped` | none |
| C71 | `c71_recognised` | propext, Quot.sound |
| C71 | `c71_partial_recognised` | none |
| C71 | `c71_values` | propext, Quot.sound |
| C71 | `c71_method_generator` | none |
| C71 | `c71_extension` | propext, Quot.sound |
| C71 | `c71_counts_as_path` | propext, Quot.sound |
| C71 | `c71_studio_file` | propext, Classical.choice, Quot.sound |
| C71 | `c71_partial_overlooked` | propext |
| C72 | `c72_value` | propext, Classical.choice, Quot.sound |
| C72 | `c72_sendable` | propext, Classical.choice, Quot.sound |
| C72 | `c72_unsendable` | propext, Classical.choice, Quot.sound |
| C72 | `c72_agree` | propext, Classical.choice, Quot.sound |
| C72 | `c72_settled` | propext, Classical.choice, Quot.sound |
| C72 | `c72_answered` | propext, Classical.choice, Quot.sound |
| C72 | `c72_never_sent` | propext, Classical.choice, Quot.sound |
| C72 | `c72_nodes_agree` | propext, Classical.choice, Quot.sound |
| C72 | `c72_one_run` | propext, Classical.choice, Quot.sound |
| C72 | `c72_second_run` | propext, Classical.choice, Quot.sound |
| C72 | `c72_second_run_happens` | propext, Classical.choice, Quot.sound |
| C72 | `c72_local` | none |
| C73 | `c73_fresh_partial` | propext, Quot.sound |
| C73 | `c73_kept` | propext, Quot.sound |
| C73 | `c73_renewed` | propext, Quot.sound |
| C73 | `c73_slow` | propext, Quot.sound |
| C73 | `c73_clock_set_back` | propext, Quot.sound |
| C74 | `c74_restored_partial` | propext, Classical.choice, Quot.sound |
| C74 | `c74_outside` | propext, Classical.choice, Quot.sound |
| C74 | `c74_other_lines` | propext, Classical.choice, Quot.sound |
| C74 | `c74_own_server` | propext, Classical.choice, Quot.sound |
| C74 | `c74_interrupted` | propext, Classical.choice, Quot.sound |
| C75 | `c75_fetch` | propext, Classical.choice, Quot.sound |
| C75 | `c75_missing_partial` | propext, Classical.choice, Quot.sound |
| C75 | `c75_azure_empty` | propext, Classical.choice, Quot.sound |
| C75 | `c75_kept` | propext, Classical.choice, Quot.sound |
| C75 | `c75_scheme` | propext, Classical.choice, Quot.sound |
| C75 | `c75_frame` | propext, Classical.choice, Quot.sound |
| C75 | `c75_hub` | propext, Classical.choice, Quot.sound |
| C75 | `c75_hub_no_org` | propext, Classical.choice, Quot.sound |
| C75 | `c75_local` | propext, Classical.choice, Quot.sound |
| C75 | `c75_local_inside` | propext, Classical.choice, Quot.sound |
| C75 | `c75_chunk` | propext, Classical.choice, Quot.sound |
| C75 | `c75_dataset` | propext, Classical.choice, Quot.sound |
| C75 | `c75_uploaded` | propext, Classical.choice, Quot.sound |
| C75 | `c75_double_slash` | propext, Classical.choice, Quot.sound |
| C75 | `c75_space` | propext, Classical.choice, Quot.sound |
| C75 | `c75_bucket_only` | propext, Classical.choice, Quot.sound |
| C75 | `c75_chunk_missing` | propext, Classical.choice, Quot.sound |
| C75 | `c75_first_failure` | propext, Classical.choice, Quot.sound |
| C75 | `c75_index_cached` | propext, Classical.choice, Quot.sound |
| C75 | `c75_index_missing` | propext, Classical.choice, Quot.sound |
| C76 | `c76_same_samples` | propext, Classical.choice, Quot.sound |
| C76 | `c76_protocol` | propext, Classical.choice, Quot.sound |
| C76 | `c76_progress` | propext, Classical.choice, Quot.sound |
| C76 | `c76_no_deadlock` | propext, Classical.choice, Quot.sound |
| C76 | `c76_worker` | propext, Classical.choice, Quot.sound |
| C76 | `c76_resumed` | propext, Classical.choice, Quot.sound |
| C76 | `c76_back_and_forth` | propext, Classical.choice, Quot.sound |
| C76 | `c76_open_chunk_deleted` | propext, Quot.sound |
| C76 | `c76_by_index` | propext, Classical.choice, Quot.sound |
| C76 | `c76_by_index_requests` | propext, Classical.choice, Quot.sound |
| C76 | `c76_fine_refines` | propext, Classical.choice, Quot.sound |
| C76 | `c76_fine_same_samples` | propext, Classical.choice, Quot.sound |
| C76 | `c76_fine_by_index` | propext, Classical.choice, Quot.sound |
| C76 | `c76_fine_no_deadlock` | propext, Classical.choice, Quot.sound |
| C76 | `c76_fine_worker` | propext, Classical.choice, Quot.sound |
| C76 | `c76_compressed_stays` | propext, Quot.sound |
| C76 | `c76_compressed_removed` | propext, Classical.choice, Quot.sound |
| C77 | `c77_blocks_partial` | propext, Classical.choice, Quot.sound |
| C77 | `c77_window` | propext, Classical.choice, Quot.sound |
| C77 | `c77_no_clash` | propext, Classical.choice, Quot.sound |
| C77 | `c77_nothing_fails` | propext, Classical.choice, Quot.sound |
| C77 | `c77_key_error_while_loading` | propext, Quot.sound |
| C77 | `c77_thread_dies` | propext, Quot.sound |
| C77 | `c77_key_error_while_closing` | propext, Quot.sound |
| C77 | `c77_deletes` | propext, Classical.choice, Quot.sound |
| C77 | `c77_loads` | propext, Classical.choice, Quot.sound |
| C78 | `c78_own_samples_partial` | propext, Classical.choice, Quot.sound |
| C78 | `c78_shared_decrypted` | propext |
| C78 | `c78_split_after_read` | propext |
| C78 | `c78_shared_format` | propext |
| C78 | `c78_tokens_shared` | propext, Quot.sound |
| C78 | `c78_tokens_split_fails` | propext, Quot.sound |
| C79 | `c79_index_read` | propext, Classical.choice, Quot.sound |
| C79 | `c79_constructed_iff` | propext, Classical.choice, Quot.sound |
| C79 | `c79_opens_iff` | propext, Classical.choice, Quot.sound |
| C79 | `c79_opened_right` | propext, Classical.choice, Quot.sound |
| C79 | `c79_opened_reads` | propext, Classical.choice, Quot.sound |
| C79 | `c79_whole_opens` | propext, Classical.choice, Quot.sound |
| C79 | `c79_written_read_back` | propext, Classical.choice, Quot.sound |
| C79 | `c79_constructor_blind` | propext, Classical.choice, Quot.sound |
| C79 | `c79_wrong_loader` | propext, Classical.choice, Quot.sound |
| C79 | `c79_last_field` | propext, Classical.choice, Quot.sound |
| C80 | `c80_leaves` | propext, Classical.choice, Quot.sound |
| C80 | `c80_paths` | propext, Classical.choice, Quot.sound |
| C80 | `c80_map_iff` | propext, Classical.choice, Quot.sound |
| C80 | `c80_map_with_path_iff` | propext, Classical.choice, Quot.sound |
| C80 | `c80_map` | propext, Quot.sound |
| C80 | `c80_map_id` | propext, Quot.sound |
| C80 | `c80_map_error` | propext, Classical.choice, Quot.sound |
| C80 | `c80_in_place` | propext, Classical.choice, Quot.sound |
| C80 | `c80_map_only` | propext, Quot.sound |
| C80 | `c80_map_map` | propext, Quot.sound |
| C80 | `c80_map_map_no_images` | propext, Quot.sound |
| C80 | `c80_all_any` | propext, Classical.choice, Quot.sound |
| C80 | `c80_broadcast` | propext, Classical.choice, Quot.sound |
| C80 | `c80_broadcast_complete` | propext, Quot.sound |
| C80 | `c80_broadcast_self` | propext |
| C80 | `c80_images_change_structure` | propext, Quot.sound |
| C80 | `c80_images_refused` | propext |
| C80 | `c80_arg_leaves` | propext |
| C81 | `c81_batches` | propext, Classical.choice, Quot.sound |
| C81 | `c81_optimize` | propext, Classical.choice, Quot.sound |
| C81 | `c81_workers_end` | propext, Classical.choice, Quot.sound |
| C81 | `rankLoader_ends` | propext, Classical.choice, Quot.sound |
| C81 | `c81_nodes` | propext, Classical.choice, Quot.sound |
| C82 | `c82_appended` | propext, Classical.choice, Quot.sound |
| C82 | `c82_append` | propext, Classical.choice, Quot.sound |
| C82 | `dataset_gives` | propext, Classical.choice, Quot.sound |
| C83 | `c83_interrupted` | propext, Classical.choice, Quot.sound |
| C83 | `c83_ends` | propext, Classical.choice, Quot.sound |
| C83 | `loader_goes_on` | propext, Classical.choice, Quot.sound |
| C83 | `runsOf_state` | propext, Classical.choice, Quot.sound |
| C83 | `c83_same_cache` | propext, Classical.choice, Quot.sound |
| C84 | `c84_written_again_partial` | propext, Classical.choice, Quot.sound |
| C84 | `c84_ints_are_pickled` | propext, Classical.choice, Quot.sound |
| C84 | `c84_append_refused` | propext, Classical.choice, Quot.sound |
| C84 | `c84_jpeg` | propext, Classical.choice, Quot.sound |
| C85 | `c85_worker` | propext, Classical.choice, Quot.sound |
| C85 | `c85_epoch_partial` | propext, Classical.choice, Quot.sound |
| C85 | `c85_dataset` | propext, Classical.choice, Quot.sound |
| C85 | `c85_optimize_partial` | propext, Classical.choice, Quot.sound |
| C85 | `c85_alone_is_lost` | propext, Quot.sound |
| C85 | `c85_witness` | propext |
| C85 | `c85_epochs_partial` | propext, Classical.choice, Quot.sound |
| C86 | `c86_stored_partial` | propext, Classical.choice, Quot.sound |
| C86 | `c86_epoch_partial` | propext, Classical.choice, Quot.sound |
| C86 | `c86_first_partial` | propext, Classical.choice, Quot.sound |
| C86 | `c86_length_positive` | propext, Classical.choice, Quot.sound |
| C86 | `c86_zero_weight_fails` | propext, Classical.choice, Quot.sound |
| C86 | `c86_small_dataset_fails` | propext, Classical.choice, Quot.sound |
| C86 | `c86_epochs_partial` | propext, Classical.choice, Quot.sound |
| C87 | `c87_batches_partial` | propext, Classical.choice, Quot.sound |
| C87 | `c87_no_deletion` | propext, Classical.choice, Quot.sound |
| C87 | `c87_one_chunk` | propext, Classical.choice, Quot.sound |
| C87 | `c87_spanning_crash` | propext, Quot.sound |
| C87 | `c87_spanning_right` | propext, Quot.sound |
| C87 | `c87_last_crash` | propext, Quot.sound |
| C87 | `c87_single_block_crash` | propext, Quot.sound |
| C88 | `c88_returns_partial` | propext, Classical.choice, Quot.sound |
| C88 | `c88_worker_returned` | propext, Classical.choice, Quot.sound |
| C88 | `c88_failure_leaks` | propext, Classical.choice, Quot.sound |
| C88 | `c88_every_error_leaks` | propext, Classical.choice, Quot.sound |
| C88 | `c88_left_behind` | propext, Classical.choice, Quot.sound |
| C88 | `c88_join_hangs` | propext |
| C88 | `c88_join_hangs_occurs` | propext, Quot.sound |
| C88 | `c88_interrupt_hangs` | propext, Classical.choice, Quot.sound |
| C89 | `c89_same_samples` | propext, Classical.choice, Quot.sound |
| C89 | `c89_wait_found` | propext, Quot.sound |
| C89 | `c89_wait_raises` | propext, Classical.choice, Quot.sound |
| C89 | `c89_wait_raises_though_there` | propext, Classical.choice, Quot.sound |
| C89 | `c89_wait_forces` | propext, Classical.choice, Quot.sound |
| C89 | `c89_wait_ends` | propext, Classical.choice, Quot.sound |
| C89 | `c89_wait_bound` | propext, Quot.sound |
| C89 | `c89_parquet_hangs` | propext, Quot.sound |
| C89 | `c89_tokens_polls` | propext, Quot.sound |
| C89 | `c89_no_retry` | propext, Quot.sound |
| C89 | `c89_failure_raises_late` | propext, Classical.choice, Quot.sound |
| C89 | `c89_reads_what_is_there` | propext, Classical.choice, Quot.sound |
| C89 | `c89_part_blocks` | propext, Classical.choice, Quot.sound |
| C89 | `c89_failure_spoils_cache` | propext, Classical.choice, Quot.sound |
| C89 | `c89_clean_failure` | propext, Classical.choice, Quot.sound |
| C89 | `c89_spoiled_occurs` | propext, Classical.choice, Quot.sound |
| C89 | `c89_second_chunk_occurs` | propext, Classical.choice, Quot.sound |
| C89 | `c89_dead_in_fetch` | propext, Quot.sound |
| C89 | `c89_recovers` | propext, Classical.choice, Quot.sound |
| C90 | `c90_same_samples` | propext, Classical.choice, Quot.sound |
| C90 | `c90_thread_ends` | propext, Quot.sound |
| C90 | `c90_goes_on` | propext, Classical.choice, Quot.sound |
| C90 | `c90_given_same_samples` | propext, Classical.choice, Quot.sound |
| C90 | `c90_given_goes_on` | propext, Classical.choice, Quot.sound |
| C90 | `c90_given_raises` | propext, Classical.choice, Quot.sound |
| C90 | `c90_single_chunk` | propext, Classical.choice, Quot.sound |
| C90 | `c90_batches` | propext, Classical.choice, Quot.sound |
| C90 | `c90_workers_end` | propext, Classical.choice, Quot.sound |
| C90 | `c90_off_same_samples` | propext, Classical.choice, Quot.sound |
| C90 | `c90_off_goes_on` | propext, Classical.choice, Quot.sound |
| C90 | `c90_off_anywhere` | propext, Classical.choice, Quot.sound |
| C90 | `c90_resumed` | propext, Classical.choice, Quot.sound |
| C90 | `c90_off_batches` | propext, Classical.choice, Quot.sound |
| C90 | `c90_off_workers_end` | propext, Classical.choice, Quot.sound |
| C91 | `c91_not_again` | propext, Classical.choice, Quot.sound |
| C91 | `c91_compressed_again` | propext, Classical.choice, Quot.sound |
| C91 | `c91_second_epoch` | propext, Classical.choice, Quot.sound |
| C92 | `c92_counts` | propext, Quot.sound |
| C92 | `c92_whole_pass` | propext, Quot.sound |
| C92 | `c92_whole_passes` | propext, Quot.sound |
| C92 | `c92_broken_leaves` | propext, Quot.sound |
| C92 | `c92_stays` | propext, Quot.sound |
| C92 | `c92_limit_lost` | propext, Quot.sound |
| C92 | `c92_ahead_leaves` | propext, Quot.sound |
| C93 | `c93_inputs_bounded` | propext, Quot.sound |
| C93 | `c93_no_overflow` | propext, Quot.sound |
| C93 | `c93_bounded` | propext, Quot.sound |
| C93 | `c93_goes_on` | propext, Classical.choice, Quot.sound |
| C93 | `c93_small_disk` | propext, Quot.sound |
| C93 | `c93_never` | propext, Classical.choice, Quot.sound |
| C93 | `c93_other_disk` | propext, Quot.sound |
| C93 | `c93_outputs_stop` | propext, Quot.sound |
| C94 | `c94_batches` | propext |
| C94 | `c94_recorded` | propext, Classical.choice, Quot.sound |
| C94 | `c94_one_too_many` | propext, Classical.choice, Quot.sound |
| C94 | `c94_true` | propext, Classical.choice, Quot.sound |
| C94 | `c94_only_when_asked` | propext, Quot.sound |
| C94 | `c94_patch_stays` | propext, Quot.sound |
| C94 | `c94_trace_lost` | propext, Classical.choice, Quot.sound |
| C94 | `c94_caching_ends` | propext |
| C94 | `c94_refused` | propext, Classical.choice, Quot.sound |
| C95 | `c95_local` | propext, Classical.choice, Quot.sound |
| C95 | `c95_cloud` | propext, Classical.choice, Quot.sound |
| C95 | `c95_hf` | propext, Classical.choice, Quot.sound |
| C95 | `c95_local_elsewhere` | propext, Classical.choice, Quot.sound |
| C95 | `c95_missing_directory` | propext, Classical.choice, Quot.sound |
| C95 | `c95_cloud_removes` | propext, Classical.choice, Quot.sound |
| C95 | `c95_local_scheme` | propext, Classical.choice, Quot.sound |
| C95 | `c95_local_scheme_nowhere` | none |
| C95 | `c95_index_in_cache` | propext, Quot.sound |
| C96 | `c96_command` | propext, Classical.choice, Quot.sound |
| C96 | `c96_wait` | propext, Classical.choice, Quot.sound |
| C96 | `c96_stopped` | propext |
| C96 | `c96_first_job` | propext, Classical.choice, Quot.sound |
| C96 | `c96_script` | propext, Classical.choice, Quot.sound |
| C97 | `c97_grown` | propext, Classical.choice, Quot.sound |
| C97 | `c97_kept` | propext, Classical.choice, Quot.sound |
| C97 | `history_inv` | propext, Classical.choice, Quot.sound |
| C97 | `remote_old` | propext, Classical.choice, Quot.sound |
| C97 | `not_emitted` | propext, Classical.choice, Quot.sound |
| C98 | `c98_next_pass` | propext, Quot.sound |
| C98 | `c98_right_iff` | propext, Classical.choice, Quot.sound |
| C98 | `c98_counted_twice` | propext, Quot.sound |
| C98 | `c98_not_resumed` | propext, Quot.sound |
| C98 | `c98_ended` | none |
| C98 | `c98_given_again` | propext, Classical.choice, Quot.sound |
| C98 | `c98_example` | none |
| C98 | `c98_combined_shared` | propext |
| C98 | `c98_combined_stale` | propext, Quot.sound |
| C98 | `c98_combined_lost` | propext, Classical.choice, Quot.sound |
| C98 | `c98_combined_loaded` | propext |
| C98 | `c98_combined_example` | none |
| C98 | `c98_load_again` | propext, Quot.sound |
| C98 | `c98_whole_epoch_raises` | propext, Classical.choice, Quot.sound |
| C99 | `c99_epochs` | propext, Quot.sound |
| C99 | `c99_same_epoch_iff` | propext, Classical.choice, Quot.sound |
| C99 | `c99_complete` | propext, Classical.choice, Quot.sound |
| C99 | `c99_broken` | propext, Classical.choice, Quot.sound |
| C99 | `c99_mixed_epochs` | propext |
| C99 | `c99_state_wrong` | propext |
| C99 | `c99_copies` | propext, Quot.sound |
| C99 | `c99_loaded_iff` | propext, Quot.sound |
| C99 | `c99_loaded_mixed` | propext |
| C99 | `c99_copy_gives` | propext, Classical.choice, Quot.sound |
| C99 | `c99_when_loaded` | propext, Quot.sound |
| C99 | `c99_loaded_late_example` | propext |
| C100 | `c100_right_iff` | propext |
| C100 | `c100_step` | propext, Classical.choice, Quot.sound |
| C100 | `c100_roundtrip` | propext, Classical.choice, Quot.sound |
| C100 | `c100_taken_over` | propext |
| C100 | `c100_again` | none |
| C100 | `c100_half` | propext |
| C100 | `c100_unregistered` | none |
| C100 | `c100_example` | none |
| C100 | `c100_two_steps` | none |
| C100 | `c100_two_threads` | none |
| C100 | `c100_loaded_known` | propext, Quot.sound |
