{
 "claims": [
  {
   "property": "C01",
   "status": "proved",
   "theorems": [
    "LitData.Props.c01_no_sample_lost_or_repeated",
    "LitData.Props.c01_nodup",
    "LitData.Props.c01_pieces_from_chunks",
    "LitData.Props.c01_raises_iff"
   ],
   "note": "All ranks and workers together receive the dataset in order, for every chunk list, world size, worker count and batch size."
  },
  {
   "property": "C02",
   "status": "proved",
   "theorems": [
    "LitData.Props.c02_drop_last_equal_ranks",
    "LitData.Props.c02_no_drop_last_ranks"
   ],
   "note": "Equal per-rank counts with drop_last; closed form otherwise."
  },
  {
   "property": "C03",
   "status": "proved",
   "theorems": [
    "LitData.Props.c03_balanced"
   ],
   "note": "Exact number of samples of each worker."
  },
  {
   "property": "C04",
   "status": "partial",
   "theorems": [
    "LitData.Props.c04_shuffle_is_permutation",
    "LitData.Props.c04_shuffle_drop_last",
    "LitData.Props.c04_multi_node_partial",
    "LitData.Props.c04_multi_node_repeats",
    "LitData.Props.c04_uneven_nodes_raise",
    "LitData.Props.c04_multi_node_counts",
    "LitData.Props.c04_multi_node_iff",
    "LitData.Props.c04_multi_node_drop_last"
   ],
   "note": "Proved for one node and for epoch 1. On several nodes from epoch 2 each sample is given exactly as often as the first split lists its chunk, so the claim holds if and only if that split divides no chunk (c04_multi_node_iff); it is false of the code otherwise (c04_multi_node_repeats)."
  },
  {
   "property": "C05",
   "status": "proved",
   "theorems": [
    "LitData.Props.c05_one_pass",
    "LitData.Props.c05_one_pass_no_shuffle",
    "LitData.Props.c05_epoch_delivers_dataset"
   ],
   "note": "Every worker delivers its assigned samples once, then stops; all workers together deliver the dataset."
  },
  {
   "property": "C06",
   "status": "partial",
   "theorems": [
    "LitData.Props.c06_single_worker",
    "LitData.Props.c06_worker_continues_partial",
    "LitData.Props.c06_loader_continues_partial",
    "LitData.Props.c06_resume_finished_worker_raises",
    "LitData.Props.c06_resume_fails_witness",
    "LitData.Props.c06_replay_total"
   ],
   "note": "Exact continuation for every stopping point at which every worker has something left. When a worker has finished, the code raises IndexError on resume (proved)."
  },
  {
   "property": "C07",
   "status": "proved",
   "theorems": [
    "LitData.Props.c07_accept_iff_fits",
    "LitData.Props.c07_override",
    "LitData.Props.c07_batch_and_world_size_not_checked",
    "LitData.Props.c07_empty_path"
   ],
   "note": "Accepted exactly when the compared settings match; batch size and world size are not compared (proved)."
  },
  {
   "property": "C08",
   "status": "partial",
   "theorems": [
    "LitData.Props.c08_writer_stores_all_partial",
    "LitData.Props.c08_any_order",
    "LitData.Props.c08_duplicate_refused",
    "LitData.Props.c08_out_of_order_fails",
    "LitData.Props.c08_late_index_fails",
    "LitData.Props.c08_empty_item_fails"
   ],
   "note": "Items added in index order are all stored, in order. In any order: when nothing raises, exactly the added items are stored, in runs of consecutive indices. False of the code for some orders and for empty items (witnesses proved)."
  },
  {
   "property": "C09",
   "status": "partial",
   "theorems": [
    "LitData.Props.c09_chunk_limits_partial",
    "LitData.Props.c09_options",
    "LitData.Props.c09_empty_item_exceeds"
   ],
   "note": "Limits and maximality of chunks for non-empty items added in order; empty items break the limit (proved)."
  },
  {
   "property": "C10",
   "status": "proved",
   "theorems": [
    "LitData.Props.c10_chunk_roundtrip",
    "LitData.Props.c10_empty_chunk_raises",
    "LitData.Props.c10_too_big_not_read",
    "LitData.Props.c10_closed_loader_same_chunk_raises"
   ],
   "note": "Every item of every chunk file that fits in uint32 offsets; larger items are proved unreadable."
  },
  {
   "property": "C11",
   "status": "partial",
   "theorems": [
    "LitData.Props.c11_unflatten_flatten",
    "LitData.Props.c11_through_index_partial",
    "LitData.Props.c11_structure_survives",
    "LitData.Props.c11_wrong_number",
    "LitData.Props.c11_is_leaf",
    "LitData.Props.c11_bytes_key_refused",
    "LitData.Props.c11_tuple_key_breaks",
    "LitData.Props.c11_jpeg_list",
    "LitData.Props.c11_no_factory_refused"
   ],
   "note": "Every nesting of the built-in containers, through the JSON text of index.json; tuple keys are proved to be lost."
  },
  {
   "property": "C12",
   "status": "partial",
   "theorems": [
    "LitData.Props.c12_roundtrip_partial",
    "LitData.Props.c12_palette_lost",
    "LitData.Props.c12_jpeg_array",
    "LitData.Props.c12_jpeg",
    "LitData.Props.c12_big_int_refused",
    "LitData.Props.c12_bfloat16_refused",
    "LitData.Props.c12_dtype_index_injective",
    "LitData.Props.c12_itemsizes",
    "LitData.Props.c12_bad_text",
    "LitData.Props.c12_jpeg_truncated"
   ],
   "note": "Every default serializer; image, video and pickle codecs are parameters. Big integers and bfloat16 are proved refused. Missing because false: the palette of PIL images is lost, and integers and floats are read as NumPy scalars (C84)."
  },
  {
   "property": "C13",
   "status": "partial",
   "theorems": [
    "LitData.Props.c13_samples_read_back_partial",
    "LitData.Props.c13_end_to_end_partial",
    "LitData.Props.c13_workers_to_dataset_partial",
    "LitData.Props.c13_any_serializers",
    "LitData.Props.c13_no_leaves_fails",
    "LitData.Props.c13_other_dtype_misread",
    "LitData.Props.c13_key_order_swaps",
    "LitData.Props.c13_any_workers",
    "LitData.Props.c13_jpeg_lists"
   ],
   "note": "Any number of samples, any structure, default or user serializers. Samples that depart from the first are proved to be misread."
  },
  {
   "property": "C14",
   "status": "partial",
   "theorems": [
    "LitData.Props.c14_merge_keeps_all",
    "LitData.Props.c14_rank_order_partial",
    "LitData.Props.c14_eleven_workers_out_of_order",
    "LitData.Props.c14_config_mismatch",
    "LitData.Props.c14_retry_loses_chunks",
    "LitData.Props.c14_empty_node_fails",
    "LitData.Props.c14_waits_for_idle_worker",
    "LitData.Props.c14_order"
   ],
   "note": "Every chunk exactly once for any number of workers; rank order for at most ten workers, proved false from eleven on because names are sorted as text. Configuration mismatches raise; a second merge is proved to lose chunks."
  },
  {
   "property": "C15",
   "status": "proved",
   "theorems": [
    "LitData.Props.c15_lookup",
    "LitData.Props.c15_out_of_range",
    "LitData.Props.c15_distinct",
    "LitData.Props.c15_reads",
    "LitData.Props.c15_cache_length_overcounts",
    "LitData.Props.c15_length"
   ],
   "note": "Lookup of an integer index among the regions of interest, out-of-range and negative indices, injectivity, and the bytes returned for any sequence of indices, plain or encrypted. Slices are modelled in Dataset only through integer indices."
  },
  {
   "property": "C16",
   "status": "proved",
   "theorems": [
    "LitData.Props.c16_subsample",
    "LitData.Props.c16_oversample",
    "LitData.Props.c16_cut",
    "LitData.Props.c16_reads",
    "LitData.Props.c16_too_many_reaches_beyond",
    "LitData.Props.c16_double",
    "LitData.Props.c16_close",
    "LitData.Props.c16_fraction",
    "LitData.Props.c16_sample_lost",
    "LitData.Props.c16_rounds_up"
   ],
   "note": "Any chunks, regions and ratio, as an exact fraction and as a double with the rounding of Python: a fraction below 1 keeps the floor of its share or, where the share is a whole number, possibly one sample less (0.29 of 100 samples keeps 28). Down to the bytes read from the subsampled dataset."
  },
  {
   "property": "C17",
   "status": "partial",
   "theorems": [
    "LitData.Props.c17_splits_partial",
    "LitData.Props.c17_counts",
    "LitData.Props.c17_bad_ratios",
    "LitData.Props.c17_mispairs_shuffled",
    "LitData.Props.c17_repeated_refused",
    "LitData.Props.c17_missing_file",
    "LitData.Props.c17_doubles",
    "LitData.Props.c17_two_fractions",
    "LitData.Props.c17_bad_doubles",
    "LitData.Props.c17_valid_refused",
    "LitData.Props.c17_sample_lost",
    "LitData.Props.c17_reads_partial"
   ],
   "note": "Datasets whose chunks are in index order, with exact fractions and with doubles. Two fractions with sum at most 1 are never refused; 0.33, 0.56 and 0.11 are proved to be refused because the float sum exceeds 1. A dataset subsampled with a shuffle is proved to be split with regions of the wrong chunks, one with repeated chunks is refused."
  },
  {
   "property": "C18",
   "status": "partial",
   "theorems": [
    "LitData.Props.c18_all_once_partial",
    "LitData.Props.c18_progress_partial",
    "LitData.Props.c18_empty_dataset_fails",
    "LitData.Props.c18_no_weights",
    "LitData.Props.c86_zero_weight_fails"
   ],
   "note": "Every sample of every dataset once, in its own order, for every random choice and both batching methods, when no dataset has length 0. With a dataset of length 0 the code is proved to raise ZeroDivisionError instead of stopping."
  },
  {
   "property": "C19",
   "status": "partial",
   "theorems": [
    "LitData.Props.c19_stops_at_first_partial",
    "LitData.Props.c19_stale_counters"
   ],
   "note": "Any non-zero weights, every random choice, both batching methods. Counters after a resumed epoch are proved to start from stale values."
  },
  {
   "property": "C20",
   "status": "partial",
   "theorems": [
    "LitData.Props.c20_resume_first",
    "LitData.Props.c20_resume_all_partial",
    "LitData.Props.c20_exhausted_differs",
    "LitData.Props.c20_per_stream_differs",
    "LitData.Props.c20_each_worker"
   ],
   "note": "Exact continuation for stratified batching, without iterate_over_all at any point, with it while every dataset has samples left. After an exhausted dataset and for per-stream batching proved false."
  },
  {
   "property": "C21",
   "status": "partial",
   "theorems": [
    "LitData.Props.c21_recorded",
    "LitData.Props.c21_restart_partial",
    "LitData.Props.c21_combined_counters",
    "LitData.Props.c21_finished_worker_recorded_wrong",
    "LitData.Props.c21_last_batches_lost",
    "LitData.Props.c21_state_without_batches",
    "LitData.Props.c21_resave_drifts",
    "LitData.Props.c21_used_loader_differs",
    "LitData.Props.c21_next_epoch",
    "LitData.Props.c21_combined_latest",
    "LitData.Props.c21_combined_restart",
    "LitData.Props.c21_weights_repeat_epoch"
   ],
   "note": "Exact restart for every execution, every number of workers and every stopping point at which each worker has a sample left. Proved false once a worker has ended, near the end of an epoch, before the first batch, for a state saved right after loading and for a loader used before."
  },
  {
   "property": "C22",
   "status": "partial",
   "theorems": [
    "LitData.Props.c22_partition_partial",
    "LitData.Props.c22_validate",
    "LitData.Props.c22_read_partial",
    "LitData.Props.c22_idle_replica_raises",
    "LitData.Props.c22_own_permutations_repeat",
    "LitData.Props.c22_share",
    "LitData.Props.c22_size_zero",
    "LitData.Props.c22_dropEmpty"
   ],
   "note": "At least as many samples as replicas; with fewer, idle replicas are proved to raise IndexError. Reading a filled cache is a partition when all replicas draw the same permutation of the chunks, proved false when they do not."
  },
  {
   "property": "C23",
   "status": "proved",
   "theorems": [
    "LitData.Props.c23_sequential",
    "LitData.Props.c23_refused"
   ],
   "note": "Every input list, number of nodes and workers, with the error cases."
  },
  {
   "property": "C24",
   "status": "proved",
   "theorems": [
    "LitData.Props.c24_packing",
    "LitData.Props.c24_balanced",
    "LitData.Props.c24_refused",
    "LitData.Props.c24_nodes",
    "LitData.Props.c24_item_without_file_refused",
    "LitData.Props.c24_weights_length"
   ],
   "note": "Any positive weights and number of bins; no bin exceeds another by more than any of its own items. Over the nodes of a job, whatever permutations they draw."
  },
  {
   "property": "C25",
   "status": "partial",
   "theorems": [
    "LitData.Props.c25_resume_partial",
    "LitData.Props.c25_skipped_inputs_repeat",
    "LitData.Props.c25_two_uploaders_lose",
    "LitData.Props.c25_downloaders_lose",
    "LitData.Props.c25_finished_worker_breaks_merge",
    "LitData.Props.c25_tuple_inputs_refused",
    "LitData.Props.c25_only_same_run",
    "LitData.Props.c25_counts_inputs"
   ],
   "note": "Every crash point and input list for one uploader, no downloaders and a function that returns a sample for every input. The other configurations are refuted by witnesses."
  },
  {
   "property": "C26",
   "status": "partial",
   "theorems": [
    "LitData.Props.c26_extract",
    "LitData.Props.c26_names_new_partial",
    "LitData.Props.c26_index",
    "LitData.Props.c26_other_config_raises",
    "LitData.Props.c26_second_node_overwrites",
    "LitData.Props.c26_nodes_repeat_old_chunks",
    "LitData.Props.c26_other_names_raise"
   ],
   "note": "Any existing chunks and number of workers on one node. On several nodes existing chunks are overwritten and listed several times (witnesses)."
  },
  {
   "property": "C27",
   "status": "proved",
   "theorems": [
    "LitData.Props.c27_merged",
    "LitData.Props.c27_refused",
    "LitData.Props.c27_safe",
    "LitData.Props.c27_other_config_ignored",
    "LitData.Props.c27_empty_dataset_raises",
    "LitData.Props.c27_copy_error"
   ],
   "note": "Any number of datasets and any order of the copying threads. Only data format and compression are compared by the code; encryption, item loader and data_spec are not (witness), and an input without chunks raises TypeError (proved)."
  },
  {
   "property": "C28",
   "status": "partial",
   "theorems": [
    "LitData.Props.c28_order",
    "LitData.Props.c28_bound",
    "LitData.Props.c28_never_stuck",
    "LitData.Props.c28_progress_partial",
    "LitData.Props.c28_one_ahead",
    "LitData.Props.c28_no_limit",
    "LitData.Props.c28_forced_stall",
    "LitData.Props.c28_present",
    "LitData.Props.c28_eager",
    "LitData.Props.c28_eager_keeps",
    "LitData.Props.c28_eager_three",
    "LitData.Props.c28_warm_kept"
   ],
   "note": "Every interleaving of one reader and its thread. Order and bound are proved without restriction; progress needs a cache limit and max_pre_download at least two more than the number of forced downloads, and witnesses show that each condition is needed."
  },
  {
   "property": "C29",
   "status": "partial",
   "theorems": [
    "LitData.Props.c29_counter",
    "LitData.Props.c29_removed_unused_partial",
    "LitData.Props.c29_removable",
    "LitData.Props.c29_race",
    "LitData.Props.c29_timeout",
    "LitData.Props.c29_forced",
    "LitData.Props.c29_early",
    "LitData.Props.c29_late",
    "LitData.Props.c29_lost_count"
   ],
   "note": "Any number of readers and every interleaving without timeouts. Missing: readers that begin between the test of the counter and the removal, lock timeouts, forced downloads, and readers ahead of their thread; each is refuted by a witness."
  },
  {
   "property": "C30",
   "status": "partial",
   "theorems": [
    "LitData.Props.c30_whole_or_absent_partial",
    "LitData.Props.c30_opened_stays_partial",
    "LitData.Props.c30_fetches",
    "LitData.Props.c30_deleted_lock"
   ],
   "note": "Any number of processes, crashes anywhere, with inodes for the file locks. Chunks deleted while others fetch them are refuted by a witness."
  },
  {
   "property": "C31",
   "status": "partial",
   "theorems": [
    "LitData.Props.c31_decompressed_partial",
    "LitData.Props.c31_opened_stays_partial",
    "LitData.Props.c31_direct",
    "LitData.Props.c31_direct_stays",
    "LitData.Props.c31_two_workers",
    "LitData.Props.c31_thread_dies",
    "LitData.Props.c31_crash_unreadable",
    "LitData.Props.c31_s5cmd",
    "LitData.Props.c31_decompressed_complete",
    "LitData.Props.c31_direct_complete"
   ],
   "note": "Cloud downloads: any number of processes, broken transfers anywhere. Decompression: one worker per cache, killed anywhere. Missing: several workers decompressing the same chunk and s5cmd, refuted by witnesses."
  },
  {
   "property": "C32",
   "status": "partial",
   "theorems": [
    "LitData.Props.c32_block_partial",
    "LitData.Props.c32_cover",
    "LitData.Props.c32_dataset_partial",
    "LitData.Props.c32_view_stays",
    "LitData.Props.c32_view_after_delete",
    "LitData.Props.c32_encrypted_misread",
    "LitData.Props.c32_empty_first_item",
    "LitData.Props.c32_partial_file",
    "LitData.Props.c32_regions_partial",
    "LitData.Props.c32_setup"
   ],
   "note": "Any data, block size and interleaving of the calls of both threads with files arriving whole and vanishing. Encrypted datasets, an empty first item and files that appear before they are complete are refuted by witnesses."
  },
  {
   "property": "C33",
   "status": "partial",
   "theorems": [
    "LitData.Props.c33_row_partial",
    "LitData.Props.c33_uneven_groups",
    "LitData.Props.c33_low_iff"
   ],
   "note": "Any sequence of reads, pre-loads and closes, both modes. In low-memory mode exactly the files whose row groups have the size of the first, except a shorter last one, are read rightly (c33_low_iff); others give a wrong row or an IndexError (witness)."
  },
  {
   "property": "C34",
   "status": "partial",
   "theorems": [
    "LitData.Props.c34_reshard_partial",
    "LitData.Props.c34_same_name",
    "LitData.Props.c34_stale_cache"
   ],
   "note": "Any files and num_rows. Missing: files of the same base name share their shards and a shard left from other rows is reused (both refuted by witnesses)."
  },
  {
   "property": "C35",
   "status": "proved",
   "theorems": [
    "LitData.Props.c35_encrypted_reads_back",
    "LitData.Props.c35_mismatch_refused",
    "LitData.Props.c35_reads_back_on"
   ],
   "note": "For any scheme whose decrypt inverts encrypt, any nonces, any sequence of requests on one loader."
  },
  {
   "property": "C36",
   "status": "partial",
   "theorems": [
    "LitData.Props.c36_none_refuses",
    "LitData.Props.c36_only_dataset",
    "LitData.Props.c36_kept",
    "LitData.Props.c36_overwrite_clears",
    "LitData.Props.c36_overwrite_returns",
    "LitData.Props.c36_remote_none_refuses",
    "LitData.Props.c36_remote_prefix_partial",
    "LitData.Props.c36_remote_overwrite_clears",
    "LitData.Props.c36_sibling_removed",
    "LitData.Props.c36_refused_request_removes",
    "LitData.Props.c36_no_index_refused",
    "LitData.Props.c36_second_page_kept",
    "LitData.Props.c36_map_check"
   ],
   "note": "Local directories: proved for every file tree. Object stores: only keys with the given text prefix are deleted, which is not the same as inside the directory; a sibling dataset, a refused HEAD request and a second page of the listing are refuted by witnesses."
  },
  {
   "property": "C37",
   "status": "partial",
   "theorems": [
    "LitData.Props.c37_exact",
    "LitData.Props.c37_integer",
    "LitData.Props.c37_rounded",
    "LitData.Props.c37_unknown_suffix",
    "LitData.Props.c37_gib_refused",
    "LitData.Props.c37_truncates",
    "LitData.Props.c37_odd_numbers",
    "LitData.Props.c37_only_numbers",
    "LitData.Props.c37_ties_to_even"
   ],
   "note": "Any number, letter case and white space for the four decimal units; exact for numbers that are doubles, within two roundings otherwise. The binary units of the statement are refused by the code (proved), and some decimal fractions come out one byte short (proved)."
  },
  {
   "property": "C38",
   "status": "partial",
   "theorems": [
    "LitData.Props.c38_one_deleter",
    "LitData.Props.c38_keep_lists",
    "LitData.Props.c38_last_partial",
    "LitData.Props.c38_finish_visit",
    "LitData.Props.c38_assigned",
    "LitData.Props.c38_one_rank",
    "LitData.Props.c38_small_chunks",
    "LitData.Props.c38_cross_rank",
    "LitData.Props.c38_second_node",
    "LitData.Props.c38_node_slice_partial",
    "LitData.Props.c38_iterate",
    "LitData.Props.c38_resumed",
    "LitData.Props.c38_ignored"
   ],
   "note": "Exactly one deleter, always, and the search terminates. It is the last of its rank when samples are divided with drop_last and chunks hold at least a batch less one sample; smaller chunks, chunks shared between ranks and nodes after the first are refuted by witnesses."
  },
  {
   "property": "C39",
   "status": "proved",
   "theorems": [
    "LitData.Props.c39_round_robin",
    "LitData.Props.c39_complete",
    "LitData.Props.c39_terminates"
   ],
   "note": "Every interleaving of main process and workers, any prefetch factor, fresh or restarted; PyTorch's part of the iterator is modelled from its source. Termination in every fair execution."
  },
  {
   "property": "C40",
   "status": "proved",
   "theorems": [
    "LitData.Props.c40_groups",
    "LitData.Props.c40_no_groups"
   ],
   "note": "Every input list and batch size."
  },
  {
   "property": "C41",
   "status": "proved",
   "theorems": [
    "LitData.Props.c41_len_is_delivered",
    "LitData.Props.c41_len_closed_form"
   ],
   "note": "len equals the number of samples the rank's workers receive."
  },
  {
   "property": "C42",
   "status": "partial",
   "theorems": [
    "LitData.Props.c42_first_accepting",
    "LitData.Props.c42_always_some",
    "LitData.Props.c42_reading_uses_writer_partial",
    "LitData.Props.c42_builtins_named",
    "LitData.Props.c42_colon_name_breaks",
    "LitData.Props.c42_suffix_captures"
   ],
   "note": "Any table of serializers. Reading uses the writing serializer when names contain no colon and suffixes are not names; otherwise proved false."
  },
  {
   "property": "C43",
   "status": "partial",
   "theorems": [
    "LitData.Props.c43_index_after_files_partial",
    "LitData.Props.c43_terminates",
    "LitData.Props.c43_complete_partial",
    "LitData.Props.c43_optimize_partial",
    "LitData.Props.c43_shared_file_fails",
    "LitData.Props.c43_lost_upload"
   ],
   "note": "Every interleaving of downloaders, workers, uploaders, removers and main process, any numbers of them. Proved for working uploads and disjoint input files; a failing cloud upload and inputs that share a file are refuted by witnesses."
  },
  {
   "property": "C44",
   "status": "proved",
   "theorems": [
    "LitData.Props.c44_prefixes_once",
    "LitData.Props.c44_register_refused",
    "LitData.Props.c44_register",
    "LitData.Props.c44_unregister",
    "LitData.Props.c44_first_prefix",
    "LitData.Props.c44_new_prefix",
    "LitData.Props.c44_builtin"
   ],
   "note": "Any table and any sequence of calls. A prefix that extends an older one is proved never to be used."
  },
  {
   "property": "C45",
   "status": "partial",
   "theorems": [
    "LitData.Props.c45_fast_dev_run",
    "LitData.Props.c45_fast_dev_run_flag"
   ],
   "note": "Prefixes for a number. For True the code keeps one input instead of the documented ten (proved)."
  },
  {
   "property": "C46",
   "status": "partial",
   "theorems": [
    "LitData.Props.c46_per_stream",
    "LitData.Props.c46_per_stream_all_partial",
    "LitData.Props.c46_all_mixes",
    "LitData.Props.c46_after_length",
    "LitData.Props.c46_length_mixes"
   ],
   "note": "Proved without iterate_over_all for every batch, with it as long as no dataset has been found exhausted. The code violates the rest: a batch in which a dataset ends is filled from another one (c46_all_mixes), and after len(dataset), or after the loader has loaded a state, the dataset is chosen anew for each sample, so that batches mix (c46_after_length, c46_length_mixes)."
  },
  {
   "property": "C47",
   "status": "proved",
   "theorems": [
    "LitData.Props.c47_walk",
    "LitData.Props.c47_never_twice",
    "LitData.Props.c47_terminates",
    "LitData.Props.c47_progress",
    "LitData.Props.c47_no_error",
    "LitData.Props.c47_returns",
    "LitData.Props.c47_broken_link",
    "LitData.Props.c47_second_pass"
   ],
   "note": "Every finite tree, number of threads and completion order. A broken link makes it raise, and a second iteration over the same object yields nothing (both proved)."
  },
  {
   "property": "C48",
   "status": "proved",
   "theorems": [
    "LitData.Props.c48_slice",
    "LitData.Props.c48_usual",
    "LitData.Props.c48_ranks"
   ],
   "note": "Any dataset on disk, any slice, down to the bytes of the items. In a distributed run the slice is taken by the length of the rank, from the beginning of the dataset (proved)."
  },
  {
   "property": "C49",
   "status": "partial",
   "theorems": [
    "LitData.Props.c49_user_files_partial",
    "LitData.Props.c49_copies_partial",
    "LitData.Props.c49_worker_reads",
    "LitData.Props.c49_copy_path",
    "LitData.Props.c49_removes_copies",
    "LitData.Props.c49_prefix_deleted",
    "LitData.Props.c49_tmp_dataset_deleted",
    "LitData.Props.c49_outside_deleted",
    "LitData.Props.c49_mixed_fails",
    "LitData.Props.c49_shared_copy",
    "LitData.Props.c49_this_studio"
   ],
   "note": "Proved for inputs in the input directory whose paths do not begin like the cache directory. Without this the remover is proved to delete the inputs themselves (inputs in /tmp/dataset with the default cache, inputs outside the input directory, links); paths that contain the input directory twice may share a copy (witness)."
  },
  {
   "property": "C50",
   "status": "partial",
   "theorems": [
    "LitData.Props.c50_returns_complete",
    "LitData.Props.c50_failure_never_returns",
    "LitData.Props.c50_terminates",
    "LitData.Props.c50_ends",
    "LitData.Props.c50_outcome",
    "LitData.Props.c50_worker_proceeds",
    "LitData.Props.c50_raises_only_on_failure",
    "LitData.Props.c50_killed_hangs",
    "LitData.Props.c50_idle_failure_missed"
   ],
   "note": "Every interleaving and delay. Proved for workers that end regularly or by an exception and have items; a killed worker is proved to hang the run, and the failure of a worker without items may be missed (witness). Leaving the loop is followed by joining the workers, which may wait for ever (C88)."
  },
  {
   "property": "C51",
   "status": "partial",
   "theorems": [
    "LitData.Props.c51_detect",
    "LitData.Props.c51_shards",
    "LitData.Props.c51_optimize",
    "LitData.Props.c51_uninitialized",
    "LitData.Props.c51_uninitialized_reads",
    "LitData.Props.c51_cpu_nodes",
    "LitData.Props.c51_shard_of",
    "LitData.Props.c51_optimize_shard"
   ],
   "note": "Proved under an initialized torch.distributed and for map and optimize. Before initialization with WORLD_SIZE set, as under torchrun, every process is proved to take itself for rank 0; several nodes without GPUs count as one."
  },
  {
   "property": "C52",
   "status": "partial",
   "theorems": [
    "LitData.Props.c52_parquet_close",
    "LitData.Props.c52_row_groups",
    "LitData.Props.c52_tokens_close",
    "LitData.Props.c52_tokens_delete",
    "LitData.Props.c52_tokens_leak"
   ],
   "note": "Proved for parquet files and for deletion. Refuted for closing a chunk of tokens: the memory map is released only if the chunk was touched exactly once."
  },
  {
   "property": "C53",
   "status": "proved",
   "theorems": [
    "LitData.Props.c53_shuffled",
    "LitData.Props.c53_in_order",
    "LitData.Props.c53_end_to_end",
    "LitData.Props.c53_resumed"
   ],
   "note": "Composition of the theorems on serialization, writing, merging, splitting, shuffling and reading, for uncompressed chunks that are on disk when they are read (C76: the same samples come when they are fetched from a remote folder meanwhile). Later epochs on several nodes are excluded, as there a sample may come twice (C04)."
  },
  {
   "property": "C54",
   "status": "proved",
   "theorems": [
    "LitData.Props.c54_raw",
    "LitData.Props.c54_sample",
    "LitData.Props.c54_loaded_iff",
    "LitData.Props.c54_uncompressed_raises",
    "LitData.Props.c54_zip_larger",
    "LitData.Props.c54_size_zero_misread",
    "LitData.Props.c54_unknown_encoding",
    "LitData.Props.c54_decompressed",
    "LitData.Props.c54_level_not_decompressed"
   ],
   "note": "Any shards, columns and sequences of indices. The MDS writer is not in the repository, so the layout of its files is stated by mdsItem and mdsFile. Uncompressed shards, shards that grow by compression, columns of declared size zero, encodings that are no serializer names and compression names with a level are proved not to work."
  },
  {
   "property": "C55",
   "status": "partial",
   "theorems": [
    "LitData.Props.c55_index",
    "LitData.Props.c55_consistent",
    "LitData.Props.c55_listing",
    "LitData.Props.c55_footer",
    "LitData.Props.c55_same_metadata",
    "LitData.Props.c55_uploaded",
    "LitData.Props.c55_rows_partial",
    "LitData.Props.c55_pattern",
    "LitData.Props.c55_folder",
    "LitData.Props.c55_other_names",
    "LitData.Props.c55_no_columns",
    "LitData.Props.c55_hf_stale",
    "LitData.Props.c55_schemes",
    "LitData.Props.c55_truncated",
    "LitData.Props.c55_root",
    "LitData.Props.c55_storage_options",
    "LitData.Props.c55_low_iff"
   ],
   "note": "Proved for directories whose files have different names and equal column types: the rows in normal mode, and in low-memory mode exactly for files whose row groups have the size of the first, except a shorter last one (c55_low_iff); others give wrong rows (c33_uneven_groups). Missing because false: folders named like files (c55_folder), other column names (c55_other_names), storage options (c55_storage_options), and a changed dataset on the Hub (c55_hf_stale). pyarrow's reading of footers and row groups and fnmatch are parameters."
  },
  {
   "property": "C56",
   "status": "partial",
   "theorems": [
    "LitData.Props.cache_filled",
    "LitData.Props.c56_cached",
    "LitData.Props.c56_later_pass_partial",
    "LitData.Props.c56_collated",
    "LitData.Props.c56_check_passes",
    "LitData.Props.c56_first_sample_checked",
    "LitData.Props.c56_arrays_refused",
    "LitData.Props.c56_few_samples_wait",
    "LitData.Props.c56_batch_size_refused",
    "LitData.Props.c56_cache_made",
    "LitData.Props.c56_length",
    "LitData.Props.c56_stale_index",
    "LitData.Props.c56_float_equal",
    "LitData.Props.c56_check_exact"
   ],
   "note": "Proved for serializable samples, up to ten workers with cache[i] = dataset[i]; for more the order of ranks as text is proved instead. Reading a filled cache is proved for replicas that draw the same order of chunks. Fewer samples than workers, NumPy arrays, a batch size together with chunk_bytes and left-over index files are proved to fail."
  },
  {
   "property": "C57",
   "status": "partial",
   "theorems": [
    "LitData.Props.c57_bound",
    "LitData.Props.c57_folder_size",
    "LitData.Props.c57_chunk_counted",
    "LitData.Props.c57_eager_bound",
    "LitData.Props.c57_one_node",
    "LitData.Props.c57_when_processed",
    "LitData.Props.c57_eager_unbounded",
    "LitData.Props.c57_late_force",
    "LitData.Props.c57_locked_kept",
    "LitData.Props.c57_eager_bound_three",
    "LitData.Props.c57_warm_returns",
    "LitData.Props.c57_other_files"
   ],
   "note": "The bound is proved for deletion by size, and for deletion at once with max_pre_download up to 3; from 4 on it is refuted (every chunk may stay). Names are supposed not to contain the text .None. One reader; the files of other readers enter as other entries and locks."
  },
  {
   "property": "C58",
   "status": "partial",
   "theorems": [
    "LitData.Props.c58_history",
    "LitData.Props.c58_create",
    "LitData.Props.c58_reuse",
    "LitData.Props.c58_second_session",
    "LitData.Props.c58_current_safe",
    "LitData.Props.c58_no_timestamp",
    "LitData.Props.c58_running_job",
    "LitData.Props.c58_without_url",
    "LitData.Props.c58_own_path",
    "LitData.Props.c58_update_race",
    "LitData.Props.c58_fresh_race",
    "LitData.Props.c58_detects",
    "LitData.Props.c58_index_path"
   ],
   "note": "Proved for uses one after the other of datasets whose index has a time, and for processes that open a cached version at the same time. Indexes without a time are proved to give stale data, and two processes that open a new version or an empty cache at the same time may remove each other's files (witnesses)."
  },
  {
   "property": "C59",
   "status": "partial",
   "theorems": [
    "LitData.Props.c59_remote",
    "LitData.Props.c59_local",
    "LitData.Props.c59_connection",
    "LitData.Props.c59_folder",
    "LitData.Props.c59_dataset",
    "LitData.Props.c59_studio",
    "LitData.Props.c59_connection_injective",
    "LitData.Props.c59_unknown",
    "LitData.Props.c59_idempotent",
    "LitData.Props.c59_replaced",
    "LitData.Props.c59_template",
    "LitData.Props.c59_gcs_without_url",
    "LitData.Props.c59_prefix_confused",
    "LitData.Props.c59_studio_ambiguous",
    "LitData.Props.c59_template_missed",
    "LitData.Props.c59_remote_replaced"
   ],
   "note": "Any paths and answers of the client. Google Cloud folders get no URL though they are replaced, prefixes are compared without a slash, and a time template after other braces is not filled in (all proved). Different URLs are proved within one connection."
  },
  {
   "property": "C60",
   "status": "partial",
   "theorems": [
    "LitData.Props.c60_chunk",
    "LitData.Props.c60_map",
    "LitData.Props.c60_checkpoint",
    "LitData.Props.c60_checkpoint_found",
    "LitData.Props.c60_optimize",
    "LitData.Props.c60_map_all",
    "LitData.Props.c60_other_nodes",
    "LitData.Props.c60_output_with_checkpoints",
    "LitData.Props.c60_map_with_checkpoints",
    "LitData.Props.c60_map_same_name",
    "LitData.Props.c60_map_calls"
   ],
   "note": "Proved for paths without the text .checkpoints and temporary folders whose path is found once in their files; with that text in the output or in a file of map nothing arrives at its place (proved). On nodes after the first no worker finds its checkpoint (proved). Copies are supposed to succeed; lost uploads are in C50."
  },
  {
   "property": "C61",
   "status": "partial",
   "theorems": [
    "LitData.Props.c61_base64",
    "LitData.Props.c61_fernet_roundtrip",
    "LitData.Props.c61_fernet_reads",
    "LitData.Props.c61_fernet_wrong_password",
    "LitData.Props.c61_fernet_file",
    "LitData.Props.c61_fernet_no_salt",
    "LitData.Props.c61_levels",
    "LitData.Props.c61_rsa_pickle",
    "LitData.Props.c61_rsa_roundtrip",
    "LitData.Props.c61_rsa_reads",
    "LitData.Props.c61_rsa_password_in_file",
    "LitData.Props.c61_rsa_keys",
    "LitData.Props.c61_rsa_keys_unreadable",
    "LitData.Props.c61_rsa_limit",
    "LitData.Props.c61_rsa_missing_key"
   ],
   "note": "The cryptography package is a parameter with stated laws. For Fernet all is proved. For RSA the saved file holds the password in clear and is loaded with any password, keys without a password cannot be loaded from their files, and texts above 190 bytes are refused, so hardly any chunk can be written at level chunk (all proved)."
  },
  {
   "property": "C62",
   "status": "partial",
   "theorems": [
    "LitData.Props.c62_dataset",
    "LitData.Props.c62_streams",
    "LitData.Props.c62_optimize_partial"
   ],
   "note": "One machine, plain, encrypted or (with a lossless compressor) compressed chunks, a fresh output directory, no failing function and no lost upload. With more than ten workers the unshuffled order is that of the text of the ranks (c62_streams). Needs different input files for different inputs (C43), and no empty serialized sample with a limit on the number of samples (C08)."
  },
  {
   "property": "C63",
   "status": "partial",
   "theorems": [
    "LitData.Props.c63_index",
    "LitData.Props.c63_all_chunks",
    "LitData.Props.c63_dataset",
    "LitData.Props.c63_optimize_partial",
    "LitData.Props.c63_folder_last_first",
    "LitData.Props.c63_folder_keeps_node_index",
    "LitData.Props.c63_stale_index",
    "LitData.Props.c63_empty_node",
    "LitData.Props.c63_late_node_refused",
    "LitData.Props.c63_late_node_removes",
    "LitData.Props.c63_result",
    "LitData.Props.c63_result_bytes_wrong",
    "LitData.Props.c63_result_dims"
   ],
   "note": "Proved for a bucket without left-over indexes of nodes and for nodes that each write a chunk. The code violates the full statement: in a folder the last node does not wait (c63_folder_last_first), left-over node indexes of an earlier run are used (c63_stale_index, c63_folder_keeps_node_index), a node without chunks makes the merge raise (c63_empty_node), and a node that starts after another one has uploaded something is refused or removes its chunks (c63_late_node_refused, c63_late_node_removes). The unshuffled order is that of the inputs for at most ten workers in all."
  },
  {
   "property": "C64",
   "status": "partial",
   "theorems": [
    "LitData.Props.c64_succeeds_iff",
    "LitData.Props.c64_drop_last_iff",
    "LitData.Props.c64_failure",
    "LitData.Props.c64_complete",
    "LitData.Props.c64_distinct",
    "LitData.Props.c64_resume_restarts",
    "LitData.Props.c64_too_small",
    "LitData.Props.c64_skipped_test",
    "LitData.Props.loaderOut_executions"
   ],
   "note": "The code violates the full statement. Proved: exactly which sizes work (c64_succeeds_iff, c64_drop_last_iff), that every sample is then given once (c64_complete), that nothing is ever given twice (c64_distinct), that a worker otherwise raises RuntimeError (c64_failure), and that a resumed worker starts again with its first batch and never reads its last ones (c64_resume_restarts). Several nodes in the first epoch only, because of C04."
  },
  {
   "property": "C65",
   "status": "partial",
   "theorems": [
    "LitData.Props.c65_len_exact_partial",
    "LitData.Props.c65_settings_reach_all",
    "LitData.Props.c65_length_keeps",
    "LitData.Props.c65_len_resets",
    "LitData.Props.c65_load_resets",
    "LitData.Props.c65_load_keeps",
    "LitData.Props.c65_stale_drop_last",
    "LitData.Props.c65_no_length",
    "LitData.Props.c65_combined_len_partial",
    "LitData.Props.c65_combined_len_short",
    "LitData.Props.c65_split_follows",
    "LitData.Props.c65_wrong_states",
    "LitData.Props.c65_own_states"
   ],
   "note": "Proved for every loader over one dataset (one node, or the first epoch). For combined datasets the exact number of batches with any number of workers is proved, and exactly when the length is that number (c65_combined_len_partial). The code violates the full statement: with several workers a combined loader may deliver more batches than its length (c65_combined_len_short), len of a combined dataset and loading a state reset the batch size and the number of workers to 1 (c65_len_resets, c65_load_resets), and a shuffler made by an earlier length keeps the old drop_last (c65_stale_drop_last)."
  },
  {
   "property": "C66",
   "status": "partial",
   "theorems": [
    "LitData.Props.c66_resumed",
    "LitData.Props.c66_right_iff",
    "LitData.Props.c66_lost_and_repeated",
    "LitData.Props.c66_one_worker",
    "LitData.Props.c66_batch_one",
    "LitData.Props.c66_rounds_iff",
    "LitData.Props.c66_continues",
    "LitData.Props.c66_all_batch_one",
    "LitData.Props.c66_all_one_worker",
    "LitData.Props.c66_empty_share_raises",
    "LitData.Props.c66_two_workers",
    "LitData.Props.c66_split_changes",
    "LitData.Props.c66_collate",
    "LitData.Props.c66_plain"
   ],
   "note": "The code violates the full statement. Proved: exactly where every worker goes on (c66_resumed), when this is right (c66_right_iff, after full rounds c66_rounds_iff), that otherwise a sample is lost and one repeated (c66_lost_and_repeated), and that it is right for one worker and for batches of one sample, with and without iterate_over_all, as long as every dataset has samples left. Stratified choices; with batches per stream the choices differ (c20_per_stream_differs)."
  },
  {
   "property": "C67",
   "status": "partial",
   "theorems": [
    "LitData.Props.c67_store",
    "LitData.Props.c67_object",
    "LitData.Props.c67_upload",
    "LitData.Props.c67_upload_all",
    "LitData.Props.c67_copy",
    "LitData.Props.c67_download_directory_partial",
    "LitData.Props.c67_bucket_only",
    "LitData.Props.c67_gcs_markers",
    "LitData.Props.c67_fragment",
    "LitData.Props.c67_copy_slash",
    "LitData.Props.c67_folder_marker",
    "LitData.Props.c67_other_scheme"
   ],
   "note": "Proved for buckets and keys without '?' and '#', folders without marker objects and (S3) at most 1000 objects. The code violates the full statement: with '?' or '#' in the URL all files of a dataset are one object (c67_fragment), S3 copy drops leading slashes of keys that upload keeps (c67_copy_slash), a folder marker makes the download of a folder raise in S3 (c67_folder_marker). The clients are taken to do what their names say."
  },
  {
   "property": "C68",
   "status": "partial",
   "theorems": [
    "LitData.Props.c68_load_partial",
    "LitData.Props.c68_nothing_partial",
    "LitData.Props.c68_resume_partial",
    "LitData.Props.c68_local_partial",
    "LitData.Props.c68_append",
    "LitData.Props.c68_overwrite",
    "LitData.Props.c68_cleanup_partial",
    "LitData.Props.c68_current_folder",
    "LitData.Props.c68_tuples",
    "LitData.Props.c68_nodes",
    "LitData.Props.c68_many_workers",
    "LitData.Props.c68_many_run",
    "LitData.Props.c68_refused",
    "LitData.Props.c68_cleanup_many"
   ],
   "note": "Proved for one machine, inputs without tuples and (S3) less than 1000 workers, for any number of interrupted runs. The code violates the full statement: config.json of the current folder is read if nothing was saved (c68_current_folder), with 1000 checkpoints in S3 all are ignored (c68_many_workers, c68_many_run) and left by the clean-up (c68_cleanup_many), tuples (c68_tuples), several nodes (c68_nodes, c60_other_nodes), and without mode='append' a remote run is refused (c68_refused)."
  },
  {
   "property": "C69",
   "status": "partial",
   "theorems": [
    "LitData.Props.c69_exact_iff",
    "LitData.Props.c69_inputs_partial",
    "LitData.Props.c69_values",
    "LitData.Props.c69_sequential",
    "LitData.Props.c69_ragged_refused",
    "LitData.Props.c69_short_batch_refused",
    "LitData.Props.c69_labels_become_texts",
    "LitData.Props.c69_depends_on_workers",
    "LitData.Props.c69_checkpoint_accepts"
   ],
   "note": "Proved for all inputs without weights and reordering, and for inputs of one extent and one type without tuples otherwise; c69_exact_iff says exactly which inputs of a worker stay as they are. The code violates the full statement: np.random.permutation(...).tolist() turns tuples into lists and, beside texts, numbers into texts (c69_labels_become_texts, c69_depends_on_workers), and refuses inputs of different extents, such as a short last batch (c69_ragged_refused, c69_short_batch_refused)."
  },
  {
   "property": "C70",
   "status": "partial",
   "theorems": [
    "LitData.Props.c70_refused_early",
    "LitData.Props.c70_map_refused_early",
    "LitData.Props.c70_checkpoint_keeps",
    "LitData.Props.c70_none_keeps",
    "LitData.Props.c70_append_keeps",
    "LitData.Props.c70_overwrite_destroys",
    "LitData.Props.c70_inputs_partial",
    "LitData.Props.c70_batches",
    "LitData.Props.c70_loader",
    "LitData.Props.c70_map_inputs_partial",
    "LitData.Props.c70_map_not_empty",
    "LitData.Props.c70_first_chunks",
    "LitData.Props.c70_weights_ignored",
    "LitData.Props.c70_map_weights_batch",
    "LitData.Props.c70_tuple_refused",
    "LitData.Props.c70_url_input",
    "LitData.Props.c70_first_two_inputs",
    "LitData.Props.c70_launched",
    "LitData.Props.c70_cloudspaces",
    "LitData.Props.c70_node_works",
    "LitData.Props.c70_node_works_map",
    "LitData.Props.c70_guess",
    "LitData.Props.c70_sizes",
    "LitData.Props.c70_output",
    "LitData.Props.c70_cleanup_keeps"
   ],
   "note": "Proved: which arguments are refused at once, that nothing is lost without a mode, when appending (but checkpoints) or with checkpoints, what the workers get and their first chunks. The code violates the full statement: with mode='overwrite' the dataset is removed before later refusals (c70_overwrite_destroys), optimize ignores its weights (c70_weights_ignored), tuples pass the checks and are refused by run (c70_tuple_refused), weights of inputs in groups are refused (c70_map_weights_batch), and inputs that are not uniform are changed by numpy (C69)."
  },
  {
   "property": "C71",
   "status": "partial",
   "theorems": [
    "LitData.Props.c71_inputs_kept",
    "LitData.Props.c71_refused",
    "LitData.Props.c71_replaced",
    "LitData.Props.c71_local_partial",
    "LitData.Props.c71_remote_partial",
    "LitData.Props.c71_missing",
    "LitData.Props.c71_label",
    "LitData.Props.c71_arguments",
    "LitData.Props.c71_partial_arguments",
    "LitData.Props.c71_last",
    "LitData.Props.c71_device",
    "LitData.Props.c71_result_dropped",
    "LitData.Props.c71_recognised",
    "LitData.Props.c71_partial_recognised",
    "LitData.Props.c71_values",
    "LitData.Props.c71_method_generator",
    "LitData.Props.c71_extension",
    "LitData.Props.c71_counts_as_path",
    "LitData.Props.c71_studio_file",
    "LitData.Props.c71_partial_overlooked"
   ],
   "note": "Proved for files inside the input directory whose path occurs once in theirs, for functions and callable objects. The code violates the full statement: a text that happens to name a file is replaced and stops the downloader (c71_label), partials and methods never get device and is_last (c71_partial_arguments), and a method that yields is not recognised as a generator (c71_method_generator)."
  },
  {
   "property": "C72",
   "status": "partial",
   "theorems": [
    "LitData.Props.c72_value",
    "LitData.Props.c72_sendable",
    "LitData.Props.c72_unsendable",
    "LitData.Props.c72_agree",
    "LitData.Props.c72_settled",
    "LitData.Props.c72_answered",
    "LitData.Props.c72_never_sent",
    "LitData.Props.c72_nodes_agree",
    "LitData.Props.c72_one_run",
    "LitData.Props.c72_second_run",
    "LitData.Props.c72_second_run_happens",
    "LitData.Props.c72_local"
   ],
   "note": "Agreement is proved for all executions, and that the directory was given to a machine of the run if the application has one run (c72_one_run). The code violates the full statement: a second run of the application gets the directories of the first (c72_second_run, c72_second_run_happens), and a path with one character from U+0080 to U+00FF cannot be sent (c72_unsendable)."
  },
  {
   "property": "C73",
   "status": "partial",
   "theorems": [
    "LitData.Props.c73_fresh_partial",
    "LitData.Props.c73_kept",
    "LitData.Props.c73_renewed",
    "LitData.Props.c73_slow",
    "LitData.Props.c73_clock_set_back"
   ],
   "note": "Proved up to the time that making a client takes, for a clock that is not set. The age is counted from the end of the making, so that slow making exceeds the interval by any amount (c73_slow); so does a clock that is set back (c73_clock_set_back)."
  },
  {
   "property": "C74",
   "status": "partial",
   "theorems": [
    "LitData.Props.c74_restored_partial",
    "LitData.Props.c74_outside",
    "LitData.Props.c74_other_lines",
    "LitData.Props.c74_own_server",
    "LitData.Props.c74_interrupted"
   ],
   "note": "Proved for files written as by systemd, calls that return or raise, and commands that work. The code violates the full statement: a name server like 127.0.0.11 is replaced for good even without optimize_dns (c74_own_server), and an interruption leaves the cache (c74_interrupted)."
  },
  {
   "property": "C75",
   "status": "partial",
   "theorems": [
    "LitData.Props.c75_fetch",
    "LitData.Props.c75_missing_partial",
    "LitData.Props.c75_azure_empty",
    "LitData.Props.c75_kept",
    "LitData.Props.c75_scheme",
    "LitData.Props.c75_frame",
    "LitData.Props.c75_hub",
    "LitData.Props.c75_hub_no_org",
    "LitData.Props.c75_local",
    "LitData.Props.c75_local_inside",
    "LitData.Props.c75_chunk",
    "LitData.Props.c75_dataset",
    "LitData.Props.c75_uploaded",
    "LitData.Props.c75_double_slash",
    "LitData.Props.c75_space",
    "LitData.Props.c75_bucket_only",
    "LitData.Props.c75_chunk_missing",
    "LitData.Props.c75_first_failure",
    "LitData.Props.c75_index_cached",
    "LitData.Props.c75_index_missing"
   ],
   "note": "Proved for URLs without '?' and '#', folders without empty parts and, with s5cmd, paths that a shell leaves alone. The code violates the full statement: a missing Azure blob leaves an empty file that counts as downloaded (c75_azure_empty), folders that begin with a slash (c75_double_slash), spaces with s5cmd (c75_space), data sets of the Hub without an organisation (c75_hub_no_org), a second local: in a path (c75_local_inside). A call that finds the lock taken returns without a file (c75_kept)."
  },
  {
   "property": "C76",
   "status": "partial",
   "theorems": [
    "LitData.Props.c76_same_samples",
    "LitData.Props.c76_protocol",
    "LitData.Props.c76_progress",
    "LitData.Props.c76_no_deadlock",
    "LitData.Props.c76_worker",
    "LitData.Props.c76_resumed",
    "LitData.Props.c76_back_and_forth",
    "LitData.Props.c76_open_chunk_deleted",
    "LitData.Props.c76_by_index",
    "LitData.Props.c76_by_index_requests",
    "LitData.Props.c76_fine_refines",
    "LitData.Props.c76_fine_same_samples",
    "LitData.Props.c76_fine_by_index",
    "LitData.Props.c76_fine_no_deadlock",
    "LitData.Props.c76_fine_worker",
    "LitData.Props.c76_compressed_stays",
    "LitData.Props.c76_compressed_removed"
   ],
   "note": "Proved for iterating (fresh and resumed) with PyTreeLoader over plain chunks, and over compressed chunks that no other worker uses, also while files arrive byte by byte and are counted only afterwards (c76_fine_*); for random access that every sample delivered is the right one and which chunks are asked for; with encryption, for iterating over chunks that no other worker deletes, as encrypted samples are read from a file that is opened anew each time (c76_open_chunk_deleted). Progress is for iterating over chunks that no other worker fetches, also with files left from earlier epochs, and at most a few requests by force. The code violates the statement for random access: a chunk that is asked for again before it is deleted is not fetched again and then deleted, so that the reader waits half a minute (c76_back_and_forth)."
  },
  {
   "property": "C77",
   "status": "partial",
   "theorems": [
    "LitData.Props.c77_blocks_partial",
    "LitData.Props.c77_window",
    "LitData.Props.c77_no_clash",
    "LitData.Props.c77_nothing_fails",
    "LitData.Props.c77_key_error_while_loading",
    "LitData.Props.c77_thread_dies",
    "LitData.Props.c77_key_error_while_closing",
    "LitData.Props.c77_deletes",
    "LitData.Props.c77_loads"
   ],
   "note": "For every interleaving the blocks delivered are right and only a KeyError can end either thread (c77_blocks_partial). The code violates the rest: the reader raises KeyError when it comes to a chunk between the two assignments of the thread that loads it ahead (c77_key_error_while_loading; c77_window: only then, while reading), and closing and deleting a chunk at the same time raises KeyError in the thread or in the reader (c77_thread_dies, c77_key_error_while_closing). With at least two blocks of each chunk the latter cannot happen (c77_no_clash), and without loading ahead nothing fails (c77_nothing_fails). One reader per process; the time limit of the wait is left out."
  },
  {
   "property": "C78",
   "status": "partial",
   "theorems": [
    "LitData.Props.c78_own_samples_partial",
    "LitData.Props.c78_shared_decrypted",
    "LitData.Props.c78_split_after_read",
    "LitData.Props.c78_shared_format",
    "LitData.Props.c78_tokens_shared",
    "LitData.Props.c78_tokens_split_fails"
   ],
   "note": "Proved for every program of reads and splits if each item loader is given to one dataset, or to datasets of the same format without chunk-level encryption, and if no dataset with chunk-level encryption that was given an item loader is split. The code violates the rest: a loader remembers the decrypted chunk by its number only, so that a dataset sharing it, or a split made after reading, delivers samples of other chunks (c78_shared_decrypted, c78_split_after_read); a loader shared by two formats deserializes with the last one (c78_shared_format); a shared TokensLoader serves chunks of the other dataset (c78_tokens_shared), and a tokens dataset that has been read cannot be split (c78_tokens_split_fails)."
  },
  {
   "property": "C79",
   "status": "partial",
   "theorems": [
    "LitData.Props.c79_index_read",
    "LitData.Props.c79_constructed_iff",
    "LitData.Props.c79_opens_iff",
    "LitData.Props.c79_opened_right",
    "LitData.Props.c79_opened_reads",
    "LitData.Props.c79_whole_opens",
    "LitData.Props.c79_written_read_back",
    "LitData.Props.c79_constructor_blind",
    "LitData.Props.c79_wrong_loader",
    "LitData.Props.c79_last_field"
   ],
   "note": "Proved from the characters of index.json to the samples, with exactly when the constructor and the first use succeed. The code violates the rest: the constructor does not look at the configuration at all (c79_constructor_blind), so that a wrong item loader, a missing serializer or compression is refused only at the first use (c79_wrong_loader), perhaps in a worker. Doubles that are almost but not quite 1 are left out as ratio."
  },
  {
   "property": "C80",
   "status": "partial",
   "theorems": [
    "LitData.Props.c80_leaves",
    "LitData.Props.c80_paths",
    "LitData.Props.c80_map_iff",
    "LitData.Props.c80_map_with_path_iff",
    "LitData.Props.c80_map",
    "LitData.Props.c80_map_id",
    "LitData.Props.c80_map_error",
    "LitData.Props.c80_in_place",
    "LitData.Props.c80_map_only",
    "LitData.Props.c80_map_map",
    "LitData.Props.c80_map_map_no_images",
    "LitData.Props.c80_all_any",
    "LitData.Props.c80_broadcast",
    "LitData.Props.c80_broadcast_complete",
    "LitData.Props.c80_broadcast_self",
    "LitData.Props.c80_images_change_structure",
    "LitData.Props.c80_images_refused",
    "LitData.Props.c80_arg_leaves"
   ],
   "note": "Proved for all nestings of the registered containers and all functions. The code violates two parts: a list or tuple of JPEG images counts as one leaf, so that mapping a function that gives images changes the structure and the next map is called once with the whole list (c80_images_change_structure; c80_map_map_no_images: otherwise mapping composes), and a list of images cannot go along with a list of other values (c80_images_refused)."
  },
  {
   "property": "C81",
   "status": "proved",
   "theorems": [
    "LitData.Props.c81_batches",
    "LitData.Props.c81_optimize",
    "LitData.Props.c81_workers_end",
    "LitData.Props.rankLoader_ends",
    "LitData.Props.c81_nodes"
   ],
   "note": "Composition of the models of optimize on one machine (C62) and on several (C63, c81_nodes), of the index text and the opening of a dataset (C79), of the remote reader byte by byte (C76), of the split over ranks and workers (C01, C02, C04) and of the data loader (C39). The compressor is lossless, the encryption sound, the input files of different inputs are different, and there are fewer than 2^53 samples."
  },
  {
   "property": "C82",
   "status": "proved",
   "theorems": [
    "LitData.Props.c82_appended",
    "LitData.Props.c82_append",
    "LitData.Props.dataset_gives"
   ],
   "note": "One machine (on several, c26_second_node_overwrites shows that files are overwritten); the existing index names its chunks as this version does and has the configuration of the new run (otherwise merging raises, C14). The compressor is lossless, the encryption sound, the input files of different inputs are different, there are fewer than 2^53 samples, and workers of encrypted or compressed datasets have their cache to themselves."
  },
  {
   "property": "C83",
   "status": "proved",
   "theorems": [
    "LitData.Props.c83_interrupted",
    "LitData.Props.c83_ends",
    "LitData.Props.loader_goes_on",
    "LitData.Props.runsOf_state",
    "LitData.Props.c83_same_cache"
   ],
   "note": "Composition of the loader's state (C21), of resuming a worker (C06), of the remote reader byte by byte (C76) and of the rotation over workers (C39), for any number of interruptions. That every worker has a sample left is needed (c06_resume_finished_worker_raises, c21_last_batches_lost), and so is a batch in each run (c21_state_without_batches, c21_resave_drifts). Encrypted or compressed datasets: workers have the cache to themselves."
  },
  {
   "property": "C84",
   "status": "partial",
   "theorems": [
    "LitData.Props.c84_written_again_partial",
    "LitData.Props.c84_ints_are_pickled",
    "LitData.Props.c84_append_refused",
    "LitData.Props.c84_jpeg"
   ],
   "note": "Proved for all samples without integers and JPEG files. Missing because false: an integer is read as np.int64, which IntegerSerializer does not accept, so it is pickled and the data format changes; a JPEG file becomes a tensor; a dataset with another data format cannot be appended."
  },
  {
   "property": "C85",
   "status": "partial",
   "theorems": [
    "LitData.Props.c85_worker",
    "LitData.Props.c85_epoch_partial",
    "LitData.Props.c85_dataset",
    "LitData.Props.c85_optimize_partial",
    "LitData.Props.c85_alone_is_lost",
    "LitData.Props.c85_witness",
    "LitData.Props.c85_epochs_partial"
   ],
   "note": "c85_worker says exactly which batches are right. Proved for batches of one block, or when no worker is given exactly one block of a chunk. Missing because false: a block that is the only one its worker reads of a chunk is unmapped when the worker goes on to the next chunk, before the batch is collated."
  },
  {
   "property": "C86",
   "status": "partial",
   "theorems": [
    "LitData.Props.c86_stored_partial",
    "LitData.Props.c86_epoch_partial",
    "LitData.Props.c86_first_partial",
    "LitData.Props.c86_length_positive",
    "LitData.Props.c86_zero_weight_fails",
    "LitData.Props.c86_small_dataset_fails",
    "LitData.Props.c86_epochs_partial"
   ],
   "note": "Proved for datasets with at least as many samples as there are ranks, starting from the stored files. Missing because false: a dataset with fewer samples than ranks has the weight 0 at every rank but the last (with drop_last at every rank), and every worker of such a rank ends its epoch with ZeroDivisionError."
  },
  {
   "property": "C87",
   "status": "partial",
   "theorems": [
    "LitData.Props.c87_batches_partial",
    "LitData.Props.c87_no_deletion",
    "LitData.Props.c87_one_chunk",
    "LitData.Props.c87_spanning_crash",
    "LitData.Props.c87_spanning_right",
    "LitData.Props.c87_last_crash",
    "LitData.Props.c87_single_block_crash"
   ],
   "note": "Every batch is right or is collated from unmapped memory, never wrong; right in every execution if its blocks are of one chunk and it is not the last, and all are right if nothing is deleted and every chunk has at least two blocks. Missing because false: a chunk that the thread deletes is unmapped under the blocks of a batch that is not yet collated (c87_spanning_crash, c87_last_crash), and a worker that reads a single block unmaps it itself at the end of the pass (c87_single_block_crash)."
  },
  {
   "property": "C88",
   "status": "partial",
   "theorems": [
    "LitData.Props.c88_returns_partial",
    "LitData.Props.c88_worker_returned",
    "LitData.Props.c88_failure_leaks",
    "LitData.Props.c88_every_error_leaks",
    "LitData.Props.c88_left_behind",
    "LitData.Props.c88_join_hangs",
    "LitData.Props.c88_join_hangs_occurs",
    "LitData.Props.c88_interrupt_hangs"
   ],
   "note": "Proved when nothing fails, and for every worker that has returned. Every run that raises leaves the uploaders and the remover of the failed worker behind for ever (proved for all runs); exactly which processes are left is c88_left_behind. A worker that sees the stop message of an interrupt never ends (proved), and the failure of a worker without inputs may make the main process wait for ever (witness)."
  },
  {
   "property": "C89",
   "status": "partial",
   "theorems": [
    "LitData.Props.c89_same_samples",
    "LitData.Props.c89_wait_found",
    "LitData.Props.c89_wait_raises",
    "LitData.Props.c89_wait_raises_though_there",
    "LitData.Props.c89_wait_forces",
    "LitData.Props.c89_wait_ends",
    "LitData.Props.c89_wait_bound",
    "LitData.Props.c89_parquet_hangs",
    "LitData.Props.c89_tokens_polls",
    "LitData.Props.c89_no_retry",
    "LitData.Props.c89_failure_raises_late",
    "LitData.Props.c89_reads_what_is_there",
    "LitData.Props.c89_part_blocks",
    "LitData.Props.c89_failure_spoils_cache",
    "LitData.Props.c89_clean_failure",
    "LitData.Props.c89_spoiled_occurs",
    "LitData.Props.c89_second_chunk_occurs",
    "LitData.Props.c89_dead_in_fetch",
    "LitData.Props.c89_recovers"
   ],
   "note": "Proved: no wrong sample whatever fails, exactly how a wait ends, its bound, and that a worker goes on up to the first chunk that is not in the cache. The code violates the rest: a failure ends the download thread, so nothing is tried again (c89_no_retry, for all continuations), a worker with ParquetLoader then waits for ever (c89_failure_raises_late), and a download that fails while it writes in place leaves a part that blocks every later pass over the same cache (c89_failure_spoils_cache, witness c89_spoiled_occurs). After a failure outside of such writing, a new pass over the same cache delivers everything (c89_recovers)."
  },
  {
   "property": "C90",
   "status": "partial",
   "theorems": [
    "LitData.Props.c90_same_samples",
    "LitData.Props.c90_thread_ends",
    "LitData.Props.c90_goes_on",
    "LitData.Props.c90_given_same_samples",
    "LitData.Props.c90_given_goes_on",
    "LitData.Props.c90_given_raises",
    "LitData.Props.c90_single_chunk",
    "LitData.Props.c90_batches",
    "LitData.Props.c90_workers_end",
    "LitData.Props.c90_off_same_samples",
    "LitData.Props.c90_off_goes_on",
    "LitData.Props.c90_off_anywhere",
    "LitData.Props.c90_resumed",
    "LitData.Props.c90_off_batches",
    "LitData.Props.c90_off_workers_end"
   ],
   "note": "Proved for the item loader that the reader makes itself, for any number of epochs over one cache: what is delivered is right, and each epoch can be brought to its end and followed by the next one. With an item loader that was passed to the dataset, the code violates it: an epoch that begins with the chunk with which the last one ended delivers nothing (c90_given_raises, in every state; c90_single_chunk for each worker with a single chunk); all other epochs are as they should be (c90_given_goes_on). Progress is proved with a limit on the cache and max_pre_download of at least two. For whole training runs: the batches of every epoch hold all samples (c90_batches), and workers come through any number of epochs (c90_workers_end), each alone on its cache. The same with passes that are broken off anywhere or end by an exception, and with a broken epoch that is resumed from a saved state over the same cache: what is given before and after is together the epoch (c90_resumed); here the next pass begins once the old thread is out of its fetch."
  },
  {
   "property": "C91",
   "status": "partial",
   "theorems": [
    "LitData.Props.c91_not_again",
    "LitData.Props.c91_compressed_again",
    "LitData.Props.c91_second_epoch"
   ],
   "note": "Proved for chunks that are not compressed: a file that is in the cache is never downloaded again while it is not deleted. For compressed chunks the code violates it: what is looked for is the compressed file, which is removed after the decompression, so every pass over a cache that has the decompressed files downloads every chunk again (c91_compressed_again, in every run) and leaves the compressed files (c91_second_epoch: two epochs of any worker with few chunks)."
  },
  {
   "property": "C92",
   "status": "partial",
   "theorems": [
    "LitData.Props.c92_counts",
    "LitData.Props.c92_whole_pass",
    "LitData.Props.c92_whole_passes",
    "LitData.Props.c92_broken_leaves",
    "LitData.Props.c92_stays",
    "LitData.Props.c92_limit_lost",
    "LitData.Props.c92_ahead_leaves"
   ],
   "note": "Proved: exactly what the counters are at any time, and that passes read to their ends free all chunks, when the reader does not get ahead of its thread. The code violates the rest: a pass that is broken off leaves the chunk in which the reader is and all that were fetched ahead counted (c92_broken_leaves); such a chunk is never deleted by any later pass (c92_stays), so that the cache may come to hold the whole dataset, whatever its limit (c92_limit_lost); and a reader that is ahead of its thread leaves a count even if all passes are read to their ends (c92_ahead_leaves). One worker on its cache; the rest of the last turn of a stopped thread is taken to be over when the next pass begins."
  },
  {
   "property": "C93",
   "status": "partial",
   "theorems": [
    "LitData.Props.c93_inputs_bounded",
    "LitData.Props.c93_no_overflow",
    "LitData.Props.c93_bounded",
    "LitData.Props.c93_goes_on",
    "LitData.Props.c93_small_disk",
    "LitData.Props.c93_never",
    "LitData.Props.c93_other_disk",
    "LitData.Props.c93_outputs_stop"
   ],
   "note": "Proved if the cache is on the disk of / and more than the threshold is free there beside what the run leaves for good: the threshold stays free up to one input per downloader of all workers (c93_inputs_bounded), the disk does not get full (c93_no_overflow), and every run comes to its end within a known number of steps (c93_bounded, c93_goes_on). The code violates the rest: with 25 GB or less free on / nothing is ever downloaded, however small the inputs (c93_small_disk); a cache on another disk is not looked at, and can get full (c93_other_disk); without removal the run stops for ever if the inputs do not all fit (c93_never). Copies left from earlier runs, shared copies (C49) and chunks waiting for their upload are left out."
  },
  {
   "property": "C94",
   "status": "partial",
   "theorems": [
    "LitData.Props.c94_batches",
    "LitData.Props.c94_recorded",
    "LitData.Props.c94_one_too_many",
    "LitData.Props.c94_true",
    "LitData.Props.c94_only_when_asked",
    "LitData.Props.c94_patch_stays",
    "LitData.Props.c94_trace_lost",
    "LitData.Props.c94_caching_ends",
    "LitData.Props.c94_refused"
   ],
   "note": "Proved: no batch is changed in any sequence of passes, exactly which fetches are recorded and when they are saved, and that nothing is written before a loader is profiled. The code violates the rest: one batch too many is recorded, and nothing is saved if there are exactly as many as asked for (c94_one_too_many); True records two batches (c94_true); PyTorch's worker loop stays replaced, so later loaders are profiled too (c94_patch_stays) and may remove the trace (c94_trace_lost)."
  },
  {
   "property": "C95",
   "status": "partial",
   "theorems": [
    "LitData.Props.c95_local",
    "LitData.Props.c95_cloud",
    "LitData.Props.c95_hf",
    "LitData.Props.c95_local_elsewhere",
    "LitData.Props.c95_missing_directory",
    "LitData.Props.c95_cloud_removes",
    "LitData.Props.c95_local_scheme",
    "LitData.Props.c95_local_scheme_nowhere",
    "LitData.Props.c95_index_in_cache"
   ],
   "note": "Proved: a local directory indexed in place, a directory in the cloud and one on Hugging Face load the index just written (the latter two if their cache does not have a version with the same timestamp). The code violates the rest: index_path is ignored for local directories, so that one indexed into another directory is not found or its old index is used (c95_local_elsewhere); a cache_dir that does not exist is not made (c95_missing_directory); an index.json of another dataset in cache_dir is removed (c95_cloud_removes); for paths that begin with local: the working directory is listed (c95_local_scheme)."
  },
  {
   "property": "C96",
   "status": "partial",
   "theorems": [
    "LitData.Props.c96_command",
    "LitData.Props.c96_wait",
    "LitData.Props.c96_stopped",
    "LitData.Props.c96_first_job",
    "LitData.Props.c96_script"
   ],
   "note": "Proved: exactly which arguments arrive, exactly when the call returns or raises, how often each call of a script does its work, and exactly which scripts come to their ends. The code violates the rest: arguments with blanks are torn apart (c96_command), a job that is stopped counts as completed (c96_stopped), and as each job runs the whole script, a script with two calls with num_nodes, or one such call beside another call, does the work several times and raises if an output may not have a dataset already (c96_script)."
  },
  {
   "property": "C97",
   "status": "proved",
   "theorems": [
    "LitData.Props.c97_grown",
    "LitData.Props.c97_kept",
    "LitData.Props.history_inv",
    "LitData.Props.remote_old",
    "LitData.Props.not_emitted"
   ],
   "note": "Any sequence of completed and broken calls from an empty folder on, on one machine (on several machines append mode overwrites files, c26_second_node_overwrites). Completed calls have no failing upload: a cloud upload that fails is not noticed (C43). A first call without any output writes an index without settings and is left out."
  },
  {
   "property": "C98",
   "status": "partial",
   "theorems": [
    "LitData.Props.c98_next_pass",
    "LitData.Props.c98_right_iff",
    "LitData.Props.c98_counted_twice",
    "LitData.Props.c98_not_resumed",
    "LitData.Props.c98_ended",
    "LitData.Props.c98_given_again",
    "LitData.Props.c98_example",
    "LitData.Props.c98_combined_shared",
    "LitData.Props.c98_combined_stale",
    "LitData.Props.c98_combined_lost",
    "LitData.Props.c98_combined_loaded",
    "LitData.Props.c98_combined_example",
    "LitData.Props.c98_load_again",
    "LitData.Props.c98_whole_epoch_raises"
   ],
   "note": "exact condition: true for loaders that are not restoring and after passes read to the end; false after a resumed pass is broken off, except with one worker and a state saved after the last batch"
  },
  {
   "property": "C99",
   "status": "partial",
   "theorems": [
    "LitData.Props.c99_epochs",
    "LitData.Props.c99_same_epoch_iff",
    "LitData.Props.c99_complete",
    "LitData.Props.c99_broken",
    "LitData.Props.c99_mixed_epochs",
    "LitData.Props.c99_state_wrong",
    "LitData.Props.c99_copies",
    "LitData.Props.c99_loaded_iff",
    "LitData.Props.c99_loaded_mixed",
    "LitData.Props.c99_copy_gives",
    "LitData.Props.c99_when_loaded",
    "LitData.Props.c99_loaded_late_example"
   ],
   "note": "proved when every worker came to its end in all passes before, which is the exact condition for the epochs to agree; false after a pass was broken off"
  },
  {
   "property": "C100",
   "status": "partial",
   "theorems": [
    "LitData.Props.c100_right_iff",
    "LitData.Props.c100_step",
    "LitData.Props.c100_roundtrip",
    "LitData.Props.c100_taken_over",
    "LitData.Props.c100_again",
    "LitData.Props.c100_half",
    "LitData.Props.c100_unregistered",
    "LitData.Props.c100_example",
    "LitData.Props.c100_two_steps",
    "LitData.Props.c100_two_threads",
    "LitData.Props.c100_loaded_known"
   ],
   "note": "proved when no two classes are given the same name, which is the exact condition for one registration after the other; false when a name is given twice, and a registration with one context function raises but leaves the class registered"
  }
 ]
}