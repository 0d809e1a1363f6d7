# A machine-checked model of litdata

The source in `/repo/src/litdata` was read as text; it was never built or run. The model is written in Lean 4
(4.33.0, core library only) under `lean/Verif/`. It is a *shallow* model: each Python function that matters is a
small total Lean function that follows it branch by branch. The properties are in `properties.jsonl`, the claims in
`MANIFEST.json`, the axioms of every claimed theorem in `AXIOMS.md`, the experiments with wrong programs in
`seeded/LOG.jsonl`.

## Layout

* `lean/Verif/Model/*.lean` - the model of the code, one file per component. Every definition cites file and lines.
* `lean/Verif/Spec/*.lean` - small specifications that do not use the model: what a sample is, cutting a list in
  parts, rotation over workers, regions of interest, the leaves of a sample.
* `lean/Verif/Lemmas/*.lean` - helper lemmas and invariants.
* `lean/Verif/Props/*.lean` - the property theorems (`c01_...`), beside them `example`s which show that the hypotheses can
  be met by concrete data, and *witnesses*: theorems about concrete runs which show where the code does not have the
  property. Witnesses are closed terms evaluated by the kernel; they are counterexamples, not proofs of general claims.

## Conventions

* **Exceptions** are values: `Py a = Except Err a` with a constructor per Python exception class. Where the code catches an
  exception the model matches on it. Messages are left out.
* **Integers** that can be negative are `Int`, others `Nat`. Machine integers (`uint32` offsets, 64-bit numbers) are modelled as
  such where a property depends on them (C10, C12, C32). Floats are modelled exactly in C16 and C17 (ratios, `Model/Floats`) and in C37 (binary64 rounding of the text, of the
  product and truncation) and as fractions in C16 and C17.
* **Random generators** are arbitrary functions or arbitrary permutations: a theorem holds for every seed and every generator.
* **Loops** are folds or structural recursion. `while True` loops take a number of iterations (`fuel`); the theorems say that
  enough fuel exists and that the result does not depend on it.
* **Concurrency** (C21/C39 loader, C28 prepare thread, C29 counters, C30/C31 downloads, C43 optimize processes) is a labelled
  transition relation over one atomic event at a time; a theorem quantifies over every reachable state, that is every
  interleaving. Termination is well-foundedness of the step relation or a measure.
* **Crashes** are events that remove a process at any point (C25, C30, C31).
* **Files** are functions from names to optional contents; where renaming, unlinking and open descriptors matter they are
  inodes with directory entries (C30, C31). File locks belong to the inode of the lock file.
* **External code** (codecs, encryption, pickle, pyarrow, object stores) is a parameter with the assumption stated in the theorem,
  for instance `Encryption.Sound` (decrypt inverts encrypt).
* A theorem that covers a part of a property has the suffix `_partial`; its comment and the table below say what is missing.

## Properties

**C01. No sample lost or repeated by the work split (drop_last=False)** (proved). When a StreamingDataset is iterated without drop_last by every worker of every rank, the samples handed to the workers, read rank by rank and worker by worker, are exactly the regions of interest of the chunks in the shuffled chunk order: every sample goes to exactly one worker and none is duplicated.

* model: `Model/Assign`: `_associate_chunks_and_intervals_to_workers` as the loop over chunks with a budget per worker
* proof: the loop gives each worker the next `budget` samples: the samples of all workers are `cut` of the samples of the dataset; induction over chunks and workers
* theorems: `c01_no_sample_lost_or_repeated`, `c01_nodup`, `c01_pieces_from_chunks`, `c01_raises_iff`

**C02. drop_last gives every rank the same number of samples** (proved). With drop_last every rank receives exactly batch_size * floor(N / (batch_size * world_size)) samples, the samples delivered are a prefix of the (shuffled) dataset, and none is duplicated.

* model: as C01 with `drop_last`
* proof: from the same `cut` and the arithmetic of the budgets
* theorems: `c02_drop_last_equal_ranks`, `c02_no_drop_last_ranks`

**C03. Work is balanced in batches across workers and ranks** (proved). Within a rank, the number of whole batches given to two workers differs by at most one; only one worker of the last rank may get additional left-over samples and fewer than batch_size * world_size of them (drop_last=False).

* model: as C01
* proof: closed form of the number of samples of every worker
* theorems: `c03_balanced`

**C04. Shuffling an epoch only reorders** (partial). For every seed and epoch, with shuffle=True the multiset of samples delivered to all ranks is the multiset of samples delivered without shuffling when drop_last=False; inside a chunk the delivered samples are a permutation of the slice of the chunk assigned to that worker.

* model: `Model/Assign` (`FullShuffle`, `_intra_node_chunk_shuffle`) with arbitrary permutations for numpy generators
* proof: permutation lemmas over the per-node lists; counting the chunks that the first split lists gives the exact number of times each sample is given later
* missing: several nodes from epoch 2 on: chunks shared between nodes come out twice (`c04_multi_node_repeats`), uneven nodes raise (`c04_uneven_nodes_raise`)
* theorems: `c04_shuffle_is_permutation`, `c04_shuffle_drop_last`, `c04_multi_node_partial`, `c04_multi_node_repeats`, `c04_uneven_nodes_raise`, `c04_multi_node_counts`, `c04_multi_node_iff`, `c04_multi_node_drop_last`

**C05. One pass of iteration yields exactly the assigned samples** (proved). Iterating a StreamingDataset inside a worker yields each sample assigned to that worker once, in assignment order, then stops, and the epoch counter is advanced by one; chunks with an empty slice are skipped without a repeated or missing sample.

* model: `Model/Dataset`: `__iter__`/`__next__` as a step on (chunks, intervals, indexes, counters)
* proof: invariant "delivered ++ remaining = assigned" over the calls; composed with C01 for the epoch
* theorems: `c05_one_pass`, `c05_one_pass_no_shuffle`, `c05_epoch_delivers_dataset`

**C06. Resuming from state_dict continues where iteration stopped** (partial). If a run is stopped after n samples and a new run is started from the saved state_dict with the same settings, the concatenation of what was delivered before and what is delivered after equals the uninterrupted run.

* model: `Model/Dataset`: `_replay_sampling`, `_replay_chunks_sampling`, `_resume`, `state_dict`
* proof: replay equals the position after `n` samples of the round robin; suffix theorem
* missing: a state in which a worker has finished makes the resumed run raise IndexError (`c06_resume_finished_worker_raises`)
* theorems: `c06_single_worker`, `c06_worker_continues_partial`, `c06_loader_continues_partial`, `c06_resume_finished_worker_raises`, `c06_resume_fails_witness`, `c06_replay_total`

**C07. A state_dict from different settings is refused** (proved). load_state_dict followed by iteration raises ValueError whenever shuffle, num_workers, input directory, seed, item loader state, drop_last or the number of yielded samples are incompatible with the running dataset, and is accepted when they all match.

* model: `Model/Validate`: `_validate_state_dict` as a decision
* proof: case analysis, exact condition for acceptance; batch size and world size are proved not to be compared
* theorems: `c07_accept_iff_fits`, `c07_override`, `c07_batch_and_world_size_not_checked`, `c07_empty_path`

**C08. The writer stores every added item exactly once, in order** (partial). After adding items 0..n-1 in any order of distinct indices and calling done(), the concatenation of the written chunks is the items in index order, each once, and no chunk is empty.

* model: `Model/Writer`: `BinaryWriter` as a state machine over `add_item` and `done`
* proof: invariant over the list of calls; for any order: when nothing raises exactly the added items are stored
* missing: some orders of indices and empty items make the code fail (`c08_out_of_order_fails`, `c08_late_index_fails`, `c08_empty_item_fails`)
* theorems: `c08_writer_stores_all_partial`, `c08_any_order`, `c08_duplicate_refused`, `c08_out_of_order_fails`, `c08_late_index_fails`, `c08_empty_item_fails`

**C09. Chunks respect chunk_size and chunk_bytes** (partial). Every chunk has at most chunk_size items (if set), and at most chunk_bytes bytes (if set) unless it holds a single oversize item; a chunk is not closed early: adding the next item would have exceeded a limit, except for the last chunk.

* model: `_should_write`, `_create_chunk`
* proof: invariant over the calls: limits of every chunk and maximality of all but the last
* missing: empty items exceed the limit (`c09_empty_item_exceeds`)
* theorems: `c09_chunk_limits_partial`, `c09_options`, `c09_empty_item_exceeds`

**C10. A chunk file decodes to the items that were written** (proved). For every list of byte strings whose total stays below 2^32, reading item i of the chunk file built from it returns the i-th byte string, and the file has num_items in its first four bytes.

* model: `Model/ChunkFile`: bytes of a chunk, little-endian uint32 offsets, `PyTreeLoader`
* proof: slicing lemmas by induction on the items
* theorems: `c10_chunk_roundtrip`, `c10_empty_chunk_raises`, `c10_too_big_not_read`, `c10_closed_loader_same_chunk_raises`

**C11. Nested samples are rebuilt with the same structure** (partial). Flattening a nested sample of lists, tuples, dicts and leaves and unflattening with the stored structure gives back the sample; the structure survives being written to index.json and read back; unflattening with a wrong number of leaves raises ValueError.

* model: `Model/Pytree`, `Model/Json`: `tree_flatten`, `unflatten`, `treespec_dumps/loads` down to the JSON text
* proof: mutual structural induction; a JSON printer and parser with a round-trip proof
* missing: tuple keys of dictionaries do not survive the text (`c11_tuple_key_breaks`), bytes keys are refused
* theorems: `c11_unflatten_flatten`, `c11_through_index_partial`, `c11_structure_survives`, `c11_wrong_number`, `c11_is_leaf`, `c11_bytes_key_refused`, `c11_tuple_key_breaks`, `c11_jpeg_list`, `c11_no_factory_refused`

**C12. Leaf serializers round-trip** (partial). deserialize(serialize(x)) = x for booleans, 64-bit integers, strings/bytes, tensors and numpy arrays of supported dtypes and any shape, images and lists of jpeg images (byte payload framing).

* model: `Model/Serializers`: every serializer of the default table; image, video and pickle codecs as parameters
* proof: round trip of each framing
* missing: the palette of an image is lost (`c12_palette_lost`); integers and floats come back as NumPy scalars (C84)
* theorems: `c12_roundtrip_partial`, `c12_palette_lost`, `c12_jpeg_array`, `c12_jpeg`, `c12_big_int_refused`, `c12_bfloat16_refused`, `c12_dtype_index_injective`, `c12_itemsizes`, `c12_bad_text`, `c12_jpeg_truncated`

**C13. A sample written is the sample read** (partial). If every sample of a dataset has the structure and leaf types of the first sample, reading sample i of the optimized dataset returns the i-th sample written.

* model: `Model/Sample`: `serialize`, `setup`, `deserialize`, with C09-C12 down to files
* proof: composition of C10, C11, C12 and the index
* missing: samples without leaves fail (`c13_no_leaves_fails`); end to end for one writer per rank
* theorems: `c13_samples_read_back_partial`, `c13_end_to_end_partial`, `c13_workers_to_dataset_partial`, `c13_any_serializers`, `c13_no_leaves_fails`, `c13_other_dtype_misread`, `c13_key_order_swaps`, `c13_any_workers`, `c13_jpeg_lists`

**C14. Merging worker indexes keeps every chunk once and in rank order** (partial). After all workers are done, the merged index lists every chunk of every worker exactly once, worker by worker in increasing rank; incompatible worker configurations raise an exception.

* model: `Model/Merge`: names of index files, sorting, `_merge_no_wait`, node merge
* proof: permutation of the chunks of all ranks; rank order by comparison of decimal names
* missing: from eleven workers on names sort as text and the order is not the rank order (`c14_eleven_workers_out_of_order`)
* theorems: `c14_merge_keeps_all`, `c14_rank_order_partial`, `c14_eleven_workers_out_of_order`, `c14_config_mismatch`, `c14_retry_loses_chunks`, `c14_empty_node_fails`, `c14_waits_for_idle_worker`, `c14_order`

**C15. Random access by index hits the right sample** (proved). For 0 <= i < number of samples, dataset[i] resolves to a unique (chunk, position in region of interest), in order, and distinct indices resolve to distinct samples; other indices raise.

* model: `Model/Config`: intervals of the regions of interest, lookup of an index, path and offsets
* proof: induction on the chunk list; down to the bytes for any sequence of indices
* theorems: `c15_lookup`, `c15_out_of_range`, `c15_distinct`, `c15_reads`, `c15_cache_length_overcounts`, `c15_length`

**C16. subsample keeps exactly the requested number of samples** (proved). subsample(s) keeps exactly int(N*s) samples, a subset of the dataset without repetition, and left-over chunks hold exactly the other samples.

* model: `Model/Subsample` with the ratio as a fraction, `Model/Floats` with the ratio as a double
* proof: induction on the regions; error bounds of rounding for the doubles
* theorems: `c16_subsample`, `c16_oversample`, `c16_cut`, `c16_reads`, `c16_too_many_reaches_beyond`, `c16_double`, `c16_close`, `c16_fraction`, `c16_sample_lost`, `c16_rounds_up`

**C17. train_test_split gives disjoint splits of the right sizes** (partial). For every list of ratios with sum <= 1, the splits are pairwise disjoint, each has int(N*r) samples, and together they are a prefix of the dataset; bad ratios are refused.

* model: `Model/Subsample` and `Model/Floats`: `train_test_split`
* proof: the loop cuts the shuffled regions; counts by arithmetic, for doubles with the error bounds of rounding
* missing: three valid ratios may be refused for their rounded sum (`c17_valid_refused`); datasets subsampled with a shuffle get regions of wrong chunks (`c17_mispairs_shuffled`), repeated chunks are refused
* theorems: `c17_splits_partial`, `c17_counts`, `c17_bad_ratios`, `c17_mispairs_shuffled`, `c17_repeated_refused`, `c17_missing_file`, `c17_doubles`, `c17_two_fractions`, `c17_bad_doubles`, `c17_valid_refused`, `c17_sample_lost`, `c17_reads_partial`

**C18. CombinedStreamingDataset(iterate_over_all=True) delivers every sample of every dataset once** (partial). The delivered stream is an interleaving of the streams of the datasets: for each dataset its own samples in its own order, each once, and the stream stops only when all are exhausted, whatever the random choices.

* model: `Model/Combined` with an arbitrary chooser
* proof: invariant "delivered of d ++ rest of d = stream of d"
* missing: a dataset of length 0 raises ZeroDivisionError (`c18_empty_dataset_fails`)
* theorems: `c18_all_once_partial`, `c18_progress_partial`, `c18_empty_dataset_fails`, `c18_no_weights`, `c86_zero_weight_fails`

**C19. CombinedStreamingDataset(iterate_over_all=False) stops at the first exhausted choice** (partial). The stream stops exactly when the chosen dataset has no sample left; until then each dataset contributes a prefix of its own stream, and the samples-yielded counters equal the number delivered from each dataset.

* model: as C18 without `iterate_over_all`
* proof: same invariant; exact stopping condition
* missing: counters of an epoch after a resumed one start from stale values (`c19_stale_counters`)
* theorems: `c19_stops_at_first_partial`, `c19_stale_counters`

**C20. CombinedStreamingDataset resumes with the same choices** (partial). After reloading the state the random choices continue the sequence that an uninterrupted run would have used.

* model: `load_state_dict` and the replay of the generator
* proof: the replayed generator is in the state of the uninterrupted run
* missing: after an exhausted dataset and for per-stream batching the runs differ (two witnesses)
* theorems: `c20_resume_first`, `c20_resume_all_partial`, `c20_exhausted_differs`, `c20_per_stream_differs`, `c20_each_worker`

**C21. StreamingDataLoader counts what it delivered and restarts with the right worker** (partial). The state_dict of a StreamingDataLoader records for every worker the number of samples it delivered; after reload the next batch comes from the worker following the last one used.

* model: `Model/Loader`, `Model/LoaderIter`: main process, worker processes, their queues; the PyTorch part from its source
* proof: inductive invariants over every interleaving
* missing: see the five witnesses: worker ended, last batches of an epoch, before the first batch, saved right after loading, loader used before
* theorems: `c21_recorded`, `c21_restart_partial`, `c21_combined_counters`, `c21_finished_worker_recorded_wrong`, `c21_last_batches_lost`, `c21_state_without_batches`, `c21_resave_drifts`, `c21_used_loader_differs`, `c21_next_epoch`, `c21_combined_latest`, `c21_combined_restart`, `c21_weights_repeat_epoch`

**C22. CacheBatchSampler partitions the indices among ranks and workers** (partial). While the cache is being filled, all batches of all workers together contain every index exactly once, each worker sees increasing contiguous indices, and the k-th batch goes to worker k mod num_workers.

* model: `Model/Sampler`
* proof: arithmetic and list lemmas over replicas, workers and batches
* missing: fewer samples than replicas raise IndexError; different permutations in the replicas repeat samples
* theorems: `c22_partition_partial`, `c22_validate`, `c22_read_partial`, `c22_idle_replica_raises`, `c22_own_permutations_repeat`, `c22_share`, `c22_size_zero`, `c22_dropEmpty`

**C23. optimize/map hands each input to exactly one worker, in order** (proved). Without weights or reordering the inputs given to the workers of all nodes, concatenated in rank order, are the inputs; loads differ by at most one.

* model: `Model/Packing`
* proof: induction over workers
* theorems: `c23_sequential`, `c23_refused`

**C24. Weighted packing hands each input to exactly one worker and is balanced** (proved). With weights each input is given to exactly one bin, the recorded bin weights are the sums of the weights of their items, and the heaviest bin exceeds the lightest by at most the largest single weight; non-positive weights or mismatched lengths raise ValueError.

* model: `Model/Packing`: greedy packing
* proof: invariant of the greedy loop: no bin exceeds another by more than any item of its own
* theorems: `c24_packing`, `c24_balanced`, `c24_refused`, `c24_nodes`, `c24_item_without_file_refused`, `c24_weights_length`

**C25. optimize resumed from a checkpoint loses and repeats nothing** (partial). If a worker with use_checkpoint=True crashes at any point after a checkpoint and is restarted, the final dataset contains every output exactly once in order.

* model: `Model/Checkpoint`: worker, uploaders, crash anywhere, second run
* proof: crash points as prefixes of runs; invariant that links checkpoint and uploaded chunks
* missing: inputs without output, several uploaders, downloaders, a worker that had finished, tuples (five witnesses)
* theorems: `c25_resume_partial`, `c25_skipped_inputs_repeat`, `c25_two_uploaders_lose`, `c25_downloaders_lose`, `c25_finished_worker_breaks_merge`, `c25_tuple_inputs_refused`, `c25_only_same_run`, `c25_counts_inputs`

**C26. Append mode never overwrites an existing chunk** (partial). optimize(mode='append') writes chunk files whose names are not among the existing chunks, and the new index lists the old chunks first and then the new ones.

* model: `Model/Append`
* proof: parsing of chunk names, maximum per rank, freshness of names
* missing: several nodes (two witnesses), names not made by this version
* theorems: `c26_extract`, `c26_names_new_partial`, `c26_index`, `c26_other_config_raises`, `c26_second_node_overwrites`, `c26_nodes_repeat_old_chunks`, `c26_other_names_raise`

**C27. merge_datasets concatenates datasets** (proved). merge_datasets produces an index whose chunks are those of the inputs in order under fresh distinct names, each copied from the matching source file; incompatible data formats or compressions are refused before anything is copied.

* model: `Model/MergeDatasets`
* proof: list lemmas; any order of the copying threads
* theorems: `c27_merged`, `c27_refused`, `c27_safe`, `c27_other_config_ignored`, `c27_empty_dataset_raises`, `c27_copy_error`

**C28. Background download/delete keeps the cache bounded and keeps going** (partial). The thread that prepares chunks downloads chunks in the order requested, never has more than max_pre_download chunks ahead (apart from forced downloads), deletes chunks in the order they were consumed, and every requested chunk is eventually available.

* model: `Model/Prepare`: reader and thread with their queues, every interleaving
* proof: inductive invariants; progress by a measure
* missing: progress needs a cache limit or two chunks of look-ahead beyond forced downloads; witnesses show each condition is needed
* theorems: `c28_order`, `c28_bound`, `c28_never_stuck`, `c28_progress_partial`, `c28_one_ahead`, `c28_no_limit`, `c28_forced_stall`, `c28_present`, `c28_eager`, `c28_eager_keeps`, `c28_eager_three`, `c28_warm_kept`

**C29. A chunk shared by several readers is not deleted while one still needs it** (partial). With each reader incrementing the counter file before downloading and decrementing it when finished, a chunk file is removed only when no other reader that has acquired it is still using it.

* model: `Model/Counter`: counter file, lock, any number of readers
* proof: inductive invariant on the counter
* missing: test and removal are not atomic, lock timeouts, forced downloads, early readers (witnesses)
* theorems: `c29_counter`, `c29_removed_unused_partial`, `c29_removable`, `c29_race`, `c29_timeout`, `c29_forced`, `c29_early`, `c29_late`, `c29_lost_count`

**C30. A partially downloaded chunk is never visible as complete (local downloader)** (partial). With the local downloader, at every instant and after every crash the chunk path is either absent or holds the full content.

* model: `Model/Download`: inodes, `.tmp`, lock files, crashes anywhere
* proof: inductive invariant
* missing: a lock file deleted while others fetch (`c30_deleted_lock`)
* theorems: `c30_whole_or_absent_partial`, `c30_opened_stays_partial`, `c30_fetches`, `c30_deleted_lock`

**C31. Compressed chunks decompress to the original and partial files are not read** (partial). A reader opens a chunk only when the local file has the size recorded in the index, and for compressed datasets what is read is the original chunk.

* model: `Model/Decompress`
* proof: inductive invariants
* missing: several workers that decompress one chunk, crash during decompression, s5cmd (witnesses)
* theorems: `c31_decompressed_partial`, `c31_opened_stays_partial`, `c31_direct`, `c31_direct_stays`, `c31_two_workers`, `c31_thread_dies`, `c31_crash_unreadable`, `c31_s5cmd`, `c31_decompressed_complete`, `c31_direct_complete`

**C32. TokensLoader serves consecutive blocks** (partial). With TokensLoader(block_size), sample j of a chunk is tokens[j*block_size:(j+1)*block_size] of the concatenated tokens of that chunk, blocks are disjoint and cover all but fewer than block_size trailing tokens.

* model: `Model/Tokens`: memory maps, views, two threads
* proof: slicing lemmas, invariant over interleaved calls
* missing: encrypted chunks, an empty first item, files seen before complete (witnesses)
* theorems: `c32_block_partial`, `c32_cover`, `c32_dataset_partial`, `c32_view_stays`, `c32_view_after_delete`, `c32_encrypted_misread`, `c32_empty_first_item`, `c32_partial_file`, `c32_regions_partial`, `c32_setup`

**C33. ParquetLoader(low_memory) returns the requested row** (partial). Reading sample i of a parquet chunk returns the i-th row of the file.

* model: `Model/Parquet`: row groups
* proof: arithmetic, invariant over calls
* missing: row groups of different sizes (`c33_uneven_groups`)
* theorems: `c33_row_partial`, `c33_uneven_groups`, `c33_low_iff`

**C34. ParquetReader.remap_items splits files without losing rows** (partial). The shards produced cover all rows of all input files, in order, once, each of at most num_rows rows, and different shards get different paths.

* model: `Model/Parquet`: `remap_items`
* proof: induction over files
* missing: files of the same base name, shards left over (witnesses)
* theorems: `c34_reshard_partial`, `c34_same_name`, `c34_stale_cache`

**C35. Encrypted datasets read back and mismatched settings are refused** (proved). For any encryption whose decrypt inverts encrypt, an encrypted dataset read with matching algorithm and level yields the samples that were written, at sample level and at chunk level; a mismatch of algorithm or level raises ValueError.

* model: encryption as a parameter that inverts
* proof: rewriting over C10
* theorems: `c35_encrypted_reads_back`, `c35_mismatch_refused`, `c35_reads_back_on`

**C36. mode='overwrite' only removes the dataset in output_dir; mode=None never destroys a dataset** (partial). With mode=None an output directory with an index is refused and left untouched; with 'overwrite' only files inside output_dir are deleted; with 'append' nothing is deleted.

* model: `Model/Modes`: local file tree and object store listings
* proof: list lemmas
* missing: object stores: text prefixes reach siblings, HEAD errors, more than one page (witnesses)
* theorems: `c36_none_refuses`, `c36_only_dataset`, `c36_kept`, `c36_overwrite_clears`, `c36_overwrite_returns`, `c36_remote_none_refuses`, `c36_remote_prefix_partial`, `c36_remote_overwrite_clears`, `c36_sibling_removed`, `c36_refused_request_removes`, `c36_no_index_refused`, `c36_second_page_kept`, `c36_map_check`

**C37. Byte sizes given as strings are parsed as documented** (partial). chunk_bytes / max_cache_size strings such as '64MB' or '2 GiB' parse to value times unit, are case-insensitive, and unknown suffixes raise ValueError.

* model: `Model/Format` with binary64 arithmetic
* proof: digits by induction, rounding by arithmetic
* missing: binary units and some spellings are refused by the code
* theorems: `c37_exact`, `c37_integer`, `c37_rounded`, `c37_unknown_suffix`, `c37_gib_refused`, `c37_truncates`, `c37_odd_numbers`, `c37_only_numbers`, `c37_ties_to_even`

**C38. Each shared chunk has exactly one worker allowed to delete it** (partial). Of the workers of a rank that read the same chunk, all but exactly one are told not to delete it, and that one is the last to finish with it in the round-robin batch order.

* model: `Model/SkipDelete`: the simulation loop of `_find_chunks_per_workers_on_which_to_skip_deletion`
* proof: invariant of the simulation, termination measure; exactness of the simulated visit
* missing: chunks smaller than a batch, chunks shared by ranks, nodes after the first (witnesses)
* theorems: `c38_one_deleter`, `c38_keep_lists`, `c38_last_partial`, `c38_finish_visit`, `c38_assigned`, `c38_one_rank`, `c38_small_chunks`, `c38_cross_rank`, `c38_second_node`, `c38_node_slice_partial`, `c38_iterate`, `c38_resumed`, `c38_ignored`

**C39. Batches of a multi-worker loader rotate over workers** (proved). The loader delivers batches from workers in round-robin order, and from a given worker in its own order, so the delivered order is deterministic.

* model: as C21
* proof: every interleaving delivers the round robin; termination in fair executions
* theorems: `c39_round_robin`, `c39_complete`, `c39_terminates`

**C40. map/optimize batch_size groups inputs without loss** (proved). Grouping inputs with batch_size b gives consecutive groups of b inputs (the last one possibly shorter) whose concatenation is the inputs.

* model: `Model/Packing`
* proof: induction
* theorems: `c40_groups`, `c40_no_groups`

**C41. The distributed item count seen by len() equals what iteration delivers** (proved). len(dataset) for a rank equals the number of samples iteration delivers on that rank summed over its workers.

* model: `get_len` against C01
* proof: arithmetic
* theorems: `c41_len_is_delivered`, `c41_len_closed_form`

**C42. A sample is looked up in the registered serializers in a fixed priority order** (partial). Each leaf is handled by the first serializer (user-provided ones first, then the fixed order) that accepts it, and reading uses the same serializer as writing.

* model: `Model/Serializers`, `Model/Sample`: first match in a table
* proof: induction over the table
* missing: names with colons and suffixes that are names (witnesses)
* theorems: `c42_first_accepting`, `c42_always_some`, `c42_reading_uses_writer_partial`, `c42_builtins_named`, `c42_colon_name_breaks`, `c42_suffix_captures`

**C43. All outputs of the optimize pipeline are stored exactly once for any worker schedule** (partial). For every schedule of downloader, worker, remover and uploader processes, every input is processed exactly once by its worker and all chunk files are uploaded before the index.

* model: `Model/Processes`: downloaders, workers, uploaders, removers and main process as concurrent processes
* proof: invariant over every interleaving; well-founded step relation; composed with the writer
* missing: a cloud upload that fails is not noticed, inputs that share a file (witnesses)
* theorems: `c43_index_after_files_partial`, `c43_terminates`, `c43_complete_partial`, `c43_optimize_partial`, `c43_shared_file_fails`, `c43_lost_upload`

**C44. Downloader selection follows the registration table** (proved). get_downloader picks the first registered prefix that matches the remote directory and the local downloader otherwise; registering an existing prefix without overwrite raises and leaves the table unchanged; unregistering removes it.

* model: `Model/Registry`
* proof: list lemmas
* theorems: `c44_prefixes_once`, `c44_register_refused`, `c44_register`, `c44_unregister`, `c44_first_prefix`, `c44_new_prefix`, `c44_builtin`

**C45. fast_dev_run processes a prefix of every worker's inputs** (partial). With fast_dev_run=n every worker processes the first min(n, k) of its k inputs and no others; with fast_dev_run=True it processes the documented default number of them.

* model: `Model/Packing`: `fast_dev_run`
* proof: prefix lemmas
* missing: `True` keeps one input instead of ten (`c45_fast_dev_run_flag`)
* theorems: `c45_fast_dev_run`, `c45_fast_dev_run_flag`

**C46. Per-stream batches come from one dataset** (partial). With batching_method='per_stream' every batch of a CombinedStreamingDataset consists of samples of a single dataset, chosen once for the batch.

* model: `Model/Combined`: `_get_dataset_index` with the counter of the batch; `Model/LoaderSettings`: the batch size that the iterator is given
* proof: invariant that ties the counter and the number of draws to the number of samples; `c46_after_length` composes it with `len`
* missing: with `iterate_over_all` a batch in which a dataset ends is filled from another one (`c46_all_mixes`); after `len(dataset)` or `load_state_dict` of the loader the batch size is 1 and batches mix (`c46_length_mixes`)
* theorems: `c46_per_stream`, `c46_per_stream_all_partial`, `c46_all_mixes`, `c46_after_length`, `c46_length_mixes`

**C47. walk lists every folder exactly once** (proved). Iterating over walk(folder) terminates and yields every folder at or below the given one exactly once, with the names of its sub-folders and of its files, like os.walk up to order; it raises only if something that is not a file cannot be listed.

* model: `Model/Walk`: the generator with its queue of folders, the futures of the running `as_completed` and those submitted since
* proof: invariant that what is yielded and what is still to do make up the listing of `Spec/Walk`; decreasing measure
* theorems: `c47_walk`, `c47_never_twice`, `c47_terminates`, `c47_progress`, `c47_no_error`, `c47_returns`, `c47_broken_link`, `c47_second_pass`

**C48. Slicing a dataset is slicing the list of its samples** (proved). dataset[start:stop:step] returns what the Python slice of the list of the first len(dataset) samples returns, including negative and out-of-range bounds and negative steps; a step of zero raises ValueError.

* model: `Model/Slice`: `slice.indices`, `range` and the reads
* proof: sorted lists with the same members are equal; composed with `c15_reads`
* theorems: `c48_slice`, `c48_usual`, `c48_ranks`

**C49. Processing works on copies and deletes only copies** (partial). While map or optimize runs with an input directory, the worker reads at its paths the content of the inputs, the remover deletes only the local copies and the files the run itself made, and no input file or other file outside the cache is changed or deleted.

* model: `Model/InputFiles`: `str.replace` on paths, requests of downloader and remover on a file system
* proof: induction over any sequence of requests
* missing: the remover decides by the text of the path: it is proved to delete inputs whose path begins like the cache directory and inputs outside the input directory
* theorems: `c49_user_files_partial`, `c49_copies_partial`, `c49_worker_reads`, `c49_copy_path`, `c49_removes_copies`, `c49_prefix_deleted`, `c49_tmp_dataset_deleted`, `c49_outside_deleted`, `c49_mixed_fails`, `c49_shared_copy`, `c49_this_studio`

**C50. map and optimize return only when all work is done, and raise when a worker failed** (partial). The main loop leaves normally only when every worker has handled all of its items and ended; if a worker raises, the run ends with an error and never goes on to write the index; it raises only if some worker failed, and it does not wait for ever.

* model: `Model/MainLoop`: counters and messages of the workers, the loop of the main process
* proof: invariant over every interleaving; decreasing measure
* missing: a worker that is killed leaves the main process waiting for ever (`c50_killed_hangs`); the failure of a worker without items may be missed (`c50_idle_failure_missed`)
* theorems: `c50_returns_complete`, `c50_failure_never_returns`, `c50_terminates`, `c50_ends`, `c50_outcome`, `c50_worker_proceeds`, `c50_raises_only_on_failure`, `c50_killed_hangs`, `c50_idle_failure_missed`

**C51. Every process detects its own place** (partial). Every process detects the world size and its own rank, so that the numbers of all data loader workers of all ranks are distinct and fill the range of shards; the workers of map and optimize on all nodes likewise.

* model: `Model/Env`: what a process sees and what it concludes
* proof: case analysis and division with remainder
* missing: processes started by `torchrun` before `torch.distributed` is initialized all take themselves for rank 0 (`c51_uninitialized`)
* theorems: `c51_detect`, `c51_shards`, `c51_optimize`, `c51_uninitialized`, `c51_uninitialized_reads`, `c51_cpu_nodes`, `c51_shard_of`, `c51_optimize_shard`

**C52. Item loaders let go of what they have read** (partial). Once the reader is done with a chunk, its item loader holds nothing of it: closing or deleting a chunk releases its memory map, its file and its row groups, and in low-memory mode a row group is held only while some but not all of its rows have been read.

* model: `Model/Tokens` and `Model/Parquet`: what is held of each chunk
* proof: induction over the calls, counting reads modulo the rows of a group
* missing: `TokensLoader.close` counts every read of a chunk but is called once, so the map stays (`c52_tokens_close`, `c52_tokens_leak`)
* theorems: `c52_parquet_close`, `c52_row_groups`, `c52_tokens_close`, `c52_tokens_delete`, `c52_tokens_leak`

**C53. Streaming an optimized dataset yields the samples that were optimized** (proved). If samples of one structure are written by any number of workers, merged and streamed, then in an epoch the workers of all ranks together yield exactly the samples written, as equal Python objects: each exactly once when shuffled, and in the order of the index when not. With drop_last the ranks yield equal numbers. A resumed worker yields the rest of its samples.

* model: `Model/Streaming`: the loop of `__next__` with its reads
* proof: the iterator is shown to be a choice of indices followed by reads; values of samples are carried along the split
* missing: chunks are uncompressed and on disk when read; several nodes in later epochs (C04)
* theorems: `c53_shuffled`, `c53_in_order`, `c53_end_to_end`, `c53_resumed`

**C54. Reading datasets in the MDS format** (proved). An MDS index is accepted exactly if it has at least one shard and all shards are compressed. Then, once the decompressed shards are in the cache (none smaller than the compressed size in the index), any sequence of sample indices in range returns the raw samples with these ranks in the concatenation of the shards; and a raw sample whose columns have encodings that are names of serializers, with no column declared of size zero, is read as the dictionary from the column names of the first shard to the decoded columns.

* model: `Model/Mds`: the adapted index, the sizes of columns, the decompressed path; the layout of MDS files is an assumption
* proof: offsets of the file layout; induction over the columns; the reads of C15 with another file layout
* theorems: `c54_raw`, `c54_sample`, `c54_loaded_iff`, `c54_uncompressed_raises`, `c54_zip_larger`, `c54_size_zero_misread`, `c54_unknown_encoding`, `c54_decompressed`, `c54_level_not_decompressed`

**C55. A directory of parquet files is a dataset of all its rows** (partial). index_parquet_dataset lists exactly the parquet files of a directory, in the order of the listing, with their row counts and sizes, and raises if the column types of two files differ. A dataset over this index, or over the files matching a wildcard, has as many samples as these files have rows, and any sequence of indices reads the rows with these numbers, file after file. Local and remote directories give the same metadata.

* model: Model/ParquetIndex.lean: the listing of each kind of directory, the reading of footers by position, the tasks, the loop that compares column types, the index, the pieces in which it is sent to a bucket, the reuse of an index of a Hugging Face dataset, the wildcard at the end of an input path, the choice of matching chunks, and random access through the chunk lookup to `ParquetLoader`.
* proof: c55_index and c55_consistent: exactly the listed files, in order, or an exception when types differ; c55_footer and c55_same_metadata: reading only the end of a remote file gives the same metadata; c55_rows_partial: any sequence of indices reads the rows of the matching files in order. reads_any is the lookup for any item loader, given that the loader reads each item of each chunk from any of its states.
* missing: Row groups of different sizes in low-memory mode (the claim is false there: c33_uneven_groups). pyarrow, polars and fnmatch are parameters; the thread pool is modelled by its results in the order of submission.
* theorems: `c55_index`, `c55_consistent`, `c55_listing`, `c55_footer`, `c55_same_metadata`, `c55_uploaded`, `c55_rows_partial`, `c55_pattern`, `c55_folder`, `c55_other_names`, `c55_no_columns`, `c55_hf_stale`, `c55_schemes`, `c55_truncated`, `c55_root`, `c55_storage_options`, `c55_low_iff`

**C56. A cache filled by a data loader holds what the loader delivered** (partial). When CacheDataLoader fills a cache with any number of replicas and workers, each replica delivers in its first pass the batches of its sampler, every sample delivered is stored, merging the worker indexes succeeds and cache[i] is the sample delivered for index i. Later passes read every stored sample exactly once over all replicas. A dataset that returns a different first sample when asked twice is refused.

* model: Model/CacheLoader.lean: `CacheDataset.__getitem__` with its check of the first sample, `_equal_items`, the loop of a worker with `done`, `CacheCollateFn`, the rotation of the workers, the arguments of `CacheDataLoader` and the length of its sampler; writing, merging and reading are the models of C13, C14, C15 and C22.
* proof: cache_filled composes the split of the sampler (c22_share), the writers of all workers, the merge and the reads; c56_cached states it for at most ten workers. c56_later_pass_partial is the second pass.
* missing: Two replicas that seed differently read different chunk orders (C22). Processes and queues of torch are represented by the order in which its loader yields batches.
* theorems: `cache_filled`, `c56_cached`, `c56_later_pass_partial`, `c56_collated`, `c56_check_passes`, `c56_first_sample_checked`, `c56_arrays_refused`, `c56_few_samples_wait`, `c56_batch_size_refused`, `c56_cache_made`, `c56_length`, `c56_stale_index`, `c56_float_equal`, `c56_check_exact`

**C57. The chunks kept on disk are bounded by the cache limit** (partial). With a limit on the cache, the chunks that one reader has on disk exceed the limit by no more than the chunks fetched ahead or by force and those that other processes have locked or that were there before. The size that is compared with the limit is the sum of the sizes of the chunks on disk by the index plus that of partial downloads, whatever the real file sizes. If the share of a node exceeds the limit, chunks are deleted as soon as they were read and only those fetched ahead are on disk.

* model: Model/CacheSize.lean: the size of the folder with the table of sizes, the test before each deletion, the loop that deletes, locks of other processes, and the chunks on disk beside the states of the thread of C28.
* proof: an invariant of the steps says who is responsible for each chunk on disk: those fetched and not yet read, those waiting for deletion, forced ones and those passed over; the loop leaves less than the limit or nothing to delete.
* missing: Several readers in one directory: each is proved alone, with the others as a changing environment.
* theorems: `c57_bound`, `c57_folder_size`, `c57_chunk_counted`, `c57_eager_bound`, `c57_one_node`, `c57_when_processed`, `c57_eager_unbounded`, `c57_late_force`, `c57_locked_kept`, `c57_eager_bound_three`, `c57_warm_returns`, `c57_other_files`

**C58. The cache directory holds only files of the version that is read** (partial). Whatever datasets and versions of them were used before, a dataset that is opened finds in its cache directory only files of its present version. Opening the same version again keeps its files, another version removes those of the older one, and the caches of other datasets are left alone. Processes that open a dataset at the same time do not remove each other's files.

* model: Model/CacheDir.lean: `_read_updated_at`, `_clear_cache_dir_if_updated`, `_try_create_cache_dir`, the fetching of the index, uses of datasets one after the other, and the steps of processes that open the directory at the same time. md5 is a function that is injective on the URLs in use.
* proof: c58_history: an invariant of the files below the cache directory, by induction over the uses; c58_current_safe: an invariant of the interleavings.
* missing: Processes at the same time are proved safe only if the version is already cached; otherwise refuted. `shutil.rmtree` is one step there.
* theorems: `c58_history`, `c58_create`, `c58_reuse`, `c58_second_session`, `c58_current_safe`, `c58_no_timestamp`, `c58_running_job`, `c58_without_url`, `c58_own_path`, `c58_update_race`, `c58_fresh_race`, `c58_detects`, `c58_index_path`

**C59. Directories are resolved to the place they stand for** (partial). A URL is kept, a local path is made absolute, and a path below a connection, folder, dataset or Studio of a Teamspace gets the URL of the same place in its bucket; different folders get different URLs, unknown names are refused, and resolving twice changes nothing. Exactly the paths that have to be fetched are replaced by a cache directory. A time template at the end of a path is filled in.

* model: Model/Resolver.lean: `_resolve_dir` with all its cases, on characters; the absolute path of a text, lower case, the time and the answers of the cloud client are parameters.
* proof: splitting and joining of paths by induction over their parts; case analysis on prefixes.
* theorems: `c59_remote`, `c59_local`, `c59_connection`, `c59_folder`, `c59_dataset`, `c59_studio`, `c59_connection_injective`, `c59_unknown`, `c59_idempotent`, `c59_replaced`, `c59_template`, `c59_gcs_without_url`, `c59_prefix_confused`, `c59_studio_ambiguous`, `c59_template_missed`, `c59_remote_replaced`

**C60. Uploaded files arrive at the place of their dataset** (partial). Every file that a worker of optimize puts into an upload queue arrives directly below the output directory under its own name; every file that a call of the function given to map leaves in its temporary folder arrives at the same relative place below the output directory; a checkpoint arrives at .checkpoints/checkpoint-<rank>.json, the name under which the worker with that number looks for it when it is resumed. Nothing else at the output changes.

* model: Model/Upload.lean: the source and the target of an upload as computed from paths, the names of checkpoints when written and when looked for, and the output after the uploads.
* proof: characters: a text without slashes lies on one side of a slash; replace of a text that occurs once; then induction over the uploads.
* theorems: `c60_chunk`, `c60_map`, `c60_checkpoint`, `c60_checkpoint_found`, `c60_optimize`, `c60_map_all`, `c60_other_nodes`, `c60_output_with_checkpoints`, `c60_map_with_checkpoints`, `c60_map_same_name`, `c60_map_calls`

**C61. Encryption objects survive being saved and loaded** (partial). A Fernet or RSA encryption object that is saved to a file, pickled, or whose keys are written to files, is restored with the same level and keys, so that chunks written with the one are read with the other. With another password nothing is read. What is saved does not give away the password. Levels other than sample and chunk are refused.

* model: Model/Keys.lean: base64, the constructors, save and load of FernetEncryption, __getstate__, __setstate__, save, load, save_keys and load_keys of RSAEncryption; JSON from Model/Json.lean. The functions of the cryptography package are parameters (FernetLib, RsaLib) whose laws are hypotheses (RsaLaws); toy packages meet them.
* proof: base64 by recursion over groups of three bytes; the rest by unfolding, with loads_dumps; reading through c35_encrypted_reads_back and, for RSA, c35_reads_back_on, which asks for decryption only of the chunks at hand.
* missing: the package itself, random numbers, UTF-8
* theorems: `c61_base64`, `c61_fernet_roundtrip`, `c61_fernet_reads`, `c61_fernet_wrong_password`, `c61_fernet_file`, `c61_fernet_no_salt`, `c61_levels`, `c61_rsa_pickle`, `c61_rsa_roundtrip`, `c61_rsa_reads`, `c61_rsa_password_in_file`, `c61_rsa_keys`, `c61_rsa_keys_unreadable`, `c61_rsa_limit`, `c61_rsa_missing_key`

**C62. What optimize writes is what is streamed, under any schedule** (partial). Whatever the interleaving of the main process, the workers, their downloaders, uploaders and removers: when optimize has come to its end, the output directory together with its merged index is a dataset whose stream, shuffled or not, over any number of ranks and data loader workers, consists of exactly the outputs of the user's function for all the inputs, each once; unshuffled and with inputs handled in order, in the order of the inputs.

* model: No new model: the processes of Model/Processes.lean with the writer of Model/Writer.lean as their job, the files of Model/ChunkFile.lean, the merge of Model/Merge.lean and the stream of Model/Streaming.lean.
* proof: c43_optimize_partial (strengthened: the chunks that arrive are those of workerRun) gives the chunks of each worker; worker_written and c14_order give a dataset in the sense of Stored; c53_shuffled and c53_in_order stream it; c23_sequential joins the shares of the workers. workersDone_exists and holdsChunks_exists show that the hypotheses on the directories can always be met; a run of seven inputs on three workers is an example.
* missing: several nodes (C63), append (C82), failing uploads
* theorems: `c62_dataset`, `c62_streams`, `c62_optimize_partial`

**C63. optimize on several nodes produces one complete dataset** (partial). When optimize runs on several nodes, each node merges the index files of its workers and uploads the result, and the last node waits for the indexes of all other nodes and merges them. In whatever order the nodes finish, no node fails, everyone ends, and index.json lists the chunks of all workers of all nodes exactly once; streaming the output yields the outputs of the function for all inputs.

* model: Model/Nodes.lean: `_done` and `_upload_index` on every node as a transition system over the index files in the output directory and the cache directory of each node; the merge is that of Model/Merge.lean. The composition uses the processes of Model/Processes.lean on each node with ranks node * W + worker.
* proof: invariant nodesInv_reach over all interleavings; merge_sorted and merge_nodes for the merge of node indexes in the order of their names; nodes_bound for termination; node_written (Props/OptimizeStream.lean) for what the workers of each node leave; c53_shuffled and c53_in_order for the stream; c23_sequential joins the shares of all nodes. An example runs seven inputs on two nodes with two workers each.
* missing: append mode on several nodes (C26), the broadcast of the directories, nodes that crash
* theorems: `c63_index`, `c63_all_chunks`, `c63_dataset`, `c63_optimize_partial`, `c63_folder_last_first`, `c63_folder_keeps_node_index`, `c63_stale_index`, `c63_empty_node`, `c63_late_node_refused`, `c63_late_node_removes`, `c63_result`, `c63_result_bytes_wrong`, `c63_result_dims`

**C64. A streaming data loader as the inputs of map and optimize gives every sample once** (partial). When the inputs of map or optimize are a StreamingDataLoader, every sample of its dataset is given to the function exactly once, no worker fails, and a run resumed from a checkpoint goes on with the batches that are left.

* model: `Model/LoaderInput.lean`: counting the batches in the main process (`loaderItems`), dividing their numbers (`mapSequentially`), the split of the dataset for the rank a worker finds out again (`epochAssign`), what its loader delivers (`loaderOut`, equal to the outcome of every execution of the loader of C39: `loaderOut_executions`), and the reader that ignores the number it is given (`readInputs`).
* proof: A closed form of the number of batches of every rank (from C03) against a closed form of its share of the numbers gives `c64_succeeds_iff`: all workers succeed iff `N % (batch_size * workers) <= batch_size` (`< batch_size` with `drop_last`, `c64_drop_last_iff`). In that case `c64_complete` gives every sample once. `c64_distinct` holds whatever fails. `c64_skipped_test` is the repo's own skipped test; `c64_too_small` shows a whole class of failing sizes; `c64_resume_restarts` shows what a resumed run reads.
* missing: The full statement is false of this code. Several nodes from the second epoch on (C04). The main process as one of several training processes.
* theorems: `c64_succeeds_iff`, `c64_drop_last_iff`, `c64_failure`, `c64_complete`, `c64_distinct`, `c64_resume_restarts`, `c64_too_small`, `c64_skipped_test`, `loaderOut_executions`

**C65. A loader's settings reach every dataset, and its length is the number of batches it delivers** (partial). The batch size, number of workers, shuffle and drop_last of a StreamingDataLoader reach every dataset below it; len(loader) is the number of batches an epoch delivers; and asking for a length or loading a state does not change the settings the samples are split by.

* model: `Model/LoaderSettings.lean`: the attributes of StreamingDataset and CombinedStreamingDataset that a loader sets, the setters, get_len and __len__ with their side effects (the shuffler that is made once, batch size and workers that are set), the constructor, __len__ and load_state_dict of the loader.
* proof: The length against the batches of the loader of C39/C64: `rank_batches` with `c03`/`c41` closed forms; for combined datasets the outputs of complete runs of the iterator (C18) are counted by dataset and the sums of the rounded-up lengths compared; the resets by unfolding.
* missing: several nodes from the second epoch on (C04)
* theorems: `c65_len_exact_partial`, `c65_settings_reach_all`, `c65_length_keeps`, `c65_len_resets`, `c65_load_resets`, `c65_load_keeps`, `c65_stale_drop_last`, `c65_no_length`, `c65_combined_len_partial`, `c65_combined_len_short`, `c65_split_follows`, `c65_wrong_states`, `c65_own_states`

**C66. A loader over a combined dataset goes on with the samples that each worker has left** (partial). A StreamingDataLoader over a CombinedStreamingDataset that is given the state saved after any number of batches goes on, in every worker and for every dataset, with the sample after the last one this worker has delivered of it; nothing is delivered twice or left out.

* model: `Model/CombinedLoader.lean`: `_resume` of every dataset from the total over all workers (`combinedTotals`), then the iterator of Model/Combined.lean with the counters of the worker. The state is that of Model/Loader.lean after batches that come from the workers in turn.
* proof: A closed form of the recorded counters (`saved_counts`) and of `_replay_sampling` (Lemmas/Replay.lean); all workers share the random source, so the counters of a worker are those of the first choices (`stopped_spec`); `c66_resumed` is the state of every worker, `c66_right_iff` compares it with the one it had; sums over workers give `c66_lost_and_repeated`. `takeAll_first` reduces iterate_over_all to the other case as long as no dataset is finished.
* missing: the restart test of load_state_dict (C21); datasets that a worker has finished, where IndexError is raised (c66_resumed)
* theorems: `c66_resumed`, `c66_right_iff`, `c66_lost_and_repeated`, `c66_one_worker`, `c66_batch_one`, `c66_rounds_iff`, `c66_continues`, `c66_all_batch_one`, `c66_all_one_worker`, `c66_empty_share_raises`, `c66_two_workers`, `c66_split_changes`, `c66_collate`, `c66_plain`

**C67. What is put into an object store under a URL is what is read back under it** (partial). For S3 and GCS, a file uploaded under a URL is found and downloaded with its content under the same URL and no other file is changed; copying and downloading a folder give the files of exactly the objects meant.

* model: `Model/FsProvider.lean`: `urlparse` as far as it matters (scheme, netloc, path up to `?`/`#`), `get_bucket_and_path`, `_get_fs_provider`, upload, download, copy, exists, listing (one page of 1000 for S3), delete and download_directory of both providers over a map from bucket and key to content; local files are a map from paths.
* proof: The URL of an object is parsed back to its bucket and key (`bucketAndPath_object`), so the operations are those of the map; `fetchAll_spec` for the loop of the download.
* missing: The full statement is false of this code. Not modelled: the clients (boto3, google-cloud-storage), errors of the network, and `urlparse` for URLs with user names, ports or brackets (they stay in the netloc).
* theorems: `c67_store`, `c67_object`, `c67_upload`, `c67_upload_all`, `c67_copy`, `c67_download_directory_partial`, `c67_bucket_only`, `c67_gcs_markers`, `c67_fragment`, `c67_copy_slash`, `c67_folder_marker`, `c67_other_scheme`

**C68. A run resumes from the last checkpoints that interrupted runs have saved** (partial). If runs of optimize with use_checkpoint, the same workers and the same inputs are interrupted any number of times, the next run gets for each worker the last checkpoint that was uploaded for it, and none if there is none; a run with other workers or inputs is refused.

* model: `Model/CheckpointStore.lean`: `_save_current_config`, `_load_checkpoint_config` and `_cleanup_checkpoints` for a local folder and for an object store (on Model/FsProvider.lean), their place in `run`, and the check of the mode before it (Model/Modes.lean); the names under which checkpoints are uploaded are those of Model/Upload.lean.
* proof: Invariant `CkSaved` (what the folder of checkpoints holds) over saving, uploading and beginning a run, and induction over the interrupted runs; `downloadDir_flat` for the download; for the first page of a listing, the order of the keys.
* missing: The full statement is false of this code. The JSON texts are values here (for the text of checkpoints and chunks see C25 and C56); errors of the store while saving the configuration, which are only printed.
* theorems: `c68_load_partial`, `c68_nothing_partial`, `c68_resume_partial`, `c68_local_partial`, `c68_append`, `c68_overwrite`, `c68_cleanup_partial`, `c68_current_folder`, `c68_tuples`, `c68_nodes`, `c68_many_workers`, `c68_many_run`, `c68_refused`, `c68_cleanup_many`

**C69. The workers get the inputs that the user gave** (partial). When map or optimize hand the inputs to the workers, by weights, by file sizes or in order, each input is given to exactly one worker of one node, and the value the user's function is called with is the value the user gave.

* model: `Model/NumpyItems.lean`: the shape that numpy finds in the inputs of a worker, the common type, and what `tolist()` gives back; `_map_items_to_workers_weighted` and the choice between the three mappings with this conversion.
* proof: `c69_exact_iff` characterises the lists of inputs that numpy gives back unchanged, against an inductive definition of extents. Over all nodes and workers the shares are then a permutation of the inputs (`c69_inputs_partial`); for any inputs they are so up to types (`c69_values`). Structural induction over nested inputs.
* missing: Floats, dictionaries, None and other objects as inputs; integers of more than 64 bits; numpy before 1.24.
* theorems: `c69_exact_iff`, `c69_inputs_partial`, `c69_values`, `c69_sequential`, `c69_ragged_refused`, `c69_short_batch_refused`, `c69_labels_become_texts`, `c69_depends_on_workers`, `c69_checkpoint_accepts`

**C70. A call of map or optimize is refused without harm, or gives the workers what was asked for** (partial). A call of map or optimize either raises and leaves the output directory as it was, or it starts the number of workers that was asked for, which together get exactly the given inputs (in groups of batch_size, if given), with chunk numbers that no existing chunk has.

* model: `Model/Entry.lean`: `map` and `optimize` from their arguments to the inputs of the workers, over the local files and the object stores: the checks, `_get_input_dir`, the output directory, what is removed there, the numbers of the first chunks, `DataProcessor.run` up to the creation of the workers. Uses Model/Resolver.lean, Model/Modes.lean, Model/FsProvider.lean, Model/Packing.lean and Model/NumpyItems.lean.
* proof: The call is inverted (`optimizeCall_began`, `mapCall_started`): what holds if the workers are started. `optimizeChecks_iff` says exactly which arguments are refused at once. The input directory that is guessed, the sizes of the inputs and the clean-up of a store are in Props/EntryMore.lean. The shares of all nodes are joined with C23, C24 and C69 (`assign_nodes`); the groups are those of C40; the first chunks those of C26.
* missing: The full statement is false of this code. Not modelled here: readers given by the user, `broadcast_object`, `optimize_dns`, input files inside the output directory, the start of machines (`_execute`).
* theorems: `c70_refused_early`, `c70_map_refused_early`, `c70_checkpoint_keeps`, `c70_none_keeps`, `c70_append_keeps`, `c70_overwrite_destroys`, `c70_inputs_partial`, `c70_batches`, `c70_loader`, `c70_map_inputs_partial`, `c70_map_not_empty`, `c70_first_chunks`, `c70_weights_ignored`, `c70_map_weights_batch`, `c70_tuple_refused`, `c70_url_input`, `c70_first_two_inputs`, `c70_launched`, `c70_cloudspaces`, `c70_node_works`, `c70_node_works_map`, `c70_guess`, `c70_sizes`, `c70_output`, `c70_cleanup_keeps`

**C71. The user's function gets its own inputs with local copies of their files, and all of its results are used** (partial). In map and optimize the function of the user is called with each of its inputs, in which the paths of files of the input directory are replaced by paths at which the same content is found, and nothing else is changed; it gets the arguments device and is_last if it takes them; in optimize every value that it returns or yields (but None) is stored.

* model: `Model/UserCall.lean`: `_to_path`, `_is_path`, `_collect_paths`, the downloader for an input directory with a URL (over Model/FsProvider.lean; the local one is in Model/InputFiles.lean), the kinds of callables and what `inspect` says of them, the arguments that `map` passes, what `optimize` does with the result.
* proof: `SameBut R` relates two inputs of the same structure whose texts are related by `R`; the replacement is shown to satisfy it by mutual induction, with `R` speaking of the contents found by the downloader (`c49_worker_reads`, `fetchItem_ok`).
* missing: The full statement is false for the code: texts that happen to name files, partials, methods (proved). Inputs are made of numbers, texts, lists and tuples; the names of the parameters stand for signatures.
* theorems: `c71_inputs_kept`, `c71_refused`, `c71_replaced`, `c71_local_partial`, `c71_remote_partial`, `c71_missing`, `c71_label`, `c71_arguments`, `c71_partial_arguments`, `c71_last`, `c71_device`, `c71_result_dropped`, `c71_recognised`, `c71_partial_recognised`, `c71_values`, `c71_method_generator`, `c71_extension`, `c71_counts_as_path`, `c71_studio_file`, `c71_partial_overlooked`

**C72. All machines of a run use the same directories** (partial). In a run of map or optimize on several machines of an application, all machines end up with the same input directory and the same output directory, and these are directories that a machine of this run was given, whatever requests to the service fail or are repeated.

* model: `Model/Broadcast.lean`: the pickle of a `Dir` byte by byte (protocol 0, `raw-unicode-escape`), `decode`/`bytes` as UTF-8, `set_and_get` and `broadcast_object` of all machines as a transition system with lost requests, lost replies, answers without a value and errors; the two keys that `DataProcessor` uses.
* proof: The pickle is read back (`unpickle_pickle`), so the payload determines the directory. Invariant `CastInv` over all executions: the service holds values sent under the key, a finished call has the value of its key. UTF-8: a text has 0 or at least 2 bytes above 127 per character, so one Latin-1 byte is never valid.
* missing: The service is outside of the repository; that the first value of a key stays is what its class says (broadcast.py:110-115). The full statement is false for the code (proved). Surrogates and a path that is the same object as the URL are left out.
* theorems: `c72_value`, `c72_sendable`, `c72_unsendable`, `c72_agree`, `c72_settled`, `c72_answered`, `c72_never_sent`, `c72_nodes_agree`, `c72_one_run`, `c72_second_run`, `c72_second_run_happens`, `c72_local`

**C73. Requests to S3 are made with fresh credentials** (partial). The S3 client that is used for a request was made no longer ago than the refetch interval (3300 seconds), and it is not made anew more often than once in an interval.

* model: `Model/Client.lean`: the property `client` of `S3Client` over moments and readings of the clock.
* proof: Invariant `ClientInv` over sequences of accesses.
* missing: How the client is made, and how long a request takes after the access.
* theorems: `c73_fresh_partial`, `c73_kept`, `c73_renewed`, `c73_slow`, `c73_clock_set_back`

**C74. The name servers of the machine are left as they were** (partial). After a call of map or optimize, however it ends, /etc/resolv.conf has the content that it had before; during a call with optimize_dns the local name server is the cache.

* model: `Model/Dns.lean`: `optimize_dns_context`, `optimize_dns` and `_optimize_dns` on the lines of the file.
* proof: Case analysis over the lines; `switchDns_twice`.
* missing: Other programs that write the file; a file that cannot be read.
* theorems: `c74_restored_partial`, `c74_outside`, `c74_other_lines`, `c74_own_server`, `c74_interrupted`

**C75. A downloader fetches the file that its URL names** (partial). For every built-in downloader, a call fetches the object that the URL names to the local path with its content; it changes no other file, leaves a file alone that is already there, and for a missing object or a URL of another scheme it raises and leaves no file. What was uploaded for a dataset is what is fetched when the dataset is streamed.

* model: `Model/Fetch.lean`: `download_file` of all six downloaders (S3 with the client and with the command of s5cmd as a line of a shell, GCS, Azure, Hugging Face, local, local with cache) over tables of objects and of local files, `download_chunk_from_index`, and how `ChunksConfig.load` fetches the index. Whether the lock is taken is an argument; the interleavings are in `Model/Download.lean`.
* proof: `c75_fetch`, `c75_missing_partial`, `c75_kept`, `c75_scheme`, `c75_frame`, `c75_hub`, `c75_local` follow the calls for all inputs; `c75_chunk` and `c75_dataset` add how the paths are joined, by induction over the files; `c75_uploaded` composes them with the uploads of C67.
* missing: Azure leaves an empty file (`c75_azure_empty`); `c75_double_slash`, `c75_space`, `c75_hub_no_org`, `c75_local_inside` are violations for all data of their kind. What a shell does with special characters is an arbitrary function. Permissions and broken connections are not modelled here.
* theorems: `c75_fetch`, `c75_missing_partial`, `c75_azure_empty`, `c75_kept`, `c75_scheme`, `c75_frame`, `c75_hub`, `c75_hub_no_org`, `c75_local`, `c75_local_inside`, `c75_chunk`, `c75_dataset`, `c75_uploaded`, `c75_double_slash`, `c75_space`, `c75_bucket_only`, `c75_chunk_missing`, `c75_first_failure`, `c75_index_cached`, `c75_index_missing`

**C76. A worker that streams from a remote folder delivers what it would read from the disk** (partial). Whatever the order of the steps of the reader, of its download thread, of partly arrived files and of other workers that fetch and delete the same chunks, the samples that a worker delivers are, in order, those that it would read if all chunks were on the disk; it asks for its chunks and gives them up in the order of its split, and from every state in which nothing was raised it can get to the end of its pass.

* model: `Model/Reader.lean`: `BinaryReader.read` for a dataset with a remote folder as a transition system over the thread of `Model/Prepare.lean`, the files in the cache (also partly arrived), the loader of `Model/ChunkFile.lean` and other workers that fetch or delete chunks. The thread takes any step at any time; waiting, asking by force and giving up waiting are steps of their own.
* proof: `c76_same_samples` (an invariant over all executions), `c76_protocol` (it refines the protocol of C28), `c76_progress` and `c76_no_deadlock` (from every state without exception the end can be reached), `c76_worker` and `c76_resumed` (composed with the splits and `__next__` of C01-C06 and the files of C53); `c76_by_index`, `c76_by_index_requests` (an invariant over all executions for items asked for by index). `Model/ReaderFine.lean` splits a fetch into its steps (tests for files, download, removal of the compressed file, bytes written in place, counting afterwards), for plain and compressed chunks; `c76_fine_refines` proves that it refines the model above (the counting is moved to the moment when the file is whole), and `c76_fine_no_deadlock` that no state within a fetch is a dead end; `c76_fine_worker` is `c76_worker` for it. `c76_compressed_removed` and `c76_compressed_stays` say when the compressed files are removed.
* missing: `TokensLoader`, compressed chunks used by several workers (C31), the wait for the thread at the end (`reader.py:431-438`). With encryption only without other workers on the same chunks; progress only for chunks that no other worker deletes. Random access may stall (`c76_back_and_forth`).
* theorems: `c76_same_samples`, `c76_protocol`, `c76_progress`, `c76_no_deadlock`, `c76_worker`, `c76_resumed`, `c76_back_and_forth`, `c76_open_chunk_deleted`, `c76_by_index`, `c76_by_index_requests`, `c76_fine_refines`, `c76_fine_same_samples`, `c76_fine_by_index`, `c76_fine_no_deadlock`, `c76_fine_worker`, `c76_compressed_stays`, `c76_compressed_removed`

**C77. Blocks of tokens are right, and nothing fails, while the thread loads chunks ahead and deletes them** (partial). Whatever lines of the download thread (fetching a chunk piece by piece, loading it ahead, deleting one that was given up) come between the lines of a reader that streams blocks of tokens from a remote folder, each block delivered is the one asked for, and neither the reader nor the thread raises an exception.

* model: `Model/TokensThreads.lean`: `TokensLoader._load_chunk`, `pre_load_chunk`, `load_item_from_chunk`, `delete` and `close`, and what `BinaryReader.read` and its thread do around them, as an executable step function with one step per line that touches shared state.
* proof: Invariants `TTInv` (maps belong to their chunks and are unmapped only when given up, files are whole when mapped, both dictionaries are set but in the window) and `TTClose` (counters, and what closing and deleting leave) over all runs; the failures are shown by runs that the kernel evaluates.
* missing: Files used by other processes, the time limit of the wait, and one block read while another reader of the same process uses the loader. The order of deletions and downloads of the thread is left open (more behaviours than the code has).
* theorems: `c77_blocks_partial`, `c77_window`, `c77_no_clash`, `c77_nothing_fails`, `c77_key_error_while_loading`, `c77_thread_dies`, `c77_key_error_while_closing`, `c77_deletes`, `c77_loads`

**C78. Several datasets in one process do not disturb each other** (partial). A program that opens several datasets in one process, reads them by index in any order and splits some of them before or after reading, gets from each dataset and from each split exactly the samples that its own files and regions say, whether item loaders are given to the datasets or not, and also if one item loader is given to several datasets.

* model: `Model/Sessions.lean`: the objects of a process (datasets, item loaders, which may be shared), opening a dataset at its first access, `dataset[i]`, and `train_test_split` with the copies of datasets and item loaders that it makes, as an interpreter of programs.
* proof: A simulation: the invariant `SessInv` relates the objects to lists of samples (`Spec/Sessions.lean`), each call keeps it, so that any program reads what the lists say. The failures are runs that the kernel evaluates, those of `TokensLoader` theorems about all states.
* missing: The cases in which the code delivers other samples. Remote and compressed datasets (C76), datasets whose chunks are not in the order of the index when they are split (C17), iterating (C01).
* theorems: `c78_own_samples_partial`, `c78_shared_decrypted`, `c78_split_after_read`, `c78_shared_format`, `c78_tokens_shared`, `c78_tokens_split_fails`

**C79. A dataset opens from the text of its index exactly when the settings fit, and then reads what was written** (partial). Constructing a dataset over an index that the writer has dumped succeeds exactly when the directory exists, some chunk is selected, the item loader is the one the index names, every data format has a serializer, the structure can be loaded, the compression is installed, and tokens come with a positive block size and a known dtype; otherwise the constructor raises. An open dataset has the chunks, regions and number of samples of the index and reads back each sample that was written.

* model: `Model/Opening.lean`: the text of `index.json` as the writer dumps it, its loading with the parser of `Model/Json.lean`, the constructor of `StreamingDataset` (`subsample_streaming_dataset`, `generate_roi`), and `ChunksConfig.__init__` with the item loaders `PyTreeLoader` and `TokensLoader` at the first use.
* proof: `c79_index_read` (the text is read back as it was written), `c79_constructed_iff` and `c79_opens_iff` (exactly when the two stages succeed, against `Spec/Opening.lean`), `c79_opened_right` and `c79_opened_reads` (what an open dataset holds and reads), `c79_whole_opens` and `c79_written_read_back` (composed with C13 and C16: samples are written, the index is dumped, opened, and every sample is read back).
* missing: The constructor does not check the configuration (`c79_constructor_blind`, `c79_wrong_loader`). `ParquetLoader`, item loaders of the user, ratios that are almost but not quite 1, and index files that this version has not written (C26).
* theorems: `c79_index_read`, `c79_constructed_iff`, `c79_opens_iff`, `c79_opened_right`, `c79_opened_reads`, `c79_whole_opens`, `c79_written_read_back`, `c79_constructor_blind`, `c79_wrong_loader`, `c79_last_field`

**C80. Functions over nested samples visit each leaf once and keep the structure** (partial). For every nested sample, iterating, flattening and listing with key paths give the same leaves, each once, from left to right; key paths are distinct and lead to their leaves. Mapping a function over one or several samples succeeds exactly when the other samples have the containers of the first one (dictionaries in any order) and the function raises on no leaf; it calls the function with the values at the same key path and puts the results there, changing nothing else. Mapping the identity changes nothing and mapping twice is mapping the composition. Broadcasting gives each leaf the leaf that is on the way to it.

* model: `Model/TreeMap.lean`: `tree_iter`, `tree_flatten` with `is_leaf`, `flatten_up_to`, `tree_map`, `tree_map_`, `map_only`, `tree_all`, `tree_any` and their `_only` forms, `arg_tree_leaves`, `_broadcast_to_and_flatten`, key paths, `tree_map_with_path` and `key_get`, over the trees of `Model/Pytree.lean`.
* proof: Structural induction over trees and lists of trees against `Spec/TreeMap.lean` (positions, `IsLeafAt`, `Covers`, `SameShape`, `mapTree`). `c80_map_iff` and `c80_map_with_path_iff` say exactly when mapping succeeds and what it returns, by key paths alone; `c80_leaves`, `c80_paths`, `c80_map_error`, `c80_map_map`, `c80_broadcast` and `c80_broadcast_complete` the rest.
* missing: Lists of JPEG images (`c80_images_change_structure`, `c80_images_refused`). Types registered by the user; functions that change the containers while they are mapped over.
* theorems: `c80_leaves`, `c80_paths`, `c80_map_iff`, `c80_map_with_path_iff`, `c80_map`, `c80_map_id`, `c80_map_error`, `c80_in_place`, `c80_map_only`, `c80_map_map`, `c80_map_map_no_images`, `c80_all_any`, `c80_broadcast`, `c80_broadcast_complete`, `c80_broadcast_self`, `c80_images_change_structure`, `c80_images_refused`, `c80_arg_leaves`

**C81. From the inputs of optimize to the batches of a training loop nothing is lost, repeated or changed** (proved). Let optimize run on one machine with any number of workers, downloaders and uploaders, none of which fails, under any schedule of these processes, with or without compression and encryption, for a function that yields samples with one structure. Let the merged index be written as text, and let a dataset be opened from this text and the output folder. Let each worker of each rank stream its share from the folder, its thread fetching files byte by byte in any interleaving with the reading, and let each rank collect batches of its workers with a data loader, in any interleaving. Then, unshuffled, or shuffled on one node or in the first epoch, once all loaders have ended their batches hold together exactly the samples that the function yielded for all inputs, each as often as it was yielded; no batch is empty or larger than asked for; with drop_last and no shuffling they hold the largest prefix that gives all ranks the same number of full batches. Workers of encrypted or compressed datasets have the cache to themselves. Each worker that may run two chunks ahead on an empty cache can come to its end, and so can each loader.

* model: Nothing new: the models of `optimize` (Model/Processes, Model/Writer, Model/Merge), of the index text and of opening (Model/Json, Model/Opening), of the reader with its thread byte by byte (Model/ReaderFine), of the split (Model/Shuffle), of one pass (Model/Iter) and of the data loader (Model/LoaderIter) are put together. The content of the output folder, the text of the index and the opened dataset are what the previous part leaves.
* proof: `optimized_dataset` strengthens the theorem on the merged index with what the reader needs: different names, sizes of files and numbers of samples as in the index. `remote_batches` combines the reader with the split, `rankLoader_all` the loader. `c81_batches` is the statement for any stored dataset that was opened, `c81_optimize` starts at the inputs of `optimize`. `c81_workers_end` and `rankLoader_ends` say that the ends which these theorems speak of can be reached. `c81_nodes` starts at the inputs of `optimize` on several machines, which put their indexes together in any order. Three examples carry small cases through all of this.
* missing: Resuming (C83) and several workers on one cache for encrypted or compressed datasets are not part of the composition.
* theorems: `c81_batches`, `c81_optimize`, `c81_workers_end`, `rankLoader_ends`, `c81_nodes`

**C82. Appending to a dataset keeps its samples and adds the new ones** (proved). Let a folder hold a dataset written by this version with the same settings, and let optimize run on it with mode="append" on one machine, with any number of workers, downloaders and uploaders, none of which fails, under any schedule. Then the run ends, no file of the old dataset is changed, the new index lists the old chunks first and unchanged and then the new ones, and all names are different. A dataset opened from the text of the new index is streamed in batches by any number of ranks and workers so that the batches hold exactly the old samples and those that the function yielded for all new inputs, each as often as it was there.

* model: Nothing new: the numbering of Model/Append.lean (`optimize` reads the names of the existing index), the processes and the writer as in C62 with the first chunk number of each worker, the merge of Model/Merge.lean with an existing index, and the rest as in C81.
* proof: `WorkerAdds` and `node_adds` say what workers leave that begin at given numbers; `c82_appended` adds that no name of the old index is among the new ones (by the numbering), so that old files are as before, and that the merged index is the old one followed by the new chunks. `dataset_gives` takes any chunks with different names and files of the right sizes through the index text to the batches; `c82_append` puts both together. An example appends six samples to one.
* missing: Appending on several machines, which overwrites files (`c26_second_node_overwrites`); names made by other programs; a run that fails.
* theorems: `c82_appended`, `c82_append`, `dataset_gives`

**C83. A training loop that is stopped and resumed any number of times gets the batches of an uninterrupted one** (proved). Let the workers of every rank stream a dataset from a remote folder, shuffled (in the first epoch or on one node) or not, each with its thread that fetches files byte by byte, and let the StreamingDataLoader of each rank collect batches. Let the loop be stopped at any moment after at least one batch at which every worker has a sample left, its state be saved and loaded into a new loader, whatever the workers had read ahead, and let this happen any number of times. Then every worker that is resumed reads exactly what it had left, the state saved each time is the one that an uninterrupted loader would have saved after as many batches, and once a loader comes to the end of the epoch all batches together are, one by one, those of a loader that was never stopped; so the epoch gives every sample exactly once. A resumed worker that may run two chunks ahead on an empty cache can come to its end, and so can a resumed loader.

* model: Nothing new: the loader state of Model/Loader.lean, the rotation of Model/LoaderIter.lean, `resumeState` of Model/Dataset.lean and the reader of Model/ReaderFine.lean.
* proof: `RunsOf` are the runs of a loader, each but the first loaded from the state that the one before has saved; `runsOf_state` is the invariant (the batches so far are the first visits of the uninterrupted rotation, the state is what that loader would have saved), with `loader_goes_on` for one more run. `worker_reads` says for a worker, at any moment of any interleaving with its thread, that it has read a prefix of its values; `c83_interrupted` puts both together and adds that the values of all workers are the samples. `c83_ends` and the field `ends` of `WorkerReads` say that the ends can be reached. An example stops twice.
* missing: Stops at which a worker has no sample left, where the code raises (C06) or loses batches (C21), and combined datasets (C66).
* theorems: `c83_interrupted`, `c83_ends`, `loader_goes_on`, `runsOf_state`, `c83_same_cache`

**C84. Samples that were read can be written again** (partial). Let samples be written with the built-in serializers and read back. Writing the samples that were read, as when a dataset is filtered or put together from others, gives the same bytes, the same data format and the same structure, so that the new data can be appended to the dataset it comes from.

* model: `Model/Rewrite.lean`: leaves with NumPy scalars told apart (`PyVal`), and the default table of serializers on them; pickle is a parameter.
* proof: `npCol_own` and `npPicks_asRead` relate the table to that of C12 leaf by leaf; `serializeFirst_same` and `serializeAll_same` say that leaves with the same bytes give the same file. `c84_ints_are_pickled` is the exact data format of samples written again; `c84_append_refused` adds the merge of Model/Merge.lean with an existing index.
* missing: Integers, JPEG files and palettes, for which it is false. The statement is about the list of leaves and the structure of a sample; the structure itself is C11.
* theorems: `c84_written_again_partial`, `c84_ints_are_pickled`, `c84_append_refused`, `c84_jpeg`

**C85. Batches of token blocks from a local folder hold every block once** (partial). Let token lists be written by optimize with TokensLoader and the output folder be streamed as a local dataset by any number of ranks and workers through the data loader. Then every batch holds the blocks that were asked for, and the batches of an epoch together hold every block of every chunk exactly once; only the last tokens of a chunk, fewer than a block, are left out.

* model: `Model/TokensStream.lean`: `BinaryReader.read` with `TokensLoader` for a local dataset (load, then close the chunk read before), the fetcher of a worker that collects the views of a batch, and collating them afterwards. Together with `Model/Tokens.lean`, the split, the iterator, the data loader and the processes of `optimize`.
* proof: `PassInv` is the invariant of a pass: the counter of each chunk is the number of its blocks read, less one once the chunk was left; a chunk is mapped exactly if its counter is not 0; each view handed out is either right or, if its block was the only one read of a chunk that was left, unmapped. `c85_worker` gives every batch of every worker exactly; an item loader that lives on holds the loads that earlier epochs did not close (`heldAfter`). `c85_epoch_partial` composes it with the splits and the data loaders, `c85_epochs_partial` over any epochs with the same workers; `c85_optimize_partial` with the processes of `optimize`, the writer and the merge.
* missing: Batches in which a worker reads a block alone in its chunk and then a block of another chunk, for which it is false. Remote and compressed datasets, whose thread also loads and deletes chunks (C32 says what the loader does under any interleaving).
* theorems: `c85_worker`, `c85_epoch_partial`, `c85_dataset`, `c85_optimize_partial`, `c85_alone_is_lost`, `c85_witness`, `c85_epochs_partial`

**C86. An epoch over a combined dataset gives every sample of every dataset once, over all ranks and workers** (partial). Let stored datasets be combined with iterate_over_all and streamed by any number of ranks and workers through the data loader, each dataset in each worker with its own thread, shuffled (on one node or in the first epoch) or not. Then, whatever is chosen at random, every worker gives the samples of its shares of all datasets and stops, and the batches of all ranks together hold every sample of every dataset exactly once. Without iterate_over_all and with any weights no sample is given twice.

* model: Nothing new: the combined iterator of Model/Combined.lean in every worker of every rank over what the workers of the single datasets read (C81), with the lengths of Model/LoaderSettings.lean as weights, and the data loader of Model/LoaderIter.lean.
* proof: `takeAll_more` makes the result of a worker independent of the number of turns; `by_dataset` and `combined_outs` put the outputs of all workers together, dataset by dataset; `new_length` and `c86_length_positive` say what the weights are. `c86_stored_partial` starts at stored files. `c86_zero_weight_fails` has its own invariant (`ZeroInv`, Lemmas/CombinedZero.lean): both a dataset of weight 0 and one of positive weight are listed until the last division fails.
* missing: Datasets with fewer samples than ranks, for which it is false. Resuming (C20, C66). Without `iterate_over_all` nothing is given twice (`c86_first_partial`), for streams that are given as lists.
* theorems: `c86_stored_partial`, `c86_epoch_partial`, `c86_first_partial`, `c86_length_positive`, `c86_zero_weight_fails`, `c86_small_dataset_fails`, `c86_epochs_partial`

**C87. Batches of token blocks from a remote folder are right however the prefetching thread runs** (partial). Let a worker read token blocks from a remote folder, chunk after chunk, and collate them into batches, while its thread fetches chunks, loads them ahead and deletes those that were given up. Then under every interleaving of the lines of both threads each batch that is collated holds the bytes of exactly the blocks that were asked for, in order, and at the end of the pass all batches were given.

* model: `Model/TokensBatch.lean`, on top of `Model/TokensThreads.lean`: the reader returns views (number of the memory map, number of the block), the fetcher collects them, and the collate function reads the maps as they are then, as one step between the lines of both threads. A closed map reads as `none`.
* proof: `TBInv`: the invariants of C77 for the threads, that a view belongs to the map of its chunk, that the chunk of the last block is not given up before the end of the pass (`KeepsLast`), that maps are unmapped only for chunks given up, and, with two blocks of each chunk, only for deleted ones. By induction on the steps every batch collated is right or has a view of an unmapped map.
* missing: deletion and the end of a pass, where the statement is false; chunks that other processes lock; collating is one step
* theorems: `c87_batches_partial`, `c87_no_deletion`, `c87_one_chunk`, `c87_spanning_crash`, `c87_spanning_right`, `c87_last_crash`, `c87_single_block_crash`

**C88. No process is left behind by optimize or map** (partial). However a run of optimize or map ends (it returns, it raises because a worker failed, or the main process is interrupted), the downloaders, uploaders, removers and workers that it started come to an end.

* model: `Model/Children` on top of `Model/Processes`: what downloaders, uploaders and removers do after the workers were terminated or told to stop
* proof: the local invariant of `Model/Processes` is kept by the events of the remaining processes; well-founded order; exact description of the states of rest
* missing: uploaders and removers are only told to end by a worker that has handled all its inputs, so every failing run leaves them behind (`c88_every_error_leaks`), and so does an interrupt (`c88_interrupt_hangs`). Left out: messages that a terminated process had put into a queue but not yet written to the pipe
* theorems: `c88_returns_partial`, `c88_worker_returned`, `c88_failure_leaks`, `c88_every_error_leaks`, `c88_left_behind`, `c88_join_hangs`, `c88_join_hangs_occurs`, `c88_interrupt_hangs`

**C89. A failing download delays a worker or ends its pass with an error in time, and does no lasting harm** (partial). If the download of a chunk fails, the worker delivers no wrong sample, it tries again or raises within the time limit, and once the remote folder can be read again, the dataset can be read again with the same cache.

* model: `Model/Wait` (the waiting loops of the three item loaders, polls with arbitrary times) and `Model/FailedDownload` (the model of `Model/ReaderFine`, whose thread may die at any point of a fetch)
* proof: induction over the polls; every state after a failure is one of `Model/ReaderFine`, so its invariants hold; an invariant for a file of which only a part is there
* missing: nothing in `PrepareChunksThread.run` catches an exception, so there is no retry (`c89_no_retry`), `ParquetLoader` has no time limit (`c89_parquet_hangs`), and a part of a file that was written in place is never replaced (`c89_part_blocks`). Left out: retries inside of the libraries of the cloud providers
* theorems: `c89_same_samples`, `c89_wait_found`, `c89_wait_raises`, `c89_wait_raises_though_there`, `c89_wait_forces`, `c89_wait_ends`, `c89_wait_bound`, `c89_parquet_hangs`, `c89_tokens_polls`, `c89_no_retry`, `c89_failure_raises_late`, `c89_reads_what_is_there`, `c89_part_blocks`, `c89_failure_spoils_cache`, `c89_clean_failure`, `c89_spoiled_occurs`, `c89_second_chunk_occurs`, `c89_dead_in_fetch`, `c89_recovers`

**C90. Each epoch over one cache delivers its samples and can be followed by the next** (partial). A worker that reads one epoch after the other over a remote dataset, with the same cache, delivers in every epoch exactly the samples of its assignment, whatever files the epochs before left in the cache and whatever item loader is used, and every epoch can be brought to its end.

* model: `Model/Epochs` on top of `Model/ReaderFine`: a worker that is alone on its cache reads one pass after the other, with a new reader each time; the files stay, and so does an item loader that was passed to the dataset
* proof: each pass is one of `Model/ReaderFine` that begins with the whole files that are left (`epochs_reach`, `epoch_end`), so the theorems of C76 hold for it; `exitMeasure` bounds the steps of a thread that was told to stop; the passes of all epochs are composed with C81 in `Props/EpochsWhole`; passes that end anywhere (`EpochsOff`) and resuming in `Props/EpochsBroken`; with a loader that is kept, a simulation up to the first item (`withLoader_step`, `step_back`) and an invariant (`GivenInv`) over all passes
* missing: `PyTreeLoader.close` keeps the path of the file that it closes, so a loader that is kept raises if the next pass begins with the same chunk (`c90_given_raises`). Left out: that the wait for the thread at the end of a pass can time out, passes that are broken off, and encrypted chunks with a loader that is kept
* theorems: `c90_same_samples`, `c90_thread_ends`, `c90_goes_on`, `c90_given_same_samples`, `c90_given_goes_on`, `c90_given_raises`, `c90_single_chunk`, `c90_batches`, `c90_workers_end`, `c90_off_same_samples`, `c90_off_goes_on`, `c90_off_anywhere`, `c90_resumed`, `c90_off_batches`, `c90_off_workers_end`

**C91. A chunk that is in the cache is not downloaded again** (partial). A pass that begins with the file of a chunk in the cache does not download this chunk, as long as the chunk is not deleted, and it leaves no other files of the chunk behind.

* model: nothing new: passes of `Model/ReaderFine` and `Model/Epochs` that begin with files in the cache
* proof: two invariants of a pass (`WarmInv`, `PackedInv`) by induction over all steps; a thread that has ended has fetched all that was asked for (`fetched_reach`); nothing is deleted below `max_pre_download` (`nothing_deleted`)
* missing: false for compressed chunks, see below. Other workers on the same cache are left out
* theorems: `c91_not_again`, `c91_compressed_again`, `c91_second_epoch`

**C92. Breaking off an epoch leaves no chunk locked** (partial). The counter of a chunk counts the passes that still need it: when a pass ends, by its last item or because the loop over the dataset is broken off or the process is killed, the chunks that it had counted are free again, so that later passes can delete them and the limit of the cache is kept.

* model: `Model/BrokenOff`: the thread of `Model/Prepare` with the counter file and the presence of each chunk, over any number of passes that are read to their ends or broken off
* proof: an invariant (`LockInv`) over the steps of a pass relates the counter to the logs of fetched and given up chunks; induction over the passes
* missing: false when a pass is broken off, or the reader is ahead of its thread, see below. Left out: other workers, timeouts of the locks (C29), and steps that a stopped thread still makes while the next pass has begun
* theorems: `c92_counts`, `c92_whole_pass`, `c92_whole_passes`, `c92_broken_leaves`, `c92_stays`, `c92_limit_lost`, `c92_ahead_leaves`

**C93. Copies of the inputs leave space on the disk, and waiting for space does not stop the run** (partial). While map or optimize downloads its inputs ahead, enough of the disk of the cache stays free: downloaders wait while less than the threshold is free. The wait never stops the run: copies that were used are removed, so that every run whose inputs fit on the disk one by one comes to its end.

* model: `Model/DiskSpace`: where each input of a machine is, and the bytes that each downloader has written
* proof: `taken_bound`: what the copies take, counting those that are being downloaded in full, grows only when a downloader has just seen the threshold free; `spaceMeasure` decreases with every step
* missing: see the note: the wait looks at `/` and at a fixed 25 GB. Left out: copies that are there before the run, items that share a copy (C49), chunks that wait for their upload, other programs that use the disk
* theorems: `c93_inputs_bounded`, `c93_no_overflow`, `c93_bounded`, `c93_goes_on`, `c93_small_disk`, `c93_never`, `c93_other_disk`, `c93_outputs_stop`

**C94. Profiling records the batches asked for and changes nothing else** (partial). With profile_batches=k and profile_skip_batches=s, result.json holds the loading of k batches of the first worker after its first s batches (with True: of all batches); no batch is changed; no other loader is profiled, and a trace that was written stays until another profiled loader writes its own.

* model: `Model/Profiling.lean`: the wrapper around `fetch` with its counter and tracer, the worker loop that starts and ends it, the constructor checks, and the process of the user with PyTorch's worker loop, which loaders replace. VizTracer is a flag and the list of the fetches that ran while it was enabled.
* proof: `prof_inv` (induction on the fetches, last one first): before `s + k + 1` batches were returned the tracer holds exactly the fetches that began with between `s` and `s + k` batches returned; then it is saved and `fetch` unwrapped. The statements about several loaders are inductions on the passes.
* missing: the four parts where the code does something else; what VizTracer writes; workers that are killed
* theorems: `c94_batches`, `c94_recorded`, `c94_one_too_many`, `c94_true`, `c94_only_when_asked`, `c94_patch_stays`, `c94_trace_lost`, `c94_caching_ends`, `c94_refused`

**C95. The index of a parquet dataset is found where it was written** (partial). After index_parquet_dataset, a dataset opened over the same place (with index_path if the index was written to another directory) loads exactly the index that was just written: for a local directory, for a directory in the cloud and for one on Hugging Face; no other file is lost.

* model: `Model/IndexPlace.lean`: the directory chosen by the constructors, `write_index` of the three classes, and the part of `subsample_streaming_dataset` that finds the index, on the local file system of `Model/Modes` and the cache directories of `Model/CacheDir`; the remote storage is the object `index.json` under the URL
* proof: what is in the file system after writing, `c58_create` for what opening a version does to the cache, `c55_uploaded` for the upload in pieces
* missing: credentials and failures of the storage; `updated_at` is a function of the index; directories without files are not in the file system, their existence is a parameter; the timestamp of a new index is assumed not to be in the cache yet.
* theorems: `c95_local`, `c95_cloud`, `c95_hf`, `c95_local_elsewhere`, `c95_missing_directory`, `c95_cloud_removes`, `c95_local_scheme`, `c95_local_scheme_nowhere`, `c95_index_in_cache`

**C96. A call with num_nodes does its work once, with the arguments of the user** (partial). map and optimize with num_nodes run the script with the same arguments on the machines, return when the job has completed and raise when it has not; each call of a script does its work once, also when the script has several.

* model: `Model/RemoteJob.lean`: the command that `_execute` makes, the words a shell makes of it, the loop that waits for the job, and scripts as lists of calls, with how often each has done its work
* proof: induction over the command, over the rounds of the wait, and over the calls of a script with closed forms for what a job and a script have done
* missing: the SDK; quotes, `$` and other special characters in arguments (only blanks are looked at); the parts of a script other than `map` and `optimize`; each call is assumed to have an output of its own which all machines share, and a job to do each call once (the sharing of the work between nodes is that of C63).
* theorems: `c96_command`, `c96_wait`, `c96_stopped`, `c96_first_job`, `c96_script`

**C97. A dataset grows over any number of appending calls, some of which are broken off** (proved). Let optimize be called any number of times on one folder with mode="append" (the first time the folder is empty), on one machine and with the same settings, each time with other inputs, another number of workers and another schedule; and let any of the calls fail or be killed in any state, leaving anything of the files that it was writing. Then no call changes a file that the index lists, the index in the folder opens, and the batches that all ranks stream from it hold exactly the outputs for the inputs of the calls that returned, each once.

* model: `AppendHistory` in Props/AppendMany.lean: what a folder can hold after calls that returned (the processes of Model/Processes.lean, the numbering of Model/Append.lean and the merge of Model/Merge.lean) and calls that were broken off in any state
* proof: induction over the history (`history_inv`): names are those of this version and different from one another, the files hold the items, and these are read as the outputs; each step is `c82_appended`, or `not_emitted` (no worker gives a name of the existing index to a chunk) for what a broken call leaves; then `dataset_gives` for the batches
* missing: several machines; checkpoints (C68); a first call without output
* theorems: `c97_grown`, `c97_kept`, `history_inv`, `remote_old`, `not_emitted`

**C98. A pass that is broken off does not spoil the states saved later** (partial). A script may break off a pass over a StreamingDataLoader at any time and begin another one: the workers of the next pass begin where the counters of the loader say, with the worker whose turn it is, so that a state that is saved in it resumes with the batch after the last one that was given.

* model: `Model/ResumedLoop`: a script that loads a state, begins passes, takes batches and saves states, over the loader of `Model/Loader` and the state that the dataset keeps in the main process; `Model/ResumedCombined`: the same over a combined dataset, with the dictionary that loader and dataset share
* proof: A closed form of the loader and of the kept state after any number of broken passes (`c98_next_pass`, induction over the steps); `c98_right_iff` is the exact condition, `c98_counted_twice` what a state saved later says; `c98_given_again` composes it with the workers of C06 and the round robin of C39 in every schedule; `c98_not_resumed` and `c98_ended` are the cases in which the claim holds; `c98_combined_*` are invariants of the shared dictionary over all passes, composed with the recorded counters of C66
* missing: false after a resumed pass is broken off, see below. Left out: persistent_workers; for combined datasets a turn that is not that of the recorded worker (C21)
* theorems: `c98_next_pass`, `c98_right_iff`, `c98_counted_twice`, `c98_not_resumed`, `c98_ended`, `c98_given_again`, `c98_example`, `c98_combined_shared`, `c98_combined_stale`, `c98_combined_lost`, `c98_combined_loaded`, `c98_combined_example`, `c98_load_again`, `c98_whole_epoch_raises`

**C99. Workers that live on stay in the epoch of the loader** (partial). With persistent_workers=True the workers of every pass are in the epoch that the loader counts and records: a pass that is read to its end gives every sample once, and a state that is saved in it resumes in the order in which the samples were given.

* model: `Model/Persistent`: the copy of the dataset in a worker that lives on, over any number of passes with any number of calls of `__next__` in each (on `Model/Dataset`), beside the epochs of the loader (`Model/Loader`)
* proof: The epoch of a copy grows exactly in the passes in which its iterator ends (`run_epoch`, induction over the calls); `c99_same_epoch_iff` is the exact condition; `c99_complete` composes it with C04 and C05
* missing: false after a pass was broken off (`c99_mixed_epochs`, `c99_state_wrong`, `c99_broken`). `Model/PersistentLoaded` adds copies with a loaded state: `c99_copies`, `c99_copy_gives` (what a resumed and a later pass give, with C05 and C06), `c99_loaded_iff` the exact condition, `c99_loaded_mixed` where it fails. `c99_when_loaded`: which copies a state reaches. Left out: several nodes (C04). That a worker calls `iter` on its copy at the beginning of a pass is what PyTorch does
* theorems: `c99_epochs`, `c99_same_epoch_iff`, `c99_complete`, `c99_broken`, `c99_mixed_epochs`, `c99_state_wrong`, `c99_copies`, `c99_loaded_iff`, `c99_loaded_mixed`, `c99_copy_gives`, `c99_when_loaded`, `c99_loaded_late_example`

**C100. A registered container type reads back as itself** (partial). However container types are registered with register_pytree_node, the structure of a sample that can be written into an index is read, with the same registrations, as the same structure with the same types; and a registration that raises has no effect.

* model: `Model/NodeRegistry`: the three registries as functions, the two ways to register, and the dumping and loading of structures of any depth over them
* proof: `c100_right_iff` by induction over the structure is the exact condition on the registry, `c100_step` the exact condition for a registration to keep it, `c100_roundtrip` the induction over all calls; `c100_half` is an invariant over all later calls
* missing: false when two classes get one name (`c100_taken_over`) and for a registration with a function for one direction only (`c100_half`). Contexts are numbers with any text for them; the text of the whole spec is in `Model/Json` and `Model/Pytree`; `c100_two_threads` is the interleaving of two calls
* theorems: `c100_right_iff`, `c100_step`, `c100_roundtrip`, `c100_taken_over`, `c100_again`, `c100_half`, `c100_unregistered`, `c100_example`, `c100_two_steps`, `c100_two_threads`, `c100_loaded_known`


## Where the code departs from the properties

Each line is proved as a witness (the theorem in brackets) about the model of the code as it is.

* Several nodes, epoch 2 or later: chunks shared by nodes are delivered twice [c04_multi_node_repeats]; ranks not divisible by nodes raise IndexError [c04_uneven_nodes_raise].
* Resuming when a worker had already finished raises IndexError [c06_resume_finished_worker_raises]; batch size and world size of the state are not compared [c07_batch_and_world_size_not_checked].
* The writer fails for some index orders, late indices and empty items [c08_*_fails]; empty items break the byte limit [c09_empty_item_exceeds].
* Items of 2^32 bytes or more cannot be read [c10_too_big_not_read]; a closed loader cannot read the same chunk again [c10_closed_loader_same_chunk_raises].
* Dictionaries with tuple keys lose their keys in index.json [c11_tuple_key_breaks]; integers beyond 64 bits and bfloat16 are refused [c12_*_refused].
* Samples without leaves fail [c13_no_leaves_fails]; later samples with another dtype or another key order are silently misread [c13_other_dtype_misread, c13_key_order_swaps].
* With eleven or more workers the merged order is not the rank order [c14_eleven_workers_out_of_order]; a merge that refuses has already removed index files, so a retry loses chunks [c14_retry_loses_chunks]; a node without output makes the merge fail [c14_empty_node_fails]; a worker without chunks is waited for for ever [c14_waits_for_idle_worker].
* `Cache.__len__` counts more than the region of interest [c15_cache_length_overcounts]; `subsample` of more samples than a chunk has reaches beyond it [c16_too_many_reaches_beyond].
* `train_test_split` of a shuffled subsample pairs regions with the wrong chunks [c17_mispairs_shuffled].
* Combined datasets: a member of length 0 [c18_empty_dataset_fails], stale counters [c19_stale_counters], resume after exhaustion [c20_exhausted_differs], per-stream resume [c20_per_stream_differs].
* Loader state: wrong worker after one ended, last batches lost, state before the first batch, state saved after loading drifts, used loader [c21_*].
* Sampler: idle replicas raise, replicas that draw different permutations repeat samples [c22_*].
* `fast_dev_run=True` keeps one input, not ten [c45_fast_dev_run_flag].
* Checkpoints: inputs without output are processed twice, two uploaders or downloaders lose outputs, a finished worker breaks the merge, tuple inputs are refused [c25_*].
* Append mode on several nodes overwrites and repeats chunks [c26_*].
* `merge_datasets` ignores differences of encryption, item loader and structure [c27_other_config_ignored].
* Chunk preparation stalls with look-ahead 1, without cache limit, and after a forced download [c28_*]; counters race with deletion in five ways [c29_*]; deleted lock files let two processes write [c30_deleted_lock]; decompression in place is seen unfinished [c31_*].
* Token blocks of encrypted datasets are cipher text [c32_encrypted_misread].
* Parquet: uneven row groups give wrong rows in low-memory mode [c33_uneven_groups]; files with the same base name overwrite each other's shards [c34_same_name].
* `overwrite` on an object store removes a sibling whose name extends the directory's [c36_sibling_removed]; a refused HEAD request with `mode=None` removes the dataset [c36_refused_request_removes].
* '2 GiB' is refused and '4.35tb' is a byte short [c37_*].
* The worker allowed to delete a shared chunk may not be the last user [c38_small_chunks, c38_cross_rank, c38_second_node].
* A serializer name with a colon, or a suffix that is a name, is read with another serializer [c42_*].
* A failed cloud upload is not noticed [c43_lost_upload]; inputs sharing a file make the job fail [c43_shared_file_fails].
* A registered prefix that extends an older one is never used [c44_new_prefix].
* `walk` takes a broken link for a folder and raises; a second iteration over the same `walk` object yields nothing [c47_broken_link, c47_second_pass].
* In a distributed run `dataset[:]` is the first `len(dataset)` samples of the dataset on every rank, not the samples of the rank, while
  `dataset[i]` reaches the whole dataset [c48_ranks].
* **User data is deleted.** The remover takes every path that begins with the characters of the cache directory for a copy: with the default
  `/tmp/data`, `optimize(input_dir="/tmp/dataset")` deletes its inputs [c49_prefix_deleted, c49_tmp_dataset_deleted]. Inputs outside
  `input_dir`, and links in it that lead outside, are deleted after they were processed [c49_outside_deleted].
* An item with an input outside `input_dir` and one to be copied kills the downloader with `SameFileError` [c49_mixed_fails]. `keep_path` is
  never consulted, since a `Dir` is always true.
* `str.replace` replaces every occurrence of the input directory, so that two inputs may share a copy [c49_shared_copy].
* A worker process that is killed (or one whose downloader died) leaves the main process polling empty queues for ever [c50_killed_hangs]. The
  failure of a worker without items may go unnoticed [c50_idle_failure_missed].
* Under `torchrun`, before `init_process_group`, every process detects the full world size but rank 0, so that all of them read the same
  part and the rest is never read [c51_uninitialized, c51_uninitialized_reads].
* `TokensLoader` counts every block read but the reader closes a chunk once: unless the chunk is deleted, its memory map is kept as soon
  as it was touched twice [c52_tokens_close, c52_tokens_leak].
* With `max_pre_download` above 2 and eager deletion, chunks at the end of an epoch stay on disk [c28_eager_keeps].
* An MDS index with a shard that is not compressed raises `TypeError`, since `zip_data` is `null` [c54_uncompressed_raises]. A shard that grew by
  compression is never found complete, since its compressed size is compared with the decompressed file [c54_zip_larger]. A column of the
  declared size zero is taken for one of variable size [c54_size_zero_misread]. With `zstd:7` as compression the suffix `.zstd` is not
  stripped and the compressed bytes are read as a shard [c54_level_not_decompressed].
* With weights given, a combined loader's state saved after the end of an epoch makes a new loader go through the finished epoch again instead of beginning the next [c21_weights_repeat_epoch].
* A folder whose name ends in `.parquet` makes indexing a local directory or one on the Hugging Face Hub fail; in a bucket it is left out [c55_folder].
* Parquet files whose columns have equal types but different names are indexed together, so that rows of one dataset have different keys [c55_other_names]. A file without columns is accepted before files with columns [c55_no_columns].
* The index of a Hugging Face dataset is never made again once it is in the cache, even if the dataset has changed [c55_hf_stale].
* `CloudParquetDir` passes the keys of `storage_options` as positional arguments to `fsspec.filesystem` (`utilities/parquet.py:140`); read from the code, not modelled.
* `CacheDataLoader` with a batch size and the default `chunk_bytes` always raises: the batch size is passed to the writer as `chunk_size`, which excludes `chunk_bytes` [c56_batch_size_refused].
* `_equal_item` tests `==` with `is True`, so a dataset whose samples hold NumPy arrays (or NaN) is always refused as not deterministic [c56_arrays_refused]. Only the first sample of each worker is checked [c56_cached holds for any later change].
* With fewer samples than workers the first worker has nothing to write and `merge` waits for ever [c56_few_samples_wait].
* With more than ten workers `cache[i]` is not `dataset[i]`, since worker indexes are merged in the order of their names [cache_filled].
* `len` of a caching loader is 0 with one worker and once the cache is filled [c56_length].
* Index files left by a run that stopped before merging make the next run drop its samples and merge the old index [c56_stale_index].
* If the data does not fit into the cache and `max_pre_download` is 4 or more, a reader faster than the downloads keeps all chunks on disk: chunks are only deleted while the counter is near `max_pre_download` [c57_eager_unbounded].
* A forced download that the thread handles after the chunk was read and deleted brings the chunk back for ever [c57_late_force]. A chunk that is locked when its turn comes is never deleted by this reader [c57_locked_kept].
* Without compression the text `.None` is removed from the names in the table of sizes, so chunks with such names count as nothing (example after c57_locked_kept).
* A compressed chunk that is already decompressed is downloaded again, and the compressed file then stays, uncounted, since `try_decompress` returns early (`config.py:130-157`) (`c76_compressed_stays`).
* `merge_datasets` writes an index without `updated_at`, as does nobody for MosaicML data: the cache of such a dataset is never renewed, even if the data has changed [c58_no_timestamp].
* When a dataset was updated, or its cache is new, processes that start together may remove the cache directory after another has downloaded the index into it [c58_update_race, c58_fresh_race]. Opening a newer version removes the files of a job that still reads the older one [c58_running_job].
* `/teamspace/gcs_folders` and `/teamspace/gcs_connections` are replaced by a cache directory but never get a URL, so they cannot be read [c59_gcs_without_url, c58_without_url].
* Prefixes are tested without the slash: `/teamspace/datasets_old/x` gets the URL of the dataset `x`, and a Studio called `this_studio_2` is taken for the running one [c59_prefix_confused]. A Studio whose shown name equals the name of another one is found in its place [c59_studio_ambiguous].
* A time template is filled in only if it is the first pair of braces of the path and at its end [c59_template, c59_template_missed].
* If the path of the output has the text `.checkpoints` in it, every uploaded file loses the last 38 characters of its path [c60_output_with_checkpoints]; so does a file of `map` with this text in its name, which also is moved into the folder of checkpoints [c60_map_with_checkpoints].
* Checkpoints are written under the rank of the worker among all nodes and looked for under its number within the node: with several nodes, workers of the second and later nodes resume from the checkpoints of the first [c60_other_nodes].
* Files of the same name that `map` writes for different inputs replace each other silently [c60_map_same_name].
* C28/C57: a chunk that is in the cache already (from an earlier epoch or another worker) can be read before the thread has looked at the request for it.
  The thread then hears of its end first: it may delete the chunk and fetch it again afterwards, and nobody deletes it a second time
  (`c57_warm_returns`); with deletion at once it is kept because the counter is too low (`c28_warm_kept`).
* C38: after a restart from a state dict the chunks shared between workers are not computed (`c38_resumed`), and `_apply_delete` asks `can_delete` but
  does not use the answer (`c38_ignored`): only the counter files protect shared chunks.
* C61: `RSAEncryption.save` writes the password in clear beside the private key it protects, so `load` ignores the password it is given
  (`c61_rsa_password_in_file`, `c61_rsa_roundtrip`); keys saved by an object with an empty password cannot be loaded with `load_keys`
  (`c61_rsa_keys_unreadable`); RSA encrypts no more than 190 bytes, so at level `chunk` no chunk of 46 samples or more can be written
  (`c61_rsa_limit`). `FernetEncryption.load` accepts any password; only reading fails (`c61_fernet_wrong_password`).
* `_upload_index` (data_processor.py:966-977): with a folder as output the last node does not wait for the indexes of the other nodes and fails with FileNotFoundError, or silently takes the `{n}-index.json` files of an earlier run, which no mode removes (C63).
* Every node runs `_assert_dir_has_index_file` for itself (functions.py:460): a node that starts after another has uploaded a chunk is refused (`mode=None`) or removes this chunk (`mode="overwrite"`) (C63).
* `_Result.num_bytes_per_chunk` is filled with `chunk_size`, the number of samples (data_processor.py:925) (C63).
* A `StreamingDataLoader` given to `map`/`optimize` (readers.py:136-152): the batches are counted for one process but split for all workers, so that the run fails with `StopIteration`/RuntimeError unless `N % (batch_size * workers) <= batch_size`; the test of this in the repo is skipped. Resuming from a checkpoint (data_processor.py:1160) reads the first batches again and silently leaves out the last ones (C64).
* `len(CombinedStreamingDataset)` is `get_len(1, 1)`, which sets the batch size and the number of workers of every dataset to 1; `StreamingDataLoader.load_state_dict` calls it for `iterate_over_all`, so a resumed loader splits its samples for another batch size (C65).
* `StreamingDataset.get_len` makes the shuffler once: a `drop_last` or `shuffle` set afterwards by the loader does not reach the length (C65).
* With several workers a loader over a combined dataset delivers more batches than `len(loader)`: the last batch of each worker is cut for all datasets together, while the length adds up the datasets (C65).
* The state of a loader over a combined dataset holds for each dataset the total over all workers, and `_replay_sampling` divides it as if the workers had taken full batches of this dataset in turn. With several workers and batches of several samples this is wrong unless each worker has taken a multiple of the batch size: samples are lost and others repeated (C66).
* A worker that has finished one of the datasets, or never had a sample of it, raises IndexError when it goes on from a state (C66).
* `urlparse` cuts the path of a URL at `?` and `#`: with such a character in the output URL all files of a dataset are written to the same object, and nothing fails (C67).
* `S3FsProvider.copy` drops all leading slashes of the keys, upload and download one (fs_provider.py:178-183 and 248) (C67).
* `S3FsProvider.download_directory` fails if the folder has a marker object (a key that ends in a slash), as made by the console (C67).
* `list_objects_v2` is called once (fs_provider.py:160, 194): with 1000 workers or more, `config.json` is not among the objects downloaded, so that all checkpoints are ignored and all is done again; `_cleanup_checkpoints` leaves it (C68).
* If there are no checkpoints, `download_directory` returns "." and `./config.json` of the current folder is read as the configuration of the checkpoints (data_processor.py:1459-1468): a project with a file of that name cannot start (C68).
* `_assert_dir_has_index_file` refuses any non-empty remote folder without a mode, so the checkpoints left by a crash themselves prevent resuming unless `mode="append"` is given; with `mode="overwrite"` they are deleted before they are read (C68).
* On several nodes, `config.json` is shared, while every node has its own inputs: the next run of every node but the last to have saved is refused (C68).
* With `weights`, or with `reorder_files` (the default) and an input directory, the inputs of every worker pass through `np.random.permutation(...).tolist()`: tuples come out as lists, and a tuple of a file name and a number comes out as two texts; an integer input becomes a text if it shares its worker with a text (C69).
* The same conversion raises ValueError for inputs of different extents: with `batch_size`, a last batch that is shorter than the others makes the call fail if its worker has another batch (C69).
* `optimize(mode="overwrite")` removes the dataset in the output directory first (functions.py:460) and only then finds out that the call cannot work: both `chunk_size` and `chunk_bytes`, a tuple or range as inputs, a generator with `use_checkpoint`, a negative `num_workers`, file paths that start with the second input. The old dataset is lost (C70).
* `optimize` has an argument `weights` that it never uses (functions.py:489-503) (C70).
* `map` with `batch_size` and one weight for each input is always refused, since the weights are compared with the number of groups (C70).
* A URL as `input_dir` is resolved to a directory without a path, so that the files of the inputs are neither sorted by size nor downloaded (C70).
* With an input directory, any text of an input that names an existing file is taken for a path (data_processor.py:400-415): a label `cat` next to a file `cat` in the current folder is replaced by the absolute path of that file, and the downloader dies with SameFileError (C71).
* `functools.partial` objects and bound methods never get `device` and `is_last` from `map`: the signature that is inspected is that of their `__call__`, `(*args, **kwargs)` (functions.py:120-123) (C71).
* A bound method that yields values is not recognised as a generator by `optimize` (functions.py:186-192), though a partial of it is: the generator object is serialized as the sample (C71).
* `LambdaMapRecipe.prepare_item` never returns the result of the function, so that the check "shouldn't return anything" (data_processor.py:799-803) never fails (C71).
* `DataProcessor` broadcasts its directories under the constant keys "input_dir" and "output_dir" (data_processor.py:1084, 1088) to a map in which the first value of a key stays: in an application with two calls of `map` or `optimize`, the second works on the directories of the first (C72).
* `pickle.dumps(value, 0).decode()` (broadcast.py:126) raises UnicodeDecodeError for paths with a single character like `é` or `ä`: protocol 0 writes them as one Latin-1 byte (C72).
* The age of S3 credentials is counted from the end of the creation of the client (client.py:63-70), and by a clock that can be set (C73).
* In a Studio, `optimize_dns_context(False)`, the default, replaces any line with `nameserver 127...` by systemd's if some line contains `127.0.0.1`, for example `127.0.0.11` in a container (utilities.py:155-157, 176-182); after KeyboardInterrupt the switch is not undone (`except Exception`) (C74).
* `train_test_split` refuses `[0.33, 0.56, 0.11]`: the sum of the doubles is 1.0000000000000002 (`c17_valid_refused`; left-to-right sum of Python before 3.12). Two ratios are never refused (`c17_two_fractions`).
* `int(N * ratio)` may lose a sample where the share is a whole number: 0.29 of 100 samples is 28, and the splits `[0.29, 0.71]` of 100 samples leave one out (`c16_sample_lost`, `c17_sample_lost`).
* A `functools.partial` of a function with a parameter `device` or `is_last` never gets them from `map` (`c71_partial_overlooked`).
* `AzureDownloader.download_file` opens the local file before it asks for the blob: a missing blob leaves an empty chunk, which every later call takes for downloaded (`c75_azure_empty`).
* The command of s5cmd is built without quotes and run by a shell: a path with a space always fails, and special characters are interpreted (`c75_space`).
* For `s3://bucket//dir` the uploads go to the key `/dir/...`, the S3 client downloads from `dir/...`, and s5cmd from `/dir/...` (`c75_double_slash`).
* `hf://datasets/name/...` without an organisation raises `ValueError` or asks for another data set (`c75_hub_no_org`).
* `local:` is removed everywhere in a path, so that a file of another folder can be copied (`c75_local_inside`).
* Random access to a remote dataset with more than two chunks ahead: a chunk that is asked for again while it waits to be deleted is found, not fetched, and then deleted; the reader waits until it asks by force after 30 seconds (`c76_back_and_forth`).
* Random access never tells the thread to stop and never gives up the last chunk it looked at, as only the last index of a pass does (`streaming/reader.py:426-430`).
* With encryption of samples the chunk file is opened for each sample without looking at its size, so that a chunk that another worker deletes or fetches again raises or gives garbage; without encryption the open handle protects from this (`c76_open_chunk_deleted`).
* `CloudParquetDir` calls `fsspec.filesystem(provider, *self.storage_options)` (`utilities/parquet.py:141`): one star instead of two, so that any
  storage option (and `None`, the default of its own constructor) raises `TypeError`; a bucket that needs options cannot be indexed (`c55_storage_options`).
* `TokensLoader._load_chunk` sets `_mmaps[k]` before `_buffers[k]` and is called by the reader and by its thread without a lock: a reader that comes to a chunk while the thread loads it ahead finds the map, skips the loading and raises `KeyError` at `self._buffers[k]` (item_loader.py:437, 447-448, 491) (`c77_key_error_while_loading`).
* The reader queues the deletion of a chunk before it calls `close` (reader.py:415-423); `delete` in the thread and `close` both test and then delete entries of the same dictionaries. With one block read of a chunk, the thread can end with `KeyError`, after which no chunk is fetched any more, or the reader raises it (`c77_thread_dies`, `c77_key_error_while_closing`).
* The first test for the file in `TokensLoader.load_item_from_chunk` is `> filesize_bytes` and never true for a whole chunk (item_loader.py:477): the first block of a chunk that was not loaded ahead always waits 0.1 seconds.
* An item loader object that is given to two datasets with chunk-level encryption delivers samples of the first one from the second one: `_decrypted_chunks` is keyed by the number of the chunk only (`streaming/item_loader.py:223-251`) (`c78_shared_decrypted`).
* `train_test_split` of a dataset with chunk-level encryption that was given a `PyTreeLoader` and has been read: the copies of the loader keep the decrypted chunk, `reset` does not touch the loader, and a split silently delivers samples of other chunks (`c78_split_after_read`).
* A loader shared by datasets of different formats deserializes all samples in the format that was set up last (`c78_shared_format`); a shared `TokensLoader` serves chunk `k` of one dataset from the map of the other (`c78_tokens_shared`).
* `train_test_split` of a dataset of tokens that has been read raises `TypeError`: a `memoryview` cannot be copied (`c78_tokens_split_fails`).
* The constructor of `StreamingDataset` reads only the chunks of the index: a wrong item loader, a missing serializer, an unknown compression or a broken structure is noticed at the first access, often in a worker (`c79_constructor_blind`, `c79_wrong_loader`).
* `_validate_item_loader` compares the name of the class only (`streaming/config.py:314-326`): any class of the user that is called `PyTreeLoader` passes, a subclass with another name is refused.
* An old index without `item_loader` whose format is `no_header_numpy` may be opened with `PyTreeLoader`, while `no_header_tensor` may not (`streaming/config.py:319-326`).
* A `TokensLoader` without block size raises `TypeError` in the constructor of the dataset, one with block size 0 `ZeroDivisionError` (`utilities/dataset_utilities.py:222`); an empty selection of chunks raises `ValueError` with `TokensLoader` and gives an empty dataset with `PyTreeLoader` (`streaming/item_loader.py:416-417`).
* A list or tuple of JPEG images counts as one leaf (`utilities/_pytree.py:687-703`): `tree_map` with a function that gives JPEG images changes the structure of the sample, and the next `tree_map` calls its function once with the whole list (`c80_images_change_structure`); `tree_map(f, [a, b], [jpeg, jpeg])` raises `ValueError` (`c80_images_refused`).
* `len(CombinedStreamingDataset)` sets its batch size to 1, and the iterator counts batches with that: with `batching_method="per_stream"` the batches mix datasets after `len(dataset)` or after `StreamingDataLoader.load_state_dict` (C46).
* `IntegerSerializer.deserialize` gives an `np.int64`, which its own `can_serialize` does not accept (`isinstance(np.int64(3), int)` is false) (`streaming/serializers.py:438-447`): samples that are read from a dataset and optimized again have their integers pickled, and the data format changes from `int` to `pickle`; appending them to the dataset they come from raises (`c84_ints_are_pickled`, `c84_append_refused`).
* `PILSerializer` stores mode, size and pixels only (`streaming/serializers.py:63-68`): images of mode `P` lose their palette and come back in other colours (`c12_palette_lost`).
* `TokensLoader` hands out views of a memory map, and `BinaryReader.read` closes the chunk read before as soon as a block of another one was read (`streaming/reader.py:419-426`). `close` unmaps exactly the chunks of which one block was read, since the counter is raised by each block and lowered once (`streaming/item_loader.py:435-448`, 549-558). A worker that is given one block of a chunk (chunks are split between workers) and collects more than one block for a batch then collates unmapped memory, which is a segmentation fault (`c85_alone_is_lost`, `c85_witness`). Chunks of which more than one block is read are never unmapped.
* A dataset with fewer samples than ranks has the length 0 at every rank but the last one. Combined with larger ones with `iterate_over_all`, every worker of these ranks ends the epoch with `ZeroDivisionError` after its last sample, since the weights that are left are divided by their sum (`streaming/combined.py:294-297`; `c86_zero_weight_fails`, `c86_small_dataset_fails`).
* Blocks of tokens are views of memory maps, and `TokensLoader.delete`, called by the prefetching thread, unmaps a chunk as soon as it is given up and the cache is full (streaming/item_loader.py:530-538). A batch with blocks of two chunks is collated only afterwards, so it reads unmapped memory (`c87_spanning_crash`); the same holds for the last batch of every pass, since `read` waits for the thread, which deletes the last chunk before it ends (`c87_last_crash`). A worker that reads one block from a remote folder loses it without any deletion, because `read` closes the chunk at the end of a pass (`c87_single_block_crash`, streaming/reader.py:441). The comment in reader.py:405-406 ("this could trigger segmentation fault") has only the block just read in mind.
* Every run of optimize or map that raises leaves the uploaders and the remover of the failed worker (and of every other worker that was still at work) behind as
  processes that never end [c88_failure_leaks, c88_every_error_leaks]. An interrupted worker never ends: it joins uploaders that nobody has told to end
  [c88_interrupt_hangs]. The failure of a worker without inputs can leave the main process waiting for ever [c88_join_hangs, c88_join_hangs_occurs].
* An exception in a download ends the prefetching thread for good: nobody looks whether it is alive, and the forced download after half a minute is a message to
  the dead thread. A transient failure of the network therefore ends the pass, two minutes later, with an error that says that a file was not found
  [c89_no_retry, c89_failure_raises_late], with ParquetLoader never [c89_parquet_hangs].
* A download or a decompression that is cut off while it writes in place (Azure, and the decompressed file with any provider) leaves a part of the file in the cache.
  `download_chunk_from_index` only looks whether the file exists, so no later pass over this cache ever gets past this chunk, also by force
  [c89_part_blocks, c89_failure_spoils_cache, c89_spoiled_occurs].
* The waiting loops test the time after the file: a file that has come when the time is up is not read [c89_wait_raises_though_there]. The first test of
  TokensLoader asks for more bytes than the chunk has, so each chunk that is there costs a sleep of 0.1 s [c89_tokens_polls, streaming/item_loader.py:476].
* A `PyTreeLoader` that is passed to `StreamingDataset` is used in all epochs of a process, but `close`, which the reader calls at the end of a pass over a remote
  folder, drops the handle and keeps the path (streaming/item_loader.py:299-303). If the next epoch begins with the chunk with which the last one ended (always so for
  a worker with a single chunk), its first sample raises AssertionError [c90_given_raises, c90_single_chunk]. This needs an epoch to be read in the same process as the
  last one (`num_workers=0` or persistent workers), since pickling resets the path.
* `download_chunk_from_index` looks for the compressed file (streaming/config.py:130), but `try_decompress` removes it once it is decompressed (158-163). So from the second
  epoch on, and in every new process with the same cache, each compressed chunk is downloaded again although its decompressed file is in the cache; the compressed
  file then stays, since `try_decompress` returns at once (155-156), is never deleted, and is not counted in the size of the cache (streaming/reader.py:489)
  [c91_compressed_again, c91_second_epoch].
* A pass over the dataset that is broken off, or whose process is killed, leaves the counter files (`.cnt`) of the chunk that is being read and of all chunks that were
  fetched ahead: `BinaryReader.__del__` only stops the thread (streaming/reader.py:469-472) and nothing resets the counters. Later passes count up and down again, so
  `_apply_delete` (139-142) skips these chunks for ever, and `max_cache_size` is exceeded without bound [c92_broken_leaves, c92_stays, c92_limit_lost]. A reader that
  finds a chunk in the cache before its thread has counted it has the same effect [c92_ahead_leaves].
* `_download_data_target` waits until more than 25 GB are free on `/` (processing/data_processor.py:152), before any download: on a machine with less, or whose `/` is small while the
  cache is on another disk, `map` and `optimize` with a URL as input wait for ever without a message, even for inputs of a few bytes [c93_small_disk]; a cache on another disk is
  not watched, and can get full [c93_other_disk].
* Profiling (`streaming/dataloader.py:347-475`): `profile_batches=k` records `k + 1` batches of the first worker, and nothing at all if it has exactly `k` (`c94_one_too_many`); `True` is an `int` in Python, so it records two batches instead of all (`c94_true`); PyTorch's `_worker_loop` is replaced and never put back, so every later data loader of the process is profiled with the old settings, and a short one removes the trace (`c94_patch_stays`, `c94_trace_lost`).
* `index_path` ("Path to `index.json` for the Parquet dataset", streaming/dataset.py:85-87) is only looked at for URLs (utilities/dataset_utilities.py:44-64): a local directory that
  was indexed with a `cache_dir` cannot be opened with `index_path=cache_dir`, or is opened with the index that was in it before [c95_local_elsewhere]. `cache_dir` is not created
  [c95_missing_directory], and indexing a directory in the cloud removes any `index.json` in it (utilities/parquet.py:214-215) [c95_cloud_removes].
* `index_parquet_dataset("local:...")` lists the working directory, as `_resolve_dir` gives no path for `local:` and `os.listdir(None)` is that of `.` (utilities/parquet.py:81): the
  result is an empty index or an AssertionError [c95_local_scheme].
* `map` and `optimize` with `num_nodes` start a job that runs the whole script again (streaming/resolver.py:379-388), in which every call does its work. A script with two such calls therefore
  starts a second job after the first has done everything, and that job fails at the first call whose output may not have a dataset, so that the script ends with a RuntimeError although all
  work was done; with `mode="overwrite"` all work is done twice [c96_script]. The arguments are joined with blanks without quotes (380), so that arguments or directories with blanks are torn
  apart [c96_command], and a job that someone stopped counts as completed (406) [c96_stopped].
* An `index_path` in the cache directory of the dataset, for example the index of the version that was read before, is deleted by `_clear_cache_dir_if_updated` before it is copied
  (utilities/dataset_utilities.py:44-64, 172-183): the dataset does not open, and the index is gone [c95_index_in_cache].
* `StreamingDataLoader.restore` is set to False only when a pass is read to its end. If a resumed pass is broken off (as with `limit_train_batches`), the next `iter(loader)` repeats the same epoch
  from the state that was loaded or saved last, with `_num_samples_yielded_streaming` going on from the break and the worker that gave the last batch asked first. A state saved then counts the
  batches since the last saved state twice, and a run resumed from it leaves out as many (`c98_counted_twice`, `c98_right_iff`). A loader that was not resumed begins the next epoch instead (`c98_not_resumed`).
* `load_state_dict` of a loader over a `CombinedStreamingDataset` gives one dictionary to the loader and to the dataset, so that the dataset ends the resumed epoch with the counters of its end and keeps them:
  in all later epochs the workers begin with them (`c98_combined_stale`). A state saved in a later epoch counts the samples of the resumed epoch too; without weights a loader that loads it begins the next epoch, and the rest of the
  epoch is lost (`c98_combined_lost`).
* With `persistent_workers=True` the epoch that `StreamingDataLoader.__iter__` sets (dataloader.py:642) does not reach the copies of the dataset in the workers, which count an epoch when their own iterators end
  (dataset.py:420, 430). After a pass that was broken off they are behind the loader: the next pass repeats the order of the last one, and states saved in it have an epoch in which nobody was (`c99_broken`,
  `c99_state_wrong`). If some workers had come to their ends, reading ahead, the workers are in different epochs, and a shuffled pass gives samples twice and others never (`c99_mixed_epochs`).
* With `persistent_workers=True` and a loaded state, a worker drops the state when its own iterator ends (dataset.py:421, 431), the loader when the pass is read to its end (dataloader.py:667). If a resumed pass is broken off when
  only some workers have come to their ends, the loader begins the same epoch again, but those workers give the next epoch from its beginning (`c99_loaded_mixed`).
* A loader that is still restoring, as after a resumed pass that was broken off, resumes from any state that is loaded into it: with the state of a whole epoch its workers raise `IndexError`, where a new loader
  begins the next epoch (dataloader.py:754-756; `c98_load_again`, `c98_whole_epoch_raises`).
* With `persistent_workers=True` a state that is loaded after the first pass does not reach the workers: the loader counts on from the epoch and the number of samples of the state, and the workers give the whole of the
  epoch that is next for them (dataloader.py:752, dataset.py:502-505; `c99_when_loaded`, `c99_loaded_late_example`).
* `_private_register_pytree_node` lets a class take over the serialized name of another one without a word (_pytree.py:403): structures with the first class are then read with the second one (`c100_taken_over`).
* It enters the class into `SUPPORTED_NODES` before it checks the context functions (_pytree.py:385-391). After the `ValueError` samples with the class are taken apart, their structure cannot be dumped (`NotImplementedError`),
  and `register_pytree_node` refuses the corrected call because the class is registered (`c100_half`).
* `register_pytree_node` gives the lock back between the check and the entry (_pytree.py:245-257, 378): two threads that register one class can both be accepted, and the later one holds (`c100_two_threads`).

## Trusted base

* The Lean 4.33.0 kernel, and its reading of the statements in `Props/` and `Spec/`.
* Axioms: at most `propext`, `Classical.choice` and `Quot.sound`; `AXIOMS.md` lists them theorem by theorem. No axiom is declared, no
  `sorry`, `admit`, `native_decide`, `bv_decide`, `implemented_by` or `unsafe` is used. `decide +kernel` is evaluation by the kernel.
* The correspondence of model and code, which rests on reading. Every definition cites the lines it models and says where it
  simplifies.
* Assumptions about code outside the repository: PyTorch's multi-process loader (modelled from its source), numpy and torch
  `frombuffer` and memory maps, `json.dumps`/`loads` with default separators for the values that occur, `fcntl.flock` and inode
  semantics of a POSIX file system, `multiprocessing.Queue` as a FIFO per producer, list/HEAD/DELETE calls of object stores,
  `os.rename` as atomic.

### Modelled

The table is made from the citations in the comments of the definitions under `Verif/Model`. Of the 611 functions of the package that have a body, 455 have lines that a definition cites;
how much of such a function a definition models, and where it simplifies, is said at the definition. The functions of the last column are cited by no definition. Most of them only store or hand on arguments, print, or
belong to logging, version checks and debugging. They count as not modelled, even where a definition has what they do built in (for example `Cache`, which hands everything on to the reader and the writer).

Not modelled in any file: the contents of third-party libraries, network failures other than those named at a property, memory and time limits, signals other than those of `Model/Children`, and progress bars.

| file of `src/litdata` | functions | in modules of `Verif/Model` | cited by no definition |
|---|---|---|---|
| `debugger.py` | 0 of 7 | none | `get_logger_level`, `LitDataLogger.__init__`, `LitDataLogger.get_log_file_and_level`, `LitDataLogger.setup_logger`, `enable_tracer`, `_get_log_msg`, `env_info` |
| `helpers.py` | 0 of 3 | none | `WarningCache.warn`, `_get_newer_version`, `_check_version_and_prompt_upgrade` |
| `imports.py` | 0 of 7 | none | `package_available`, `module_available`, `RequirementCache.__init__`, `RequirementCache._check_requirement`, `RequirementCache.__bool__`, `RequirementCache.__str__`, `RequirementCache.__repr__` |
| `processing/data_processor.py` | 40 of 52 | Append, Broadcast, Checkpoint, CheckpointStore, Children, DiskSpace, Entry, Env, InputFiles, LoaderInput, MainLoop, Nodes, NumpyItems, Packing, Processes, Upload, UserCall | `_get_fast_dev_run`, `_get_default_cache`, `_get_cache_dir`, `_wait_for_file_to_exist`, `BaseWorker._setup`, `BaseWorker._start_remover`, `BaseWorker._start_uploaders`, `DataWorkerProcess.__init__`, `DataRecipe.__init__`, `DataRecipe._done`, `DataProcessor._create_process_workers`, `in_notebook` |
| `processing/functions.py` | 15 of 21 | Append, CheckpointStore, Entry, MergeDatasets, Packing, RemoteJob, UserCall, Walk | `LambdaMapRecipe.prepare_structure`, `LambdaDataChunkRecipe.__init__`, `LambdaDataChunkRecipe.prepare_structure`, `_listdir`, `walk.__init__`, `_save_index` |
| `processing/readers.py` | 3 of 9 | LoaderInput, Parquet | `BaseReader.get_num_nodes`, `BaseReader.get_node_rank`, `ParquetReader.__init__`, `ParquetReader._get_num_rows`, `ParquetReader.read`, `StreamingDataLoaderReader.__init__` |
| `processing/utilities.py` | 6 of 11 | Append, Dns, Entry, MergeDatasets, Upload | `_create_dataset`, `get_worker_rank`, `catch`, `make_request`, `_get_work_dir` |
| `streaming/cache.py` | 2 of 16 | CacheLoader, Streaming | `Cache.__init__`, `Cache.rank`, `Cache.filled`, `Cache.cache_dir`, `Cache.checkpoint_dir`, `Cache._try_create`, `Cache._add_item`, `Cache.done`, `Cache.merge`, `Cache._merge_no_wait`, `Cache.__len__`, `Cache.get_chunk_intervals`, `Cache._get_chunk_index_from_index`, `Cache.save_checkpoint` |
| `streaming/client.py` | 2 of 3 | Client | `S3Client._create_client` |
| `streaming/combined.py` | 20 of 23 | Collate, Combined, CombinedLoader, LoaderSettings, ResumedCombined | `CombinedStreamingDataset._check_datasets`, `CombinedStreamingDataset._set_use_streaming_dataloader`, `_CombinedDatasetIterator.state_dict` |
| `streaming/compression.py` | 5 of 5 | Merge |  |
| `streaming/config.py` | 11 of 20 | BrokenOff, CacheDir, CacheSize, Config, Decompress, Fetch, Mds, Merge, Opening, ParquetIndex, Reader, ReaderFine, Sessions, SkipDelete, TokensThreads | `ChunksConfig.skip_chunk_indexes_deletion`, `ChunksConfig.intervals`, `ChunksConfig.num_bytes`, `ChunksConfig.data_format`, `ChunksConfig.data_format_unflattened`, `ChunksConfig.compression`, `ChunksConfig.chunk_bytes`, `ChunksConfig.config`, `ChunksConfig._get_chunk_index_from_filename` |
| `streaming/dataloader.py` | 22 of 28 | CacheLoader, Collate, CombinedLoader, Loader, LoaderInput, LoaderIter, LoaderSettings, Persistent, PersistentLoaded, Profiling, ResumedCombined, ResumedLoop, TokensBatch | `CacheDataset.__len__`, `CacheCollateFn.__init__`, `WorkerLoop.__init__`, `_MultiProcessingDataLoaderIterPatch._shutdown_workers`, `CacheDataLoader._get_iterator`, `StreamingDataLoaderCollateFn.__init__` |
| `streaming/dataset.py` | 19 of 22 | Combined, CombinedLoader, Config, Dataset, Env, Epochs, Floats, LoaderInput, LoaderSettings, Opening, ParquetIndex, Persistent, PersistentLoaded, Reader, ResumedLoop, Sessions, SkipDelete, Slice, Streaming, TokensStream, Validate | `StreamingDataset.set_shuffle`, `StreamingDataset.set_drop_last`, `is_integer` |
| `streaming/downloader.py` | 12 of 16 | Counter, Decompress, Download, Fetch, Prepare, Reader, ReaderFine, Registry | `Downloader.__init__`, `GCPDownloader.__init__`, `AzureDownloader.__init__`, `HFDownloader.__init__` |
| `streaming/fs_provider.py` | 16 of 30 | FsProvider, Modes | `FsProvider.__init__`, `FsProvider.upload_file`, `FsProvider.download_file`, `FsProvider.download_directory`, `FsProvider.copy`, `FsProvider.list_directory`, `FsProvider.delete_file_or_directory`, `FsProvider.exists`, `FsProvider.is_empty`, `GCPFsProvider.__init__`, `GCPFsProvider.list_directory`, `S3FsProvider.__init__`, `S3FsProvider.list_directory`, `not_supported_provider` |
| `streaming/item_loader.py` | 28 of 35 | Basic, ChunkFile, Config, Mds, Opening, Parquet, ParquetIndex, Prepare, Reader, Sample, Sessions, Tokens, TokensBatch, TokensThreads, Wait | `BaseItemLoader.force_download`, `BaseItemLoader.state_dict`, `PyTreeLoader.delete`, `TokensLoader.encode_data`, `ParquetLoader.__init__`, `ParquetLoader.generate_intervals`, `ParquetLoader.delete` |
| `streaming/reader.py` | 15 of 25 | BrokenOff, CacheSize, Config, Counter, Decompress, Download, Env, Epochs, FailedDownload, Prepare, Reader, ReaderFine, Sessions, SkipDelete, Streaming, TokensBatch, TokensStream, TokensThreads | `PrepareChunksThread.stop`, `PrepareChunksThread.force_stop`, `PrepareChunksThread._pre_load_chunk`, `BinaryReader._get_chunk_index_from_index`, `BinaryReader._try_load_config`, `BinaryReader.config`, `BinaryReader.get_length`, `BinaryReader.get_chunk_intervals`, `BinaryReader.__getstate__`, `_get_from_queue` |
| `streaming/resolver.py` | 10 of 11 | Entry, IndexPlace, MergeDatasets, Modes, RemoteJob, Resolver | `_get_lightning_cloud_url` |
| `streaming/sampler.py` | 11 of 11 | CacheLoader, Dataset, Sampler |  |
| `streaming/serializers.py` | 56 of 56 | Rewrite, Serializers |  |
| `streaming/shuffle.py` | 5 of 6 | Assign, Dataset, LoaderSettings | `Shuffle.__init__` |
| `streaming/writer.py` | 20 of 23 | Append, CacheLoader, Checkpoint, CheckpointStore, ChunkFile, Config, Env, Json, Keys, Merge, Opening, ParquetIndex, Pipeline, Processes, Sample, Upload, Writer | `BinaryWriter.__setitem__`, `BinaryWriter._should_raise`, `BinaryWriter._pretty_serialized_items` |
| `utilities/_pytree.py` | 70 of 79 | Json, NodeRegistry, Pytree, TreeMap | `_is_namedtuple_instance`, `tree_unflatten`, `tree_structure`, `tree_map_only_`, `_DummyLeaf.__repr__`, `treespec_pprint`, `pytree_to_str`, `str_to_pytree`, `keystr` |
| `utilities/breakpoint.py` | 0 of 3 | none | `MPPdb.__init__`, `MPPdb._cmdloop`, `breakpoint` |
| `utilities/broadcast.py` | 4 of 11 | Broadcast | `_CustomRetryAdapter.__init__`, `_CustomRetryAdapter.send`, `_response`, `_HTTPClient.__init__`, `_HTTPClient.get`, `_HTTPClient.post`, `_HTTPClient.delete` |
| `utilities/dataset_utilities.py` | 9 of 9 | CacheDir, Floats, IndexPlace, Mds, Opening, ParquetIndex, Resolver, Subsample |  |
| `utilities/encryption.py` | 22 of 22 | ChunkFile, Keys, Opening |  |
| `utilities/env.py` | 6 of 17 | Env, LoaderInput | `_DistributedEnv.__repr__`, `_DistributedEnv.__str__`, `_WorkerEnv.__init__`, `_WorkerEnv.__repr__`, `_WorkerEnv.__str__`, `Environment.__init__`, `Environment.from_args`, `Environment.__repr__`, `Environment.__str__`, `_is_in_dataloader_worker`, `_is_in_map_or_optimize` |
| `utilities/format.py` | 1 of 3 | Format | `_human_readable_bytes`, `_get_tqdm_iterator_if_available` |
| `utilities/hf_dataset.py` | 1 of 1 | ParquetIndex |  |
| `utilities/packing.py` | 1 of 1 | Entry, Packing |  |
| `utilities/parquet.py` | 12 of 14 | IndexPlace, ParquetIndex | `ParquetDir.__init__`, `ParquetDir.__iter__` |
| `utilities/shuffle.py` | 7 of 7 | Assign, SkipDelete |  |
| `utilities/subsample.py` | 2 of 2 | Subsample |  |
| `utilities/train_test_split.py` | 2 of 2 | Floats, Sessions, Subsample |  |
