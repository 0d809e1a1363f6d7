{"id": "C01", "title": "No sample lost or repeated by the work split (drop_last=False)", "statement": "When a StreamingDataset is iterated without drop_last by every worker of every rank, the samples handed to the workers, read rank by rank and worker by worker, are exactly the regions of interest of the chunks in the shuffled chunk order: every sample goes to exactly one worker and none is duplicated.", "quantifier": "every list of chunks and non-negative regions of interest, every world size >= 1, every number of workers >= 1, every batch size >= 1", "why_tests_cant": "The split depends on the arithmetic interplay of chunk sizes, batch size, ranks and workers; a test fixes a handful of these.", "anchors": ["src/litdata/utilities/shuffle.py:_associate_chunks_and_intervals_to_workers", "src/litdata/streaming/shuffle.py:NoShuffle", "src/litdata/streaming/shuffle.py:FullShuffle"]}
{"id": "C02", "title": "drop_last gives every rank the same number of samples", "statement": "With drop_last every rank receives exactly batch_size * floor(N / (batch_size * world_size)) samples, the samples delivered are a prefix of the (shuffled) dataset, and none is duplicated.", "quantifier": "every chunk list, world size, worker count and batch size", "why_tests_cant": "An imbalance of one sample hangs distributed training and only shows for particular combinations of sizes.", "anchors": ["src/litdata/utilities/shuffle.py:_associate_chunks_and_intervals_to_workers", "src/litdata/streaming/shuffle.py:Shuffle.get_len"]}
{"id": "C03", "title": "Work is balanced in batches across workers and ranks", "statement": "Within a rank, the number of whole batches given to two workers differs by at most one; only one worker of the last rank may get additional left-over samples and fewer than batch_size * world_size of them (drop_last=False).", "quantifier": "every chunk list, world size, worker count and batch size", "why_tests_cant": "Balance must hold for all sizes, including datasets smaller than the number of workers.", "anchors": ["src/litdata/utilities/shuffle.py:_associate_chunks_and_intervals_to_workers"]}
{"id": "C04", "title": "Shuffling an epoch only reorders", "statement": "For every seed and epoch, with shuffle=True the multiset of samples delivered to all ranks is the multiset of samples delivered without shuffling when drop_last=False; inside a chunk the delivered samples are a permutation of the slice of the chunk assigned to that worker.", "quantifier": "every outcome of the random generator (all permutations), every epoch, every cluster layout", "why_tests_cant": "Seeds and permutations are unbounded; the property must hold for each.", "anchors": ["src/litdata/streaming/shuffle.py:FullShuffle", "src/litdata/utilities/shuffle.py:_intra_node_chunk_shuffle"]}
{"id": "C05", "title": "One pass of iteration yields exactly the assigned samples", "statement": "Iterating a StreamingDataset inside a worker yields each sample assigned to that worker once, in assignment order, then stops, and the epoch counter is advanced by one; chunks with an empty slice are skipped without a repeated or missing sample.", "quantifier": "every assignment (list of chunks with intervals, including empty ones), every per-chunk permutation, any number of next() calls", "why_tests_cant": "The iterator is a state machine with three interacting counters; off-by-one errors show only on specific shapes.", "anchors": ["src/litdata/streaming/dataset.py:StreamingDataset.__next__", "src/litdata/streaming/dataset.py:StreamingDataset.__iter__"]}
{"id": "C06", "title": "Resuming from state_dict continues where iteration stopped", "statement": "If a run is stopped after n samples and a new run is started from the saved state_dict with the same settings, the concatenation of what was delivered before and what is delivered after equals the uninterrupted run.", "quantifier": "every dataset shape, worker count, batch size and every stopping point n", "why_tests_cant": "Stopping points times shapes is unbounded.", "anchors": ["src/litdata/streaming/dataset.py:_replay_sampling", "src/litdata/streaming/dataset.py:_replay_chunks_sampling", "src/litdata/streaming/dataset.py:StreamingDataset._resume"]}
{"id": "C07", "title": "A state_dict from different settings is refused", "statement": "load_state_dict followed by iteration raises ValueError whenever shuffle, num_workers, input directory, seed, item loader state, drop_last or the number of yielded samples are incompatible with the running dataset, and is accepted when they all match.", "quantifier": "every pair of saved state and current settings", "why_tests_cant": "The space of pairs is unbounded; tests check a few single-field mismatches.", "anchors": ["src/litdata/streaming/dataset.py:StreamingDataset._validate_state_dict"]}
{"id": "C08", "title": "The writer stores every added item exactly once, in order", "statement": "After adding items 0..n-1 in any order of distinct indices and calling done(), the concatenation of the written chunks is the items in index order, each once, and no chunk is empty.", "quantifier": "every sequence of add_item calls with distinct indices forming 0..n-1, every byte size, every limit", "why_tests_cant": "Histories of adds are unbounded.", "anchors": ["src/litdata/streaming/writer.py:BinaryWriter.add_item", "src/litdata/streaming/writer.py:BinaryWriter._create_chunk", "src/litdata/streaming/writer.py:BinaryWriter.done"]}
{"id": "C09", "title": "Chunks respect chunk_size and chunk_bytes", "statement": "Every chunk has at most chunk_size items (if set), and at most chunk_bytes bytes (if set) unless it holds a single oversize item; a chunk is not closed early: adding the next item would have exceeded a limit, except for the last chunk.", "quantifier": "every sequence of item sizes and every pair of limits", "why_tests_cant": "Boundary conditions on unbounded size sequences.", "anchors": ["src/litdata/streaming/writer.py:BinaryWriter._should_write", "src/litdata/streaming/writer.py:BinaryWriter._create_chunk"]}
{"id": "C10", "title": "A chunk file decodes to the items that were written", "statement": "For every list of byte strings whose total stays below 2^32, reading item i of the chunk file built from it returns the i-th byte string, and the file has num_items in its first four bytes.", "quantifier": "every list of byte strings, every item index", "why_tests_cant": "Byte contents and lengths are unbounded.", "anchors": ["src/litdata/streaming/writer.py:BinaryWriter._create_chunk", "src/litdata/streaming/item_loader.py:PyTreeLoader._load_data"]}
{"id": "C11", "title": "Nested samples are rebuilt with the same structure", "statement": "Flattening a nested sample of lists, tuples, dicts and leaves and unflattening with the stored structure gives back the sample; the structure survives being written to index.json and read back; unflattening with a wrong number of leaves raises ValueError.", "quantifier": "every nested sample of any depth and width", "why_tests_cant": "Trees are unbounded.", "anchors": ["src/litdata/utilities/_pytree.py:tree_flatten", "src/litdata/utilities/_pytree.py:TreeSpec.unflatten", "src/litdata/utilities/_pytree.py:treespec_dumps", "src/litdata/utilities/_pytree.py:treespec_loads"]}
{"id": "C12", "title": "Leaf serializers round-trip", "statement": "deserialize(serialize(x)) = x for booleans, 64-bit integers, strings/bytes, tensors and numpy arrays of supported dtypes and any shape, images and lists of jpeg images (byte payload framing).", "quantifier": "every value of the supported types", "why_tests_cant": "Values are unbounded.", "anchors": ["src/litdata/streaming/serializers.py:TensorSerializer", "src/litdata/streaming/serializers.py:NumpySerializer", "src/litdata/streaming/serializers.py:JPEGArraySerializer", "src/litdata/streaming/serializers.py:PILSerializer", "src/litdata/streaming/serializers.py:BooleanSerializer", "src/litdata/streaming/serializers.py:NumericSerializer"]}
{"id": "C13", "title": "A sample written is the sample read", "statement": "If every sample of a dataset has the structure and leaf types of the first sample, reading sample i of the optimized dataset returns the i-th sample written.", "quantifier": "every list of samples with the same structure and leaf types", "why_tests_cant": "End-to-end over unbounded samples.", "anchors": ["src/litdata/streaming/writer.py:BinaryWriter.serialize", "src/litdata/streaming/item_loader.py:PyTreeLoader.deserialize"]}
{"id": "C14", "title": "Merging worker indexes keeps every chunk once and in rank order", "statement": "After all workers are done, the merged index lists every chunk of every worker exactly once, worker by worker in increasing rank; incompatible worker configurations raise an exception.", "quantifier": "every number of workers and chunks per worker", "why_tests_cant": "Ordering depends on the number of workers (lexicographic vs numeric).", "anchors": ["src/litdata/streaming/writer.py:BinaryWriter._merge_no_wait"]}
{"id": "C15", "title": "Random access by index hits the right sample", "statement": "For 0 <= i < number of samples, dataset[i] resolves to a unique (chunk, position in region of interest), in order, and distinct indices resolve to distinct samples; other indices raise.", "quantifier": "every chunk list with regions of interest and every index", "why_tests_cant": "Unbounded indexes and chunk layouts.", "anchors": ["src/litdata/streaming/config.py:ChunksConfig._get_chunk_index_from_index", "src/litdata/streaming/config.py:ChunksConfig.__getitem__", "src/litdata/streaming/item_loader.py:PyTreeLoader.generate_intervals"]}
{"id": "C16", "title": "subsample keeps exactly the requested number of samples", "statement": "subsample(s) keeps exactly int(N*s) samples, a subset of the dataset without repetition, and left-over chunks hold exactly the other samples.", "quantifier": "every chunk list with regions of interest, every count between 0 and the number of samples", "why_tests_cant": "Unbounded layouts and counts.", "anchors": ["src/litdata/utilities/subsample.py:subsample_filenames_and_roi", "src/litdata/utilities/dataset_utilities.py:subsample_streaming_dataset"]}
{"id": "C17", "title": "train_test_split gives disjoint splits of the right sizes", "statement": "For every list of ratios with sum <= 1, the splits are pairwise disjoint, each has int(N*r) samples, and together they are a prefix of the dataset; bad ratios are refused.", "quantifier": "every dataset layout and every list of split sizes", "why_tests_cant": "Unbounded layouts and split lists.", "anchors": ["src/litdata/utilities/train_test_split.py:train_test_split"]}
{"id": "C18", "title": "CombinedStreamingDataset(iterate_over_all=True) delivers every sample of every dataset once", "statement": "The delivered stream is an interleaving of the streams of the datasets: for each dataset its own samples in its own order, each once, and the stream stops only when all are exhausted, whatever the random choices.", "quantifier": "every list of datasets, all weights, every outcome of the random generator", "why_tests_cant": "All interleavings.", "anchors": ["src/litdata/streaming/combined.py:_CombinedDatasetIterator"]}
{"id": "C19", "title": "CombinedStreamingDataset(iterate_over_all=False) stops at the first exhausted choice", "statement": "The stream stops exactly when the chosen dataset has no sample left; until then each dataset contributes a prefix of its own stream, and the samples-yielded counters equal the number delivered from each dataset.", "quantifier": "every list of datasets and every outcome of the random generator", "why_tests_cant": "All interleavings.", "anchors": ["src/litdata/streaming/combined.py:_CombinedDatasetIterator"]}
{"id": "C20", "title": "CombinedStreamingDataset resumes with the same choices", "statement": "After reloading the state the random choices continue the sequence that an uninterrupted run would have used.", "quantifier": "every stopping point and every random source", "why_tests_cant": "Every history.", "anchors": ["src/litdata/streaming/combined.py:CombinedStreamingDataset.load_state_dict", "src/litdata/streaming/combined.py:_CombinedDatasetIterator.__init__"]}
{"id": "C21", "title": "StreamingDataLoader counts what it delivered and restarts with the right worker", "statement": "The state_dict of a StreamingDataLoader records for every worker the number of samples it delivered; after reload the next batch comes from the worker following the last one used.", "quantifier": "every number of workers, batches and stopping point", "why_tests_cant": "Every history.", "anchors": ["src/litdata/streaming/dataloader.py:StreamingDataLoader.__iter__", "src/litdata/streaming/dataloader.py:StreamingDataLoader.state_dict", "src/litdata/streaming/dataloader.py:StreamingDataLoader.load_state_dict"]}
{"id": "C22", "title": "CacheBatchSampler partitions the indices among ranks and workers", "statement": "While the cache is being filled, all batches of all workers together contain every index exactly once, each worker sees increasing contiguous indices, and the k-th batch goes to worker k mod num_workers.", "quantifier": "every dataset size, world size, number of workers and batch size", "why_tests_cant": "Arithmetic over unbounded sizes.", "anchors": ["src/litdata/streaming/sampler.py:CacheBatchSampler"]}
{"id": "C23", "title": "optimize/map hands each input to exactly one worker, in order", "statement": "Without weights or reordering the inputs given to the workers of all nodes, concatenated in rank order, are the inputs; loads differ by at most one.", "quantifier": "every input list, number of nodes and number of workers", "why_tests_cant": "Unbounded sizes.", "anchors": ["src/litdata/processing/data_processor.py:_map_items_to_workers_sequentially"]}
{"id": "C24", "title": "Weighted packing hands each input to exactly one worker and is balanced", "statement": "With weights each input is given to exactly one bin, the recorded bin weights are the sums of the weights of their items, and the heaviest bin exceeds the lightest by at most the largest single weight; non-positive weights or mismatched lengths raise ValueError.", "quantifier": "every list of positive weights and every number of bins", "why_tests_cant": "Unbounded inputs.", "anchors": ["src/litdata/utilities/packing.py:_pack_greedily", "src/litdata/processing/data_processor.py:_map_items_to_workers_weighted"]}
{"id": "C25", "title": "optimize resumed from a checkpoint loses and repeats nothing", "statement": "If a worker with use_checkpoint=True crashes at any point after a checkpoint and is restarted, the final dataset contains every output exactly once in order.", "quantifier": "every crash point and every input list", "why_tests_cant": "All crash points.", "anchors": ["src/litdata/processing/data_processor.py:BaseWorker._handle_data_chunk_recipe", "src/litdata/streaming/writer.py:BinaryWriter.save_checkpoint", "src/litdata/processing/data_processor.py:DataProcessor._load_checkpoint_config"]}
{"id": "C26", "title": "Append mode never overwrites an existing chunk", "statement": "optimize(mode='append') writes chunk files whose names are not among the existing chunks, and the new index lists the old chunks first and then the new ones.", "quantifier": "every existing index and number of workers", "why_tests_cant": "Unbounded sets of existing chunks.", "anchors": ["src/litdata/processing/functions.py:optimize", "src/litdata/processing/utilities.py:extract_rank_and_index_from_filename"]}
{"id": "C27", "title": "merge_datasets concatenates datasets", "statement": "merge_datasets produces an index whose chunks are those of the inputs in order under fresh distinct names, each copied from the matching source file; incompatible data formats or compressions are refused before anything is copied.", "quantifier": "every list of input datasets", "why_tests_cant": "Unbounded inputs.", "anchors": ["src/litdata/processing/functions.py:merge_datasets"]}
{"id": "C28", "title": "Background download/delete keeps the cache bounded and keeps going", "statement": "The thread that prepares chunks downloads chunks in the order requested, never has more than max_pre_download chunks ahead (apart from forced downloads), deletes chunks in the order they were consumed, and every requested chunk is eventually available.", "quantifier": "every schedule of enqueue, download, delete and force-download events", "why_tests_cant": "All schedules.", "anchors": ["src/litdata/streaming/reader.py:PrepareChunksThread"]}
{"id": "C29", "title": "A chunk shared by several readers is not deleted while one still needs it", "statement": "With each reader incrementing the counter file before downloading and decrementing it when finished, a chunk file is removed only when no other reader that has acquired it is still using it.", "quantifier": "every interleaving of readers, including lock timeouts", "why_tests_cant": "All interleavings.", "anchors": ["src/litdata/streaming/reader.py:PrepareChunksThread._apply_delete", "src/litdata/streaming/reader.py:PrepareChunksThread._decrement_local_lock", "src/litdata/streaming/downloader.py:Downloader._increment_local_lock"]}
{"id": "C30", "title": "A partially downloaded chunk is never visible as complete (local downloader)", "statement": "With the local downloader, at every instant and after every crash the chunk path is either absent or holds the full content.", "quantifier": "every crash point and every interleaving of downloaders under the file lock", "why_tests_cant": "All crash points.", "anchors": ["src/litdata/streaming/downloader.py:LocalDownloader.download_file"]}
{"id": "C31", "title": "Compressed chunks decompress to the original and partial files are not read", "statement": "A reader opens a chunk only when the local file has the size recorded in the index, and for compressed datasets what is read is the original chunk.", "quantifier": "every chunk content and every interleaving of download and read", "why_tests_cant": "All interleavings.", "anchors": ["src/litdata/streaming/config.py:ChunksConfig.try_decompress", "src/litdata/streaming/item_loader.py:PyTreeLoader.load_item_from_chunk"]}
{"id": "C32", "title": "TokensLoader serves consecutive blocks", "statement": "With TokensLoader(block_size), sample j of a chunk is tokens[j*block_size:(j+1)*block_size] of the concatenated tokens of that chunk, blocks are disjoint and cover all but fewer than block_size trailing tokens.", "quantifier": "every token list, chunk layout and block size", "why_tests_cant": "Unbounded token lists.", "anchors": ["src/litdata/streaming/item_loader.py:TokensLoader"]}
{"id": "C33", "title": "ParquetLoader(low_memory) returns the requested row", "statement": "Reading sample i of a parquet chunk returns the i-th row of the file.", "quantifier": "every row-group layout and every row index", "why_tests_cant": "Row-group layouts are unbounded.", "anchors": ["src/litdata/streaming/item_loader.py:ParquetLoader._get_item_with_low_memory"]}
{"id": "C34", "title": "ParquetReader.remap_items splits files without losing rows", "statement": "The shards produced cover all rows of all input files, in order, once, each of at most num_rows rows, and different shards get different paths.", "quantifier": "every list of files and row counts, every num_rows >= 1", "why_tests_cant": "Unbounded inputs.", "anchors": ["src/litdata/processing/readers.py:ParquetReader.remap_items"]}
{"id": "C35", "title": "Encrypted datasets read back and mismatched settings are refused", "statement": "For any encryption whose decrypt inverts encrypt, an encrypted dataset read with matching algorithm and level yields the samples that were written, at sample level and at chunk level; a mismatch of algorithm or level raises ValueError.", "quantifier": "every encryption scheme, every chunk", "why_tests_cant": "Unbounded data.", "anchors": ["src/litdata/streaming/writer.py:BinaryWriter._create_chunk", "src/litdata/streaming/item_loader.py:PyTreeLoader._load_encrypted_data", "src/litdata/streaming/item_loader.py:PyTreeLoader._validate_encryption"]}
{"id": "C36", "title": "mode='overwrite' only removes the dataset in output_dir; mode=None never destroys a dataset", "statement": "With mode=None an output directory with an index is refused and left untouched; with 'overwrite' only files inside output_dir are deleted; with 'append' nothing is deleted.", "quantifier": "every file system content and every mode", "why_tests_cant": "Unbounded directory contents.", "anchors": ["src/litdata/streaming/resolver.py:_assert_dir_has_index_file", "src/litdata/streaming/fs_provider.py:S3FsProvider.delete_file_or_directory"]}
{"id": "C37", "title": "Byte sizes given as strings are parsed as documented", "statement": "chunk_bytes / max_cache_size strings such as '64MB' or '2 GiB' parse to value times unit, are case-insensitive, and unknown suffixes raise ValueError.", "quantifier": "every digit string and every unit", "why_tests_cant": "Unbounded strings.", "anchors": ["src/litdata/utilities/format.py:_convert_bytes_to_int", "src/litdata/utilities/format.py:_human_readable_bytes"]}
{"id": "C38", "title": "Each shared chunk has exactly one worker allowed to delete it", "statement": "Of the workers of a rank that read the same chunk, all but exactly one are told not to delete it, and that one is the last to finish with it in the round-robin batch order.", "quantifier": "every assignment of chunks to workers, every batch size", "why_tests_cant": "Unbounded assignments.", "anchors": ["src/litdata/utilities/shuffle.py:_find_chunks_per_workers_on_which_to_skip_deletion"]}
{"id": "C39", "title": "Batches of a multi-worker loader rotate over workers", "statement": "The loader delivers batches from workers in round-robin order, and from a given worker in its own order, so the delivered order is deterministic.", "quantifier": "every number of workers and every per-worker stream", "why_tests_cant": "Unbounded schedules.", "anchors": ["src/litdata/streaming/dataloader.py:_StreamingMultiProcessingDataLoaderIter", "src/litdata/streaming/dataset.py:_replay_sampling"]}
{"id": "C40", "title": "map/optimize batch_size groups inputs without loss", "statement": "Grouping inputs with batch_size b gives consecutive groups of b inputs (the last one possibly shorter) whose concatenation is the inputs.", "quantifier": "every input list and b > 1", "why_tests_cant": "Unbounded lists.", "anchors": ["src/litdata/processing/functions.py:optimize", "src/litdata/processing/functions.py:map"]}
{"id": "C41", "title": "The distributed item count seen by len() equals what iteration delivers", "statement": "len(dataset) for a rank equals the number of samples iteration delivers on that rank summed over its workers.", "quantifier": "every layout, world size, worker count and batch size", "why_tests_cant": "Unbounded shapes.", "anchors": ["src/litdata/streaming/dataset.py:StreamingDataset.__len__", "src/litdata/streaming/shuffle.py:Shuffle.get_len"]}
{"id": "C42", "title": "A sample is looked up in the registered serializers in a fixed priority order", "statement": "Each leaf is handled by the first serializer (user-provided ones first, then the fixed order) that accepts it, and reading uses the same serializer as writing.", "quantifier": "every leaf and every dictionary of user serializers", "why_tests_cant": "User serializers are arbitrary.", "anchors": ["src/litdata/streaming/serializers.py:_get_serializers", "src/litdata/streaming/writer.py:BinaryWriter._serialize"]}
{"id": "C43", "title": "All outputs of the optimize pipeline are stored exactly once for any worker schedule", "statement": "For every schedule of downloader, worker, remover and uploader processes, every input is processed exactly once by its worker and all chunk files are uploaded before the index.", "quantifier": "every interleaving of the queue operations", "why_tests_cant": "All interleavings.", "anchors": ["src/litdata/processing/data_processor.py:BaseWorker._loop", "src/litdata/processing/data_processor.py:_upload_fn", "src/litdata/processing/data_processor.py:_download_data_target"]}
{"id": "C44", "title": "Downloader selection follows the registration table", "statement": "get_downloader picks the first registered prefix that matches the remote directory and the local downloader otherwise; registering an existing prefix without overwrite raises and leaves the table unchanged; unregistering removes it.", "quantifier": "every sequence of register/unregister calls and every remote directory", "why_tests_cant": "Unbounded histories.", "anchors": ["src/litdata/streaming/downloader.py:register_downloader", "src/litdata/streaming/downloader.py:get_downloader"]}
{"id": "C45", "title": "fast_dev_run processes a prefix of every worker's inputs", "statement": "With fast_dev_run=n every worker processes the first min(n, k) of its k inputs and no others; with fast_dev_run=True it processes the documented default number of them.", "quantifier": "every distribution of inputs and every n > 0", "why_tests_cant": "Unbounded inputs and numbers.", "anchors": ["src/litdata/processing/data_processor.py:DataProcessor.run"]}
{"id": "C46", "title": "Per-stream batches come from one dataset", "statement": "With batching_method='per_stream' every batch of a CombinedStreamingDataset consists of samples of a single dataset, chosen once for the batch.", "quantifier": "every number of datasets, weights, batch size, random choices and number of batches", "why_tests_cant": "the choice depends on random draws and on where inside a batch a dataset ends; tests try a few seeds and sizes", "anchors": ["src/litdata/streaming/combined.py:_CombinedDatasetIterator._get_dataset_index"]}
{"id": "C47", "title": "walk lists every folder exactly once", "statement": "Iterating over walk(folder) terminates and yields every folder at or below the given one exactly once, with the names of its sub-folders and of its files, like os.walk up to order; it raises only if something that is not a file cannot be listed.", "quantifier": "every finite folder tree, number of threads and order in which the listings complete", "why_tests_cant": "the order in which listings complete depends on thread scheduling, and the queue limits only matter for trees larger than twice the number of workers", "anchors": ["src/litdata/processing/functions.py:walk.__iter__"]}
{"id": "C48", "title": "Slicing a dataset is slicing the list of its samples", "statement": "dataset[start:stop:step] returns what the Python slice of the list of the first len(dataset) samples returns, including negative and out-of-range bounds and negative steps; a step of zero raises ValueError.", "quantifier": "every dataset with any chunks and regions of interest, encrypted or not, and every slice", "why_tests_cant": "unbounded datasets and slices; the tests try a few literal slices", "anchors": ["src/litdata/streaming/dataset.py:StreamingDataset.__getitem__", "src/litdata/streaming/config.py:ChunksConfig._get_chunk_index_from_index"]}
{"id": "C49", "title": "Processing works on copies and deletes only copies", "statement": "While map or optimize runs with an input directory, the worker reads at its paths the content of the inputs, the remover deletes only the local copies and the files the run itself made, and no input file or other file outside the cache is changed or deleted.", "quantifier": "every input directory, cache directory, set of input paths, and sequence of downloads, removals, uploads and writes", "why_tests_cant": "depends on how the texts of paths relate (prefixes, repeated substrings, links); tests use temporary directories with one layout", "anchors": ["src/litdata/processing/data_processor.py:_download_data_target", "src/litdata/processing/data_processor.py:_remove_target", "src/litdata/processing/data_processor.py:BaseWorker._collect_paths"]}
{"id": "C50", "title": "map and optimize return only when all work is done, and raise when a worker failed", "statement": "The main loop leaves normally only when every worker has handled all of its items and ended; if a worker raises, the run ends with an error and never goes on to write the index; it raises only if some worker failed, and it does not wait for ever.", "quantifier": "every number of workers and items, every interleaving and message delay, failures at any point", "why_tests_cant": "progress and error messages travel through different queues with any delay; tests see one schedule", "anchors": ["src/litdata/processing/data_processor.py:DataProcessor.run", "src/litdata/processing/data_processor.py:BaseWorker._loop", "src/litdata/processing/data_processor.py:BaseWorker.run"]}
{"id": "C51", "title": "Every process detects its own place", "statement": "Every process detects the world size and its own rank, so that the numbers of all data loader workers of all ranks are distinct and fill the range of shards; the workers of map and optimize on all nodes likewise.", "quantifier": "every world size, rank, number of nodes, GPUs and workers, and every setting of the environment variables", "why_tests_cant": "tests patch a few environments; real launchers set other variables", "anchors": ["src/litdata/utilities/env.py:_DistributedEnv.detect", "src/litdata/utilities/env.py:Environment.shard_rank", "src/litdata/processing/data_processor.py:BaseWorker._set_environ_variables"]}
{"id": "C52", "title": "Item loaders let go of what they have read", "statement": "Once the reader is done with a chunk, its item loader holds nothing of it: closing or deleting a chunk releases its memory map, its file and its row groups, and in low-memory mode a row group is held only while some but not all of its rows have been read.", "quantifier": "every sequence of reads, loads ahead, closes and deletions of any chunks", "why_tests_cant": "leaks show only over long runs; tests read a few samples and look at the values", "anchors": ["src/litdata/streaming/item_loader.py:TokensLoader.close", "src/litdata/streaming/item_loader.py:ParquetLoader._get_item_with_low_memory", "src/litdata/streaming/item_loader.py:ParquetLoader.close"]}
{"id": "C53", "title": "Streaming an optimized dataset yields the samples that were optimized", "statement": "If samples of one structure are written by any number of workers, merged and streamed, then in an epoch the workers of all ranks together yield exactly the samples written, as equal Python objects: each exactly once when shuffled, and in the order of the index when not. With drop_last the ranks yield equal numbers. A resumed worker yields the rest of its samples.", "quantifier": "every number of writers, sample lists, chunk limits, plain or encrypted, world size, number of loader workers, batch size, epoch (one node, or the first epoch) and random permutations", "why_tests_cant": "composes serialization, chunking, merging, splitting, shuffling and reading for unbounded data and every world; tests run one or two processes on small data", "anchors": ["src/litdata/streaming/dataset.py:StreamingDataset.__next__", "src/litdata/streaming/writer.py:BinaryWriter.add_item", "src/litdata/streaming/writer.py:BinaryWriter._merge_no_wait", "src/litdata/utilities/shuffle.py:_associate_chunks_and_intervals_to_workers", "src/litdata/streaming/item_loader.py:PyTreeLoader.load_item_from_chunk"]}
{"id": "C54", "title": "Reading datasets in the MDS format", "statement": "An MDS index is accepted exactly if it has at least one shard and all shards are compressed. Then, once the decompressed shards are in the cache (none smaller than the compressed size in the index), any sequence of sample indices in range returns the raw samples with these ranks in the concatenation of the shards; and a raw sample whose columns have encodings that are names of serializers, with no column declared of size zero, is read as the dictionary from the column names of the first shard to the decoded columns.", "quantifier": "all lists of shards, numbers of samples, shard descriptions, column sizes, column contents, serializer tables and sequences of indices", "why_tests_cant": "A test reads one dataset written by one version of the MDS writer, with one set of column types and sizes; the claim is about all offsets, sizes and mixes of fixed and variable columns.", "anchors": ["src/litdata/utilities/dataset_utilities.py:229-301", "src/litdata/streaming/item_loader.py:266-285", "src/litdata/streaming/config.py:149-168"]}
{"id": "C55", "title": "A directory of parquet files is a dataset of all its rows", "statement": "index_parquet_dataset lists exactly the parquet files of a directory, in the order of the listing, with their row counts and sizes, and raises if the column types of two files differ. A dataset over this index, or over the files matching a wildcard, has as many samples as these files have rows, and any sequence of indices reads the rows with these numbers, file after file. Local and remote directories give the same metadata.", "quantifier": "every directory listing, file contents, number of files and rows, wildcard, order of accesses, local or remote storage, with and without low-memory mode", "why_tests_cant": "Tests index a handful of generated files and read a few rows; they cannot cover every mix of file sizes, row groups, listings and access orders.", "anchors": ["src/litdata/streaming/writer.py:565-643", "src/litdata/utilities/parquet.py:17-337", "src/litdata/utilities/hf_dataset.py:10-34", "src/litdata/utilities/dataset_utilities.py:82-93", "src/litdata/streaming/item_loader.py:586-740", "src/litdata/streaming/dataset.py:99-118"]}
{"id": "C56", "title": "A cache filled by a data loader holds what the loader delivered", "statement": "When CacheDataLoader fills a cache with any number of replicas and workers, each replica delivers in its first pass the batches of its sampler, every sample delivered is stored, merging the worker indexes succeeds and cache[i] is the sample delivered for index i. Later passes read every stored sample exactly once over all replicas. A dataset that returns a different first sample when asked twice is refused.", "quantifier": "all datasets of serializable samples, sizes, batch sizes, chunk limits, numbers of replicas and workers, orders in which files appear, and changes of later samples from call to call", "why_tests_cant": "A test fills one cache with one or two workers; the claim is about every split of samples over replicas and workers, including uneven ones, and every dataset.", "anchors": ["src/litdata/streaming/dataloader.py:50-344", "src/litdata/streaming/cache.py:34-170", "src/litdata/streaming/sampler.py:94-246", "src/litdata/streaming/writer.py:120-133", "src/litdata/streaming/writer.py:425-517"]}
{"id": "C57", "title": "The chunks kept on disk are bounded by the cache limit", "statement": "With a limit on the cache, the chunks that one reader has on disk exceed the limit by no more than the chunks fetched ahead or by force and those that other processes have locked or that were there before. The size that is compared with the limit is the sum of the sizes of the chunks on disk by the index plus that of partial downloads, whatever the real file sizes. If the share of a node exceeds the limit, chunks are deleted as soon as they were read and only those fetched ahead are on disk.", "quantifier": "all indexes, sizes, limits, numbers of chunks fetched ahead, interleavings of the thread with its reader, changes of other files in the directory and locks of other processes at every moment", "why_tests_cant": "A test reads one dataset in one timing; how much is on disk at the worst moment depends on the interleaving of downloads, reads and deletions.", "anchors": ["src/litdata/streaming/reader.py:48-247", "src/litdata/streaming/reader.py:475-520", "src/litdata/streaming/config.py:105-109"]}
{"id": "C58", "title": "The cache directory holds only files of the version that is read", "statement": "Whatever datasets and versions of them were used before, a dataset that is opened finds in its cache directory only files of its present version. Opening the same version again keeps its files, another version removes those of the older one, and the caches of other datasets are left alone. Processes that open a dataset at the same time do not remove each other's files.", "quantifier": "all sequences of datasets, versions and downloaded files; all interleavings of any number of processes", "why_tests_cant": "A test opens one or two versions in one process; the claim is about every history of the cache directory and every interleaving of processes.", "anchors": ["src/litdata/utilities/dataset_utilities.py:141-211", "src/litdata/utilities/dataset_utilities.py:44-78", "src/litdata/utilities/dataset_utilities.py:304-313"]}
{"id": "C59", "title": "Directories are resolved to the place they stand for", "statement": "A URL is kept, a local path is made absolute, and a path below a connection, folder, dataset or Studio of a Teamspace gets the URL of the same place in its bucket; different folders get different URLs, unknown names are refused, and resolving twice changes nothing. Exactly the paths that have to be fetched are replaced by a cache directory. A time template at the end of a path is filled in.", "quantifier": "all names, nested folders, sources with and without a slash at the end, lists of Studios and clusters, and arguments", "why_tests_cant": "Tests resolve a few fixed paths with mocked clients; the claim covers all paths and all answers of the client.", "anchors": ["src/litdata/streaming/resolver.py:33-229", "src/litdata/streaming/resolver.py:347-354", "src/litdata/utilities/dataset_utilities.py:127-138"]}
{"id": "C60", "title": "Uploaded files arrive at the place of their dataset", "statement": "Every file that a worker of optimize puts into an upload queue arrives directly below the output directory under its own name; every file that a call of the function given to map leaves in its temporary folder arrives at the same relative place below the output directory; a checkpoint arrives at .checkpoints/checkpoint-<rank>.json, the name under which the worker with that number looks for it when it is resumed. Nothing else at the output changes.", "quantifier": "for all output directories or URLs, cache folders, temporary folders, sets of files, file contents and orders of uploads, and all ranks and unique ids of checkpoints", "why_tests_cant": "the target is computed from substrings of whole paths (prefix tests, replace, a fixed number of characters cut off), so it may be wrong for paths that no test uses", "anchors": ["src/litdata/processing/data_processor.py:227-293", "src/litdata/processing/utilities.py:262-274", "src/litdata/processing/data_processor.py:789-812", "src/litdata/streaming/writer.py:542-562", "src/litdata/processing/data_processor.py:1404-1490"]}
{"id": "C61", "title": "Encryption objects survive being saved and loaded", "statement": "A Fernet or RSA encryption object that is saved to a file, pickled, or whose keys are written to files, is restored with the same level and keys, so that chunks written with the one are read with the other. With another password nothing is read. What is saved does not give away the password. Levels other than sample and chunk are refused.", "quantifier": "all passwords, salts, keys, levels, chunks, samples and orders of requests", "why_tests_cant": "A test saves one object and decrypts one text with it; the claim is about every salt (base64), every password, also the empty one, and every dataset written with the object.", "anchors": ["src/litdata/utilities/encryption.py:56-122", "src/litdata/utilities/encryption.py:125-268", "src/litdata/streaming/item_loader.py:223-251"]}
{"id": "C62", "title": "What optimize writes is what is streamed, under any schedule", "statement": "Whatever the interleaving of the main process, the workers, their downloaders, uploaders and removers: when optimize has come to its end, the output directory together with its merged index is a dataset whose stream, shuffled or not, over any number of ranks and data loader workers, consists of exactly the outputs of the user's function for all the inputs, each once; unshuffled and with inputs handled in order, in the order of the inputs.", "quantifier": "all inputs, functions, numbers of workers, downloaders and uploaders, interleavings, chunk limits, nonces, world sizes, data loader workers, batch sizes, epochs and random draws", "why_tests_cant": "Tests optimize a few dozen inputs with one or two workers under the schedule the machine happens to choose and stream them with one loader; the claim joins all schedules of the writers with all splits of the stream.", "anchors": ["src/litdata/processing/data_processor.py:600-812", "src/litdata/processing/data_processor.py:897-922", "src/litdata/streaming/writer.py:321-517", "src/litdata/streaming/dataset.py:271-473"]}
{"id": "C63", "title": "optimize on several nodes produces one complete dataset", "statement": "When optimize runs on several nodes, each node merges the index files of its workers and uploads the result, and the last node waits for the indexes of all other nodes and merges them. In whatever order the nodes finish, no node fails, everyone ends, and index.json lists the chunks of all workers of all nodes exactly once; streaming the output yields the outputs of the function for all inputs.", "quantifier": "for every number of nodes and workers, every interleaving of all processes of all nodes and of the nodes' final phase, every list of inputs, every function, plain, encrypted or losslessly compressed chunks", "why_tests_cant": "Tests mock a single node or call the merge on prepared files; interleavings of several machines, nodes that are ready in an unexpected order and left-over index files of earlier runs are never exercised.", "anchors": ["src/litdata/processing/data_processor.py:897-981", "src/litdata/streaming/writer.py:474-517", "src/litdata/processing/data_processor.py:98-105", "src/litdata/streaming/resolver.py:259-336"]}
{"id": "C64", "title": "A streaming data loader as the inputs of map and optimize gives every sample once", "statement": "When the inputs of map or optimize are a StreamingDataLoader, every sample of its dataset is given to the function exactly once, no worker fails, and a run resumed from a checkpoint goes on with the batches that are left.", "quantifier": "for every dataset, shuffled or not, every batch size, number of workers of the loader, number of nodes and workers of the processing, with and without drop_last, and every number of inputs done before a resume", "why_tests_cant": "The number of batches is computed for one process while the batches are split for all of them; whether the two agree depends on the number of samples modulo batch size times workers. The only test of it is skipped, and the sizes for which it happens to work look like any other.", "anchors": ["src/litdata/processing/readers.py:136-152", "src/litdata/processing/data_processor.py:1110-1160", "src/litdata/streaming/dataset.py:244-296", "src/litdata/utilities/env.py:77-82", "src/litdata/streaming/dataloader.py:669-677"]}
{"id": "C65", "title": "A loader's settings reach every dataset, and its length is the number of batches it delivers", "statement": "The batch size, number of workers, shuffle and drop_last of a StreamingDataLoader reach every dataset below it; len(loader) is the number of batches an epoch delivers; and asking for a length or loading a state does not change the settings the samples are split by.", "quantifier": "for every dataset or combination of datasets, every rank and world size, every batch size, number of workers, shuffle and drop_last, every run of the combined iterators to their end", "why_tests_cant": "The length is computed by a closed form on other objects than the ones that deliver; a mismatch of one batch shows only for particular remainders of samples by workers and batch size, and settings that are reset by a length query change the split silently.", "anchors": ["src/litdata/streaming/dataset.py:186-269", "src/litdata/streaming/combined.py:75-161", "src/litdata/streaming/dataloader.py:572-626", "src/litdata/streaming/dataloader.py:669-677", "src/litdata/streaming/dataloader.py:705-759", "src/litdata/streaming/shuffle.py:37-47"]}
{"id": "C66", "title": "A loader over a combined dataset goes on with the samples that each worker has left", "statement": "A StreamingDataLoader over a CombinedStreamingDataset that is given the state saved after any number of batches goes on, in every worker and for every dataset, with the sample after the last one this worker has delivered of it; nothing is delivered twice or left out.", "quantifier": "for every number of datasets and their splits, every weights and random source, every number of workers, batch size and number of batches before the stop, with and without iterate_over_all", "why_tests_cant": "Where a worker goes on is computed from totals over all workers as if they had taken full batches in turn from each dataset; whether this is right depends on how the random choices fall, so samples are lost for some seeds and sizes only.", "anchors": ["src/litdata/streaming/dataloader.py:679-759", "src/litdata/streaming/combined.py:171-225", "src/litdata/streaming/combined.py:342-350", "src/litdata/streaming/dataset.py:339-387", "src/litdata/streaming/dataset.py:656-697"]}
{"id": "C67", "title": "What is put into an object store under a URL is what is read back under it", "statement": "For S3 and GCS, a file uploaded under a URL is found and downloaded with its content under the same URL and no other file is changed; copying and downloading a folder give the files of exactly the objects meant.", "quantifier": "for every bucket, key, content and number of files, every order of uploads, both stores", "why_tests_cant": "The tests mock the clients and check which bucket and key are passed for one URL; keys with special characters, leading slashes, folder markers, or more than one page of objects do not occur.", "anchors": ["src/litdata/streaming/fs_provider.py:51-254", "src/litdata/streaming/fs_provider.py:256-262"]}
{"id": "C68", "title": "A run resumes from the last checkpoints that interrupted runs have saved", "statement": "If runs of optimize with use_checkpoint, the same workers and the same inputs are interrupted any number of times, the next run gets for each worker the last checkpoint that was uploaded for it, and none if there is none; a run with other workers or inputs is refused.", "quantifier": "for every number of workers, inputs, runs and uploads, every local folder and object store URL, every mode", "why_tests_cant": "The tests use a local folder, one machine and a few workers; listing limits, what else lies in the bucket or in the current folder, and the interplay with the modes only show in object stores.", "anchors": ["src/litdata/processing/data_processor.py:1335-1490", "src/litdata/processing/data_processor.py:1139-1156", "src/litdata/processing/data_processor.py:226-293", "src/litdata/streaming/fs_provider.py:73-90", "src/litdata/streaming/fs_provider.py:149-175", "src/litdata/streaming/resolver.py:306-336"]}
{"id": "C69", "title": "The workers get the inputs that the user gave", "statement": "When map or optimize hand the inputs to the workers, by weights, by file sizes or in order, each input is given to exactly one worker of one node, and the value the user's function is called with is the value the user gave.", "quantifier": "for every list of inputs made of numbers, texts, lists and tuples, all positive weights and file sizes, any number of nodes and workers, every permutation that is drawn", "why_tests_cant": "The tests of the weighted mapping use lists of numbers or of file names, for which numpy gives back equal values; tuples with labels, ragged inputs and short batches meet the conversion only with weights or an input directory.", "anchors": ["src/litdata/processing/data_processor.py:334-362", "src/litdata/processing/data_processor.py:1124-1138", "src/litdata/processing/functions.py:296-297", "src/litdata/processing/functions.py:467-468"]}
{"id": "C70", "title": "A call of map or optimize is refused without harm, or gives the workers what was asked for", "statement": "A call of map or optimize either raises and leaves the output directory as it was, or it starts the number of workers that was asked for, which together get exactly the given inputs (in groups of batch_size, if given), with chunk numbers that no existing chunk has.", "quantifier": "for all arguments (list, tuple or loader as inputs, batch_size, weights, num_workers, modes, checkpoints, input and output directories), every content of the output directory, any number of nodes", "why_tests_cant": "The tests call the functions with accepted arguments on fresh directories; combinations of a mode that removes data with an argument that is refused later, and arguments that are silently ignored, are not tried.", "anchors": ["src/litdata/processing/functions.py:59-103", "src/litdata/processing/functions.py:207-324", "src/litdata/processing/functions.py:345-523", "src/litdata/processing/data_processor.py:999-1175", "src/litdata/streaming/resolver.py:232-336"]}
{"id": "C71", "title": "The user's function gets its own inputs with local copies of their files, and all of its results are used", "statement": "In map and optimize the function of the user is called with each of its inputs, in which the paths of files of the input directory are replaced by paths at which the same content is found, and nothing else is changed; it gets the arguments device and is_last if it takes them; in optimize every value that it returns or yields (but None) is stored.", "quantifier": "for all inputs built from numbers, texts, lists and tuples, all local and remote input directories and contents of files and stores, all kinds of callables (functions, partials, methods, objects), all numbers of workers and GPUs", "why_tests_cant": "The tests use plain functions and lists of paths that exist; a label that happens to name a file, a bound method that yields, or a partial with a parameter device is not tried.", "anchors": ["src/litdata/processing/functions.py:106-204", "src/litdata/processing/data_processor.py:124-182", "src/litdata/processing/data_processor.py:396-415", "src/litdata/processing/data_processor.py:644-686", "src/litdata/processing/data_processor.py:751-812"]}
{"id": "C72", "title": "All machines of a run use the same directories", "statement": "In a run of map or optimize on several machines of an application, all machines end up with the same input directory and the same output directory, and these are directories that a machine of this run was given, whatever requests to the service fail or are repeated.", "quantifier": "for all directories (paths and URLs), any number of machines and runs, all interleavings, lost requests, lost replies and repeated requests", "why_tests_cant": "The test of broadcast_object replaces the service by a mock that returns one value; races of machines, several runs of an application and paths with other characters are not tried.", "anchors": ["src/litdata/utilities/broadcast.py:107-153", "src/litdata/processing/data_processor.py:1083-1088", "src/litdata/streaming/resolver.py:33-38"]}
{"id": "C73", "title": "Requests to S3 are made with fresh credentials", "statement": "The S3 client that is used for a request was made no longer ago than the refetch interval (3300 seconds), and it is not made anew more often than once in an interval.", "quantifier": "for all intervals, all sequences of accesses, all durations of making a client, all clocks", "why_tests_cant": "The tests replace the clock and boto3 and look at two or three accesses; that the age is counted from the end of a slow creation cannot be seen with mocks.", "anchors": ["src/litdata/streaming/client.py:29-72"]}
{"id": "C74", "title": "The name servers of the machine are left as they were", "statement": "After a call of map or optimize, however it ends, /etc/resolv.conf has the content that it had before; during a call with optimize_dns the local name server is the cache.", "quantifier": "for all contents of the file, with and without optimize_dns, in and outside a Studio, for every end of the call, commands that work or not", "why_tests_cant": "The tests mock open and Popen and check that a command is started; what the file looks like afterwards for other contents, or after an interruption, is not tried.", "anchors": ["src/litdata/processing/utilities.py:133-188", "src/litdata/processing/functions.py:318-324", "src/litdata/processing/functions.py:505-511"]}
{"id": "C75", "title": "A downloader fetches the file that its URL names", "statement": "For every built-in downloader, a call fetches the object that the URL names to the local path with its content; it changes no other file, leaves a file alone that is already there, and for a missing object or a URL of another scheme it raises and leaves no file. What was uploaded for a dataset is what is fetched when the dataset is streamed.", "quantifier": "for all downloaders and clients, buckets, keys, folders with and without a slash at the end, contents of the store and of the cache", "why_tests_cant": "The tests replace every client by a mock and compare the arguments of one call; how the key that the writer uses and the key that the reader uses go together, and what is left after a failure, is not seen.", "anchors": ["src/litdata/streaming/downloader.py:63-72", "src/litdata/streaming/downloader.py:88-154", "src/litdata/streaming/downloader.py:166-227", "src/litdata/streaming/downloader.py:230-293", "src/litdata/streaming/config.py:291-304"]}
{"id": "C76", "title": "A worker that streams from a remote folder delivers what it would read from the disk", "statement": "Whatever the order of the steps of the reader, of its download thread, of partly arrived files and of other workers that fetch and delete the same chunks, the samples that a worker delivers are, in order, those that it would read if all chunks were on the disk; it asks for its chunks and gives them up in the order of its split, and from every state in which nothing was raised it can get to the end of its pass.", "quantifier": "for all datasets, splits, shufflers, epochs, positions of resuming, limits of the cache and of chunks ahead, and all interleavings of reader, thread and other workers", "why_tests_cant": "The tests run one schedule with a downloader that copies files at once; a chunk that is deleted, half there or fetched late at a certain step is not seen.", "anchors": ["src/litdata/streaming/reader.py:347-448", "src/litdata/streaming/reader.py:84-98", "src/litdata/streaming/reader.py:200-247", "src/litdata/streaming/item_loader.py:146-213", "src/litdata/streaming/dataset.py:403-473"]}
{"id": "C77", "title": "Blocks of tokens are right, and nothing fails, while the thread loads chunks ahead and deletes them", "statement": "Whatever lines of the download thread (fetching a chunk piece by piece, loading it ahead, deleting one that was given up) come between the lines of a reader that streams blocks of tokens from a remote folder, each block delivered is the one asked for, and neither the reader nor the thread raises an exception.", "quantifier": "for all chunks of tokens, sizes of blocks and tokens, orders of blocks chunk by chunk, and all interleavings of the lines of both threads", "why_tests_cant": "The two threads share dictionaries without a lock; the windows between a test and a deletion, or between two assignments, are a few instructions wide and are not hit by a test with a few chunks.", "anchors": ["src/litdata/streaming/item_loader.py:435-456", "src/litdata/streaming/item_loader.py:458-518", "src/litdata/streaming/item_loader.py:520-538", "src/litdata/streaming/item_loader.py:549-558", "src/litdata/streaming/reader.py:405-443"]}
{"id": "C78", "title": "Several datasets in one process do not disturb each other", "statement": "A program that opens several datasets in one process, reads them by index in any order and splits some of them before or after reading, gets from each dataset and from each split exactly the samples that its own files and regions say, whether item loaders are given to the datasets or not, and also if one item loader is given to several datasets.", "quantifier": "for all directories of chunks (plain or encrypted), all datasets on them, all assignments of item loader objects to datasets, all programs of reads and splits, all ratios and shuffles", "why_tests_cant": "Tests use one dataset with one item loader, and split datasets before reading them; what one dataset leaves in an item loader shows only for particular interleavings of particular datasets.", "anchors": ["src/litdata/streaming/dataset.py:213-241", "src/litdata/streaming/dataset.py:389-412", "src/litdata/streaming/dataset.py:622-645", "src/litdata/streaming/config.py:57-82", "src/litdata/streaming/item_loader.py:48-69", "src/litdata/streaming/item_loader.py:121-125", "src/litdata/streaming/item_loader.py:223-251", "src/litdata/streaming/item_loader.py:366-370", "src/litdata/streaming/item_loader.py:435-448", "src/litdata/utilities/train_test_split.py:14-111"]}
{"id": "C79", "title": "A dataset opens from the text of its index exactly when the settings fit, and then reads what was written", "statement": "Constructing a dataset over an index that the writer has dumped succeeds exactly when the directory exists, some chunk is selected, the item loader is the one the index names, every data format has a serializer, the structure can be loaded, the compression is installed, and tokens come with a positive block size and a known dtype; otherwise the constructor raises. An open dataset has the chunks, regions and number of samples of the index and reads back each sample that was written.", "quantifier": "for all lists of chunks, configurations, item loaders, serializers, selections of chunks, ratios and shuffles, and all samples of the builtin kinds", "why_tests_cant": "Tests open the few combinations of loader, format and compression that they have written themselves; the text of the index between writer and reader, and the combinations that do not fit, are not covered.", "anchors": ["src/litdata/streaming/config.py:33-109", "src/litdata/streaming/config.py:279-326", "src/litdata/streaming/dataset.py:91-137", "src/litdata/streaming/dataset.py:213-241", "src/litdata/streaming/item_loader.py:48-82", "src/litdata/streaming/item_loader.py:392-433", "src/litdata/streaming/writer.py:147-157", "src/litdata/streaming/writer.py:415-423", "src/litdata/streaming/writer.py:511-517", "src/litdata/utilities/dataset_utilities.py:69-124", "src/litdata/utilities/dataset_utilities.py:214-253"]}
{"id": "C80", "title": "Functions over nested samples visit each leaf once and keep the structure", "statement": "For every nested sample, iterating, flattening and listing with key paths give the same leaves, each once, from left to right; key paths are distinct and lead to their leaves. Mapping a function over one or several samples succeeds exactly when the other samples have the containers of the first one (dictionaries in any order) and the function raises on no leaf; it calls the function with the values at the same key path and puts the results there, changing nothing else. Mapping the identity changes nothing and mapping twice is mapping the composition. Broadcasting gives each leaf the leaf that is on the way to it.", "quantifier": "for all nestings of lists, tuples, named tuples, dictionaries, ordered and default dictionaries and deques, all functions, also raising ones, all is_leaf predicates and any number of further samples", "why_tests_cant": "Tests map over a few small nestings; orders of keys, empty containers, exceptions and containers that count as leaves combine without bound.", "anchors": ["src/litdata/utilities/_pytree.py:404-440", "src/litdata/utilities/_pytree.py:446-600", "src/litdata/utilities/_pytree.py:695-707", "src/litdata/utilities/_pytree.py:746-816", "src/litdata/utilities/_pytree.py:866-1019", "src/litdata/utilities/_pytree.py:1060-1100", "src/litdata/utilities/_pytree.py:1139-1145", "src/litdata/utilities/_pytree.py:1184-1208", "src/litdata/utilities/_pytree.py:1238-1282", "src/litdata/utilities/_pytree.py:1293-1324", "src/litdata/utilities/_pytree.py:1478-1615"]}
{"id": "C81", "title": "From the inputs of optimize to the batches of a training loop nothing is lost, repeated or changed", "statement": "Let optimize run on one machine with any number of workers, downloaders and uploaders, none of which fails, under any schedule of these processes, with or without compression and encryption, for a function that yields samples with one structure. Let the merged index be written as text, and let a dataset be opened from this text and the output folder. Let each worker of each rank stream its share from the folder, its thread fetching files byte by byte in any interleaving with the reading, and let each rank collect batches of its workers with a data loader, in any interleaving. Then, unshuffled, or shuffled on one node or in the first epoch, once all loaders have ended their batches hold together exactly the samples that the function yielded for all inputs, each as often as it was yielded; no batch is empty or larger than asked for; with drop_last and no shuffling they hold the largest prefix that gives all ranks the same number of full batches. Workers of encrypted or compressed datasets have the cache to themselves. Each worker that may run two chunks ahead on an empty cache can come to its end, and so can each loader.", "quantifier": "every list of inputs, every function, every schedule of the processes of optimize, every directory and text that the run leaves, every number of ranks, workers and batch size, every permutation used for shuffling, every interleaving of the prepare thread, the reader and the loader", "why_tests_cant": "The composition ranges over all schedules of four kinds of processes, all interleavings of each worker with its thread and all orders in which batches arrive; a test runs one of them, and tests of the parts do not show that what one part leaves is what the next one assumes (names, sizes, order of files, text of the index).", "anchors": ["src/litdata/processing/data_processor.py:451-812", "src/litdata/processing/data_processor.py:861-985", "src/litdata/streaming/writer.py:159-520", "src/litdata/streaming/config.py:29-130", "src/litdata/streaming/dataset.py:180-420", "src/litdata/streaming/reader.py:38-448", "src/litdata/streaming/item_loader.py:110-300", "src/litdata/streaming/dataloader.py:575-760"]}
{"id": "C82", "title": "Appending to a dataset keeps its samples and adds the new ones", "statement": "Let a folder hold a dataset written by this version with the same settings, and let optimize run on it with mode=\"append\" on one machine, with any number of workers, downloaders and uploaders, none of which fails, under any schedule. Then the run ends, no file of the old dataset is changed, the new index lists the old chunks first and unchanged and then the new ones, and all names are different. A dataset opened from the text of the new index is streamed in batches by any number of ranks and workers so that the batches hold exactly the old samples and those that the function yielded for all new inputs, each as often as it was there.", "quantifier": "every existing index with names of this version, every list of inputs, every function, every number of workers before and after, every schedule of the processes, every number of ranks, workers and batch size, every permutation used for shuffling", "why_tests_cant": "Tests append a few inputs with one or two workers and look at the length; numbering of the new chunks, overwritten files and the order of the merged index depend on the workers of all earlier runs and on the schedule.", "anchors": ["src/litdata/processing/functions.py:472-520", "src/litdata/processing/utilities.py:244-259", "src/litdata/processing/data_processor.py:600-640", "src/litdata/processing/data_processor.py:861-985", "src/litdata/streaming/writer.py:474-520", "src/litdata/streaming/cache.py:155-157"]}
{"id": "C83", "title": "A training loop that is stopped and resumed any number of times gets the batches of an uninterrupted one", "statement": "Let the workers of every rank stream a dataset from a remote folder, shuffled (in the first epoch or on one node) or not, each with its thread that fetches files byte by byte, and let the StreamingDataLoader of each rank collect batches. Let the loop be stopped at any moment after at least one batch at which every worker has a sample left, its state be saved and loaded into a new loader, whatever the workers had read ahead, and let this happen any number of times. Then every worker that is resumed reads exactly what it had left, the state saved each time is the one that an uninterrupted loader would have saved after as many batches, and once a loader comes to the end of the epoch all batches together are, one by one, those of a loader that was never stopped; so the epoch gives every sample exactly once. A resumed worker that may run two chunks ahead on an empty cache can come to its end, and so can a resumed loader.", "quantifier": "every stored dataset, plain, compressed or encrypted, every number of ranks, workers, batches ahead and batch size, every permutation used for shuffling, every number of interruptions, every interleaving of main process, workers and threads in every run", "why_tests_cant": "Tests resume once from a few states on a local dataset; what workers have read ahead, repeated interruptions and the order of the fetched files depend on timing.", "anchors": ["src/litdata/streaming/dataloader.py:628-765", "src/litdata/streaming/dataset.py:262-420", "src/litdata/streaming/dataset.py:470-620", "src/litdata/streaming/reader.py:56-420"]}
{"id": "C84", "title": "Samples that were read can be written again", "statement": "Let samples be written with the built-in serializers and read back. Writing the samples that were read, as when a dataset is filtered or put together from others, gives the same bytes, the same data format and the same structure, so that the new data can be appended to the dataset it comes from.", "quantifier": "every number of samples, every kind of leaf that the built-in serializers handle, every behaviour of the pickle module that restores what it has stored", "why_tests_cant": "Tests write Python values and compare what they read with ==, which does not tell NumPy scalars from numbers; none writes again what it has read.", "anchors": ["src/litdata/streaming/serializers.py:60-92", "src/litdata/streaming/serializers.py:428-455", "src/litdata/streaming/serializers.py:515-534", "src/litdata/streaming/writer.py:159-206", "src/litdata/streaming/writer.py:474-517"]}
{"id": "C85", "title": "Batches of token blocks from a local folder hold every block once", "statement": "Let token lists be written by optimize with TokensLoader and the output folder be streamed as a local dataset by any number of ranks and workers through the data loader. Then every batch holds the blocks that were asked for, and the batches of an epoch together hold every block of every chunk exactly once; only the last tokens of a chunk, fewer than a block, are left out.", "quantifier": "every schedule of the processes of optimize, every list of token lists, block size, number of ranks and workers, batch size, shuffler and interleaving of the data loaders", "why_tests_cant": "Blocks are views of a memory map that the reader closes when it goes on to another chunk; whether a batch still sees its blocks depends on how many blocks of each chunk a worker is given and on where the batches are cut. Tests read blocks one by one or have many blocks in each chunk.", "anchors": ["src/litdata/streaming/reader.py:347-448", "src/litdata/streaming/item_loader.py:418-518", "src/litdata/streaming/item_loader.py:549-558", "src/litdata/streaming/dataset.py:414-473", "src/litdata/streaming/dataloader.py:564-719"]}
{"id": "C86", "title": "An epoch over a combined dataset gives every sample of every dataset once, over all ranks and workers", "statement": "Let stored datasets be combined with iterate_over_all and streamed by any number of ranks and workers through the data loader, each dataset in each worker with its own thread, shuffled (on one node or in the first epoch) or not. Then, whatever is chosen at random, every worker gives the samples of its shares of all datasets and stops, and the batches of all ranks together hold every sample of every dataset exactly once. Without iterate_over_all and with any weights no sample is given twice.", "quantifier": "every number of datasets, ranks and workers, every batch size, batching method, random generator and shuffler, every interleaving of threads, workers and data loaders", "why_tests_cant": "Tests combine two or three datasets in one process and look at short prefixes; the weights depend on the rank, what is left depends on all random choices, and the end of an epoch is reached in a different state in each worker.", "anchors": ["src/litdata/streaming/combined.py:75-99", "src/litdata/streaming/combined.py:171-191", "src/litdata/streaming/combined.py:229-336", "src/litdata/streaming/dataset.py:253-269", "src/litdata/streaming/dataloader.py:564-719"]}
{"id": "C87", "title": "Batches of token blocks from a remote folder are right however the prefetching thread runs", "statement": "Let a worker read token blocks from a remote folder, chunk after chunk, and collate them into batches, while its thread fetches chunks, loads them ahead and deletes those that were given up. Then under every interleaving of the lines of both threads each batch that is collated holds the bytes of exactly the blocks that were asked for, in order, and at the end of the pass all batches were given.", "quantifier": "every dataset of tokens, block size, batch size and sequence of blocks that goes chunk after chunk; every interleaving of the lines of the reader, the thread and the collate function; every choice of chunks loaded ahead and deleted", "why_tests_cant": "A block is a view of memory that the thread unmaps as soon as it deletes the chunk. Whether a batch is collated before depends on the timing of two threads, on the cache limit and on where batches are cut; tests compare blocks at once or use caches that never fill.", "anchors": ["src/litdata/streaming/reader.py:132-244", "src/litdata/streaming/reader.py:393-443", "src/litdata/streaming/item_loader.py:435-558"]}
{"id": "C88", "title": "No process is left behind by optimize or map", "statement": "However a run of optimize or map ends (it returns, it raises because a worker failed, or the main process is interrupted), the downloaders, uploaders, removers and workers that it started come to an end.", "quantifier": "every number of workers, downloaders, uploaders and inputs, every interleaving, failures and interrupts at any point", "why_tests_cant": "whether a process ends depends on messages other processes have or have not sent before they were terminated; a test sees one moment of failure and does not wait for ever", "anchors": ["src/litdata/processing/data_processor.py:DataProcessor._exit_on_error", "src/litdata/processing/data_processor.py:DataProcessor._signal_handler", "src/litdata/processing/data_processor.py:BaseWorker._terminate", "src/litdata/processing/data_processor.py:_upload_fn", "src/litdata/processing/data_processor.py:_remove_target"]}
{"id": "C89", "title": "A failing download delays a worker or ends its pass with an error in time, and does no lasting harm", "statement": "If the download of a chunk fails, the worker delivers no wrong sample, it tries again or raises within the time limit, and once the remote folder can be read again, the dataset can be read again with the same cache.", "quantifier": "every number and sizes of chunks, compressed or not, every byte at which a download fails, every interleaving of reader, thread and other workers, every sequence of polls", "why_tests_cant": "the failure ends a thread that nobody watches and leaves a file behind that later passes take for a download of someone else; tests replace the downloader by a copy that does not fail", "anchors": ["src/litdata/streaming/reader.py:PrepareChunksThread.run", "src/litdata/streaming/item_loader.py:PyTreeLoader.load_item_from_chunk", "src/litdata/streaming/item_loader.py:ParquetLoader.load_item_from_chunk", "src/litdata/streaming/config.py:ChunksConfig.download_chunk_from_index", "src/litdata/streaming/downloader.py:AzureDownloader.download_file"]}
{"id": "C90", "title": "Each epoch over one cache delivers its samples and can be followed by the next", "statement": "A worker that reads one epoch after the other over a remote dataset, with the same cache, delivers in every epoch exactly the samples of its assignment, whatever files the epochs before left in the cache and whatever item loader is used, and every epoch can be brought to its end.", "quantifier": "every number of epochs, every order of the chunks in each, every number and sizes of chunks, compressed or not, every interleaving of reader and prefetching thread, both kinds of item loader", "why_tests_cant": "the outcome depends on which files the last epoch left, on what its thread still does, and on the chunks on both sides of the boundary between two epochs; tests read one or two epochs in one order from a local copy", "anchors": ["src/litdata/streaming/dataset.py:StreamingDataset.__iter__", "src/litdata/streaming/dataset.py:StreamingDataset._create_cache", "src/litdata/streaming/reader.py:BinaryReader.read", "src/litdata/streaming/reader.py:PrepareChunksThread.run", "src/litdata/streaming/item_loader.py:PyTreeLoader.close"]}
{"id": "C91", "title": "A chunk that is in the cache is not downloaded again", "statement": "A pass that begins with the file of a chunk in the cache does not download this chunk, as long as the chunk is not deleted, and it leaves no other files of the chunk behind.", "quantifier": "every number and sizes of chunks, compressed or not, every set of files in the cache at the beginning, every interleaving of reader and prefetching thread, both kinds of item loader", "why_tests_cant": "the samples are right either way; only a count of the requests over several epochs, with compression and with a remote folder, would show it", "anchors": ["src/litdata/streaming/config.py:ChunksConfig.download_chunk_from_index", "src/litdata/streaming/config.py:ChunksConfig.try_decompress", "src/litdata/streaming/reader.py:PrepareChunksThread.run", "src/litdata/streaming/reader.py:_get_folder_size"]}
{"id": "C92", "title": "Breaking off an epoch leaves no chunk locked", "statement": "The counter of a chunk counts the passes that still need it: when a pass ends, by its last item or because the loop over the dataset is broken off or the process is killed, the chunks that it had counted are free again, so that later passes can delete them and the limit of the cache is kept.", "quantifier": "every number of passes, each read to its end or broken off at any item, every order of the chunks, every interleaving of reader and prefetching thread, every limit and max_pre_download", "why_tests_cant": "tests read every epoch to its end, and a chunk that stays costs only disk space; it shows after many broken epochs on a dataset that does not fit on the disk", "anchors": ["src/litdata/streaming/reader.py:BinaryReader.__del__", "src/litdata/streaming/reader.py:PrepareChunksThread._decrement_local_lock", "src/litdata/streaming/reader.py:PrepareChunksThread._apply_delete", "src/litdata/streaming/config.py:ChunksConfig.download_chunk_from_index"]}
{"id": "C93", "title": "Copies of the inputs leave space on the disk, and waiting for space does not stop the run", "statement": "While map or optimize downloads its inputs ahead, enough of the disk of the cache stays free: downloaders wait while less than the threshold is free. The wait never stops the run: copies that were used are removed, so that every run whose inputs fit on the disk one by one comes to its end.", "quantifier": "every number of workers, downloaders and inputs, all sizes, every amount of free space, every interleaving of downloaders, workers and removers", "why_tests_cant": "it depends on the free space of the machine and on how far the downloaders get ahead of the workers; tests mock the disk usage", "anchors": ["src/litdata/processing/data_processor.py:_wait_for_disk_usage_higher_than_threshold", "src/litdata/processing/data_processor.py:_download_data_target", "src/litdata/processing/data_processor.py:_remove_target", "src/litdata/processing/data_processor.py:DataWorkerProcess._loop"]}
{"id": "C94", "title": "Profiling records the batches asked for and changes nothing else", "statement": "With profile_batches=k and profile_skip_batches=s, result.json holds the loading of k batches of the first worker after its first s batches (with True: of all batches); no batch is changed; no other loader is profiled, and a trace that was written stays until another profiled loader writes its own.", "quantifier": "all numbers of batches to profile and to skip, all results of the fetches including failing ones, all numbers of workers, all sequences of passes over streaming, caching and plain data loaders in one process", "why_tests_cant": "The only test of profiling is skipped because profiling patches torch and disturbs other tests; and what is recorded depends on every combination of the two numbers, of the length of the pass and of failing fetches, and on all loaders used before.", "anchors": ["src/litdata/streaming/dataloader.py:347-379", "src/litdata/streaming/dataloader.py:382-455", "src/litdata/streaming/dataloader.py:470-475", "src/litdata/streaming/dataloader.py:600-604", "src/litdata/streaming/dataloader.py:155-236"]}
{"id": "C95", "title": "The index of a parquet dataset is found where it was written", "statement": "After index_parquet_dataset, a dataset opened over the same place (with index_path if the index was written to another directory) loads exactly the index that was just written: for a local directory, for a directory in the cloud and for one on Hugging Face; no other file is lost.", "quantifier": "all directories and their contents, all places of the cache, any cache_dir and index_path, all contents of the caches before, including older versions of the index", "why_tests_cant": "Tests index one fresh temporary directory, mostly in place, with mocked cloud storage; where the index is looked for depends on the kind of the path, on index_path and on every older version in the caches.", "anchors": ["src/litdata/utilities/parquet.py:48-63", "src/litdata/utilities/parquet.py:79-83", "src/litdata/utilities/parquet.py:108-112", "src/litdata/utilities/parquet.py:195-215", "src/litdata/utilities/parquet.py:340-361", "src/litdata/utilities/dataset_utilities.py:44-78"]}
{"id": "C96", "title": "A call with num_nodes does its work once, with the arguments of the user", "statement": "map and optimize with num_nodes run the script with the same arguments on the machines, return when the job has completed and raise when it has not; each call of a script does its work once, also when the script has several.", "quantifier": "all arguments and working directories, all sequences of phases of the job, all scripts with any number of calls with and without num_nodes and any modes", "why_tests_cant": "The tests mock the SDK and look at one call with a simple command; no test runs a script with two calls or arguments with blanks, and no test waits for a job that is stopped.", "anchors": ["src/litdata/streaming/resolver.py:357-409", "src/litdata/processing/functions.py:279-324", "src/litdata/processing/functions.py:436-523"]}
{"id": "C97", "title": "A dataset grows over any number of appending calls, some of which are broken off", "statement": "Let optimize be called any number of times on one folder with mode=\"append\" (the first time the folder is empty), on one machine and with the same settings, each time with other inputs, another number of workers and another schedule; and let any of the calls fail or be killed in any state, leaving anything of the files that it was writing. Then no call changes a file that the index lists, the index in the folder opens, and the batches that all ranks stream from it hold exactly the outputs for the inputs of the calls that returned, each once.", "quantifier": "all sequences of calls, all inputs, numbers of workers, downloaders and uploaders in each, all schedules, all states in which a call is broken off, all failures of the function and of uploads", "why_tests_cant": "The tests append once or twice in small folders without failures. Whether the numbers of the chunks of a later call with more or fewer workers collide with those of all earlier ones, and whether files left by broken calls are harmless, depends on the whole history, which grows without bound.", "anchors": ["src/litdata/processing/functions.py:474-516", "src/litdata/processing/data_processor.py:897-937", "src/litdata/streaming/writer.py:474-514"]}
{"id": "C98", "title": "A pass that is broken off does not spoil the states saved later", "statement": "A script may break off a pass over a StreamingDataLoader at any time and begin another one: the workers of the next pass begin where the counters of the loader say, with the worker whose turn it is, so that a state that is saved in it resumes with the batch after the last one that was given.", "quantifier": "all sequences of passes that are broken off after any batches, with states saved at any points in them, over a new loader or one that was resumed from any state; all numbers of workers, batch sizes, streams and schedules of the workers", "why_tests_cant": "The tests that resume a loader read the resumed pass to its end; that a resumed pass that is broken off leaves the loader restoring, with counters that go on and a kept state that does not, shows only in the next pass and only by what a later state says.", "anchors": ["src/litdata/streaming/dataloader.py:632-667", "src/litdata/streaming/dataloader.py:679-690", "src/litdata/streaming/dataloader.py:705-756", "src/litdata/streaming/dataset.py:475-507", "src/litdata/streaming/dataloader.py:461-465"]}
{"id": "C99", "title": "Workers that live on stay in the epoch of the loader", "statement": "With persistent_workers=True the workers of every pass are in the epoch that the loader counts and records: a pass that is read to its end gives every sample once, and a state that is saved in it resumes in the order in which the samples were given.", "quantifier": "all sequences of passes read to their ends or broken off anywhere, any number of samples that each worker has read ahead in each of them; all datasets, shuffles, numbers of ranks and workers", "why_tests_cant": "The tests do not break off passes with persistent workers; whether a worker has come to its end when a pass is broken off depends on how far it has read ahead, and the result is samples given twice or not at all, without an error.", "anchors": ["src/litdata/streaming/dataloader.py:632-646", "src/litdata/streaming/dataset.py:271-288", "src/litdata/streaming/dataset.py:414-432", "src/litdata/streaming/dataset.py:475-500"]}
{"id": "C100", "title": "A registered container type reads back as itself", "statement": "However container types are registered with register_pytree_node, the structure of a sample that can be written into an index is read, with the same registrations, as the same structure with the same types; and a registration that raises has no effect.", "quantifier": "all sequences of registrations with any names and context functions, accepted or refused; all structures, nested to any depth", "why_tests_cant": "The tests register a few types of the package once. Which class a name stands for depends on all registrations before, and a wrong class gives no error when the index is read.", "anchors": ["src/litdata/utilities/_pytree.py:210-272", "src/litdata/utilities/_pytree.py:362-403", "src/litdata/utilities/_pytree.py:1351-1384", "src/litdata/utilities/_pytree.py:1387-1415"]}
