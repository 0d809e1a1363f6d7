import Verif.Model.Sampler
import Verif.Model.Pipeline
import Verif.Model.Sample

/-!
A data loader that stores the samples of a user's dataset during its first pass and reads them back later.
Models `CacheDataset`, `CacheCollateFn`, the two iterator patches, `WorkerLoop` and the constructor of `CacheDataLoader`
(`src/litdata/streaming/dataloader.py` lines 50-344), `Cache.filled` and the item access of `Cache` (`src/litdata/streaming/cache.py` lines
110-145), and `BinaryWriter.filled` (`src/litdata/streaming/writer.py` lines 120-133).
Not modelled: the processes of torch's `DataLoader` (batch `k` is fetched by worker `k % num_workers` and results come back in the order of
the batches), profiling, coroutines, and the compression of the chunks.
-/

namespace LitData

/-- `==` of two Python floats, on their bit patterns: NaN differs from everything and the two zeros are equal. -/
def floatEqual (a b : UInt64) : Bool :=
  let mag := fun (x : UInt64) => x.toNat % 2 ^ 63
  if 0x7FF0000000000000 < mag a ∨ 0x7FF0000000000000 < mag b then false
  else a == b || (mag a == 0 && mag b == 0)

/-- `_equal_item` (`streaming/dataloader.py:60-66`). Comparing arrays gives an array and comparing NumPy scalars a NumPy boolean, neither of
which `is True`. What `==` says about tensors, images and other objects is `other`. -/
def equalItem (other : LeafTree → LeafTree → Bool) : LeafTree → LeafTree → Bool
  | .leaf (.str a), .leaf (.str b) => a == b
  | .leaf (.bool a), .leaf (.bool b) => a == b
  | .leaf (.bool a), .leaf (.int b) => (if a then 1 else 0) == b
  | .leaf (.int a), .leaf (.int b) => a == b
  | .leaf (.float a), .leaf (.float b) => floatEqual a b
  | .leaf (.bytes a), .leaf (.bytes b) => a == b
  | .leaf (.ndarray ..), _ => false
  | _, .leaf (.ndarray ..) => false
  | a, b => other a b

/-- `_equal_items` (`streaming/dataloader.py:50-57`). -/
def equalItems (other : LeafTree → LeafTree → Bool) (x y : LeafTree) : Bool :=
  let a := (flatten Leaf.isJpeg x).1
  let b := (flatten Leaf.isJpeg y).1
  if a.length ≠ b.length then false else (a.zip b).all fun p => equalItem other p.1 p.2

/-- The copy of a `CacheDataset` inside one process (`streaming/dataloader.py:89-91`): `_is_deterministic` and the fields of its writer.
`calls` counts how often the user's `__getitem__` has been called. -/
structure CacheCopy where
  checked : Bool
  calls : Nat
  ser : SerState LeafTree
  writer : WriterState

/-- After construction (`streaming/dataloader.py:89-91`). -/
def CacheCopy.init : CacheCopy := ⟨false, 0, SerState.init, WriterState.init⟩

/-- `Cache.__setitem__` (`streaming/cache.py:132-134`), which is `add_item` (`streaming/writer.py:321-342`) without encryption. -/
def cacheSet (sers : Table LeafTree) (cfg : WriterCfg) (s : CacheCopy) (i : Nat) (x : LeafTree) : Py CacheCopy :=
  if (bufGet s.writer.buf i).isSome then .error .valueError
  else match serializeSample sers s.ser (flatten Leaf.isJpeg x).1 (flatten Leaf.isJpeg x).2 with
    | .error e => .error e
    | .ok (b, ser) => (addItem cfg s.writer i ⟨b, none⟩).map fun w => { s with ser := ser, writer := w }

/-- The determinism check (`streaming/dataloader.py:99-106`): the sample is asked for a second time. -/
def cacheCheck (other : LeafTree → LeafTree → Bool) (ds : Nat → Nat → Py LeafTree) (s : CacheCopy) (i : Nat) (x : LeafTree) : Py CacheCopy :=
  if s.checked then .ok s
  else match ds s.calls i with
    | .error e => .error e
    | .ok y => if equalItems other x y then .ok { s with checked := true, calls := s.calls + 1 } else .error .valueError

/-- `CacheDataset.__getitem__` (`streaming/dataloader.py:96-108`) while the cache is not filled. `ds n i` is what the `n`-th call of the
user's `__getitem__` gives for `i`. -/
def cacheGet (other : LeafTree → LeafTree → Bool) (sers : Table LeafTree) (cfg : WriterCfg) (ds : Nat → Nat → Py LeafTree) (s : CacheCopy) (i : Nat) :
    Py (LeafTree × CacheCopy) :=
  match ds s.calls i with
  | .error e => .error e
  | .ok x => match cacheCheck other ds { s with calls := s.calls + 1 } i x with
    | .error e => .error e
    | .ok s => (cacheSet sers cfg s i x).map fun s => (x, s)

/-- Fetching the samples of one batch. -/
def cacheGets (other : LeafTree → LeafTree → Bool) (sers : Table LeafTree) (cfg : WriterCfg) (ds : Nat → Nat → Py LeafTree) :
    CacheCopy → List Nat → Py (List LeafTree × CacheCopy)
  | s, [] => .ok ([], s)
  | s, i :: is => match cacheGet other sers cfg ds s i with
    | .error e => .error e
    | .ok (x, s) => match cacheGets other sers cfg ds s is with
      | .error e => .error e
      | .ok (xs, s) => .ok (x :: xs, s)

/-- Fetching the batches of one worker. -/
def cacheFetch (other : LeafTree → LeafTree → Bool) (sers : Table LeafTree) (cfg : WriterCfg) (ds : Nat → Nat → Py LeafTree) :
    CacheCopy → List (List Nat) → Py (List (List LeafTree) × CacheCopy)
  | s, [] => .ok ([], s)
  | s, b :: bs => match cacheGets other sers cfg ds s b with
    | .error e => .error e
    | .ok (xs, s) => match cacheFetch other sers cfg ds s bs with
      | .error e => .error e
      | .ok (ys, s) => .ok (xs :: ys, s)

/-- `BinaryWriter.filled` (`streaming/writer.py:120-133`) outside of `optimize`, given `_is_done`, the names in the cache directory and
`worldSize * workers`. -/
def writerFilled (isDone : Bool) (names : List String) (total : Nat) : Bool :=
  isDone || (names.filter isIndexName).length == total

/-- What a worker does in the first pass: fetch its batches and call `done` (`streaming/dataloader.py:146-152`, 216-220) while the
directory holds `names`. The result has the batches and the files written; `done` returns at once if the writer takes the cache for filled. -/
def cacheWorker {C : Type} (other : LeafTree → LeafTree → Bool) (sers : Table LeafTree) (cfg : WriterCfg) (config : C) (total rank : Nat)
    (names : List String) (ds : Nat → Nat → Py LeafTree) (batches : List (List Nat)) : Py (List (List LeafTree) × CacheDir C) :=
  match cacheFetch other sers cfg ds CacheCopy.init batches with
  | .error e => .error e
  | .ok (xs, s) => match writerDone cfg (writerFilled false names total) s.writer with
    | .error e => .error e
    | .ok w =>
      let chunks := workerChunks none none (fun _ => 0) rank 0 w.chunks
      .ok (xs, if writerFilled false names total then chunks.map fun c => (c.1.filename, .data c.2) else workerFiles config rank chunks)

/-- `CacheCollateFn.__call__` (`streaming/dataloader.py:124-134`), without coroutines. -/
def cacheCollate {α β : Type} (isNone : α → Bool) (collate : List α → β) (items : List α) : Option β :=
  if items.all isNone then none else some (collate (items.filter fun x => !isNone x))

/-- `_next_data` of both patches (`streaming/dataloader.py:140-145`, 246-253): results that are `None` are passed over. -/
def cacheDelivered {α β : Type} (isNone : α → Bool) (collate : List α → β) (results : List (List α)) : List β :=
  results.filterMap (cacheCollate isNone collate)

/-- Result `k` of the loader is the next one of worker `k % num_workers`. -/
def inBatchOrder {α : Type} (nw n : Nat) (results : Nat → List α) : List α :=
  (List.range n).filterMap fun k => (results (k % nw))[k / nw]?

/-- The cache of `CacheDataLoader.__init__` (`streaming/dataloader.py:299-309`): `found` is the number of caches among the attributes of the
dataset. `none` is the cache of the dataset itself. The size of its chunks is the batch size. -/
def loaderCache (found : Nat) (cacheDir : Option String) (chunkBytes batchSize : Option Nat) : Py (Option WriterCfg) :=
  if 1 < found then .error .valueError
  else if found = 0 then
    match cacheDir with
    | none => .error .valueError
    | some _ => (mkWriterCfg batchSize chunkBytes).map some
  else .ok none

/-- `CacheBatchSampler.__len__` after construction (`streaming/sampler.py:91-111`, 217-218). -/
def samplerLength (filled : Bool) (size replicas rank numWorkers batchSize : Nat) : Py Nat :=
  if (if numWorkers = 0 then 1 else numWorkers) ≤ 1 ∨ filled then .ok 0
  else (samplerFill size replicas rank numWorkers batchSize).map List.length

end LitData
