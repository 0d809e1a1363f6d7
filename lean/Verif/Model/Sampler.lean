import Verif.Model.Subsample
import Verif.Model.Dataset

/-!
The batch sampler used while a cache is being filled and when it is read back.
Models `src/litdata/streaming/sampler.py`.
-/

namespace LitData

/-- `_chunk_list` (`streaming/sampler.py:241-246`) from position `i` on; `fuel` bounds the number of turns
of `range(0, len(arr), chunk_size)`. -/
def chunkListFrom {α : Type} (arr : List α) (size : Nat) : Nat → Nat → List (List α)
  | 0, _ => []
  | fuel + 1, i => if i < arr.length then (arr.drop i).take size :: chunkListFrom arr size fuel (i + size) else []

/-- `_chunk_list` (`streaming/sampler.py:241-246`): `ValueError` for the step 0. -/
def chunkList {α : Type} (arr : List α) (size : Nat) : Py (List (List α)) :=
  if size = 0 then .error .valueError else .ok (chunkListFrom arr size arr.length 0)

/-- The first loop of `__iter_indices_per_workers__` (`streaming/sampler.py:223-231`), for at most `fuel`
turns. -/
def rotate {α : Type} (numWorkers : Nat) : Nat → Nat → List (List (List α)) → List (List α)
  | 0, _, _ => []
  | fuel + 1, counter, lists =>
    if (lists.map List.length).sum = 0 then []
    else match lists[counter % numWorkers]? with
      | some (b :: rest) => b :: rotate numWorkers fuel (counter + 1) (lists.set (counter % numWorkers) rest)
      | _ => [] :: rotate numWorkers fuel (counter + 1) lists

/-- The second loop of `__iter_indices_per_workers__` (`streaming/sampler.py:233-237`): drop empty batches
at the end. `IndexError` when none is left. The argument is reversed. -/
def dropEmpty {α : Type} : List (List α) → Py (List (List α))
  | [] => .error .indexError
  | [] :: l => dropEmpty l
  | l => .ok l

/-- `__iter_indices_per_workers__` (`streaming/sampler.py:220-239`). -/
def rotateBatches {α : Type} (numWorkers : Nat) (lists : List (List (List α))) : Py (List (List α)) :=
  match dropEmpty (rotate numWorkers ((lists.map List.length).sum * numWorkers) 0 lists).reverse with
  | .error e => .error e
  | .ok l => .ok l.reverse

/-- Split the indices of a replica among workers (`streaming/sampler.py:126-133`, 156-161). -/
def splitWorkers (numWorkers workerSize : Nat) (indices : List Nat) : List (List Nat) :=
  (List.range numWorkers).map fun w =>
    let start := w * workerSize
    let stop := if w = numWorkers - 1 then indices.length else (w + 1) * workerSize
    -- `indices[start:end]`
    (indices.take stop).drop start

/-- Batch every worker's indices and hand them out in turn (`streaming/sampler.py:137-139`, 165-167). -/
def batchWorkers {α : Type} (numWorkers batchSize : Nat) (workers : List (List α)) : Py (List (List α)) :=
  match workers.mapM fun l => chunkList l batchSize with
  | .error e => .error e
  | .ok lists => rotateBatches numWorkers lists

/-- `__iter__` of `CacheBatchSampler` while the cache is not filled (`streaming/sampler.py:113-167`), for the
replica `rank`. The branch for one replica is `__iter_non_distributed__`. -/
def samplerFill (size replicas rank numWorkers batchSize : Nat) : Py (List (List Nat)) :=
  let nw := if numWorkers = 0 then 1 else numWorkers
  if replicas = 1 then
    let workers := splitWorkers nw (size / nw) (List.range size)
    if (workers.map List.length).sum ≠ size then .error .assertion else batchWorkers nw batchSize workers
  else
    let replicaSize := size / replicas
    let stop := if rank = replicas - 1 then size else (rank + 1) * replicaSize
    let indices := ((List.range size).take stop).drop (rank * replicaSize)
    let workers := splitWorkers nw (size / (replicas * nw)) indices
    if (workers.map List.length).sum ≠ indices.length then .error .assertion else batchWorkers nw batchSize workers

/-- Every `n`-th element from position `w` on: batch `k` goes to worker `k % num_workers`
(`streaming/sampler.py:98-105`), chunk `i` to worker or replica `i % n` (182-185, 192-194). -/
def everyNth {α : Type} (n w : Nat) (l : List α) : List α :=
  ((List.range l.length).filter fun k => k % n == w).filterMap fun k => l[k]?

/-- `diff.sum()` of `_validate` (`streaming/sampler.py:109-110`). -/
def diffSum : List Nat → Int
  | a :: b :: l => ((b : Int) - (a + 1)) + diffSum (b :: l)
  | _ => 0

/-- `_validate` (`streaming/sampler.py:94-111`) while the cache is not filled. -/
def samplerValidate (size replicas rank numWorkers batchSize : Nat) : Py Unit :=
  let nw := if numWorkers = 0 then 1 else numWorkers
  if nw ≤ 1 then .ok ()
  else match samplerFill size replicas rank numWorkers batchSize with
    | .error e => .error e
    | .ok batches =>
      if (List.range nw).any fun w => decide (diffSum (everyNth nw w batches).flatten ≠ 0) then .error .runtimeError else .ok ()

/-- The indices of one worker in `__iter_from_shuffled_chunks` (`streaming/sampler.py:192-211`); `permute k` is
`np.random.permutation` for the `k`-th chunk of the list. `first` is `is_empty`. -/
def chunkIndices (permute : Nat → List Nat → List Nat) (numWorkers : Nat) (chunks : List (Nat × Interval)) (w : Nat) : List ChunkedIndex :=
  let mine := everyNth numWorkers w (chunks.map (·.1))
  let all := (everyNth numWorkers w (chunks.mapIdx fun i c => (i, c))).flatMap fun x =>
    (permute x.1 (List.range' x.2.2.roiStart (x.2.2.roiEnd - x.2.2.roiStart))).map fun j => (⟨j, x.2.1, none, false⟩ : ChunkedIndex)
  match all with
  | [] => []
  | c :: l => { c with chunkIndexes := some mine } :: l

/-- `__iter__` of `CacheBatchSampler` once the cache is filled (`streaming/sampler.py:169-215`). -/
def samplerRead (permChunks : List Nat → List Nat) (permute : Nat → List Nat → List Nat) (ivs : List Interval) (replicas rank numWorkers batchSize : Nat) :
    Py (List (List ChunkedIndex)) :=
  let nw := if numWorkers = 0 then 1 else numWorkers
  let order := permChunks (List.range ivs.length)
  let shuffled := order.zip (pick ivs order)
  let mine := if replicas = 1 then shuffled else everyNth replicas rank shuffled
  batchWorkers nw batchSize ((List.range nw).map (chunkIndices permute nw mine))

end LitData
