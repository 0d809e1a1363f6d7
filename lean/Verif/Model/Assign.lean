import Verif.Model.Basic

/-!
How the chunks of a dataset are split between ranks and workers.
Models `src/litdata/utilities/shuffle.py` (lines 23-144) and `src/litdata/streaming/shuffle.py`.
-/

namespace LitData

/-- One iteration of the loop `for rank in range(world_size)` of
`utilities/shuffle.py:79-103`. `acc` is `num_items_per_workers` before the iteration.
`left_items` is truncated at zero; Python only uses it under `left_items > 0`. -/
def budgetStep (numItems worldSize numWorkers batchSize : Nat) (dropLast : Bool)
    (acc : List Nat) (rank : Nat) : List Nat :=
  let maxBatches := numItems / batchSize
  let numBatchesPerRank := maxBatches / worldSize
  let baseBatches := numBatchesPerRank / numWorkers
  let remBatches := numBatchesPerRank % numWorkers
  let tmp := (List.range numWorkers).map fun i => baseBatches + (if i < remBatches then 1 else 0)
  if rank = worldSize - 1 then
    let numAssigned := batchSize * (acc.sum + tmp.sum)
    let tmp' := if batchSize > 1 then tmp.map (· * batchSize) else tmp
    let acc' := if batchSize > 1 then acc.map (· * batchSize) else acc
    let left := numItems - numAssigned
    let tmp'' := if !dropLast && decide (left > 0) then
        tmp'.modify (remBatches % numWorkers) (· + left) else tmp'
    acc' ++ tmp''
  else acc ++ tmp

/-- The whole loop `utilities/shuffle.py:77-103`: number of items each global worker must receive. -/
def itemsPerWorker (numItems worldSize numWorkers batchSize : Nat) (dropLast : Bool) : List Nat :=
  (List.range worldSize).foldl (budgetStep numItems worldSize numWorkers batchSize dropLast) []

/-- A piece of a chunk given to a worker: the entry appended to `chunks_per_workers` and the entry
appended to `intervals_per_workers` (`utilities/shuffle.py:128-134,139-140`), kept together. -/
structure Piece where
  chunk : Nat
  interval : Interval
  deriving DecidableEq, Repr

/-- The inner `while True` loop of `utilities/shuffle.py:110-142` for one chunk: walks the workers from
rank 0, mutating the remaining budgets. Returns, for each worker, its new budget and what the loop
appended to its lists (at most one piece, since `rank` only increases). -/
def assignChunk (chunk : Nat) : Interval → List Nat → List (Nat × Option Piece)
  | _, [] => []
  | iv, b :: bs =>
    if b = 0 then (0, none) :: assignChunk chunk iv bs
    else if iv.size = 0 then (b, none) :: bs.map (fun b => (b, none))
    else if iv.size > b then
      (0, some ⟨chunk, { iv with roiEnd := iv.roiStart + b }⟩) ::
        assignChunk chunk { iv with roiStart := iv.roiStart + b } bs
    else (b - iv.size, some ⟨chunk, iv⟩) :: bs.map (fun b => (b, none))

/-- `xs.append(x)` when there is something to append. -/
def appendOpt {α : Type} (xs : List α) : Option α → List α
  | none => xs
  | some x => xs ++ [x]

/-- The outer loop of `utilities/shuffle.py:109-142` over `zip(indexes, chunk_intervals)`. The state is
the pair of parallel lists `num_items_per_workers` and per-worker pieces. -/
def assignLoop : List (Nat × Interval) → List (Nat × List Piece) → List (Nat × List Piece)
  | [], st => st
  | (chunk, iv) :: rest, st =>
    let upd := assignChunk chunk iv (st.map (·.1))
    assignLoop rest ((st.zip upd).map fun (s, u) => (u.1, appendOpt s.2 u.2))

/-- `_associate_chunks_and_intervals_to_workers` (`utilities/shuffle.py:65-144`). Returns for each
global worker the list of its pieces, i.e. the zip of `chunks_per_workers[w]` and
`intervals_per_workers[w]` (both are always appended to together). `num_items` is a Python int sum;
with reversed intervals it would differ from the `Nat` sum used here. -/
def associate (worldSize : Nat) (indexes : List Nat) (chunkIntervals : List Interval)
    (dropLast : Bool) (numWorkers batchSize : Nat) : Py (List (List Piece)) :=
  let numItems := (chunkIntervals.map Interval.size).sum
  if batchSize = 0 then .error .zeroDivision
  else if worldSize ≠ 0 ∧ numWorkers = 0 then .error .zeroDivision
  else
    let budgets := itemsPerWorker numItems worldSize numWorkers batchSize dropLast
    .ok ((assignLoop (indexes.zip chunkIntervals) (budgets.map fun b => (b, []))).map (·.2))

/-- `_group_chunks_by_nodes` (`utilities/shuffle.py:47-62`). `IndexError` when a worker belongs to a
node beyond `num_nodes` and `ZeroDivisionError` when `num_nodes` is zero or exceeds the world size. -/
def groupChunksByNodes (chunksPerWorkers : List (List Nat)) (worldSize numNodes numWorkers : Nat) :
    Py (List (List Nat)) :=
  if numNodes = 0 then .error .zeroDivision
  else
    let perNode := worldSize / numNodes
    (chunksPerWorkers.zipIdx).foldlM (fun acc (chunks, workerGlobalId) =>
      if numWorkers = 0 ∨ perNode = 0 then .error .zeroDivision
      else
        let node := workerGlobalId / numWorkers / perNode
        if node < acc.length then .ok (acc.modify node (· ++ chunks)) else .error .indexError)
      (List.replicate numNodes [])

/-- `_intra_node_chunk_shuffle` (`utilities/shuffle.py:23-44`). `perm` stands for
`RandomState([seed, epoch]).permutation`. -/
def intraNodeChunkShuffle (perm : List Nat → List Nat) (worldSize numNodes numWorkers : Nat)
    (chunksPerWorkers : List (List Nat)) : Py (List Nat) := do
  let nodes ← groupChunksByNodes chunksPerWorkers worldSize numNodes numWorkers
  return (nodes.map perm).flatten

/-- `np.asarray(chunk_intervals)[shuffled_indexes].tolist()` (`streaming/shuffle.py:116,132`). -/
def pickIntervals (ivs : List Interval) (idx : List Nat) : Py (List Interval) :=
  idx.mapM fun i => match ivs[i]? with
    | some iv => .ok iv
    | none => .error .indexError

/-- `NoShuffle.get_chunks_and_intervals_per_workers` (`streaming/shuffle.py:65-77`). -/
def noShuffleAssign (ivs : List Interval) (worldSize : Nat) (dropLast : Bool)
    (numWorkers batchSize : Nat) : Py (List (List Piece)) :=
  associate worldSize (List.range ivs.length) ivs dropLast numWorkers batchSize

/-- `FullShuffle.get_chunks_and_intervals_per_workers` (`streaming/shuffle.py:98-138`).
`perm epoch` stands for `RandomState([seed, epoch]).permutation`; the random generator is abstract. -/
def fullShuffleAssign (perm : Nat → List Nat → List Nat) (ivs : List Interval)
    (worldSize numNodes : Nat) (dropLast : Bool) (numWorkers batchSize epoch : Nat) :
    Py (List (List Piece)) := do
  let seedShift := if numNodes > 1 then 1 else epoch
  let shuffled := perm seedShift (List.range ivs.length)
  let shuffledIvs ← pickIntervals ivs shuffled
  let workers ← associate worldSize shuffled shuffledIvs dropLast numWorkers batchSize
  if epoch = 1 ∨ numNodes = 1 then return workers
  let shuffled2 ← intraNodeChunkShuffle (perm epoch) worldSize numNodes numWorkers
    (workers.map fun ps => ps.map (·.chunk))
  let shuffledIvs2 ← pickIntervals ivs shuffled2
  associate worldSize shuffled2 shuffledIvs2 dropLast numWorkers batchSize

/-- `Shuffle.get_len` (`streaming/shuffle.py:36-47`) on the assignment already computed. -/
def shuffleLen (workers : List (List Piece)) (globalRank numWorkers : Nat) : Nat :=
  (((workers.drop (globalRank * numWorkers)).take numWorkers).flatten.map
    (fun p => p.interval.size)).sum

end LitData
