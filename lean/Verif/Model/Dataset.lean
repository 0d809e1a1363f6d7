import Verif.Model.Assign

/-!
Iterating a `StreamingDataset` inside one worker, and resuming it.
Models `src/litdata/streaming/dataset.py` lines 271-473 and 656-697.
-/

namespace LitData

/-- The `Shuffle.__call__` method (`streaming/shuffle.py:56-58,79-80,140-141`): array of positions,
`num_chunks`, `current_epoch`, `chunk_index`. -/
abbrev Shuffler := List Nat → Nat → Nat → Nat → List Nat

/-- `NoShuffle.__call__` (`streaming/shuffle.py:79-80`). -/
def noShuffler : Shuffler := fun a _ _ _ => a

/-- `ChunkedIndex` (`streaming/sampler.py:23-29`). -/
structure ChunkedIndex where
  index : Nat
  chunkIndex : Nat
  chunkIndexes : Option (List Nat)
  isLastIndex : Bool
  deriving DecidableEq, Repr

/-- The attributes of `StreamingDataset` that `__next__` uses (`streaming/dataset.py:152-185`).
`worker_chunks` and `worker_intervals` are kept as one list of pieces. `resuming` records whether
`_state_dict` is set. -/
structure IterState where
  pieces : List Piece
  numChunks : Nat
  upcoming : List Nat
  nextChunk : Nat
  globalIndex : Nat
  stopLength : Nat
  epoch : Nat
  hasTriggeredDownload : Bool
  resuming : Bool
  deriving DecidableEq, Repr

/-- `np.arange(interval[1], interval[2])` (`streaming/dataset.py:370,446`). -/
def Interval.positions (iv : Interval) : List Nat := List.range' iv.roiStart (iv.roiEnd - iv.roiStart)

/-- `StreamingDataset.__iter__` without a state dict (`streaming/dataset.py:292-337`), once the split is
known. The skip-deletion computation of lines 299-324 is modelled in `Model/SkipDeletion.lean`. -/
def iterStart (pieces : List Piece) (epoch : Nat) : IterState :=
  { pieces := pieces, numChunks := pieces.length, upcoming := [], nextChunk := 0, globalIndex := 0,
    stopLength := (pieces.map fun p => p.interval.size).sum, epoch := epoch,
    hasTriggeredDownload := false, resuming := false }

/-- `self.current_epoch += 1; self.reset_state_dict(); raise StopIteration` (`dataset.py:420-423,430-432`). -/
def endEpoch (s : IterState) : IterState := { s with epoch := s.epoch + 1, resuming := false }

/-- The end of `__next__` (`streaming/dataset.py:454-473`): pop the first upcoming index and build the
`ChunkedIndex` handed to `__getitem__`. -/
def popNext (s : IterState) : Py (Option ChunkedIndex × IterState) :=
  match s.upcoming with
  | [] => .error .indexError
  | i :: rest =>
    match s.pieces[s.nextChunk - 1]? with
    | none => .error .indexError
    | some p => .ok (some
        { index := i, chunkIndex := p.chunk,
          chunkIndexes := if s.hasTriggeredDownload then none
            else some ((s.pieces.drop (s.nextChunk - 1)).map (·.chunk)),
          isLastIndex := decide (s.nextChunk = s.numChunks) && rest.isEmpty },
        { s with upcoming := rest, hasTriggeredDownload := true, globalIndex := s.globalIndex + 1 })

/-- `StreamingDataset.__next__` (`streaming/dataset.py:414-473`). `none` is `StopIteration`. The
returned `ChunkedIndex` stands for the data `__getitem__` reads with it. -/
def nextItem (sh : Shuffler) (s : IterState) : Py (Option ChunkedIndex × IterState) :=
  if s.globalIndex ≥ s.stopLength then .ok (none, endEpoch s)
  else if s.upcoming.length = 0 then
    if s.nextChunk ≥ s.numChunks then .ok (none, endEpoch s)
    else match s.pieces[s.nextChunk]? with
      | none => .error .indexError
      | some p => popNext { s with
          upcoming := sh p.interval.positions s.numChunks s.epoch s.nextChunk,
          nextChunk := s.nextChunk + 1 }
  else popNext s

/-- `_replay_sampling`, lines 668-675: the `while True` loop handing the remainder out. `fuel` bounds
the number of iterations; `replaySampling` passes enough. -/
def replayRemainder (batchSize numWorkers : Nat) : Nat → Nat → Nat → List Nat → List Nat
  | 0, _, _, idx => idx
  | fuel + 1, left, w, idx =>
    if left ≥ batchSize then
      replayRemainder batchSize numWorkers fuel (left - batchSize) ((w + 1) % numWorkers)
        (idx.modify w (· + batchSize))
    else idx.modify w (· + left)

/-- `_replay_sampling` (`streaming/dataset.py:656-676`): how many samples each worker has already
delivered. With `batch_size = 0` or `num_workers = 0` Python divides by zero. -/
def replaySampling (n batchSize numWorkers : Nat) : Py (List Nat) :=
  if numWorkers * batchSize = 0 then .error .zeroDivision
  else
    let d := n / (numWorkers * batchSize)
    .ok (replayRemainder batchSize numWorkers (n + 1) (n - numWorkers * d * batchSize) 0
      (List.replicate numWorkers (d * batchSize)))

/-- `_replay_chunks_sampling` for one worker (`streaming/dataset.py:687-695`): number of finished chunks
and offset in the current one. -/
def replayChunks : List Piece → Nat → Nat × Nat
  | [], i => (0, i)
  | p :: ps, i =>
    if i ≥ p.interval.size then
      let r := replayChunks ps (i - p.interval.size)
      (r.1 + 1, r.2)
    else (0, i)

/-- `_resume` (`streaming/dataset.py:339-387`) together with the part of `__iter__` before it
(lines 283-296). `workers` is the split of all ranks; the worker asked for is `worker` of `rank`.
`stop_length` keeps the value for the whole epoch. -/
def resumeState (sh : Shuffler) (workers : List (List Piece)) (rank worldWorkers worker : Nat)
    (n batchSize numWorkers epoch : Nat) : Py IterState := do
  let indexes ← replaySampling n batchSize numWorkers
  match workers[rank * worldWorkers + worker]? with
  | none => .error .indexError
  | some pieces =>
    match workers[rank * numWorkers + worker]?, indexes[worker]? with
    | some mine, some idx =>
      let r := replayChunks mine idx
      match pieces[r.1]? with
      | none => .error .indexError
      | some p =>
        .ok { pieces := pieces, numChunks := pieces.length,
              upcoming := (sh p.interval.positions pieces.length epoch r.1).drop r.2,
              nextChunk := r.1 + 1, globalIndex := r.2,
              stopLength := (pieces.map fun p => p.interval.size).sum, epoch := epoch,
              hasTriggeredDownload := false, resuming := true }
    | _, _ => .error .keyError

/-- Calling `next` until `StopIteration`, at most `fuel` times: what was delivered, whether it stopped,
and the final state. -/
def runIter (sh : Shuffler) : Nat → IterState → Py (List ChunkedIndex × Bool × IterState)
  | 0, s => .ok ([], false, s)
  | fuel + 1, s => do
    let (r, s') ← nextItem sh s
    match r with
    | none => return ([], true, s')
    | some x =>
      let (xs, b, s'') ← runIter sh fuel s'
      return (x :: xs, b, s'')

end LitData
