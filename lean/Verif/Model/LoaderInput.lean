import Verif.Model.Assign
import Verif.Model.Dataset
import Verif.Model.Loader
import Verif.Model.Packing

/-!
A `StreamingDataLoader` given to `map` or `optimize` as the inputs.
Models `src/litdata/processing/readers.py` lines 136-152 (`StreamingDataLoaderReader`) and the places where it is used:
`processing/data_processor.py` lines 1110-1138 (the batches are counted in the main process and their numbers handed to the workers),
756 and 797 (a worker asks the reader once for each number), `streaming/dataset.py` lines 271-296 (a dataset iterated in such a
worker finds out its rank again), `utilities/env.py` lines 77-82 and `streaming/dataloader.py` lines 669-677 (`__len__`).

The main process is taken not to be one of several training processes, and the loader not to be resumed. The loader runs in worker
processes of its own; what it delivers is the same in every execution (C39), so it is given here as a list.
-/

namespace LitData

/-- `_create_shuffler(...).get_chunks_and_intervals_per_workers(...)` (`streaming/dataset.py:244-251`, 288-290); `perm` is given when the dataset is
shuffled. -/
def epochAssign (perm : Option (Nat → List Nat → List Nat)) (ivs : List Interval) (worldSize numNodes : Nat) (dropLast : Bool)
    (numWorkers batchSize epoch : Nat) : Py (List (List Piece)) :=
  match perm with
  | none => noShuffleAssign ivs worldSize dropLast numWorkers batchSize
  | some p => fullShuffleAssign p ivs worldSize numNodes dropLast numWorkers batchSize epoch

/-- `StreamingDataLoader.__len__` (`streaming/dataloader.py:669-677`): `ceil(length / batch_size)`, as the `drop_last` of PyTorch stays `False`.
Exact division stands for the division of floats. -/
def loaderLen (length batchSize : Nat) : Nat := (length + batchSize - 1) / batchSize

/-- `remap_items` (`processing/readers.py:148-152`) in the main process: the numbers `0 .. len(loader) - 1`, where the dataset is counted for a
single process (`streaming/dataset.py:262-269`). -/
def loaderItems (perm : Option (Nat → List Nat → List Nat)) (ivs : List Interval) (dropLast : Bool) (nw bs epoch : Nat) : Py (List Nat) :=
  match epochAssign perm ivs 1 1 dropLast nw bs epoch with
  | .error e => .error e
  | .ok ws => .ok (List.range (loaderLen (shuffleLen ws 0 nw) bs))

/-- The samples one worker of the loader goes through in an epoch (`streaming/dataset.py:271-337` and 414-473). -/
def epochStream (sh : Shuffler) (epoch : Nat) (ps : List Piece) : List (Nat × Nat) :=
  match runIter sh ((ps.map fun p => p.interval.size).sum + 1) (iterStart ps epoch) with
  | .ok (xs, _, _) => xs.map fun c => (c.chunkIndex, c.index)
  | .error _ => []

/-- The batches a loader delivers, its workers taking turns (C39). -/
def loaderOut {α : Type} (bs : Nat) (streams : List (List α)) : List (List α) :=
  (List.range (((streams.map List.length).sum + 1) * streams.length)).filterMap fun p =>
    (workerBatches bs streams (p % streams.length))[p / streams.length]?

/-- What a worker gets from the reader: each call of `read` ignores the number and takes the next batch (`processing/readers.py:142-146`); the
`StopIteration` of a loader that has come to its end fails the worker (`processing/data_processor.py:751-772`, 790-799, 509-517). -/
def readInputs {β : Type} : List Nat → List β → Py (List β)
  | [], _ => .ok []
  | _ :: _, [] => .error .runtimeError
  | _ :: is, b :: bs => match readInputs is bs with
    | .error e => .error e
    | .ok r => .ok (b :: r)

/-- What worker `i` of node `node` gives to the function of the user, batch by batch. Its loader splits the dataset among all
`num_nodes * num_workers` workers (`utilities/env.py:77-82`). `done` inputs are left out when `optimize` resumes from a checkpoint
(`processing/data_processor.py:1160`); it is 0 otherwise. -/
def loaderWorker (perm : Option (Nat → List Nat → List Nat)) (sh : Shuffler) (ivs : List Interval) (dropLast : Bool)
    (nw bs epoch numNodes numWorkers node i done : Nat) : Py (List (List (Nat × Nat))) :=
  match loaderItems perm ivs dropLast nw bs epoch with
  | .error e => .error e
  | .ok items => match mapSequentially numNodes node numWorkers items with
    | .error e => .error e
    | .ok shares => match epochAssign perm ivs (numWorkers * numNodes) numNodes dropLast nw bs epoch with
      | .error e => .error e
      | .ok ws => match shares[i]? with
        | none => .error .indexError
        | some share => readInputs (share.drop done)
            (loaderOut bs (((ws.drop ((node * numWorkers + i) * nw)).take nw).map (epochStream sh epoch)))

end LitData
