import Verif.Model.Loader
import Verif.Model.Dataset
import Verif.Model.Combined

/-!
A `StreamingDataLoader` over a `CombinedStreamingDataset` that goes on from a state.
Models how `streaming/dataloader.py:679-759`, `streaming/combined.py:171-225,254-259,342-350` and `streaming/dataset.py:339-387` work together: the state of
each dataset has the number of its samples that all workers together have delivered, and each worker finds out its own part by `_replay_sampling`.
-/

namespace LitData

/-- What a dataset delivers in one worker until `StopIteration`, when it goes on from a state with `n` samples (`_resume`,
`streaming/dataset.py:339-387`, then `__next__`, 414-473). `ws` is the split for all ranks and workers. -/
def resumedStream (sh : Shuffler) (ws : List (List Piece)) (rank nw worker n bs epoch : Nat) : Py (List (Nat × Nat)) :=
  match resumeState sh ws rank nw worker n bs nw epoch with
  | .error e => .error e
  | .ok s => match runIter sh (s.stopLength + 1) s with
    | .error e => .error e
    | .ok (xs, _, _) => .ok (xs.map fun c => (c.chunkIndex, c.index))

/-- `[iter(dataset) for dataset in datasets]` (`streaming/combined.py:241`) with the states of `_state_dict` (342-350), which
`CombinedStreamingDataset.load_state_dict` gave to the datasets (216-221). -/
def resumedStreams (sh : Shuffler) (rank nw worker bs epoch : Nat) : List (List (List Piece)) → List Nat → Py (List (List (Nat × Nat)))
  | [], _ => .ok []
  | ws :: splits, totals => match resumedStream sh ws rank nw worker (totals.headD 0) bs epoch with
    | .error e => .error e
    | .ok s => match resumedStreams sh rank nw worker bs epoch splits totals.tail with
      | .error e => .error e
      | .ok ss => .ok (s :: ss)

/-- `CombinedStreamingDataset.__iter__` (`streaming/combined.py:171-191`) in worker `worker` of a loader that has loaded the state `saved`
(`streaming/dataloader.py:705-759`): every dataset goes on from the total over all workers (`streaming/dataloader.py:691-698`), the iterator from the
counters of this worker. The state has `num_workers or 1` workers (`streaming/dataset.py:485`). -/
def combinedResumed (cfg : CombinedConfig) (weights : List Nat) (sh : Shuffler) (splits : List (List (List Piece))) (rank nw bs : Nat)
    (saved : LoaderDict) (worker : Nat) : Py (CombinedState (Nat × Nat)) :=
  match resumedStreams sh rank nw worker bs saved.epoch splits (combinedTotals splits.length saved.yieldedCombined) with
  | .error e => .error e
  | .ok streams => combinedIter cfg weights streams ⟨some saved.yieldedCombined⟩ worker

end LitData
