import Verif.Model.LoaderIter

/-!
The bookkeeping of `StreamingDataLoader` in the main process.
Models `src/litdata/streaming/dataloader.py:567-765`. The dataset's own part of the state is in
`Model/Dataset.lean` and `Model/Combined.lean`; what the workers deliver is in `Model/LoaderIter.lean`.
-/

namespace LitData

/-- The attributes of `StreamingDataLoader` that change (`dataloader.py:605-617`).
`cycle` is the position of the `itertools.cycle` object `_worker_idx`; `iter` of it is the same object.
`yieldedCombined` is the dictionary `_num_samples_yielded_combined`. -/
structure LoaderState where
  epoch : Nat
  yielded : Nat
  yieldedCombined : List (Nat × List Nat)
  cycle : Nat
  latest : Nat
  restore : Bool
  deriving DecidableEq, Repr

/-- What `state_dict` returns, without the part of the dataset (`dataloader.py:679-703`). -/
structure LoaderDict where
  epoch : Nat
  yielded : Nat
  yieldedCombined : List (Nat × List Nat)
  latest : Nat
  deriving DecidableEq, Repr

/-- `__init__` (`dataloader.py:605-617`). -/
def newLoader : LoaderState := ⟨0, 0, [], 0, 0, false⟩

/-- `self.num_workers if self.num_workers > 0 else 1` (`dataloader.py:614,634`). -/
def cycleLength (numWorkers : Nat) : Nat := if numWorkers > 0 then numWorkers else 1

/-- The beginning of `__iter__` (`dataloader.py:632-642`). -/
def loaderBegin (s : LoaderState) : LoaderState :=
  if s.restore then s
  else { s with latest := 0, cycle := 0, epoch := s.epoch + 1, yieldedCombined := [], yielded := 0 }

/-- One batch of a `StreamingDataset` (`dataloader.py:647-650`). -/
def loaderBatch (numWorkers batchSize : Nat) (s : LoaderState) : LoaderState :=
  { s with latest := s.cycle % cycleLength numWorkers, cycle := s.cycle + 1, yielded := s.yielded + batchSize }

/-- Assignment to a key of a dictionary kept as a list of pairs. -/
def dictPut {α : Type} (d : List (Nat × α)) (k : Nat) (v : α) : List (Nat × α) :=
  match d with
  | [] => [(k, v)]
  | (k', v') :: d => if k' = k then (k, v) :: d else (k', v') :: dictPut d k v

/-- One batch of a `CombinedStreamingDataset`: `counts` are the counters attached to its last sample
(`dataloader.py:655-664`). -/
def loaderBatchCombined (numWorkers : Nat) (counts : List Nat) (s : LoaderState) : LoaderState :=
  let w := s.cycle % cycleLength numWorkers
  { s with latest := w, cycle := s.cycle + 1, yieldedCombined := dictPut s.yieldedCombined w counts }

/-- The end of `__iter__` (`dataloader.py:667`). -/
def loaderEnd (s : LoaderState) : LoaderState := { s with restore := false }

/-- `state_dict` (`dataloader.py:679-703`). -/
def loaderDict (s : LoaderState) : LoaderDict := ⟨s.epoch, s.yielded, s.yieldedCombined, s.latest⟩

/-- The counters of all workers added up (`dataloader.py:692-696`); `n` is the number of datasets. -/
def combinedTotals (n : Nat) (d : List (Nat × List Nat)) : List Nat :=
  d.foldl (fun acc x => acc.mapIdx fun i a => a + (x.2[i]?).getD 0) (List.replicate n 0)

/-- `load_state_dict` with a `StreamingDataset` of length `len` (`dataloader.py:705-726`, 750-756). -/
def loaderLoad (len : Nat) (d : LoaderDict) (s : LoaderState) : LoaderState :=
  { s with epoch := d.epoch, yielded := d.yielded, latest := d.latest + 1, cycle := s.cycle + (d.latest + 1),
           restore := s.restore || (decide (d.yielded > 0) && decide (d.yielded < len)) }

/-- `load_state_dict` with a `CombinedStreamingDataset` (`dataloader.py:705-748`). -/
def loaderLoadCombined (iterateOverAll : Bool) (len : Nat) (d : LoaderDict) (s : LoaderState) : LoaderState :=
  let total := (d.yieldedCombined.map fun x => x.2.sum).sum
  { s with epoch := d.epoch, yieldedCombined := d.yieldedCombined, latest := d.latest + 1, cycle := s.cycle + (d.latest + 1),
           restore := s.restore || (iterateOverAll && decide (total > 0) && decide (total < len)) || !iterateOverAll }

/-- `_IterableDatasetFetcher.fetch` of PyTorch, called until it raises `StopIteration`: the batches a worker
makes of its samples. `fuel` bounds the number of calls. PyTorch's own `drop_last` stays `False`: the argument of
`StreamingDataLoader` is passed to the dataset only (`dataloader.py:589-594`, 618-626). -/
def fetchBatches {α : Type} (bs : Nat) : Nat → List α → List (List α)
  | 0, _ => []
  | fuel + 1, xs => if (xs.take bs).isEmpty then [] else xs.take bs :: fetchBatches bs fuel (xs.drop bs)

/-- The batches of worker `w`. -/
def workerBatches {α : Type} (bs : Nat) (streams : List (List α)) (w : Nat) : List (List α) :=
  match streams[w]? with
  | some xs => fetchBatches bs xs.length xs
  | none => []

end LitData
