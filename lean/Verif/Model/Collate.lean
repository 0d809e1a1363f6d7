import Verif.Model.Loader

/-!
The counters that the samples of a combined dataset carry through the collate function into the bookkeeping of the loader.
Models `StreamingDataLoaderCollateFn.__call__` (`src/litdata/streaming/dataloader.py` lines 502-510), the part of PyTorch's `default_collate` that it replaces, and the
loop of `StreamingDataLoader.__iter__` that takes the counters out again (lines 655-666).

A tensor is the list of its numbers. Simplified: the samples are collated by a function that is given.
-/

namespace LitData

/-- What a combined dataset gives: the plain sample, or `{"__SAMPLES__": …, "__NUM_SAMPLES_YIELDED__": …}` for a streaming data loader
(`streaming/combined.py:331-336`). -/
inductive CombinedItem (α : Type) where
  | plain (x : α)
  | counted (x : α) (counts : List Nat)

/-- A batch: what the collate function made, or a dictionary with the counters as one tensor for each dataset. -/
inductive CollatedBatch (β : Type) where
  | plain (b : β)
  | counted (b : β) (columns : List (List Nat))
  deriving DecidableEq

/-- The sample in an item; `item[__SAMPLES_KEY__]` raises for a sample that is not such a dictionary (`streaming/dataloader.py:504`). -/
def CombinedItem.sample {α : Type} : CombinedItem α → Py α
  | .plain _ => .error .keyError
  | .counted x _ => .ok x

/-- `item[__NUM_SAMPLES_YIELDED_KEY__]` (`streaming/dataloader.py:507`). -/
def CombinedItem.counts {α : Type} : CombinedItem α → Py (List Nat)
  | .plain _ => .error .keyError
  | .counted _ c => .ok c

/-- `StreamingDataLoaderCollateFn.__call__` (`streaming/dataloader.py:502-510`), which is used when the user gives a collate function: the counters of the last item,
each as a tensor of one number. `plain` collates items that carry no counters. -/
def userCollate {α β : Type} (collate : List α → β) (plain : List (CombinedItem α) → Py β) (items : List (CombinedItem α)) : Py (CollatedBatch β) :=
  match items with
  | .counted x c :: rest => do
    let xs ← (CombinedItem.counted x c :: rest).mapM CombinedItem.sample
    let last ← (rest.getLastD (.counted x c)).counts
    .ok (.counted (collate xs) (last.map fun n => [n]))
  | items => do .ok (.plain (← plain items))

/-- Lists of the same length as columns; PyTorch's `default_collate` for a list of lists of numbers, which refuses lists of different lengths (used through
`streaming/dataloader.py:606-607`, where no collate function is given). -/
def columnsOf (rows : List (List Nat)) : Py (List (List Nat)) :=
  match rows with
  | [] => .error .indexError
  | r :: rest =>
    if rest.all (fun q => q.length == r.length) then .ok ((List.range r.length).map fun d => (r :: rest).map fun q => q.getD d 0)
    else .error .runtimeError

/-- `default_collate` of a batch (`streaming/dataloader.py:606-607`, 626). -/
def defaultCollate {α β : Type} (collate : List α → β) (plain : List (CombinedItem α) → Py β) (items : List (CombinedItem α)) : Py (CollatedBatch β) :=
  match items with
  | .counted x c :: rest => do
    let xs ← (CombinedItem.counted x c :: rest).mapM CombinedItem.sample
    let rows ← (CombinedItem.counted x c :: rest).mapM CombinedItem.counts
    .ok (.counted (collate xs) (← columnsOf rows))
  | items => do .ok (.plain (← plain items))

/-- `sample[-1].item() if self.batch_size > 1 else sample.item()` (`streaming/dataloader.py:659`): `item` of a tensor that has not exactly one number raises. -/
def columnItem (batchSize : Nat) (column : List Nat) : Py Nat :=
  if batchSize > 1 then
    match column.getLast? with
    | some n => .ok n
    | none => .error .indexError
  else
    match column with
    | [n] => .ok n
    | _ => .error .runtimeError

/-- One batch of a combined dataset in the main process (`streaming/dataloader.py:655-666`): the new state, and what is given to the user. -/
def loaderTake {β : Type} (numWorkers batchSize : Nat) (s : LoaderState) : CollatedBatch β → Py (LoaderState × β)
  | .counted b columns => do
    let counts ← columns.mapM (columnItem batchSize)
    .ok (loaderBatchCombined numWorkers counts s, b)
  | .plain b => .ok ({ s with latest := s.cycle % cycleLength numWorkers, cycle := s.cycle + 1 }, b)

end LitData
