import Verif.Model.Merge

/-!
How `map` and `optimize` hand their inputs to the workers.
Models `src/litdata/utilities/packing.py:18-50`, `src/litdata/processing/data_processor.py:296-393`
and `1115-1175`, and the grouping by `batch_size` of `src/litdata/processing/functions.py:296-297`
and `467-468`.
-/

namespace LitData

variable {α : Type}

/-- The scan of `min(bin_weights, key=...)`: `best` is the first bin of least weight among the bins before
`i` (`utilities/packing.py:46`). -/
def minBinFrom (best : Nat) (bestW : Int) (i : Nat) : List Int → Nat
  | [] => best
  | w :: ws => if w < bestW then minBinFrom i w (i + 1) ws else minBinFrom best bestW (i + 1) ws

/-- `min(bin_weights, key=lambda x: bin_weights[x], default=0)` (`utilities/packing.py:46`). The keys of
`bin_weights` are `0, ..., num_bins - 1` in this order (line 43). -/
def minBin : List Int → Nat
  | [] => 0
  | w :: ws => minBinFrom 0 w 1 ws

/-- The loop over the sorted items (`utilities/packing.py:45-48`). A bin is its list of items and its weight:
`bin_contents` is a `defaultdict(list)`, so that a bin without items reads as the empty list. With no bins at
all `bin_weights[0] += weight` raises KeyError. -/
def packLoop : List (List α × Int) → List (α × Int) → Py (List (List α × Int))
  | bins, [] => .ok bins
  | bins, (x, w) :: rest =>
    if minBin (bins.map (·.2)) < bins.length then
      packLoop (bins.modify (minBin (bins.map (·.2))) (fun b => (b.1 ++ [x], b.2 + w))) rest
    else .error .keyError

/-- The order of `sorted(zip(items, weights), key=lambda x: x[1], reverse=True)`: descending weights, equal
weights in their original order (`utilities/packing.py:41`). -/
def heavierFirst (a b : α × Int) : Bool := decide (b.2 ≤ a.2)

/-- `_pack_greedily` (`utilities/packing.py:18-50`). -/
def packGreedily (items : List α) (weights : List Int) (numBins : Nat) : Py (List (List α × Int)) :=
  if items.length ≠ weights.length then .error .valueError
  else if weights.any (fun w => decide (w ≤ 0)) then .error .valueError
  else packLoop (List.replicate numBins ([], 0)) (sortBy heavierFirst (items.zip weights))

/-- The loop which hands the remainder to the workers from the last one backwards
(`data_processor.py:309-313`); the list is reversed. -/
def addRemainder : List Nat → Nat → List Nat
  | [], _ => []
  | c :: l, 0 => c :: l
  | c :: l, r + 1 => (c + 1) :: addRemainder l r

/-- `num_items_per_worker` (`data_processor.py:304-313`). -/
def inputsPerWorker (n worldSize : Nat) : List Nat :=
  (addRemainder (List.replicate worldSize (n / worldSize)).reverse (n % worldSize)).reverse

/-- `np.cumsum` started at `acc`. -/
def cumsumFrom (acc : Nat) : List Nat → List Nat
  | [] => []
  | c :: l => (acc + c) :: cumsumFrom (acc + c) l

/-- `_map_items_to_workers_sequentially` on node `nodeRank` (`data_processor.py:296-331`). -/
def mapSequentially (numNodes nodeRank numWorkers : Nat) (items : List α) : Py (List (List α)) :=
  let worldSize := numNodes * numWorkers
  if worldSize = 0 then .error .zeroDivision
  else
    let cum := cumsumFrom 0 (0 :: inputsPerWorker items.length worldSize)
    let out := ((List.range worldSize).filter
        (fun w => decide (nodeRank * numWorkers ≤ w) && decide (w < (nodeRank + 1) * numWorkers))).map
        (fun w => (items.take (cum.getD (w + 1) 0)).drop (cum.getD w 0))
    if out.length ≠ numWorkers then .error .runtimeError else .ok out

/-- `_map_items_to_workers_weighted` on node `nodeRank` (`data_processor.py:334-362`). The permutation drawn
for worker `w` is `draw w`; the conversion of the items to a numpy array and back (which may change their types)
is left out here and modelled in `Model/NumpyItems.lean`. Every node packs all items into the bins of all nodes. -/
def mapWeighted (numNodes nodeRank numWorkers : Nat) (draw : Nat → List α → List α) (items : List α)
    (weights : Option (List Int)) : Py (List (List α)) := do
  let bins ← packGreedily items (weights.getD (List.replicate items.length 1)) (numNodes * numWorkers)
  .ok ((List.range' (nodeRank * numWorkers) numWorkers).map
    (fun w => draw w ((bins.getD w ([], 0)).1)))

/-- `_get_num_bytes` (`data_processor.py:365-379`). A leaf of the item is `some` size when it is a string
which names an existing file, and `none` otherwise. -/
def itemBytes (leaves : α → List (Option Nat)) (x : α) : Py Int :=
  (leaves x).foldlM (fun acc l => match l with
    | none => .ok acc
    | some 0 => .error .runtimeError
    | some n => .ok (acc + (n : Int))) 0

/-- The choice between the three ways of mapping (`data_processor.py:1124-1138`). `reorder` is
`self.reorder_files and self.input_dir.path`. -/
def mapItems (numNodes nodeRank numWorkers : Nat) (draw : Nat → List α → List α) (leaves : α → List (Option Nat))
    (items : List α) (weights : Option (List Int)) (reorder : Bool) : Py (List (List α)) :=
  match weights with
  | some ws =>
    if ws.length ≠ items.length then .error .valueError
    else mapWeighted numNodes nodeRank numWorkers draw items (some ws)
  | none =>
    if reorder then do
      let sizes ← items.mapM (itemBytes leaves)
      mapWeighted numNodes nodeRank numWorkers draw items (some sizes)
    else mapSequentially numNodes nodeRank numWorkers items

/-- `range(0, n, step)`. -/
def rangeStep (n step : Nat) : List Nat := (List.range ((n + step - 1) / step)).map (· * step)

/-- `[inputs[pos : pos + batch_size] for pos in range(0, len(inputs), batch_size)]`
(`functions.py:296-297`, `functions.py:467-468`). -/
def groupInputs (batchSize : Nat) (inputs : List α) : List (List α) :=
  (rangeStep inputs.length batchSize).map (fun pos => (inputs.take (pos + batchSize)).drop pos)

/-- The inputs as `map` and `optimize` hand them on: grouped only for an integer `batch_size` above one
(`functions.py:296-297`, `functions.py:467-468`). The two kinds of result are kept apart. -/
def batchInputs (batchSize : Option Int) (inputs : List α) : List α ⊕ List (List α) :=
  match batchSize with
  | some b => if 1 < b then .inr (groupInputs b.toNat inputs) else .inl inputs
  | none => .inl inputs

/-- The value of `fast_dev_run`: a flag or a number. -/
inductive FastDevRun where
  | flag (b : Bool)
  | count (n : Nat)
  deriving DecidableEq, Repr

/-- The cut of `fast_dev_run` (`data_processor.py:1163-1166`). `isinstance(True, int)` holds in Python, so that
the default number `_DEFAULT_FAST_DEV_RUN_ITEMS` is never used, and `w[:True]` is `w[:1]`. -/
def fastDevRun (f : FastDevRun) (workers : List (List α)) : List (List α) :=
  match f with
  | .flag false => workers
  | .flag true => workers.map (·.take 1)
  | .count 0 => workers
  | .count n => workers.map (·.take n)

end LitData
