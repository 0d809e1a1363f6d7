import Verif.Model.Basic

/-!
Combining several datasets.
Models `src/litdata/streaming/combined.py`. The datasets are seen through the samples they have left:
`next` gives the first one, and raises `StopIteration` again and again when there is none
(`streaming/dataset.py:414-424`).
Simplification: weights are natural numbers in the given proportions, not normalised to sum 1.
-/

namespace LitData

/-- `batching_method` (`streaming/combined.py:31-33`, 301-314); `other` is any other string. -/
inductive Batching where
  | stratified
  | perStream
  | other
  deriving DecidableEq, Repr

/-- The state of `_CombinedDatasetIterator` (`streaming/combined.py:229-270`). `streams` are the samples
left in `_dataset_iters`, `calls` counts the calls of `self._rng.choices`, `cur = none` stands for
`_cur_dataset_index = -1`. -/
structure CombinedState (α : Type) where
  streams : List (List α)
  indexes : List (Option Nat)
  weights : List (Option Nat)
  yielded : List Nat
  calls : Nat
  inBatch : Nat
  cur : Option Nat
  deriving DecidableEq, Repr

/-- The arguments of the iterator that stay fixed. `rng k indexes weights` is the result of call number
`k` of `random.Random(seed).choices(indexes, weights=weights, k=1)`: one call uses one random number,
whatever the weights. -/
structure CombinedConfig where
  rng : Nat → List Nat → List Nat → Nat
  batching : Batching
  batchSize : Nat

/-- `[x for x in l if x is not None]`. -/
def present (l : List (Option Nat)) : List Nat := l.filterMap id

/-- `self._rng.choices(indexes, weights=weights, k=1)`: `ValueError` if the lengths differ or no weight is
positive, `IndexError` without any index. -/
def rngChoices (cfg : CombinedConfig) (k : Nat) (indexes weights : List Nat) : Py Nat :=
  if indexes.length ≠ weights.length then .error .valueError
  else if weights = [] then .error .indexError
  else if weights.sum = 0 then .error .valueError
  else .ok (cfg.rng k indexes weights)

/-- `_set_new_dataset_index` (`streaming/combined.py:316-321`). -/
def newDatasetIndex {α : Type} (cfg : CombinedConfig) (st : CombinedState α) : Py (Nat × CombinedState α) :=
  match rngChoices cfg st.calls (present st.indexes) (present st.weights) with
  | .error e => .error e
  | .ok d => .ok (d, { st with calls := st.calls + 1 })

/-- `_get_dataset_index` (`streaming/combined.py:301-314`). -/
def getDatasetIndex {α : Type} (cfg : CombinedConfig) (st : CombinedState α) : Py (Nat × CombinedState α) :=
  match cfg.batching with
  | .stratified => newDatasetIndex cfg st
  | .perStream =>
    match (if st.cur.isNone ∨ cfg.batchSize ≤ st.inBatch then none else st.cur) with
    | some d => .ok (d, { st with inBatch := st.inBatch + 1 })
    | none => match newDatasetIndex cfg st with
      | .error e => .error e
      | .ok (d, st) => .ok (d, { st with cur := some d, inBatch := 1 })
  | .other => .error .valueError

/-- `_get_sample` (`streaming/combined.py:323-336`). The number of the dataset is kept beside the sample for
the statements about it. -/
def getSample {α : Type} (st : CombinedState α) (d : Nat) : Py ((Nat × α) × CombinedState α) :=
  match st.streams[d]? with
  | none => .error .indexError
  | some [] => .error .stopIteration
  | some (x :: rest) => .ok ((d, x), { st with streams := st.streams.set d rest, yielded := st.yielded.modify d (· + 1) })

/-- The handler of `StopIteration` in `__next__` (`streaming/combined.py:294-297`): forget dataset `d` and
normalise the weights. -/
def forgetDataset {α : Type} (st : CombinedState α) (d : Nat) : Py (CombinedState α) :=
  let weights := st.weights.set d none
  -- `w / new_sum` for each weight left
  if present weights ≠ [] ∧ (present weights).sum = 0 then .error .zeroDivision
  else .ok { st with indexes := st.indexes.set d none, weights := weights }

/-- The loop of `__next__` with `iterate_over_all` (`streaming/combined.py:273-297`), for at most `fuel`
turns; `none` if it is still running. After the last `StopIteration` the iterator is not used again, so
its state is dropped. -/
def nextAll {α : Type} (cfg : CombinedConfig) : Nat → CombinedState α → Option (Py ((Nat × α) × CombinedState α))
  | 0, _ => none
  | fuel + 1, st =>
    let left := present st.indexes
    let chosen : Py (Nat × CombinedState α) :=
      if 1 < left.length then getDatasetIndex cfg st
      else match left with
        | d :: _ => .ok (d, st)
        -- `dataset_index` is not bound
        | [] => .error .exception
    match chosen with
    | .error e => some (.error e)
    | .ok (d, st) => match getSample st d with
      | .ok r => some (.ok r)
      | .error .stopIteration =>
        if left.length = 1 then some (.error .stopIteration)
        else match forgetDataset st d with
          | .error e => some (.error e)
          | .ok st => nextAll cfg fuel st
      | .error e => some (.error e)

/-- `__next__` without `iterate_over_all` (`streaming/combined.py:299`). -/
def nextFirst {α : Type} (cfg : CombinedConfig) (st : CombinedState α) : Py ((Nat × α) × CombinedState α) :=
  match getDatasetIndex cfg st with
  | .error e => .error e
  | .ok (d, st) => getSample st d

/-- `_CombinedDatasetIterator.__init__` (`streaming/combined.py:229-270`) over the samples left in the
datasets. With `num_samples_yielded` the generator is advanced by one choice per sample. -/
def combinedInit {α : Type} (cfg : CombinedConfig) (weights : List Nat) (streams : List (List α)) (yielded : Option (List Nat)) :
    Py (CombinedState α) :=
  let indexes := List.range streams.length
  let fresh : CombinedState α := ⟨streams, indexes.map some, weights.map some, List.replicate streams.length 0, 0, 0, none⟩
  match yielded with
  | none => .ok fresh
  | some y =>
    let st := { fresh with yielded := y, calls := y.sum }
    if y.sum = 0 then .ok st
    else match rngChoices cfg 0 indexes weights with
      | .error e => .error e
      | .ok _ => .ok st

/-- Weights of `CombinedStreamingDataset.__init__` (`streaming/combined.py:75-99`): given ones are refused
with `iterate_over_all`, otherwise the lengths of the datasets are used. -/
def combinedWeights (lens : List Nat) (weights : Option (List Nat)) (all : Bool) : Py (List Nat) :=
  match weights with
  | none => if lens.sum = 0 then .error .assertion else .ok lens
  | some w =>
    if all ∧ w ≠ [] then .error .valueError
    else if w ≠ [] ∧ w.sum = 0 then .error .zeroDivision
    else .ok w

/-- Deliver up to `n` samples with `iterate_over_all`: the samples, the exception that ended the stream if
any, and the state. `none` if some `__next__` needs more than `fuel` turns. -/
def takeAll {α : Type} (cfg : CombinedConfig) (fuel : Nat) : Nat → CombinedState α → Option (List (Nat × α) × Option Err × CombinedState α)
  | 0, st => some ([], none, st)
  | n + 1, st => match nextAll cfg fuel st with
    | none => none
    | some (.error e) => some ([], some e, st)
    | some (.ok (x, st)) => match takeAll cfg fuel n st with
      | none => none
      | some (xs, e, st) => some (x :: xs, e, st)

/-- Deliver up to `n` samples without `iterate_over_all`. -/
def takeFirst {α : Type} (cfg : CombinedConfig) : Nat → CombinedState α → List (Nat × α) × Option Err × CombinedState α
  | 0, st => ([], none, st)
  | n + 1, st => match nextFirst cfg st with
    | .error e => ([], some e, st)
    | .ok (x, st) => match takeFirst cfg n st with
      | (xs, e, st) => (x :: xs, e, st)

/-- The part of `CombinedStreamingDataset` that outlives an iterator: `_num_samples_yielded` by worker rank,
set by `load_state_dict` (`streaming/combined.py:224-225`) and read by `__iter__` (171-191). -/
structure CombinedDataset where
  numSamplesYielded : Option (List (Nat × List Nat))

/-- `CombinedStreamingDataset.__iter__` (`streaming/combined.py:171-191`) in the worker `rank`. -/
def combinedIter {α : Type} (cfg : CombinedConfig) (weights : List Nat) (streams : List (List α)) (ds : CombinedDataset) (rank : Nat) :
    Py (CombinedState α) :=
  -- `assert self._weights`
  if weights = [] then .error .assertion
  else combinedInit cfg weights streams (match ds.numSamplesYielded with
    | none => none
    | some m => m.lookup rank)

/-- `CombinedStreamingDataset.reset_state_dict` (`streaming/combined.py:156-159`): only the datasets forget
their states. -/
def combinedReset (ds : CombinedDataset) : CombinedDataset := ds

end LitData
