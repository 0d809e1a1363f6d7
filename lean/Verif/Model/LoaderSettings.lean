import Verif.Model.Combined
import Verif.Model.LoaderInput

/-!
The settings of a dataset behind a loader, and lengths.
Models `src/litdata/streaming/dataset.py` lines 186-269 (settings, `__len__`, `get_len`) and 500-506, `streaming/combined.py` lines 75-161
(the same for a combined dataset), `streaming/shuffle.py` lines 37-47, and `streaming/dataloader.py` lines 572-626 (`__init__`),
669-677 (`__len__`) and 705-759 (`load_state_dict`), as far as they change or use these settings.

An exception leaves the settings as they were, where Python may have changed some already.
-/

namespace LitData

/-- What a dataset is made of and where it is used: the chunks, the process and its place, and the generator for shuffling. -/
structure DsSource where
  perm : Nat → List Nat → List Nat
  ivs : List Interval
  worldSize : Nat
  numNodes : Nat
  rank : Nat

/-- The fields of `StreamingDataset` that decide how samples are split (`streaming/dataset.py:150`, 178-192). `shuffler` is the object made by
`_create_shuffler`, which holds its own `shuffle` and `drop_last`; `state` is the `drop_last` of a loaded state. -/
structure DsSettings where
  numWorkers : Nat := 1
  batchSize : Nat := 1
  shuffle : Bool
  dropLast : Bool
  epoch : Nat := 1
  shuffler : Option (Bool × Bool) := none
  state : Option Bool := none
  deriving DecidableEq, Repr

/-- `set_num_workers` (`streaming/dataset.py:259-260`): `num_workers or 1`. -/
def setNumWorkers (n : Nat) (s : DsSettings) : DsSettings := { s with numWorkers := if n = 0 then 1 else n }

/-- `set_batch_size` (`streaming/dataset.py:256-257`). -/
def setBatchSize (n : Nat) (s : DsSettings) : DsSettings := { s with batchSize := n }

/-- `set_epoch` (`streaming/dataset.py:202-211`). -/
def setEpoch (e : Nat) (s : DsSettings) : DsSettings := if s.state.isNone then { s with epoch := e } else s

/-- `_create_shuffler` (`streaming/dataset.py:244-251`). -/
def createShuffler (s : DsSettings) : Bool × Bool := (s.shuffle, s.state.getD s.dropLast)

/-- `Shuffle.get_len` (`streaming/shuffle.py:37-47`) of a shuffler with the given `shuffle` and `drop_last`. -/
def shufflerLen (src : DsSource) (sh : Bool × Bool) (nw bs epoch : Nat) : Py Nat :=
  match epochAssign (if sh.1 then some src.perm else none) src.ivs src.worldSize src.numNodes sh.2 nw bs epoch with
  | .error e => .error e
  | .ok ws => .ok (shuffleLen ws src.rank nw)

/-- `get_len` (`streaming/dataset.py:262-269`): the settings are changed, and a shuffler that is there already is used as it is. -/
def dsGetLen (src : DsSource) (nw bs : Nat) (s : DsSettings) : Py (Nat × DsSettings) :=
  let s := setBatchSize bs (setNumWorkers nw s)
  let sh := s.shuffler.getD (createShuffler s)
  match shufflerLen src sh s.numWorkers s.batchSize s.epoch with
  | .error e => .error e
  | .ok n => .ok (n, { s with shuffler := some sh })

/-- `StreamingDataset.__len__` (`streaming/dataset.py:253-254`). -/
def dsLen (src : DsSource) (s : DsSettings) : Py (Nat × DsSettings) :=
  dsGetLen src s.numWorkers (if s.batchSize = 0 then 1 else s.batchSize) s

/-- The split a dataset is iterated with (`streaming/dataset.py:278-290`): the shuffler is made anew; the number of workers is that of the
loader's worker processes. -/
def dsSplit (src : DsSource) (workers : Nat) (s : DsSettings) : Py (List (List Piece)) :=
  let sh := createShuffler s
  epochAssign (if sh.1 then some src.perm else none) src.ivs src.worldSize src.numNodes sh.2 workers s.batchSize s.epoch

/-- The same call for several datasets, one after the other. -/
def forEach {α : Type} (f : α → Py (Nat × DsSettings)) (src : α → DsSource) : List α → Py (Nat × List (DsSource × DsSettings))
  | [] => .ok (0, [])
  | d :: ds => match f d with
    | .error e => .error e
    | .ok (n, s) => match forEach f src ds with
      | .error e => .error e
      | .ok (m, l) => .ok (n + m, (src d, s) :: l)

/-- The fields of `CombinedStreamingDataset` that concern settings (`streaming/combined.py:78-106`). -/
structure CombSettings where
  datasets : List (DsSource × DsSettings)
  all : Bool
  numWorkers : Nat := 1
  batchSize : Nat := 1

/-- `CombinedStreamingDataset.__init__` (`streaming/combined.py:75-106`) as far as it changes its datasets: without weights their lengths are asked. -/
def combInit (datasets : List (DsSource × DsSettings)) (all weighted : Bool) : Py CombSettings :=
  if weighted then .ok { datasets := datasets, all := all }
  else match forEach (fun d => dsLen d.1 d.2) Prod.fst datasets with
    | .error e => .error e
    | .ok (n, ds) => if n = 0 then .error .assertion else .ok { datasets := ds, all := all }

/-- `get_len` (`streaming/combined.py:108-125`). Without `iterate_over_all` there is no length. -/
def combGetLen (nw bs : Nat) (c : CombSettings) : Py (Option Nat × CombSettings) :=
  let c := { c with numWorkers := nw, batchSize := bs }
  if c.all then
    match forEach (fun d => dsGetLen d.1 c.numWorkers c.batchSize d.2) Prod.fst c.datasets with
    | .error e => .error e
    | .ok (n, ds) => .ok (some n, { c with datasets := ds })
  else .ok (none, c)

/-- `CombinedStreamingDataset.__len__` (`streaming/combined.py:115-116`). -/
def combLen (c : CombSettings) : Py (Option Nat × CombSettings) := combGetLen 1 1 c

/-- The dataset of a loader. -/
inductive LoaderData where
  | streaming (src : DsSource) (s : DsSettings)
  | combined (c : CombSettings)

/-- Change the settings of every dataset (`streaming/combined.py:127-156`). -/
def mapDs (f : DsSettings → DsSettings) : LoaderData → LoaderData
  | .streaming src s => .streaming src (f s)
  | .combined c => .combined { c with datasets := c.datasets.map fun d => (d.1, f d.2) }

/-- `CombinedStreamingDataset.set_batch_size` also remembers the batch size itself (`streaming/combined.py:142-146`). -/
def mapBatchSize (bs : Nat) : LoaderData → LoaderData
  | .streaming src s => .streaming src (setBatchSize bs s)
  | .combined c => .combined { c with batchSize := bs, datasets := c.datasets.map fun d => (d.1, setBatchSize bs d.2) }

/-- `StreamingDataLoader.__init__` (`streaming/dataloader.py:572-597`) as far as it changes the dataset. -/
def loaderInit (bs nw : Nat) (shuffle dropLast : Option Bool) (d : LoaderData) : LoaderData :=
  let d := match shuffle with
    | some b => mapDs (fun s => { s with shuffle := b }) d
    | none => d
  let d := match dropLast with
    | some b => mapDs (fun s => { s with dropLast := b }) d
    | none => d
  mapDs (setNumWorkers nw) (mapBatchSize bs d)

/-- `StreamingDataLoader.__len__` (`streaming/dataloader.py:669-677`): `ceil(None / batch_size)` is a `TypeError`. -/
def loaderLength (bs nw : Nat) (d : LoaderData) : Py (Nat × LoaderData) :=
  match d with
  | .streaming src s => match dsGetLen src nw bs s with
    | .error e => .error e
    | .ok (n, s) => .ok (loaderLen n bs, .streaming src s)
  | .combined c => match combGetLen nw bs c with
    | .error e => .error e
    | .ok (none, _) => .error .typeError
    | .ok (some n, c) => .ok (loaderLen n bs, .combined c)

/-- `StreamingDataLoader.load_state_dict` (`streaming/dataloader.py:728-756`) as far as it changes the dataset: every dataset takes its state, and
the length of the whole is asked to find out whether the epoch was over. `states` are the `drop_last` of the states of the datasets; `yielded` is
the number of samples of the state. -/
def loaderLoadSettings (states : List Bool) (yielded : Nat) (d : LoaderData) : Py LoaderData :=
  match d with
  | .streaming src s =>
    let s := { s with state := states.head?.or s.state }
    if yielded = 0 then .ok (.streaming src s)
    else match dsLen src s with
      | .error e => .error e
      | .ok (_, s) => .ok (.streaming src s)
  | .combined c =>
    if states.length ≠ c.datasets.length then .error .runtimeError
    else
      let c := { c with datasets := (c.datasets.zip states).map fun x => (x.1.1, { x.1.2 with state := some x.2 }) }
      if c.all = true ∧ yielded ≠ 0 then
        match combLen c with
        | .error e => .error e
        | .ok (_, c) => .ok (.combined c)
      else .ok (.combined c)

end LitData
