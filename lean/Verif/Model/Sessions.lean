import Verif.Model.Subsample
import Verif.Model.Tokens

/-!
Several datasets in one process: the item loaders they use, sharing one, and splitting a dataset that has been read.
Models `StreamingDataset.__getitem__`, `_create_cache` and `reset` (`src/litdata/streaming/dataset.py` lines 213-241, 389-412, 622-645), the part of
`ChunksConfig.__init__` that sets up the item loader (`src/litdata/streaming/config.py` lines 57-82), `BaseItemLoader.setup` and `PyTreeLoader.__getstate__`
(`src/litdata/streaming/item_loader.py` lines 48-69, 366-370), `deepcopy_dataset` and `train_test_split` (`src/litdata/utilities/train_test_split.py`
lines 14-111).

Objects are numbers: an item loader given to two datasets is one object. A program of calls ends with the first exception. Simplified: the datasets are
local and not compressed, their files do not change; what `setup` derives from `index.json` and the serializers (data formats and data spec) is a function
from bytes to values; programs with `PyTreeLoader` only, for `TokensLoader` single calls.
-/

namespace LitData

/-- A directory with `index.json`: its chunks, `os.path.join` with it, the encryption it records, and how its samples are deserialized
(`streaming/config.py:60-78`, `streaming/item_loader.py:287-297`). -/
structure DataDir (V : Type) where
  original : List ChunkInfo
  join : String → String
  cfg : Option EncConfig
  deser : Bytes → Py V

/-- A `PyTreeLoader` object: its own state, and what the last `setup` has put there (`streaming/item_loader.py:56-69`, 121-125). -/
structure LoaderObj (V : Type) where
  st : PyTreeState
  cfg : Option EncConfig
  deser : Bytes → Py V

/-- The object after `__init__`: nothing is set up (`streaming/item_loader.py:121-125`). -/
def LoaderObj.init {V : Type} : LoaderObj V := ⟨PyTreeState.init, none, fun _ => .error .attributeError⟩

/-- `setup` (`streaming/item_loader.py:48-69`): the state is kept. -/
def LoaderObj.setup {V : Type} (o : LoaderObj V) (dir : DataDir V) : LoaderObj V := { o with cfg := dir.cfg, deser := dir.deser }

/-- `deepcopy`, which uses `__getstate__` (`streaming/item_loader.py:366-370`): the file is forgotten, the decrypted chunk is kept. -/
def LoaderObj.copy {V : Type} (o : LoaderObj V) : LoaderObj V := { o with st := ⟨none, none, o.st.decrypted⟩ }

/-- What `_create_cache` sets: the item loader of the reader, the chunks and the intervals (`streaming/config.py:66-82`). -/
structure OpenCache where
  loader : Nat
  chunks : List ChunkInfo
  ivs : List Interval

/-- A `StreamingDataset` (`streaming/dataset.py:119-190`): `given` is the argument `item_loader`. -/
structure DsObj (V : Type) where
  dir : DataDir V
  enc : Option Encryption
  files : List String
  roi : List Roi
  given : Option Nat
  cache : Option OpenCache

/-- The objects of a process. -/
structure World (V : Type) where
  loaders : List (LoaderObj V)
  datasets : List (DsObj V)

/-- The item loader of a new cache: the one given, else a new one (`streaming/reader.py:308`). -/
def World.loaderFor {V : Type} (w : World V) (given : Option Nat) : List (LoaderObj V) × Nat :=
  match given with
  | some l => (w.loaders, l)
  | none => (w.loaders ++ [LoaderObj.init], w.loaders.length)

/-- The first access of a dataset (`streaming/dataset.py:390-393`, 213-241, `streaming/config.py:57-82`). -/
def World.ensureOpen {V : Type} (w : World V) (d : Nat) : Py (World V × DsObj V × OpenCache) :=
  match w.datasets[d]? with
  | none => .error .indexError
  | some ds => match ds.cache with
    | some c => .ok (w, ds, c)
    | none => match loadSubsampledChunks ds.dir.original ds.files with
      | .error e => .error e
      | .ok chunks => match generateIntervals (some ds.roi) 0 0 chunks with
        | .error e => .error e
        | .ok ivs =>
          let c : OpenCache := ⟨(w.loaderFor ds.given).2, chunks, ivs⟩
          .ok (⟨(w.loaderFor ds.given).1.modify c.loader fun o => o.setup ds.dir, w.datasets.set d { ds with cache := some c }⟩, ds, c)

/-- `dataset[i]` (`streaming/dataset.py:389-412`): the configuration and the deserialization are those of the item loader, the encryption that of the
dataset. -/
def World.get {V : Type} (fs : String → Option Bytes) (w : World V) (d : Nat) (i : Int) : Py (V × World V) :=
  match w.ensureOpen d with
  | .error e => .error e
  | .ok (w, ds, c) => match w.loaders[c.loader]? with
    | none => .error .attributeError
    | some o => match datasetGet fs ds.dir.join ds.enc o.cfg c.chunks c.ivs o.st i with
      | .error e => .error e
      | .ok (raw, st) => match o.deser raw with
        | .error e => .error e
        | .ok v => .ok (v, { w with loaders := w.loaders.set c.loader { o with st := st } })

/-- The copy of the item loader that a dataset was given, if any (`utilities/train_test_split.py:99-111`). -/
def World.copyLoader {V : Type} (w : World V) (given : Option Nat) : List (LoaderObj V) × Option Nat :=
  match given with
  | none => (w.loaders, none)
  | some l => (w.loaders ++ ((w.loaders[l]?).map LoaderObj.copy).toList, some w.loaders.length)

/-- The copies of a dataset with their files and regions, closed again by `reset` (`utilities/train_test_split.py:68`, 84-98; `streaming/dataset.py:622-645`). -/
def World.addCopies {V : Type} (w : World V) (ds : DsObj V) : List (List ChunkInfo × List Roi) → World V
  | [] => w
  | o :: outs =>
    World.addCopies ⟨(w.copyLoader ds.given).1,
      w.datasets ++ [{ ds with files := o.1.map (·.filename), roi := o.2, given := (w.copyLoader ds.given).2, cache := none }]⟩ ds outs

/-- A call of the user: `dataset[i]`, or `train_test_split(dataset, …)`, whose results are numbered on. -/
inductive SessOp where
  | get (d : Nat) (i : Int)
  | split (d : Nat) (perm : List Nat → List Nat) (ratios : List SplitRatio) (q : Nat)

/-- `train_test_split` (`utilities/train_test_split.py:14-98`). -/
def World.split {V : Type} (w : World V) (d : Nat) (perm : List Nat → List Nat) (ratios : List SplitRatio) (q : Nat) : Py (World V) :=
  match w.datasets[d]? with
  | none => .error .indexError
  | some ds => match trainTestSplit perm ds.dir.original ds.files ds.roi ratios q with
    | .error e => .error e
    | .ok outs => .ok (w.addCopies ds outs)

/-- A program: the values read, and the exception that ended it. -/
def World.run {V : Type} (fs : String → Option Bytes) : World V → List SessOp → List V × Option Err
  | _, [] => ([], none)
  | w, .get d i :: ops => match w.get fs d i with
    | .error e => ([], some e)
    | .ok (v, w) => (v :: (World.run fs w ops).1, (World.run fs w ops).2)
  | w, .split d perm ratios q :: ops => match w.split d perm ratios q with
    | .error e => ([], some e)
    | .ok w => World.run fs w ops

/-- `deepcopy` of a `TokensLoader`, which has no `__getstate__`: a `memoryview` in `_buffers` cannot be copied (`utilities/train_test_split.py:106`,
`streaming/item_loader.py:383`, 448). `n` is the number of chunks. -/
def tokDeepCopy (n : Nat) (st : TokState) : Py TokState :=
  if (List.range n).any fun k => (st.current k).isSome then .error .typeError else .ok st

end LitData
