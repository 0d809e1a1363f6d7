import Verif.Model.Config

/-!
Slices of a dataset: the `slice` branch of `StreamingDataset.__getitem__` (`src/litdata/streaming/dataset.py` lines 396-400), with
Python's own `slice.indices` and `range`.
-/

namespace LitData

/-- `slice(start, stop, step)`. -/
structure PySlice where
  start : Option Int
  stop : Option Int
  step : Option Int
  deriving DecidableEq, Repr

/-- How CPython brings a bound of a slice into range (`PySlice_AdjustIndices`): negative bounds count from the end. -/
def adjustBound (length lower upper : Int) (b : Int) : Int :=
  if b < 0 then max (b + length) lower else min b upper

/-- A bound of a slice, or the one that stands for `None`. -/
def boundOr (none length lower upper : Int) : Option Int → Int
  | .none => none
  | some b => adjustBound length lower upper b

/-- `slice.indices(length)`, called at `streaming/dataset.py:397`; a step of zero raises `ValueError`. -/
def sliceIndices (length : Nat) (s : PySlice) : Py (Int × Int × Int) :=
  let step := s.step.getD 1
  if step = 0 then .error .valueError
  else
    let lower : Int := if step < 0 then -1 else 0
    let upper : Int := if step < 0 then (length : Int) - 1 else length
    .ok (boundOr (if step < 0 then upper else lower) length lower upper s.start,
      boundOr (if step < 0 then lower else upper) length lower upper s.stop, step)

/-- The length of `range(start, stop, step)`. -/
def rangeLength (start stop step : Int) : Nat :=
  if 0 < step then ((stop - start + step - 1) / step).toNat else ((start - stop + -step - 1) / -step).toNat

/-- `list(range(start, stop, step))` for a step other than zero (`streaming/dataset.py:398`). -/
def pyRange (start stop step : Int) : List Int := (List.range (rangeLength start stop step)).map fun (k : Nat) => start + (k : Int) * step

/-- `[ChunkedIndex(*self.cache._get_chunk_index_from_index(idx)) for idx in _my_indices]` (`streaming/dataset.py:399`): the index inside
the dataset and the chunk of each. -/
def locateAll (ivs : List Interval) : List Int → Py (List (Nat × Nat))
  | [] => .ok []
  | i :: is => match chunkFromIndex ivs i with
    | .error e => .error e
    | .ok p => match locateAll ivs is with
      | .error e => .error e
      | .ok ps => .ok (p :: ps)

/-- `[self.cache[chnk_idx] for chnk_idx in _my_cache_indices]` (`streaming/dataset.py:400`). -/
def readLocated (fs : String → Option Bytes) (join : String → String) (enc : Option Encryption) (cfg : Option EncConfig)
    (chunks : List ChunkInfo) (ivs : List Interval) : PyTreeState → List (Nat × Nat) → Py (List Bytes)
  | _, [] => .ok []
  | st, (real, k) :: ps => match configGet join chunks ivs k with
    | .error e => .error e
    | .ok (path, begin, filesize) => match loadItem fs cfg enc st path k real begin filesize with
      | .error e => .error e
      | .ok (x, st) => match readLocated fs join enc cfg chunks ivs st ps with
        | .error e => .error e
        | .ok xs => .ok (x :: xs)

/-- `dataset[start:stop:step]` up to deserialization, where `length` is `len(self)` (`streaming/dataset.py:396-400`). -/
def datasetSlice (fs : String → Option Bytes) (join : String → String) (enc : Option Encryption) (cfg : Option EncConfig)
    (chunks : List ChunkInfo) (ivs : List Interval) (st : PyTreeState) (length : Nat) (s : PySlice) : Py (List Bytes) :=
  match sliceIndices length s with
  | .error e => .error e
  | .ok (start, stop, step) => match locateAll ivs (pyRange start stop step) with
    | .error e => .error e
    | .ok ps => readLocated fs join enc cfg chunks ivs st ps

end LitData
