import Verif.Model.ChunkFile

/-!
The index of a dataset and random access.
Models `src/litdata/streaming/config.py` lines 33-109, 213-269, 311-312, 329-355,
`src/litdata/streaming/item_loader.py:128-141` and the chunk information written by
`src/litdata/streaming/writer.py:284-291`.
-/

namespace LitData

/-- One entry of `chunks` in `index.json` (`streaming/writer.py:284-289`). -/
structure ChunkInfo where
  filename : String
  chunkSize : Nat
  chunkBytes : Nat
  dim : Option Nat
  deriving DecidableEq, Repr

/-- `PyTreeLoader.generate_intervals` (`streaming/item_loader.py:128-141`), from chunk number `idx` on.
`IndexError` if there are fewer regions than chunks. -/
def generateIntervals (roi : Option (List (Nat × Nat))) : Nat → Nat → List ChunkInfo → Py (List Interval)
  | _, _, [] => .ok []
  | idx, begin, c :: cs =>
    let here : Py (Nat × Nat) := match roi with
      | none => .ok (begin, begin + c.chunkSize)
      | some l => match l[idx]? with
        | none => .error .indexError
        | some r => .ok (begin + r.1, begin + r.2)
    match here with
    | .error e => .error e
    | .ok (s, e) => match generateIntervals roi (idx + 1) (begin + c.chunkSize) cs with
      | .error e => .error e
      | .ok rest => .ok (⟨begin, s, e, begin + c.chunkSize⟩ :: rest)

/-- `len(config)`: `intervals[-1][-1]` (`streaming/config.py:82`, 311-312). -/
def configLength (ivs : List Interval) : Nat :=
  match ivs.getLast? with
  | none => 0
  | some iv => iv.chunkEnd

/-- `zero_based_roi` (`streaming/config.py:221-226`). -/
def zeroBased : Nat → List Interval → List (Nat × Nat)
  | _, [] => []
  | start, iv :: ivs => (start, start + iv.size) :: zeroBased (start + iv.size) ivs

/-- The search of `_get_chunk_index_from_index` (`streaming/config.py:228-234`) from chunk `k` on: the
index to read and the chunk. -/
def searchChunk (index : Int) : Nat → List ((Nat × Nat) × Interval) → Py (Nat × Nat)
  | _, [] => .error .valueError
  | k, ((a, b), iv) :: r =>
    if (a : Int) ≤ index ∧ index < b then .ok (iv.roiStart + (index - a).toNat, k) else searchChunk index (k + 1) r

/-- `_get_chunk_index_from_index` (`streaming/config.py:213-234`). -/
def chunkFromIndex (ivs : List Interval) (index : Int) : Py (Nat × Nat) :=
  searchChunk index 0 ((zeroBased 0 ivs).zip ivs)

/-- `ChunksConfig.__getitem__` (`streaming/config.py:236-269`): path, begin and size of a chunk, without
compression. -/
def configGet (join : String → String) (chunks : List ChunkInfo) (ivs : List Interval) (k : Nat) : Py (String × Nat × Nat) :=
  match chunks[k]?, ivs[k]? with
  | some c, some iv => .ok (join c.filename, iv.chunkStart, c.chunkBytes)
  | _, _ => .error .indexError

/-- `dataset[index]` up to deserialization (`streaming/dataset.py:389-412`, `streaming/cache.py`
`__getitem__`, `streaming/reader.py:347-448`), once the chunk file is there. -/
def datasetGet (fs : String → Option Bytes) (join : String → String) (enc : Option Encryption) (cfg : Option EncConfig)
    (chunks : List ChunkInfo) (ivs : List Interval) (st : PyTreeState) (index : Int) : Py (Bytes × PyTreeState) :=
  match chunkFromIndex ivs index with
  | .error e => .error e
  | .ok (real, k) => match configGet join chunks ivs k with
    | .error e => .error e
    | .ok (path, begin, filesize) => loadItem fs cfg enc st path k real begin filesize

/-- `filename_dict` and the loop of `load_subsampled_chunks` (`streaming/config.py:331-346`): the slot of
each file gets the last original chunk of that name. -/
def subsampledChunk (original : List ChunkInfo) (file : String) : Option ChunkInfo :=
  (original.reverse).find? fun c => c.filename == file

/-- `load_subsampled_chunks` (`streaming/config.py:329-355`): `ValueError` if a file is unknown. -/
def loadSubsampledChunks (original : List ChunkInfo) : List String → Py (List ChunkInfo)
  | [] => .ok []
  | f :: fs => match subsampledChunk original f with
    | none => .error .valueError
    | some c => match loadSubsampledChunks original fs with
      | .error e => .error e
      | .ok cs => .ok (c :: cs)

/-- The chunk information and file content of one chunk (`streaming/writer.py:254-295`), for a writer
without compression. -/
def chunkInfoOf (enc : Option Encryption) (nonce : Nat) (filename : String) (items : List Bytes) : ChunkInfo :=
  ⟨filename, items.length, (createChunk enc nonce items).length, none⟩

end LitData
