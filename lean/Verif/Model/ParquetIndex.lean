import Verif.Model.Parquet
import Verif.Model.Serializers
import Verif.Model.Modes
import Verif.Model.Subsample

/-!
Indexing a directory of parquet files and reading it as a dataset.
Models `src/litdata/streaming/writer.py:565-643` (`index_parquet_dataset`), `src/litdata/utilities/parquet.py`,
`src/litdata/utilities/hf_dataset.py`, `src/litdata/streaming/dataset.py:99-118` and
`src/litdata/utilities/dataset_utilities.py:70-93`.

`pyarrow` is a parameter: the metadata and the row groups that it finds in the bytes of a file. The thread pool of
`ParquetDir.__iter__` runs tasks that share nothing; their results are taken in the order of submission, so that the tasks
are modelled one after the other. `fnmatch` is a predicate on file names.
-/

namespace LitData

/-- What is read of the footer of a file: number of rows, names and types of the columns. -/
structure PqMeta where
  numRows : Nat
  columns : List (String × String)
  deriving DecidableEq, Repr

/-- `pyarrow`: `footer` is the metadata of `pq.ParquetFile` on a file or buffer with the given bytes, `groups` the row groups. -/
structure PqEnv (R : Type) where
  footer : Bytes → Py PqMeta
  groups : Bytes → ParquetFile R

/-- An entry of a directory: the name listed, whether it is a file and the bytes of the file. -/
structure PqEntry where
  name : String
  isFile : Bool
  data : Bytes
  deriving DecidableEq, Repr

/-- The three classes (`utilities/parquet.py:66-297`). -/
inductive PqKind where
  | local
  | cloud
  | hf
  deriving DecidableEq, Repr

/-- `get_parquet_indexer_cls` (`utilities/parquet.py:300-337`): the class for the scheme of the path. -/
def pqClass (scheme : String) : Py PqKind :=
  if scheme = "local" ∨ scheme = "" then .ok .local
  else if scheme = "gs" ∨ scheme = "s3" then .ok .cloud
  else if scheme = "hf" then .ok .hf
  else .error .valueError

/-- `str.endswith`. -/
def strEndsWith (s p : String) : Bool := p.toList.isSuffixOf s.toList

/-- The files to index: `utilities/parquet.py:81-83` (local), 152-154 (cloud, only files), 249-251 (Hugging Face). -/
def pqListing (kind : PqKind) (dir : List PqEntry) : List PqEntry :=
  dir.filter fun e => strEndsWith e.name ".parquet" && (kind != .cloud || e.isFile)

/-- The bytes given to `pyarrow`: the whole file (`utilities/parquet.py:94-95`), or the footer with the last eight bytes, read
from the end (`utilities/parquet.py:169-180`, 266-277). A negative position raises. -/
def pqFooter (kind : PqKind) (data : Bytes) : Py Bytes :=
  if kind = .local then .ok data
  else if data.length < 8 then .error .valueError
  else
    let size := leNat ((data.drop (data.length - 8)).take 4)
    if data.length < size + 8 then .error .valueError
    else .ok (data.drop (data.length - size - 8))

/-- `task` (`utilities/parquet.py:85-106`, 156-193, 253-290): the name, size and metadata of a file. A folder cannot be opened. -/
def pqTask {R : Type} (env : PqEnv R) (kind : PqKind) (e : PqEntry) : Py (String × Nat × PqMeta) :=
  if !e.isFile then .error .exception
  else match pqFooter kind e.data with
    | .error x => .error x
    | .ok b => match env.footer b with
      | .error x => .error x
      | .ok m => .ok (basename e.name, e.data.length, m)

/-- The loop of `index_parquet_dataset` (`streaming/writer.py:617-638`): the chunks and the data format. `fmt` is
`config["data_format"]`; the chunks are collected by order of submission. -/
def pqIndexFrom {R : Type} (env : PqEnv R) (kind : PqKind) (fmt : List String) : List PqEntry → Py (List ChunkInfo × List String)
  | [] => .ok ([], fmt)
  | e :: es => match pqTask env kind e with
    | .error x => .error x
    | .ok (name, size, m) =>
      if fmt ≠ [] ∧ fmt ≠ m.columns.map (·.2) then .error .exception
      else match pqIndexFrom env kind (m.columns.map (·.2)) es with
        | .error x => .error x
        | .ok (cs, f) => .ok (⟨name, m.numRows, size, none⟩ :: cs, f)

/-- `index_parquet_dataset` (`streaming/writer.py:565-643`): what is written to `index.json`. -/
def indexParquet {R : Type} (env : PqEnv R) (kind : PqKind) (dir : List PqEntry) : Py (List ChunkInfo × List String) :=
  pqIndexFrom env kind [] (pqListing kind dir)

/-- `fsspec.filesystem(provider, *self.storage_options)` (`utilities/parquet.py:147`), given the keys of `storage_options`: a star before a
dictionary passes its keys as further positional arguments, of which `filesystem` takes none, and `None` cannot be unpacked. -/
def cloudFilesystem (options : Option (List String)) : Py Unit :=
  match options with
  | some [] => .ok ()
  | _ => .error .typeError

/-- `index_parquet_dataset` with `storage_options` (`streaming/writer.py:602`, `utilities/parquet.py:66-83`, 115-154, 218-251): only the cloud directory
looks at them. -/
def indexParquetWith {R : Type} (env : PqEnv R) (kind : PqKind) (options : Option (List String)) (dir : List PqEntry) : Py (List ChunkInfo × List String) :=
  match if kind = .cloud then cloudFilesystem options else .ok () with
  | .error e => .error e
  | .ok () => indexParquet env kind dir

/-- `iter(lambda: local_file.read(4096), b"")` (`utilities/parquet.py:209-211`): the pieces of the index sent to the cloud. -/
def readPieces (n : Nat) : Nat → Bytes → List Bytes
  | 0, _ => []
  | fuel + 1, b => if b.take n = [] then [] else b.take n :: readPieces n fuel (b.drop n)

/-- `index_hf_dataset` (`utilities/hf_dataset.py:10-34`): the index in the cache directory of the URL, made unless there is one. -/
def indexHf {R : Type} (env : PqEnv R) (cached : Option (List ChunkInfo × List String)) (dir : List PqEntry) : Py (List ChunkInfo × List String) :=
  match cached with
  | some x => .ok x
  | none => indexParquet env .hf dir

/-- `os.path.split`: what is up to the last slash, without slashes at its end unless there is nothing else, and what follows. -/
def osSplit (p : List Char) : List Char × List Char :=
  let head := (p.reverse.dropWhile (· != '/')).reverse
  (if rstripSlash head = [] then head else rstripSlash head, (p.reverse.takeWhile (· != '/')).reverse)

/-- The input path of a dataset (`streaming/dataset.py:99-101`): the directory, and the pattern if the path ends in `.parquet`. -/
def parquetPattern (input : String) : String × Option String :=
  if strEndsWith input ".parquet" then
    (String.ofList (osSplit input.toList).1, some (String.ofList (osSplit input.toList).2))
  else (input, none)

/-- The chunks of the index that match the pattern (`utilities/dataset_utilities.py:82-87`), which must not be empty. -/
def matchingChunks (fnmatch : Option (String → Bool)) (chunks : List ChunkInfo) : Py (List ChunkInfo) :=
  let l := match fnmatch with
    | none => chunks
    | some f => chunks.filter fun c => f c.filename
  if l = [] then .error .assertion else .ok l

/-- `dataset[index]` with a `ParquetLoader` (`streaming/config.py:213-269`, `streaming/item_loader.py:649-683`) once the files are
there. -/
def parquetGet {R : Type} (low : Bool) (fs : String → Option (ParquetFile R)) (join : String → String) (chunks : List ChunkInfo) (ivs : List Interval)
    (st : ParquetState R) (index : Int) : Py (R × ParquetState R) :=
  match chunkFromIndex ivs index with
  | .error e => .error e
  | .ok (real, k) => match configGet join chunks ivs k with
    | .error e => .error e
    | .ok (path, begin, _) => parquetLoad low (fs path) st k real begin

end LitData
