import Verif.Model.CacheDir
import Verif.Model.ParquetIndex

/-!
Where `index_parquet_dataset` puts the index and where a dataset looks for it.
Models the constructors and `write_index` of `src/litdata/utilities/parquet.py` (lines 17-29, 48-63, 79-83, 108-112, 134-138, 195-215, 237-242, 292-297), `default_cache_dir` there
(lines 340-361), and the part of `subsample_streaming_dataset` that finds the index (`src/litdata/utilities/dataset_utilities.py:44-78`).
-/

namespace LitData

/-- The files of the machine, and the object `index.json` under the URL of the dataset. -/
structure IndexPlace where
  fs : LocalFs
  remote : Option Bytes
  deriving DecidableEq

/-- `open(path, "w")` with what is written, in a directory that exists. -/
def LocalFs.put (fs : LocalFs) (p : List String) (b : Bytes) : LocalFs := fs.filter (fun e => e.1 != p) ++ [(p, b)]

/-- The directory into which the index is written: `cache_dir` if it is given, otherwise the directory itself (`utilities/parquet.py:108-112`) or the one made for the
URL (`utilities/parquet.py:136-138`, 240-242, 340-361). -/
def pqCachePath (kind : PqKind) (dflt : List String) (path cacheDir : Option (List String)) : Option (List String) :=
  match cacheDir with
  | some c => some c
  | none => if kind = .local then path else some dflt

/-- `write_index` (`utilities/parquet.py:48-63`, 108-112, 195-215, 292-297). `there` are the directories that exist; only the default one is made. The cloud gets the index in
pieces of 4096 bytes, and the local file is removed. -/
def writePqIndex (kind : PqKind) (dflt : List String) (path cacheDir : Option (List String)) (there : List String → Bool) (index : Bytes) (st : IndexPlace) :
    Py IndexPlace :=
  match pqCachePath kind dflt path cacheDir with
  | none => .error .assertion
  | some c =>
    if cacheDir.isSome && !there c then .error .fileNotFound
    else
      let fs := st.fs.put (c ++ ["index.json"]) index
      if kind = .cloud then
        (fs.remove (c ++ ["index.json"])).map fun fs' => ⟨fs', some (readPieces 4096 index.length index).flatten⟩
      else .ok ⟨fs, st.remote⟩

/-- The entries of a local directory that are indexed (`utilities/parquet.py:79-83`): for a path that begins with `local:` the directory is resolved to a URL without a path
(`streaming/resolver.py:57-58`) and `os.listdir(None)` lists the working directory `cwd`; `task` then asserts that there is a path (`utilities/parquet.py:91`). -/
def indexLocalAt {R : Type} (env : PqEnv R) (dir : Option (List PqEntry)) (cwd : List PqEntry) : Py (List ChunkInfo × List String) :=
  match dir with
  | some d => indexParquet env .local d
  | none => if pqListing .local cwd = [] then .ok ([], []) else .error .assertion

/-- The index that is copied or downloaded (`utilities/dataset_utilities.py:58-64`, 155-164). -/
def indexSource (indexPath : Option (List String)) (remote : Option Bytes) (fs : LocalFs) : Py Bytes :=
  match indexPath with
  | some p => copyIndex fs p
  | none => match remote with
    | some b => .ok b
    | none => .error .fileNotFound

/-- The directory of the dataset (`utilities/dataset_utilities.py:44-53`): its path, or the cache directory of the version given by the index. `path` is `none` when
`_should_replace_path` holds, `stamp` is the field `updated_at` of an index. -/
def indexDir (env : CacheDirEnv) (stamp : Bytes → Option String) (path : Option (List String)) (url : Option String) (inputDir : String)
    (cacheDir indexPath : Option (List String)) (st : IndexPlace) : Py (List String × LocalFs) :=
  match path with
  | some p => .ok (p, st.fs)
  | none => (readUpdatedAt none url.isSome ((indexSource indexPath st.remote st.fs).map stamp)).bind fun u =>
      tryCreateCacheDir env cacheDir (some inputDir) url u st.fs

/-- `subsample_streaming_dataset` up to the chunks (`utilities/dataset_utilities.py:44-78`): the index that is loaded. -/
def openIndex (env : CacheDirEnv) (stamp : Bytes → Option String) (path : Option (List String)) (url : Option String) (inputDir : String)
    (cacheDir indexPath : Option (List String)) (st : IndexPlace) : Py (Bytes × LocalFs) :=
  (indexDir env stamp path url inputDir cacheDir indexPath st).bind fun r =>
    (fetchIndex url.isSome (indexSource indexPath st.remote r.2) r.1 r.2).bind fun fs =>
      match fs.find? fun e => e.1 == r.1 ++ ["index.json"] with
      | some e => .ok (e.2, fs)
      | none => .error .valueError

end LitData
