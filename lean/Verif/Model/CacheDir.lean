import Verif.Model.Modes

/-!
The directory in which the chunks of a remote dataset are cached.
Models `_read_updated_at`, `_clear_cache_dir_if_updated`, `_try_create_cache_dir`, `copy_index_to_cache_index_filepath`
(`src/litdata/utilities/dataset_utilities.py` lines 141-211, 304-313) and the fetching of the index in `subsample_streaming_dataset` (lines 44-78 there).
-/

namespace LitData

/-- `_read_updated_at` (`utilities/dataset_utilities.py:141-169`): `atPath` is the index found at the path of the input directory, by its field `updated_at`;
otherwise, if there is a URL, that of the index given by the user or of the one that is downloaded. An index without the field, or none, gives `"0"`. -/
def readUpdatedAt (atPath : Option (Option String)) (hasUrl : Bool) (fetched : Py (Option String)) : Py String :=
  match atPath with
  | some u => .ok (u.getD "0")
  | none => if hasUrl then fetched.map (·.getD "0") else .ok "0"

/-- `_clear_cache_dir_if_updated` (`utilities/dataset_utilities.py:172-183`). Empty directories are left out, as in `LocalFs`. -/
def clearIfUpdated (fs : LocalFs) (top : List String) (version : String) : Py LocalFs :=
  if fs.has top then if fs.listdir top = [version] then .ok fs else fs.rmtree top else .ok fs

/-- What surrounds `_try_create_cache_dir`: the hash of a text in hexadecimal, whether the process runs in a Studio, and the two default directories
(`utilities/dataset_utilities.py:197-203`). -/
structure CacheDirEnv where
  md5 : String → String
  inStudio : Bool
  home : List String
  studio : List String

/-- The directory of all versions of a URL (`utilities/dataset_utilities.py:200-203`, 207). -/
def CacheDirEnv.top (env : CacheDirEnv) (cacheDir : Option (List String)) (url : Option String) : List String :=
  cacheDir.getD (if env.inStudio then env.studio else env.home) ++ [env.md5 (url.getD "")]

/-- The name of the version (`utilities/dataset_utilities.py:197-198`). -/
def CacheDirEnv.version (env : CacheDirEnv) (inputDir : Option String) (updatedAt : String) : String :=
  match inputDir with
  | some d => if updatedAt = "0" then env.md5 d else updatedAt
  | none => updatedAt

/-- `_try_create_cache_dir` (`utilities/dataset_utilities.py:186-211`), after the directory was resolved and `updated_at` was read: the cache directory and the files. -/
def tryCreateCacheDir (env : CacheDirEnv) (cacheDir : Option (List String)) (inputDir url : Option String) (updatedAt : String) (fs : LocalFs) :
    Py (List String × LocalFs) :=
  (clearIfUpdated fs (env.top cacheDir url) (env.version inputDir updatedAt)).map fun fs' =>
    (env.top cacheDir url ++ [env.version inputDir updatedAt], fs')

/-- `copy_index_to_cache_index_filepath` (`utilities/dataset_utilities.py:304-313`): the content that is copied. -/
def copyIndex (fs : LocalFs) (indexPath : List String) : Py Bytes :=
  let p := if fs.has indexPath && !fs.isFile indexPath then indexPath ++ ["index.json"] else indexPath
  match fs.find? fun e => e.1 == p with
  | some e => .ok e.2
  | none => .error .fileNotFound

/-- The index of the dataset is fetched unless it is there (`utilities/dataset_utilities.py:56-64`), then it has to be there (lines 68-78). -/
def fetchIndex (hasUrl : Bool) (fetched : Py Bytes) (dir : List String) (fs : LocalFs) : Py LocalFs :=
  if fs.isFile (dir ++ ["index.json"]) then .ok fs
  else if hasUrl then fetched.map fun b => fs ++ [(dir ++ ["index.json"], b)]
  else if fs.has dir then .error .valueError else .error .fileNotFound

/-- One use of a dataset after the other: what it is, and the files of it that are downloaded, beside the index, by their names in the dataset. -/
structure CacheSession where
  inputDir : String
  url : String
  updatedAt : String
  files : List (List String)

/-- A session opens its dataset and downloads files that are not there; `remote url updatedAt name` is the content of a file in a version of a dataset.
Chunks that are there are not downloaded again (`streaming/config.py:130-137`). -/
def runSession (env : CacheDirEnv) (cacheDir : Option (List String)) (remote : String → String → List String → Bytes) (fs : LocalFs) (s : CacheSession) :
    Py LocalFs :=
  (tryCreateCacheDir env cacheDir (some s.inputDir) (some s.url) s.updatedAt fs).bind fun r =>
    (fetchIndex true (.ok (remote s.url s.updatedAt ["index.json"])) r.1 r.2).map fun fs' =>
      s.files.foldl (fun fs name => if fs.isFile (r.1 ++ name) then fs else fs ++ [(r.1 ++ name, remote s.url s.updatedAt name)]) fs'

/-- Session after session. -/
def runSessions (env : CacheDirEnv) (cacheDir : Option (List String)) (remote : String → String → List String → Bytes) :
    List CacheSession → LocalFs → Py LocalFs
  | [], fs => .ok fs
  | s :: ss, fs => (runSession env cacheDir remote fs s).bind (runSessions env cacheDir remote ss)

/-- Where a process is in `_clear_cache_dir_if_updated` and `os.makedirs`: before `os.path.exists`, before `os.listdir`, before `shutil.rmtree`, before the
creation of the directory of the URL, before that of the directory of the version, after it; or an exception was raised. -/
inductive OpenPc where
  | start | list | remove | make | makeVersion | opened | failed
  deriving DecidableEq

/-- The directory of a URL, if there is one, as the directories of versions with the names of their files, and the processes. -/
structure OpenState where
  top : Option (List (String × List String))
  pc : Nat → OpenPc

/-- Process `i` moves on. -/
def OpenState.at (s : OpenState) (i : Nat) (p : OpenPc) : OpenState := { s with pc := fun j => if j = i then p else s.pc j }

/-- The steps of processes that open the same version at the same time (`utilities/dataset_utilities.py:179-183`, 202-204). `shutil.rmtree` is one step. A process that
has opened the directory puts files into it. -/
inductive OpenStep (version : String) : OpenState → OpenState → Prop
  /-- `os.path.exists` is false (`utilities/dataset_utilities.py:179`). -/
  | absent (s : OpenState) (i : Nat) : s.pc i = .start → s.top = none → OpenStep version s (s.at i .make)
  /-- `os.path.exists` is true (`utilities/dataset_utilities.py:179`). -/
  | present (s : OpenState) (i : Nat) : s.pc i = .start → s.top ≠ none → OpenStep version s (s.at i .list)
  /-- `os.listdir` (`utilities/dataset_utilities.py:181-182`). -/
  | listed (s : OpenState) (i : Nat) (l : List (String × List String)) : s.pc i = .list → s.top = some l →
      OpenStep version s (s.at i (if l.map Prod.fst = [version] then .make else .remove))
  /-- The directory is gone. -/
  | listFails (s : OpenState) (i : Nat) : s.pc i = .list → s.top = none → OpenStep version s (s.at i .failed)
  /-- `shutil.rmtree` (`utilities/dataset_utilities.py:183`). -/
  | removes (s : OpenState) (i : Nat) : s.pc i = .remove → s.top ≠ none → OpenStep version s ({ s with top := none }.at i .make)
  /-- The directory is gone. -/
  | removeFails (s : OpenState) (i : Nat) : s.pc i = .remove → s.top = none → OpenStep version s (s.at i .failed)
  /-- `os.makedirs`: the directory of the URL (`utilities/dataset_utilities.py:204`). -/
  | makes (s : OpenState) (i : Nat) : s.pc i = .make → OpenStep version s ({ s with top := some (s.top.getD []) }.at i .makeVersion)
  /-- `os.makedirs`: the directory of the version. -/
  | makesVersion (s : OpenState) (i : Nat) (l : List (String × List String)) : s.pc i = .makeVersion → s.top = some l →
      OpenStep version s ({ s with top := some (if version ∈ l.map Prod.fst then l else l ++ [(version, [])]) }.at i .opened)
  /-- The directory of the URL is gone again. -/
  | makeFails (s : OpenState) (i : Nat) : s.pc i = .makeVersion → s.top = none → OpenStep version s (s.at i .failed)
  /-- A file is put into the directory of the version. -/
  | write (s : OpenState) (i : Nat) (l : List (String × List String)) (file : String) : s.pc i = .opened → s.top = some l →
      OpenStep version s { s with top := some (l.map fun e => if e.1 = version then (e.1, e.2 ++ [file]) else e) }

/-- What can be reached from a given directory when all processes are at the start. -/
inductive OpenReach (version : String) (top : Option (List (String × List String))) : OpenState → Prop
  | init : OpenReach version top ⟨top, fun _ => .start⟩
  | step {s t : OpenState} : OpenReach version top s → OpenStep version s t → OpenReach version top t

end LitData
