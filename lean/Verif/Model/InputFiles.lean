import Verif.Model.Writer

/-!
The local copies of input files that `map` and `optimize` make and remove.
Models `_download_data_target` and `_remove_target` (`src/litdata/processing/data_processor.py` lines 124-182 and 188-211) and the paths
that `BaseWorker._collect_paths` hands to them (`src/litdata/processing/data_processor.py` lines 644-686), for a local input
directory (`input_dir.url is None`).

Simplified: a request (the paths of one item) is handled in one step; `shutil.copyfile` is all or nothing; paths are absolute and
resolved, as `_to_path` returns them.
-/

namespace LitData

/-- A path as a sequence of characters. -/
abbrev PathStr := List Char

/-- `s.replace(old, new)` for a non-empty `old`, where the first `skip` characters belong to an occurrence that was replaced. -/
def pyReplace (old new : PathStr) : Nat → PathStr → PathStr
  | _, [] => []
  | skip + 1, _ :: s => pyReplace old new skip s
  | 0, c :: s => if old.isPrefixOf (c :: s) then new ++ pyReplace old new (old.length - 1) s else c :: pyReplace old new 0 s

/-- `input_dir.path` and the cache directory of the data (`processing/data_processor.py:89-95`, 609). -/
structure InputCfg where
  inputDir : PathStr
  cacheDir : PathStr

/-- The files there are and what is in them. -/
abbrev InputFs := PathStr → Option Bytes

/-- Where the copy of an input goes: `path.replace(input_dir.path, cache_dir)` (`processing/data_processor.py:146, 160`). -/
def localCopy (cfg : InputCfg) (path : PathStr) : PathStr := pyReplace cfg.inputDir cfg.cacheDir 0 path

/-- The files of this studio are used where they are (`processing/data_processor.py:174, 677`). -/
def thisStudio : PathStr := "/teamspace/studios/this_studio".toList

/-- The path with which the worker replaces an input path in its item (`processing/data_processor.py:672-680`). -/
def workerPath (cfg : InputCfg) (path : PathStr) : PathStr :=
  if thisStudio.isPrefixOf cfg.inputDir then path else localCopy cfg path

/-- Writing a file. -/
def InputFs.put (fs : InputFs) (path : PathStr) (content : Option Bytes) : InputFs := fun p => if p = path then content else fs p

/-- The loop over the paths of one request (`processing/data_processor.py:158-179`). The files of this studio are not copied;
`shutil.copyfile` raises `SameFileError` if source and target are the same; a missing file is a `ValueError`. -/
def copyAll (cfg : InputCfg) : InputFs → List PathStr → InputFs × Option Err
  | fs, [] => (fs, none)
  | fs, path :: paths => match fs path with
    | none => (fs, some .valueError)
    | some content =>
      if thisStudio.isPrefixOf path then copyAll cfg fs paths
      else if localCopy cfg path = path then (fs, some .exception)
      else copyAll cfg (fs.put (localCopy cfg path) (some content)) paths

/-- One request of the downloader: nothing to do if all copies are there (`processing/data_processor.py:142-182`). -/
def downloadItem (cfg : InputCfg) (fs : InputFs) (paths : List PathStr) : InputFs × Option Err :=
  if paths.all fun p => (fs (localCopy cfg p)).isSome then (fs, none) else copyAll cfg fs paths

/-- The file that the remover deletes for a path: a path that does not start like the cache directory is translated
(`processing/data_processor.py:202-204`). `if input_dir` is always true for a `Dir`, so that the branch with `keep_path`
(`processing/data_processor.py:209-210`) is never taken. -/
def removeTarget (cfg : InputCfg) (path : PathStr) : PathStr :=
  if cfg.cacheDir.isPrefixOf path then path else localCopy cfg path

/-- One request of the remover (`processing/data_processor.py:200-207`). -/
def removeItem (cfg : InputCfg) : InputFs → List PathStr → InputFs
  | fs, [] => fs
  | fs, path :: paths => removeItem cfg (fs.put (removeTarget cfg path) none) paths

/-- What happens to the files: the downloader copies the inputs of an item, the remover gets the paths of an item after it was processed
(`processing/data_processor.py:587-588`), or a file that was uploaded (`processing/data_processor.py:291-293`), or a file is written by the
user's function and the chunk writer. -/
inductive InputOp where
  | download (paths : List PathStr)
  | remove (paths : List PathStr)
  | uploaded (file : PathStr)
  | write (file : PathStr) (content : Bytes)

/-- The effect of one of these. -/
def inputStep (cfg : InputCfg) (fs : InputFs) : InputOp → InputFs
  | .download paths => (downloadItem cfg fs paths).1
  | .remove paths => removeItem cfg fs paths
  | .uploaded file => removeItem cfg fs [file]
  | .write file content => fs.put file (some content)

/-- The effect of a sequence of them. -/
def inputRun (cfg : InputCfg) (fs : InputFs) (ops : List InputOp) : InputFs := ops.foldl (inputStep cfg) fs

end LitData
