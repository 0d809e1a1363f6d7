import Verif.Model.ChunkFile

/-!
What `optimize` removes before it starts: the `mode` argument.
Models `src/litdata/streaming/resolver.py` lines 232-336 and the object stores of
`src/litdata/streaming/fs_provider.py` lines 112-131, 189-235.
-/

namespace LitData

/-- The local files: components of the absolute path, and content. Directories are those of the
components of a file; empty directories are left out (nothing is done in one), and so are links. The
order stands for the order of `os.listdir`. -/
abbrev LocalFs := List (List String × Bytes)

/-- `os.path.exists`: a file, or a directory with something in it. -/
def LocalFs.has (fs : LocalFs) (p : List String) : Bool := fs.any fun e => p.isPrefixOf e.1

/-- Is there a regular file of that name? -/
def LocalFs.isFile (fs : LocalFs) (p : List String) : Bool := fs.any fun e => e.1 == p

/-- The names in a directory (`os.listdir`). -/
def LocalFs.listdir (fs : LocalFs) (d : List String) : List String :=
  (fs.filterMap fun e => if d.isPrefixOf e.1 then (e.1.drop d.length).head? else none).eraseDups

/-- `os.remove`: it raises for a missing file (`FileNotFoundError`) and for a directory
(`IsADirectoryError`). -/
def LocalFs.remove (fs : LocalFs) (p : List String) : Py LocalFs :=
  if fs.isFile p then .ok (fs.filter fun e => e.1 != p)
  else if fs.has p then .error .exception else .error .fileNotFound

/-- `shutil.rmtree` under `suppress(FileNotFoundError)` (`streaming/resolver.py:299-301`): it raises for a
regular file (`NotADirectoryError`). -/
def LocalFs.rmtree (fs : LocalFs) (p : List String) : Py LocalFs :=
  if fs.isFile p then .error .exception else .ok (fs.filter fun e => !p.isPrefixOf e.1)

/-- `mode` (`streaming/resolver.py:261`). -/
inductive OptMode where
  | none | append | overwrite
  | other (s : String)
  deriving DecidableEq

/-- `file.endswith(".bin")`. -/
def isBin (f : String) : Bool := ".bin".toList.isSuffixOf f.toList

/-- The loop over the names of the directory (`streaming/resolver.py:294-296`). The files are returned
also when an exception is raised. -/
def removeBins (d : List String) : List String → LocalFs → Py Unit × LocalFs
  | [], fs => (.ok (), fs)
  | f :: names, fs =>
    if isBin f then match fs.remove (d ++ [f]) with
      | .ok fs' => removeBins d names fs'
      | .error e => (.error e, fs)
    else removeBins d names fs

/-- The end of the clearing of a local directory: the chunks and the checkpoints
(`streaming/resolver.py:293-301`). -/
def clearLocal (d : List String) (fs : LocalFs) : Py Unit × LocalFs :=
  match removeBins d (fs.listdir d) fs with
  | (.error e, fs') => (.error e, fs')
  | (.ok (), fs') => match fs'.rmtree (d ++ [".checkpoints"]) with
    | .ok fs'' => (.ok (), fs'')
    | .error e => (.error e, fs')

/-- `mode == "overwrite" or (mode is None and not use_checkpoint)` (`streaming/resolver.py:293,335`). -/
def clears (mode : OptMode) (useCheckpoint : Bool) : Bool :=
  mode == .overwrite || (mode == .none && !useCheckpoint)

/-- `_assert_dir_has_index_file` for a local directory (`streaming/resolver.py:265-304`). -/
def assertDirLocal (d : List String) (mode : OptMode) (useCheckpoint : Bool) (fs : LocalFs) :
    Py Unit × LocalFs :=
  match mode with
  | .other _ => (.error .valueError, fs)
  | .append => (.ok (), fs)
  | m =>
    if fs.has d then
      if fs.has (d ++ ["index.json"]) && m == .none then (.error .runtimeError, fs)
      else
        match (if fs.has (d ++ ["index.json"]) then fs.remove (d ++ ["index.json"]) else .ok fs) with
        | .error e => (.error e, fs)
        | .ok fs' => if clears m useCheckpoint then clearLocal d fs' else (.ok (), fs')
    else (.ok (), fs)

/-- The objects of a bucket, by key, in the order in which the store lists them. -/
abbrev Bucket := List (List Char × Bytes)

/-- The two object stores (`_get_fs_provider`, `streaming/fs_provider.py:256-262`). -/
inductive ObjStore where
  | s3 | gcp
  deriving DecidableEq

/-- `s.rstrip("/")`. -/
def rstripSlash (s : List Char) : List Char := (s.reverse.dropWhile (· == '/')).reverse

/-- `s.lstrip("/")`. -/
def lstripSlash (s : List Char) : List Char := s.dropWhile (· == '/')

/-- `is_empty` (`streaming/fs_provider.py:125-131,215-224`). `path` is the path of the URL without its
leading slash. -/
def ObjStore.isEmpty (st : ObjStore) (b : Bucket) (path : List Char) : Bool :=
  match st with
  | .s3 => !b.any fun o => (rstripSlash (lstripSlash path) ++ ['/']).isPrefixOf o.1
  | .gcp => !b.any fun o => path.isPrefixOf o.1

/-- `list_objects_v2` returns one page of at most 1000 keys, in order; `list_blobs` returns all. -/
def ObjStore.listing (st : ObjStore) (b : Bucket) (pre : List Char) : List (List Char) :=
  match st with
  | .s3 => ((b.filter fun o => pre.isPrefixOf o.1).map (·.1)).take 1000
  | .gcp => (b.filter fun o => pre.isPrefixOf o.1).map (·.1)

/-- `delete_file_or_directory` (`streaming/fs_provider.py:112-118,189-199`): everything listed for the
prefix as it stands in the URL. -/
def ObjStore.delete (st : ObjStore) (b : Bucket) (path : List Char) : Bucket :=
  b.filter fun o => !(st.listing b path).contains o.1

/-- `exists` (`streaming/fs_provider.py:120-123,201-213`), when the store answers; `refuse` says that the
request is refused (no permission, time-out), which is raised. -/
def ObjStore.exists (b : Bucket) (refuse : Bool) (key : List Char) : Py Bool :=
  if refuse then .error .exception else .ok (b.any fun o => o.1 == key)

/-- `has_index_file` (`streaming/resolver.py:320-325`): the answer of `exists` is not used, only whether it
raises. -/
def hasIndexFile (b : Bucket) (refuse : Bool) (path : List Char) : Bool :=
  match ObjStore.exists b refuse (rstripSlash path ++ "/index.json".toList) with
  | .ok _ => true
  | .error _ => false

/-- `_assert_dir_has_index_file` for a URL (`streaming/resolver.py:265-272,306-336`). -/
def assertDirRemote (st : ObjStore) (path : List Char) (mode : OptMode) (useCheckpoint refuse : Bool)
    (b : Bucket) : Py Unit × Bucket :=
  match mode with
  | .other _ => (.error .valueError, b)
  | .append => (.ok (), b)
  | m =>
    if st.isEmpty b path then (.ok (), b)
    else if hasIndexFile b refuse path && m == .none then (.error .runtimeError, b)
    else if clears m useCheckpoint then (.ok (), st.delete b path) else (.ok (), b)

/-- `_assert_dir_is_empty`, used by `map` (`streaming/resolver.py:232-256`): nothing is checked for a local
directory (`none`), and nothing is ever removed. -/
def assertDirEmpty (remote : Option (ObjStore × List Char × Bucket)) : Py Unit :=
  match remote with
  | none => .ok ()
  | some (st, path, b) => if st.isEmpty b path then .ok () else .error .runtimeError

end LitData
