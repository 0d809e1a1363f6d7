import Verif.Model.Upload
import Verif.Model.ParquetIndex

/-!
The object stores behind `_get_fs_provider`: which object a URL stands for, and what the calls do to the objects
(`src/litdata/streaming/fs_provider.py` lines 51-262).

Simplified: the client libraries are the operations on a table of objects; permissions, time-outs and retries are left out. Local files are a table from
path texts to contents, where `os.path.abspath` has been applied already; a key that is at the same time a folder of another key is left out. Multi-byte
characters are characters.
-/

namespace LitData

/-- The parts of a URL that are used (`streaming/fs_provider.py:239-252`). -/
structure UrlParts where
  scheme : PathStr
  netloc : PathStr
  path : PathStr
  deriving DecidableEq, Repr

/-- The characters of a scheme (`urllib.parse.scheme_chars`, used in `streaming/fs_provider.py:239`). -/
def schemeChar (c : Char) : Bool := c.isAlphanum || c == '+' || c == '-' || c == '.'

/-- The scheme of a URL and what follows its colon (`urllib.parse.urlsplit`, used in `streaming/fs_provider.py:239`). -/
def urlScheme (s : PathStr) : PathStr × PathStr :=
  match s.takeWhile (· != ':'), s.dropWhile (· != ':') with
  | a, ':' :: rest => if a.head?.any Char.isAlpha && a.all schemeChar then (a.map Char.toLower, rest) else ([], s)
  | _, _ => ([], s)

/-- What ends the path of a URL: a query or a fragment (`urllib.parse.urlsplit`, used in `streaming/fs_provider.py:239`). -/
def inPath (c : Char) : Bool := c != '?' && c != '#'

/-- `urllib.parse.urlparse` (used in `streaming/fs_provider.py:178-179`, 216, 239, 257), for the schemes without parameters. -/
def urlParse (s : PathStr) : UrlParts :=
  match urlScheme s with
  | (scheme, '/' :: '/' :: rest) =>
    ⟨scheme, rest.takeWhile (fun c => c != '/' && inPath c), (rest.dropWhile (fun c => c != '/' && inPath c)).takeWhile inPath⟩
  | (scheme, rest) => ⟨scheme, [], rest.takeWhile inPath⟩

/-- `get_bucket_and_path` (`streaming/fs_provider.py:227-254`): `blob_path[0]` of an empty path is an `IndexError`. -/
def bucketAndPath (url scheme : PathStr) : Py (PathStr × PathStr) :=
  let o := urlParse url
  if o.scheme ≠ scheme then .error .valueError
  else match o.path with
    | [] => .error .indexError
    | c :: p => .ok (o.netloc, if c = '/' then p else c :: p)

/-- The scheme of a store (`streaming/fs_provider.py:258-261`). -/
def ObjStore.scheme : ObjStore → PathStr
  | .s3 => "s3".toList
  | .gcp => "gs".toList

/-- `_get_fs_provider` (`streaming/fs_provider.py:256-262`). -/
def fsProvider (url : PathStr) : Py ObjStore :=
  if (urlParse url).scheme = "gs".toList then .ok .gcp
  else if (urlParse url).scheme = "s3".toList then .ok .s3
  else .error .valueError

/-- The objects of a store, by bucket and key. -/
abbrev Objects (α : Type) := List ((PathStr × PathStr) × α)

/-- The object of a bucket and key. -/
def Objects.get {α : Type} (o : Objects α) (k : PathStr × PathStr) : Option α := o.lookup k

/-- Store an object, replacing what was there. -/
def Objects.put {α : Type} (o : Objects α) (k : PathStr × PathStr) (x : α) : Objects α := (k, x) :: o.filter fun e => e.1 != k

/-- `upload_file` (`streaming/fs_provider.py:61-65`, 140-142) of a local file with the given content. -/
def ObjStore.upload {α : Type} (st : ObjStore) (o : Objects α) (url : PathStr) (x : α) : Py (Objects α) := do
  let k ← bucketAndPath url st.scheme
  return o.put k x

/-- `download_file` (`streaming/fs_provider.py:67-71`, 144-147); a missing object raises an error of the client. -/
def ObjStore.download {α : Type} (st : ObjStore) (o : Objects α) (url : PathStr) : Py α := do
  let k ← bucketAndPath url st.scheme
  match o.get k with
  | some x => return x
  | none => .error .exception

/-- The object which `copy` means by a URL: for S3 all leading slashes are dropped (`streaming/fs_provider.py:178-183`), for GCS one, as elsewhere
(`streaming/fs_provider.py:97-98`). -/
def ObjStore.copyKey (st : ObjStore) (url : PathStr) : Py (PathStr × PathStr) :=
  match st with
  | .s3 => .ok ((urlParse url).netloc, lstripSlash (urlParse url).path)
  | .gcp => bucketAndPath url "gs".toList

/-- `copy` (`streaming/fs_provider.py:95-110`, 177-184): a missing source is `FileNotFoundError` for GCS and an error of the client for S3. -/
def ObjStore.copy {α : Type} (st : ObjStore) (o : Objects α) (src dst : PathStr) : Py (Objects α) := do
  let k ← st.copyKey src
  let k' ← st.copyKey dst
  match o.get k with
  | some x => return o.put k' x
  | none => .error (match st with | .s3 => .exception | .gcp => .fileNotFound)

/-- `exists` (`streaming/fs_provider.py:120-123`, 201-213) when the store answers. -/
def ObjStore.existsObj {α : Type} (st : ObjStore) (o : Objects α) (url : PathStr) : Py Bool := do
  let k ← bucketAndPath url st.scheme
  return (o.get k).isSome

/-- The objects of a bucket whose keys begin with a text, in the order of their keys; `list_objects_v2` returns one page of at most 1000
(`streaming/fs_provider.py:75-76`, 115-116, 160, 194). -/
def ObjStore.list {α : Type} (st : ObjStore) (o : Objects α) (bucket pre : PathStr) : List (PathStr × α) :=
  let l := sortBy (fun a b => lexLe a.1 b.1) ((o.filter fun e => e.1.1 == bucket && pre.isPrefixOf e.1.2).map fun e => (e.1.2, e.2))
  match st with
  | .s3 => l.take 1000
  | .gcp => l

/-- `delete_file_or_directory` (`streaming/fs_provider.py:112-118`, 189-199). -/
def ObjStore.deleteAll {α : Type} (st : ObjStore) (o : Objects α) (url : PathStr) : Py (Objects α) := do
  let k ← bucketAndPath url st.scheme
  return o.filter fun e => !(e.1.1 == k.1 && ((st.list o k.1 k.2).map (·.1)).contains e.1.2)

/-- Local files, by path. -/
abbrev LocalFiles (α : Type) := PathStr → Option α

/-- The local path of an object (`streaming/fs_provider.py:84-85`, 165): for GCS the first part of the key is dropped. -/
def ObjStore.localName (st : ObjStore) (dir key : PathStr) : PathStr :=
  match st with
  | .s3 => joinPath dir key
  | .gcp => joinPaths dir ((splitChar '/' key).drop 1)

/-- The loop of `download_directory` (`streaming/fs_provider.py:81-88`, 163-173): the folder of the last file, and the files. For GCS keys that end in a slash
or are the prefix itself are skipped; opening a path that ends in a slash, or the folder itself, raises. -/
def ObjStore.fetchAll {α : Type} (st : ObjStore) (prefixKey dir : PathStr) : List (PathStr × α) → PathStr → LocalFiles α → Py (PathStr × LocalFiles α)
  | [], saved, files => .ok (saved, files)
  | (key, x) :: rest, saved, files =>
    let name := st.localName dir key
    if st = .gcp ∧ (key.getLast? = some '/' ∨ key = prefixKey) then st.fetchAll prefixKey dir rest saved files
    else if name.getLast? = some '/' ∨ name = dir then .error .exception
    else st.fetchAll prefixKey dir rest (osSplit name).1 fun p => if p = name then some x else files p

/-- `download_directory` (`streaming/fs_provider.py:73-90`, 149-175). -/
def ObjStore.downloadDir {α : Type} (st : ObjStore) (o : Objects α) (url dir : PathStr) (files : LocalFiles α) : Py (PathStr × LocalFiles α) := do
  let k ← bucketAndPath url st.scheme
  st.fetchAll k.2 dir (st.list o k.1 k.2) ".".toList files

end LitData
