import Verif.Model.FsProvider
import Verif.Model.Registry

/-!
How a file of a dataset gets from where it is stored into the cache. Models `download_file` of the downloaders and `download_chunk_from_index`
(`src/litdata/streaming/downloader.py` lines 63-72, 88-154, 166-192, 204-227, 230-246, 260-293) and how the index is fetched when a dataset is opened (`src/litdata/streaming/config.py` lines 291-304).

This is one call, seen from the outside: what other processes do meanwhile is in `Model/Download.lean` and `Model/Decompress.lean`, here it is only known whether another process holds the lock.
The lock files are left out. The client libraries are trusted to do this: boto3 and `hf_hub_download` leave nothing behind when an object is missing, `download_to_filename` of GCS removes the file that it has
opened, s5cmd gives an exit code that is not zero. The folder of the cache exists. That a local source is itself the temporary file of its copy is left out.
-/

namespace LitData

/-- What there is to fetch: the objects of the stores, and the files of the data sets of the Hugging Face Hub by repository and path. -/
structure RemoteFiles where
  s3 : Objects Bytes
  gs : Objects Bytes
  azure : Objects Bytes
  hub : Objects Bytes

/-- `path.lstrip("/")` or the removal of one slash (`streaming/downloader.py:149`, 186-188, 222): the bucket and the key of a URL. `key[0]` of an empty path is an `IndexError`. -/
def fetchKey (d : BuiltinDownloader) (url : PathStr) : Py (PathStr × PathStr) :=
  let u := urlParse url
  match d with
  | .gcp => match u.path with
    | [] => .error .indexError
    | c :: p => .ok (u.netloc, if c = '/' then p else c :: p)
  | _ => .ok (u.netloc, lstripSlash u.path)

/-- The scheme that a downloader asks for (`streaming/downloader.py:91`, 171, 209, 270). -/
def BuiltinDownloader.wanted : BuiltinDownloader → Option PathStr
  | .s3 => some "s3".toList
  | .gcp => some "gs".toList
  | .azure => some "azure".toList
  | .hf => some "hf".toList
  | .localCache => none
  | .local => none

/-- `s.split("/", n)` (`streaming/downloader.py:277`). -/
def splitSlash : Nat → PathStr → List PathStr
  | 0, s => [s]
  | _ + 1, [] => [[]]
  | n + 1, c :: s => if c = '/' then [] :: splitSlash n s
    else match splitSlash (n + 1) s with
      | [] => [[c]]
      | p :: ps => (c :: p) :: ps

/-- The repository and the path of a file of the Hub (`streaming/downloader.py:277-278`): fewer parts are a `ValueError`. -/
def hubKey (url : PathStr) : Py (PathStr × PathStr) :=
  match splitSlash 5 url with
  | [_, _, _, org, name, path] => .ok (org ++ '/' :: name, path)
  | _ => .error .valueError

/-- The command of s5cmd (`streaming/downloader.py:108-111`). -/
def s5cmdLine (noSign : Bool) (remote loc : PathStr) : PathStr :=
  "s5cmd ".toList ++ (if noSign then "--no-sign-request ".toList else []) ++ "cp ".toList ++ remote ++ ' ' :: loc

/-- The characters that a shell leaves as they are. -/
def plainShellChar (c : Char) : Bool := c.isAlphanum || ['/', '.', '_', '-', ':', '=', '+', ',', '@', '%'].contains c

/-- The words of a command, if it has nothing but plain characters and spaces. -/
def shellWords (line : PathStr) : Option (List PathStr) :=
  if line.all fun c => plainShellChar c || c == ' ' then some ((splitChar ' ' line).filter (· ≠ [])) else none

/-- The object that s5cmd takes a URL for. -/
def s5cmdKey (url : PathStr) : Option (PathStr × PathStr) :=
  if "s3://".toList.isPrefixOf url then
    match (url.drop 5).dropWhile (· != '/') with
    | [] => none
    | _ :: key => some ((url.drop 5).takeWhile (· != '/'), key)
  else none

/-- What `s5cmd cp` with these words does (`streaming/downloader.py:113-119`): a source and a destination, and nothing else. -/
def s5cmdRun (o : Objects Bytes) (files : LocalFiles Bytes) : List PathStr → Option (LocalFiles Bytes)
  | [_, c, src, dst] => if c = "cp".toList then
      (s5cmdKey src).bind fun k => (o.get k).map fun x => fun p => if p = dst then some x else files p
    else none
  | [_, s, c, src, dst] => if s = "--no-sign-request".toList ∧ c = "cp".toList then
      (s5cmdKey src).bind fun k => (o.get k).map fun x => fun p => if p = dst then some x else files p
    else none
  | _ => none

/-- The settings of the S3 downloader: is s5cmd used (`streaming/downloader.py:83-86`, 100), is `AWS_NO_SIGN_REQUEST` set (106), and what a shell does with a command that it interprets. -/
structure S3Settings where
  s5cmd : Bool
  noSign : Bool
  interpreted : PathStr → LocalFiles Bytes → LocalFiles Bytes × Option Err

/-- Under the lock (`streaming/downloader.py:100-154`, 181-192, 218-227, 240-243, 277-289): the files afterwards, and the exception. The Hub and the local downloader write a temporary file
and rename it (242-243, 286-289). -/
def fetchNow (d : BuiltinDownloader) (cfg : S3Settings) (r : RemoteFiles) (files : LocalFiles Bytes) (remote loc : PathStr) : LocalFiles Bytes × Option Err :=
  let stored (x : Bytes) : LocalFiles Bytes := fun p => if p = loc then some x else files p
  let renamed (x : Bytes) : LocalFiles Bytes := fun p => if p = loc then some x else if p = loc ++ ".tmp".toList then none else files p
  match d with
  | .s3 =>
    if cfg.s5cmd then
      match shellWords (s5cmdLine cfg.noSign remote loc) with
      | none => cfg.interpreted (s5cmdLine cfg.noSign remote loc) files
      | some words => match s5cmdRun r.s3 files words with
        | none => (files, some .runtimeError)
        | some files => (files, none)
    else match fetchKey .s3 remote with
      | .error e => (files, some e)
      | .ok k => match r.s3.get k with
        | none => (files, some .exception)
        | some x => (stored x, none)
  | .gcp => match fetchKey .gcp remote with
    | .error e => (files, some e)
    | .ok k => match r.gs.get k with
      | none => (files, some .exception)
      | some x => (stored x, none)
  | .azure => match fetchKey .azure remote with
    | .error e => (files, some e)
    | .ok k => match r.azure.get k with
      | none => (stored [], some .exception)
      | some x => (stored x, none)
  | .hf => match hubKey remote with
    | .error e => (files, some e)
    | .ok k => match r.hub.get k with
      | none => (files, some .exception)
      | some x => (renamed x, none)
  | _ => match files remote with
    | none => (files, some .fileNotFound)
    | some x => (renamed x, none)

/-- `download_file` (`streaming/downloader.py:88-154`, 166-192, 204-227, 230-246, 260-293): `busy` if another process holds the lock, which is no error. The local downloader looks for the source
first. -/
def fetchFile (d : BuiltinDownloader) (cfg : S3Settings) (r : RemoteFiles) (busy : Bool) (files : LocalFiles Bytes) (remote loc : PathStr) : LocalFiles Bytes × Option Err :=
  match d.wanted with
  | some scheme =>
    if (urlParse remote).scheme ≠ scheme then (files, some .valueError)
    else if (files loc).isSome then (files, none)
    else if busy then (files, none)
    else fetchNow d cfg r files remote loc
  | none =>
    let source := if d = .localCache then pyReplace "local:".toList [] 0 remote else remote
    if (files source).isNone then (files, some .fileNotFound)
    else if busy then (files, none)
    else if source = loc ∨ (files loc).isSome then (files, none)
    else fetchNow d cfg r files source loc

/-- `download_chunk_from_index` (`streaming/downloader.py:63-72`) for the downloader of the folder. -/
def fetchChunk (cfg : S3Settings) (r : RemoteFiles) (busy : Bool) (remoteDir cacheDir : PathStr) (files : LocalFiles Bytes) (filename : PathStr) : LocalFiles Bytes × Option Err :=
  fetchFile (getDownloader .local builtinTable (String.ofList remoteDir)) cfg r busy files (joinPath remoteDir filename) (joinPath cacheDir filename)

/-- The chunks of a dataset, one after the other. -/
def fetchChunks (cfg : S3Settings) (r : RemoteFiles) (remoteDir cacheDir : PathStr) : LocalFiles Bytes → List PathStr → LocalFiles Bytes × Option Err
  | files, [] => (files, none)
  | files, f :: fs => match fetchChunk cfg r false remoteDir cacheDir files f with
    | (files, some e) => (files, some e)
    | (files, none) => fetchChunks cfg r remoteDir cacheDir files fs

/-- `index.json`. -/
def indexName : PathStr := "index.json".toList

/-- The first part of `ChunksConfig.load` (`streaming/config.py:291-307`): the files, and the content of the index if there is one. -/
def loadIndex (cfg : S3Settings) (r : RemoteFiles) (busy : Bool) (remoteDir : Option PathStr) (cacheDir : PathStr) (files : LocalFiles Bytes) : LocalFiles Bytes × Py (Option Bytes) :=
  match remoteDir with
  | some dir =>
    if "hf://".toList.isPrefixOf dir then
      if (files (joinPath cacheDir indexName)).isNone then (files, .error .runtimeError) else (files, .ok (files (joinPath cacheDir indexName)))
    else match fetchChunk cfg r busy dir cacheDir files indexName with
      | (files, some e) => (files, .error e)
      | (files, none) => (files, .ok (files (joinPath cacheDir indexName)))
  | none => (files, .ok (files (joinPath cacheDir indexName)))

end LitData
