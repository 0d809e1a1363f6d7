import Verif.Model.Basic

/-!
The table of downloaders.
Models `src/litdata/streaming/downloader.py` lines 300-355 (`_DOWNLOADERS`, `register_downloader`,
`unregister_downloader`, `get_downloader`).
-/

namespace LitData

/-- `_DOWNLOADERS`: a Python dictionary from prefixes to classes, in insertion order. A class is an abstract value. -/
abbrev DownloaderTable (D : Type) := List (String × D)

/-- `_DOWNLOADERS[prefix] = cls`: an existing key keeps its place. -/
def tablePut {D : Type} (p : String) (d : D) : DownloaderTable D → DownloaderTable D
  | [] => [(p, d)]
  | (k, e) :: t => if k = p then (k, d) :: t else (k, e) :: tablePut p d t

/-- `register_downloader` (`streaming/downloader.py:307-321`): the table afterwards, and the outcome. -/
def registerDownloader {D : Type} (t : DownloaderTable D) (p : String) (d : D) (overwrite : Bool) : DownloaderTable D × Py Unit :=
  if (t.any fun e => e.1 == p) && !overwrite then (t, .error .valueError) else (tablePut p d t, .ok ())

/-- `unregister_downloader` (`streaming/downloader.py:324-330`): `del` raises `KeyError` for an unknown key. -/
def unregisterDownloader {D : Type} (t : DownloaderTable D) (p : String) : DownloaderTable D × Py Unit :=
  if t.any fun e => e.1 == p then (t.filter fun e => e.1 != p, .ok ()) else (t, .error .keyError)

/-- `str.startswith`. -/
def strStartsWith (s p : String) : Bool := p.toList.isPrefixOf s.toList

/-- `get_downloader` (`streaming/downloader.py:333-352`): the first prefix that matches; `LocalDownloader` otherwise. -/
def getDownloader {D : Type} (local' : D) (t : DownloaderTable D) (remote : String) : D :=
  match t with
  | [] => local'
  | (k, d) :: t => if strStartsWith remote k then d else getDownloader local' t remote

/-- The built-in classes. -/
inductive BuiltinDownloader where
  | s3
  | gcp
  | azure
  | hf
  | localCache
  | local
  deriving DecidableEq, Repr

/-- The table at import time (`streaming/downloader.py:297-304`). -/
def builtinTable : DownloaderTable BuiltinDownloader :=
  [("s3://", .s3), ("gs://", .gcp), ("azure://", .azure), ("hf://", .hf), ("local:", .localCache)]

/-- A call that changes the table. -/
inductive TableOp (D : Type) where
  | register (prefix_ : String) (cls : D) (overwrite : Bool)
  | unregister (prefix_ : String)

/-- The table after a call. -/
def applyOp {D : Type} (t : DownloaderTable D) : TableOp D → DownloaderTable D
  | .register p d o => (registerDownloader t p d o).1
  | .unregister p => (unregisterDownloader t p).1

end LitData
