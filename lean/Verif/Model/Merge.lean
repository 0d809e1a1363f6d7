import Verif.Model.Config

/-!
Index files of the workers and their merge.
Models `src/litdata/streaming/writer.py` lines 284-309, 401-423, 445-517 and
`src/litdata/processing/data_processor.py` lines 897-981.
-/

namespace LitData

/-- Comparison of strings by code points, as Python does. -/
def lexLe : List Char → List Char → Bool
  | [], _ => true
  | _ :: _, [] => false
  | a :: as, b :: bs => decide (a.toNat < b.toNat) || (decide (a = b) && lexLe as bs)

/-- `a <= b` on strings. -/
def strLe (a b : String) : Bool := lexLe a.toList b.toList

/-- Insertion into a list sorted for `le`. -/
def insertBy {α : Type} (le : α → α → Bool) (a : α) : List α → List α
  | [] => [a]
  | b :: l => if le a b then a :: b :: l else b :: insertBy le a l

/-- Python's `sorted` for a given order (stable). -/
def sortBy {α : Type} (le : α → α → Bool) : List α → List α
  | [] => []
  | a :: l => insertBy le a (sortBy le l)

/-- The part of a chunk file name after its number (`streaming/writer.py:299-302`). -/
def chunkSuffix : Option String → List Char
  | some c => '.' :: c.toList ++ ".bin".toList
  | none => ".bin".toList

/-- `get_chunk_filename` (`streaming/writer.py:299-302`). -/
def chunkFilename (compression : Option String) (rank idx : Nat) : String :=
  String.ofList ("chunk-".toList ++ (Nat.toDigits 10 rank ++ '-' :: (Nat.toDigits 10 idx ++ chunkSuffix compression)))

/-- `f"{rank}.{_INDEX_FILENAME}"` (`streaming/writer.py:419`). -/
def rankIndexName (rank : Nat) : String := String.ofList (Nat.toDigits 10 rank ++ ".index.json".toList)

/-- `f"{node_rank}-{_INDEX_FILENAME}"` (`streaming/writer.py:516`). -/
def nodeIndexName (rank : Nat) : String := String.ofList (Nat.toDigits 10 rank ++ "-index.json".toList)

/-- `f.endswith(_INDEX_FILENAME)` (`streaming/writer.py:483`). -/
def isIndexName (f : String) : Bool := "index.json".toList.isSuffixOf f.toList

/-- The content of an index file: `chunks` and `config` (`null` if the writer had none). `C` is the type
of configurations, compared with `!=` only. -/
structure IndexData (C : Type) where
  chunks : List ChunkInfo
  config : Option C
  deriving DecidableEq

/-- A file of the cache directory: an index, or bytes. -/
inductive CacheFile (C : Type) where
  | index (d : IndexData C)
  | data (b : Bytes)
  deriving DecidableEq

/-- The cache directory, in the order of `os.listdir`. -/
abbrev CacheDir (C : Type) := List (String × CacheFile C)

/-- `open(path)` for reading. -/
def dirGet {C : Type} (d : CacheDir C) (f : String) : Option (CacheFile C) :=
  (d.find? fun e => e.1 == f).map (·.2)

/-- `os.remove`. -/
def dirRemove {C : Type} (d : CacheDir C) (f : String) : CacheDir C := d.filter fun e => e.1 != f

/-- `open(path, "w")` and write. -/
def dirWrite {C : Type} (d : CacheDir C) (f : String) (c : CacheFile C) : CacheDir C := dirRemove d f ++ [(f, c)]

/-- The loop of `_merge_no_wait` (`streaming/writer.py:492-509`): each file is removed once it has been
added. The directory is returned also when an exception is raised. -/
def mergeLoop {C : Type} [DecidableEq C] : List String → CacheDir C → IndexData C → Py (IndexData C) × CacheDir C
  | [], d, acc => (.ok acc, d)
  | f :: fs, d, acc => match dirGet d f with
    | some (.index i) => match acc.config with
      | none => mergeLoop fs (dirRemove d f) ⟨acc.chunks ++ i.chunks, i.config⟩
      | some c => if some c = i.config then mergeLoop fs (dirRemove d f) ⟨acc.chunks ++ i.chunks, some c⟩
          else (.error .exception, d)
    | some (.data _) => (.error .valueError, d)
    | none => (.error .fileNotFound, d)

/-- `_merge_no_wait` (`streaming/writer.py:474-517`). `updated_at` is dropped. -/
def mergeNoWait {C : Type} [DecidableEq C] (nodeRank : Option Nat) (existing : Option (IndexData C)) (d : CacheDir C) :
    Py Unit × CacheDir C :=
  match mergeLoop (sortBy strLe ((d.map (·.1)).filter isIndexName)) d (existing.getD ⟨[], none⟩) with
  | (.error e, d) => (.error e, d)
  | (.ok i, d) => (.ok (), dirWrite d (match nodeRank with
      | none => "index.json"
      | some r => nodeIndexName r) (.index i))

/-- The condition that ends the waiting loop of `merge` (`streaming/writer.py:456-470`): the index is
there, or there is one index file for each worker. -/
def mergeReady {C : Type} (worldSize numWorkers : Nat) (d : CacheDir C) : Bool :=
  (d.map (·.1)).contains "index.json" ||
    decide (((d.map (·.1)).filter isIndexName).length = worldSize * numWorkers)

/-- The chunk information (`streaming/writer.py:277-289`). -/
def chunkInfo (enc : Option Encryption) (nonce : Nat) (filename : String) (items : List WItem) : ChunkInfo :=
  ⟨filename, items.length, (createChunk enc nonce (items.map (·.data))).length,
    match items.head?.bind (·.dim) with
    | some d => if d = 0 then none else some ((items.map fun x => x.dim.getD 0).sum)
    | none => none⟩

/-- A compressor and the name under which it was chosen (`streaming/compression.py:24-79`). -/
structure Compressor where
  name : String
  compress : Bytes → Bytes
  decompress : Bytes → Bytes

/-- The bytes that are written for a chunk (`streaming/writer.py:401-413`). -/
def Compressor.pack (comp : Option Compressor) (data : Bytes) : Bytes :=
  match comp with
  | some c => c.compress data
  | none => data

/-- The bytes that are read once a chunk is in the cache (`streaming/config.py:149-168`). -/
def Compressor.unpack (comp : Option Compressor) (data : Bytes) : Bytes :=
  match comp with
  | some c => c.decompress data
  | none => data

/-- The chunk files of a worker (`streaming/writer.py:304-309`, 401-413), numbered from `start`, and their
entries in the index. `nonce j` is used to encrypt chunk `j`. -/
def workerChunks (comp : Option Compressor) (enc : Option Encryption) (nonce : Nat → Nat) (rank : Nat) : Nat → List (List WItem) → List (ChunkInfo × Bytes)
  | _, [] => []
  | j, c :: cs => (chunkInfo enc (nonce j) (chunkFilename (comp.map (·.name)) rank j) c, Compressor.pack comp (createChunk enc (nonce j) (c.map (·.data)))) ::
      workerChunks comp enc nonce rank (j + 1) cs

/-- What a worker leaves in the cache directory (`streaming/writer.py:415-443`): chunk files, and an index
unless there is no chunk. -/
def workerFiles {C : Type} (config : C) (rank : Nat) (chunks : List (ChunkInfo × Bytes)) : CacheDir C :=
  chunks.map (fun c => (c.1.filename, .data c.2)) ++
    (if chunks = [] then [] else [(rankIndexName rank, .index ⟨chunks.map (·.1), some config⟩)])

end LitData
