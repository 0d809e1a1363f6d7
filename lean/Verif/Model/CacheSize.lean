import Verif.Model.Prepare
import Verif.Model.Mds
import Verif.Model.ParquetIndex

/-!
The size of the cache and how it is kept small.
Models `_get_folder_size` (`src/litdata/streaming/reader.py` lines 475-520), `filename_to_size_map` (`src/litdata/streaming/config.py` lines
105-109), `_can_delete_chunk`, the loop of `_maybe_delete_chunks` and `_apply_delete` (`src/litdata/streaming/reader.py` lines 80-81, 132-157,
182-184, 190-196), with the chunks that are on disk, for one reader and its thread.
-/

namespace LitData

/-- An entry of the cache directory; `isFile` is false for directories and links (`streaming/reader.py:493-496`). -/
structure FolderEntry where
  name : String
  isFile : Bool
  bytes : Nat
  deriving DecidableEq, Repr

/-- `part in s`. -/
def strContains (part : List Char) : List Char → Bool
  | [] => part == []
  | c :: s => part.isPrefixOf (c :: s) || strContains part s

/-- The name under which the size of a chunk is kept: `.replace(f".{self._compressor_name}", "")`, where the name of no compressor is
the text `None` (`streaming/config.py:108`). -/
def sizeName (compressor : Option String) (filename : String) : String :=
  String.ofList (pyReplace ('.' :: (compressor.getD "None").toList) [] 0 filename.toList)

/-- `filename_to_size_map` (`streaming/config.py:105-109`): all chunks of the index, also those left out by subsampling. -/
def sizeMap (compressor : Option String) (chunks : List ChunkInfo) : List (String × Nat) :=
  chunks.foldl (fun m c => tableSet m (sizeName compressor c.filename) c.chunkBytes) []

/-- The endings that are ignored (`streaming/reader.py:489`, 505). -/
def ignoredName (name : String) : Bool := [".cnt", ".lock", ".json", ".zstd.bin"].any (strEndsWith name)

/-- What an entry adds to the size (`streaming/reader.py:494-518`). A file that vanishes meanwhile counts as if it were not there. -/
def entrySize (map : List (String × Nat)) (e : FolderEntry) : Nat :=
  if !e.isFile then 0
  else match map.lookup e.name with
    | some n => n
    | none => if ignoredName e.name then 0 else if strContains ".bin".toList e.name.toList then e.bytes else 0

/-- `_get_folder_size` (`streaming/reader.py:475-520`). -/
def folderSize (map : List (String × Nat)) (entries : List FolderEntry) : Nat := (entries.map (entrySize map)).sum

/-- The name of a chunk on disk once it is decompressed (`streaming/config.py:251-254`, 153). -/
def diskName (compressor : Option String) (filename : String) : String :=
  match compressor with
  | none => filename
  | some _ => sizeName compressor filename

/-- The file of chunk `i` of the index, of any real size. -/
def chunkEntry (compressor : Option String) (chunks : List ChunkInfo) (bytes : Nat → Nat) (i : Nat) : FolderEntry :=
  match chunks[i]? with
  | some c => ⟨diskName compressor c.filename, true, bytes i⟩
  | none => ⟨"", false, 0⟩

/-- `_delete_chunks_when_processed` (`streaming/reader.py:80-81`). -/
def deletesWhenProcessed (numBytes nodes : Nat) (maxCache : Option Nat) : Bool :=
  match maxCache with
  | none => false
  | some m => m ≠ 0 && decide (m < numBytes / nodes)

/-- The `while` loop of `_maybe_delete_chunks` (`streaming/reader.py:182-184`). `more k disk` is `_can_delete_chunk()` at its `k`-th call. A
chunk that someone has locked is passed over by `_apply_delete` (`streaming/reader.py:138-142`): it leaves the list but not the disk. The
result has the chunks still listed, the disk and the chunks passed over. -/
def evict (more : Nat → List Nat → Bool) (locked : Nat → Bool) : Nat → List Nat → List Nat → List Nat × List Nat × List Nat
  | _, [], disk => ([], disk, [])
  | k, c :: pending, disk =>
    if more k disk then
      if locked c then
        let r := evict more locked (k + 1) pending disk
        (r.1, r.2.1, c :: r.2.2)
      else evict more locked (k + 1) pending (disk.filter fun x => x != c)
    else (c :: pending, disk, [])

/-- What surrounds the thread: its configuration, `max_cache_size`, the table of sizes, and the file of each chunk. -/
structure DiskCfg where
  prep : PrepCfg
  maxCache : Nat
  map : List (String × Nat)
  entry : Nat → FolderEntry

/-- `_can_delete_chunk` (`streaming/reader.py:190-196`), where `others` are the other entries of the directory. -/
def canDelete (cfg : DiskCfg) (counter : Int) (others : List FolderEntry) (disk : List Nat) : Bool :=
  if cfg.prep.eager then decide (counter ≥ (cfg.prep.maxPre : Int) - 1)
  else decide (cfg.maxCache ≤ folderSize cfg.map (others ++ disk.map cfg.entry))

/-- The thread and its reader with the chunks on disk; `kept` logs the chunks that are there without being anyone's to delete: those found at
the start and those passed over. -/
structure DiskState where
  p : PrepState
  disk : List Nat
  kept : List Nat

/-- A chunk appears on disk unless it is there (`streaming/config.py:130-147`). -/
def addFile (disk : List Nat) (c : Nat) : List Nat := if disk.contains c then disk else disk ++ [c]

/-- One step of the thread or of its reader, with its effect on the disk. In `clean` the other entries of the directory may change at every
call, and other processes lock any chunks. -/
inductive DiskStep (cfg : DiskCfg) : DiskState → DiskState → Prop
    | idle (s : DiskState) (t : PrepState) : TStep cfg.prep s.p t → t.downloaded = s.p.downloaded → t.forced = s.p.forced →
      t.toDelete = s.p.toDelete → DiskStep cfg s { s with p := t }
    | fetch (s : DiskState) (t : PrepState) (c : Nat) : TStep cfg.prep s.p t → t.downloaded = s.p.downloaded ++ [c] →
      DiskStep cfg s { s with p := t, disk := addFile s.disk c }
    | force (s : DiskState) (t : PrepState) (c : Nat) : TStep cfg.prep s.p t → t.forced = s.p.forced ++ [c] →
      DiskStep cfg s { s with p := t, disk := addFile s.disk c }
    | clean (s : DiskState) (t : PrepState) (c : Nat) (rest : List Nat) (others : Nat → List FolderEntry) (locked : Nat → Bool) :
      TStep cfg.prep s.p t → s.p.toDelete = c :: rest → t.toDelete = rest →
      t.pending = (evict (fun k disk => canDelete cfg s.p.counter (others k) disk) locked 0 (s.p.pending ++ [c]) s.disk).1 →
      DiskStep cfg s
        { p := t
          disk := (evict (fun k disk => canDelete cfg s.p.counter (others k) disk) locked 0 (s.p.pending ++ [c]) s.disk).2.1
          kept := s.kept ++ (evict (fun k disk => canDelete cfg s.p.counter (others k) disk) locked 0 (s.p.pending ++ [c]) s.disk).2.2 }
    | reader (s : DiskState) (t : PrepState) : MStep cfg.prep s.p t → DiskStep cfg s { s with p := t }

/-- What can be reached from a disk on which the chunks `left` are found. What the reader finds in the cache without its thread are chunks of these. -/
inductive DiskReach (cfg : DiskCfg) (left : List Nat) : DiskState → Prop
  | init : (∀ c ∈ cfg.prep.warm, c ∈ left) → DiskReach cfg left ⟨.init, left, left⟩
  | step {s t : DiskState} : DiskReach cfg left s → DiskStep cfg s t → DiskReach cfg left t

end LitData
