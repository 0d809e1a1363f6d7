import Verif.Model.Download
import Verif.Model.ChunkFile

/-!
Chunks that are written in place: decompressed chunks, and chunks fetched from the cloud.
Models `ChunksConfig.download_chunk_from_index` and `try_decompress` (`src/litdata/streaming/config.py` lines 124-168) for a
compressed chunk, and `download_file` of the cloud downloaders (`src/litdata/streaming/downloader.py` lines 88-154, 166-192 and
204-227), by any number of processes. Files are inodes, as in `Model/Download.lean`.
-/

namespace LitData

/-- Where a process is in `download_chunk_from_index` of a compressed chunk (`streaming/config.py:124-168`). -/
inductive ZPc where
  | idle
  | need
  | check
  | reading
  | have_
  | ready
  | writing (f k : Nat)
  | dead
  deriving DecidableEq, Repr

/-- The processes, whether the compressed file is there (fetched by a downloader that never shows a part of it), the decompressed
file and the contents of inodes. -/
structure ZState where
  pc : Nat → ZPc
  comp : Bool
  target : Option Nat
  data : Nat → Bytes
  fresh : Nat
  /-- Whether a process was killed so far (not in the code; used to speak of executions without crashes). -/
  killed : Bool := false

/-- One step of a process `p` among those that run. `orig` is what the compressed file decompresses to; `dl` says whether there is a
downloader; `quiet` when chunks may be deleted. -/
inductive ZStep (orig : Bytes) (dl : Bool) (runs : Nat → Prop) (quiet : ZState → Prop) : ZState → ZState → Prop
  /-- `os.path.exists(local_chunkpath)` (`streaming/config.py:130-131`). -/
  | there (s : ZState) (p : Nat) : runs p → s.pc p = .idle → s.comp = true → ZStep orig dl runs quiet s { s with pc := upd s.pc p .check }
  /-- It is not there and there is a downloader (`streaming/config.py:139-145`). -/
  | absent (s : ZState) (p : Nat) : runs p → s.pc p = .idle → s.comp = false → dl = true → ZStep orig dl runs quiet s { s with pc := upd s.pc p .need }
  /-- The downloader brings the compressed file. -/
  | download (s : ZState) (p : Nat) : runs p → s.pc p = .need → ZStep orig dl runs quiet s { s with comp := true, pc := upd s.pc p .check }
  /-- Another process holds the lock of the downloader: it returns at once (`streaming/downloader.py:235-237`). -/
  | busy (s : ZState) (p : Nat) : runs p → s.pc p = .need → ZStep orig dl runs quiet s { s with pc := upd s.pc p .check }
  /-- `os.path.exists(target_local_chunkpath)` (`streaming/config.py:155-156`). -/
  | done (s : ZState) (p f : Nat) : runs p → s.pc p = .check → s.target = some f → ZStep orig dl runs quiet s { s with pc := upd s.pc p .idle }
  /-- The decompressed file is not there. -/
  | missing (s : ZState) (p : Nat) : runs p → s.pc p = .check → s.target = none → ZStep orig dl runs quiet s { s with pc := upd s.pc p .reading }
  /-- The compressed file is read (`streaming/config.py:158-159`). -/
  | read (s : ZState) (p : Nat) : runs p → s.pc p = .reading → s.comp = true → ZStep orig dl runs quiet s { s with pc := upd s.pc p .have_ }
  /-- It is gone: `FileNotFoundError` ends the thread. -/
  | readFails (s : ZState) (p : Nat) : runs p → s.pc p = .reading → s.comp = false → ZStep orig dl runs quiet s { s with pc := upd s.pc p .dead }
  /-- It is removed if it was downloaded (`streaming/config.py:162-163`). -/
  | remove (s : ZState) (p : Nat) : runs p → s.pc p = .have_ → dl = true → s.comp = true → ZStep orig dl runs quiet s { s with comp := false, pc := upd s.pc p .ready }
  /-- It is gone: `FileNotFoundError` ends the thread. -/
  | removeFails (s : ZState) (p : Nat) : runs p → s.pc p = .have_ → dl = true → s.comp = false → ZStep orig dl runs quiet s { s with pc := upd s.pc p .dead }
  /-- It is kept if there is no downloader. -/
  | keep (s : ZState) (p : Nat) : runs p → s.pc p = .have_ → dl = false → ZStep orig dl runs quiet s { s with pc := upd s.pc p .ready }
  /-- `open(target_local_chunkpath, "wb")` empties an existing file (`streaming/config.py:167`). -/
  | truncate (s : ZState) (p f : Nat) : runs p → s.pc p = .ready → s.target = some f →
      ZStep orig dl runs quiet s { s with pc := upd s.pc p (.writing f 0), data := upd s.data f [] }
  /-- It creates a missing one. -/
  | create (s : ZState) (p : Nat) : runs p → s.pc p = .ready → s.target = none →
      ZStep orig dl runs quiet s { s with pc := upd s.pc p (.writing s.fresh 0), data := upd s.data s.fresh [], target := some s.fresh, fresh := s.fresh + 1 }
  /-- Some more bytes are written (`streaming/config.py:168`). -/
  | write (s : ZState) (p f k n : Nat) : runs p → s.pc p = .writing f k → k + n ≤ orig.length →
      ZStep orig dl runs quiet s { s with pc := upd s.pc p (.writing f (k + n)), data := upd s.data f (writeAt (s.data f) k ((orig.drop k).take n)) }
  /-- The end. -/
  | written (s : ZState) (p f : Nat) : runs p → s.pc p = .writing f orig.length → ZStep orig dl runs quiet s { s with pc := upd s.pc p .idle }
  /-- The process is killed and a new one started. -/
  | crash (s : ZState) (p : Nat) : runs p → ZStep orig dl runs quiet s { s with pc := upd s.pc p .idle, killed := true }
  /-- The chunk is deleted (`streaming/reader.py:147`). -/
  | delete (s : ZState) : quiet s → ZStep orig dl runs quiet s { s with target := none }

/-- Any number of steps. -/
inductive ZSteps (orig : Bytes) (dl : Bool) (runs : Nat → Prop) (quiet : ZState → Prop) : ZState → ZState → Prop
  | refl (s : ZState) : ZSteps orig dl runs quiet s s
  | tail {s t u : ZState} : ZSteps orig dl runs quiet s t → ZStep orig dl runs quiet t u → ZSteps orig dl runs quiet s u

/-- No process, no decompressed file; the compressed file may be there. -/
def ZState.start (comp : Bool) : ZState := ⟨fun _ => .idle, comp, none, fun _ => [], 0, false⟩

/-- Where a process is in `download_file` of a cloud downloader: before the first test, waiting for the lock, holding it, writing. -/
inductive CPc where
  | idle
  | tested
  | locked
  | writing (f k : Nat)
  deriving DecidableEq, Repr

/-- The processes, the chunk and the contents of inodes. -/
structure CState where
  pc : Nat → CPc
  chunk : Option Nat
  data : Nat → Bytes
  fresh : Nat
  /-- Whether a process was killed or a transfer broke off so far (not in the code). -/
  killed : Bool := false

/-- Inside the `with FileLock(...)` block. -/
def CPc.inside : CPc → Bool
  | .locked => true
  | .writing _ _ => true
  | _ => false

/-- One step of `download_file` of a cloud downloader that writes to the path of the chunk. `recheck` says whether the existence of the chunk
is tested again under the lock: it is for GCP (`streaming/downloader.py:181-182`), Azure (218-219) and boto3 (145), not for
`s5cmd` (103-136). The lock file is assumed to stay. -/
inductive CStep (orig : Bytes) (recheck : Bool) : CState → CState → Prop
  /-- `if os.path.exists(local_filepath): return`, before the lock. -/
  | absent (s : CState) (p : Nat) : s.pc p = .idle → s.chunk = none → CStep orig recheck s { s with pc := upd s.pc p .tested }
  /-- The lock is taken. -/
  | lock (s : CState) (p : Nat) : s.pc p = .tested → (∀ q, (s.pc q).inside = false) → CStep orig recheck s { s with pc := upd s.pc p .locked }
  /-- `suppress(Timeout)`. -/
  | timeout (s : CState) (p : Nat) : s.pc p = .tested → CStep orig recheck s { s with pc := upd s.pc p .idle }
  /-- The second test. -/
  | there (s : CState) (p f : Nat) : recheck = true → s.pc p = .locked → s.chunk = some f → CStep orig recheck s { s with pc := upd s.pc p .idle }
  /-- The file is created. -/
  | create (s : CState) (p : Nat) : s.pc p = .locked → s.chunk = none →
      CStep orig recheck s { s with pc := upd s.pc p (.writing s.fresh 0), data := upd s.data s.fresh [], chunk := some s.fresh, fresh := s.fresh + 1 }
  /-- An existing file is emptied. -/
  | truncate (s : CState) (p f : Nat) : recheck = false → s.pc p = .locked → s.chunk = some f →
      CStep orig recheck s { s with pc := upd s.pc p (.writing f 0), data := upd s.data f [] }
  /-- Some more bytes arrive. -/
  | write (s : CState) (p f k n : Nat) : s.pc p = .writing f k → k + n ≤ orig.length →
      CStep orig recheck s { s with pc := upd s.pc p (.writing f (k + n)), data := upd s.data f (writeAt (s.data f) k ((orig.drop k).take n)) }
  /-- The end. -/
  | written (s : CState) (p f : Nat) : s.pc p = .writing f orig.length → CStep orig recheck s { s with pc := upd s.pc p .idle }
  /-- The process is killed, or the transfer fails. -/
  | crash (s : CState) (p : Nat) : CStep orig recheck s { s with pc := upd s.pc p .idle, killed := true }

/-- Any number of steps. -/
inductive CSteps (orig : Bytes) (recheck : Bool) : CState → CState → Prop
  | refl (s : CState) : CSteps orig recheck s s
  | tail {s t u : CState} : CSteps orig recheck s t → CStep orig recheck t u → CSteps orig recheck s u

/-- No process, no file. -/
def CState.start : CState := ⟨fun _ => .idle, none, fun _ => [], 0, false⟩

/-- A file system in which `path` is the given inode. -/
def oneFile (path : String) (file : Option Nat) (data : Nat → Bytes) : String → Option Bytes :=
  fun p => if p = path then file.map data else none

end LitData
