import Verif.Model.Writer
import Verif.Model.LoaderIter

/-!
Fetching one chunk with the local downloader, by any number of processes.
Models `LocalDownloader.download_file` (`src/litdata/streaming/downloader.py` lines 230-246) and what
`PrepareChunksThread._apply_delete` does to the same files (`src/litdata/streaming/reader.py` lines 132-159).

The file system is a table of inodes and three directory entries: the chunk, its `.tmp` file and its `.lock` file. A process
writes through the inode it opened, whatever happens to the directory entries meanwhile. A file lock (`fcntl.flock`, as
used by the `filelock` package on Unix) belongs to the inode of the lock file that was opened, so that a process that opened
the lock file before it was removed and one that opened it after do not exclude each other.
Simplified: the copied permission bits are left out.
-/

namespace LitData

/-- Where a process is within `download_file` (`streaming/downloader.py:231-246`). `l` is the inode of the lock file it
opened, `f` the inode of the temporary file, `k` the number of bytes copied. -/
inductive DPc where
  | idle
  | opened (l : Nat)
  | locked (l : Nat)
  | absent (l : Nat)
  | copying (l f k : Nat)
  | renamed (l : Nat)
  | unlinked (l : Nat)
  deriving DecidableEq, Repr

/-- The inode on which the process holds the lock. -/
def DPc.holds : DPc → Option Nat
  | .idle => none
  | .opened _ => none
  | .locked l => some l
  | .absent l => some l
  | .copying l _ _ => some l
  | .renamed l => some l
  | .unlinked l => some l

/-- The state shared by the processes: positions, contents of inodes, the next unused inode, and the directory entries of the
chunk (`loc`), of `chunk.tmp` and of `chunk.lock`. -/
structure DState where
  pc : Nat → DPc
  data : Nat → Bytes
  fresh : Nat
  tmp : Option Nat
  loc : Option Nat
  lock : Option Nat

/-- Writing at a position of a file; a gap is filled with zeros. -/
def writeAt (file : Bytes) (k : Nat) (new : Bytes) : Bytes :=
  (file ++ List.replicate (k - file.length) 0).take k ++ new ++ file.drop (k + new.length)

/-- One step of one process, of the operating system, or of a thread that deletes chunks. `quiet` says when chunks may be
deleted. -/
inductive DStep (remote : Bytes) (quiet : DState → Prop) : DState → DState → Prop
  /-- `FileLock(local_filepath + ".lock")` opens the lock file (`streaming/downloader.py:235-237`). -/
  | openLock (s : DState) (p l : Nat) : s.pc p = .idle → s.lock = some l → DStep remote quiet s { s with pc := upd s.pc p (.opened l) }
  /-- The same, when there is no lock file. -/
  | createLock (s : DState) (p : Nat) : s.pc p = .idle → s.lock = none →
      DStep remote quiet s { s with pc := upd s.pc p (.opened s.fresh), lock := some s.fresh, fresh := s.fresh + 1 }
  /-- The lock is taken (`streaming/downloader.py:235-237`). -/
  | takeLock (s : DState) (p l : Nat) : s.pc p = .opened l → (∀ q, (s.pc q).holds ≠ some l) →
      DStep remote quiet s { s with pc := upd s.pc p (.locked l) }
  /-- `suppress(Timeout)` (`streaming/downloader.py:235`). -/
  | timeout (s : DState) (p l : Nat) : s.pc p = .opened l → DStep remote quiet s { s with pc := upd s.pc p .idle }
  /-- The chunk is there (`streaming/downloader.py:238-239`). -/
  | present (s : DState) (p l f : Nat) : s.pc p = .locked l → s.loc = some f → DStep remote quiet s { s with pc := upd s.pc p .idle }
  /-- The chunk is not there (`streaming/downloader.py:238`). -/
  | missing (s : DState) (p l : Nat) : s.pc p = .locked l → s.loc = none → DStep remote quiet s { s with pc := upd s.pc p (.absent l) }
  /-- `shutil.copy` opens and empties an existing temporary file (`streaming/downloader.py:242`). -/
  | truncate (s : DState) (p l f : Nat) : s.pc p = .absent l → s.tmp = some f →
      DStep remote quiet s { s with pc := upd s.pc p (.copying l f 0), data := upd s.data f [] }
  /-- `shutil.copy` creates the temporary file. -/
  | create (s : DState) (p l : Nat) : s.pc p = .absent l → s.tmp = none →
      DStep remote quiet s { s with pc := upd s.pc p (.copying l s.fresh 0), data := upd s.data s.fresh [], tmp := some s.fresh, fresh := s.fresh + 1 }
  /-- `shutil.copy` writes some more bytes. -/
  | write (s : DState) (p l f k n : Nat) : s.pc p = .copying l f k → k + n ≤ remote.length →
      DStep remote quiet s { s with pc := upd s.pc p (.copying l f (k + n)), data := upd s.data f (writeAt (s.data f) k ((remote.drop k).take n)) }
  /-- `os.rename` (`streaming/downloader.py:243`). -/
  | rename (s : DState) (p l f g : Nat) : s.pc p = .copying l f remote.length → s.tmp = some g →
      DStep remote quiet s { s with pc := upd s.pc p (.renamed l), loc := some g, tmp := none }
  /-- `os.rename` of a file that is gone raises. -/
  | renameFails (s : DState) (p l f : Nat) : s.pc p = .copying l f remote.length → s.tmp = none → DStep remote quiet s { s with pc := upd s.pc p .idle }
  /-- `os.remove(local_filepath + ".lock")` (`streaming/downloader.py:244-245`). -/
  | unlink (s : DState) (p l : Nat) : s.pc p = .renamed l → DStep remote quiet s { s with pc := upd s.pc p (.unlinked l), lock := none }
  /-- Leaving the `with` block (`streaming/downloader.py:235`). -/
  | release (s : DState) (p l : Nat) : s.pc p = .unlinked l → DStep remote quiet s { s with pc := upd s.pc p .idle }
  /-- The process is killed, or its copy fails. Its lock is freed, its files remain. -/
  | crash (s : DState) (p : Nat) : DStep remote quiet s { s with pc := upd s.pc p .idle }
  /-- `self._item_loader.delete(...)` of `_apply_delete` (`streaming/reader.py:147`). -/
  | deleteChunk (s : DState) : quiet s → DStep remote quiet s { s with loc := none }
  /-- The lock file is removed by `_apply_delete` (`streaming/reader.py:152-158`). -/
  | deleteLock (s : DState) : quiet s → DStep remote quiet s { s with lock := none }

/-- Any number of steps. -/
inductive DSteps (remote : Bytes) (quiet : DState → Prop) : DState → DState → Prop
  | refl (s : DState) : DSteps remote quiet s s
  | tail {s t u : DState} : DSteps remote quiet s t → DStep remote quiet t u → DSteps remote quiet s u

/-- A state in which no download is under way: the chunk is absent or whole. There may be a temporary file and a lock file
left by a crash. -/
structure DState.Start (remote : Bytes) (s : DState) : Prop where
  idle : ∀ p, s.pc p = .idle
  whole : ∀ f, s.loc = some f → s.data f = remote
  tmp : ∀ f, s.tmp = some f → s.loc ≠ some f ∧ f < s.fresh
  loc : ∀ f, s.loc = some f → f < s.fresh

end LitData
