import Verif.Model.Basic
import Verif.Model.LoaderIter

/-!
The counter file that says how many readers want a chunk.
Models `Downloader._increment_local_lock` (`src/litdata/streaming/downloader.py` lines 49-61),
`ChunksConfig.download_chunk_from_index` (`src/litdata/streaming/config.py` lines 124-147),
`PrepareChunksThread._remaining_locks`, `_decrement_local_lock` and `_apply_delete` (`src/litdata/streaming/reader.py` lines 94-159)
and the calls in `BinaryReader.read` (`src/litdata/streaming/reader.py` lines 413-416 and 427-429), for one chunk and any number of
readers. A reader is a worker process with its thread.

Every event is one that the operating system does not interrupt, or one section under the file lock of the counter. Reading the
counter and removing the chunk in `_apply_delete` are not under that lock and are two events.
-/

namespace LitData

/-- What can happen to the counter of a chunk. -/
inductive LEvent where
  /-- Reader `r` counts itself (`streaming/downloader.py:52-60`). -/
  | incr (r : Nat)
  /-- The lock was not obtained within a second: reader `r` goes on uncounted (`streaming/downloader.py:52`). -/
  | incrTimeout (r : Nat)
  /-- A forced download: reader `r` is not counted, by `skip_lock` (`streaming/reader.py:208`). -/
  | forced (r : Nat)
  /-- Reader `r` uses the chunk that another one fetched, before its own thread gets to count it. -/
  | early (r : Nat)
  /-- The thread of such a reader counts it when the reader is through. -/
  | late (r : Nat)
  /-- Two readers count themselves at once. `_decrement_local_lock` removes the lock file while it holds it, so that a
  reader waiting for the removed file and one that creates a new file both have a lock (`streaming/reader.py:123-124`). -/
  | incrBoth (r q : Nat)
  /-- The chunk is fetched if it is not there. -/
  | fetch (r : Nat)
  /-- Reader `r` is through with the chunk (`streaming/reader.py:415-416`). -/
  | finish (r : Nat)
  /-- The same, when the lock is not obtained within three seconds (`streaming/reader.py:109`). -/
  | finishTimeout (r : Nat)
  /-- The thread of reader `r` looks at the counter (`streaming/reader.py:138-142`). -/
  | check (r : Nat)
  /-- The thread of reader `r` removes the chunk (`streaming/reader.py:148`). -/
  | delete (r : Nat)
  deriving DecidableEq, Repr

/-- The counter file, whether the chunk is there, the readers that use the chunk, the requests for deletion not yet looked at,
and the threads that found no one using it. -/
structure LState where
  count : Option Nat
  chunk : Bool
  users : List Nat
  pending : List Nat
  passed : List Nat
  deriving DecidableEq, Repr

/-- No reader yet. -/
def LState.init : LState := ⟨none, false, [], [], []⟩

/-- `curr_count += 1`; a missing or unreadable file counts as zero (`streaming/downloader.py:53-60`). -/
def countUp (c : Option Nat) : Option Nat := some (c.getD 0 + 1)

/-- `_decrement_local_lock` (`streaming/reader.py:104-130`). -/
def countDown (c : Option Nat) : Option Nat :=
  match c with
  | none => none
  | some n => if n - 1 = 0 then none else some (n - 1)

/-- The effect of an event, or `none` when it cannot happen. -/
def lstep (s : LState) : LEvent → Option LState
  | .incr r => if r ∈ s.users then none else some { s with count := countUp s.count, users := r :: s.users }
  | .incrTimeout r => if r ∈ s.users then none else some { s with users := r :: s.users }
  | .forced r => if r ∈ s.users then none else some { s with users := r :: s.users }
  | .early r => if r ∈ s.users ∨ s.chunk = false then none else some { s with users := r :: s.users }
  | .late _ => some { s with count := countUp s.count }
  | .incrBoth r q => if r ∈ s.users ∨ q ∈ s.users ∨ r = q then none else some { s with count := countUp s.count, users := r :: q :: s.users }
  | .fetch r => if r ∈ s.users then some { s with chunk := true } else none
  | .finish r => if r ∈ s.users then some { s with count := countDown s.count, users := s.users.erase r, pending := r :: s.pending } else none
  | .finishTimeout r => if r ∈ s.users then some { s with users := s.users.erase r, pending := r :: s.pending } else none
  | .check r =>
    if r ∈ s.pending then
      if s.count.getD 0 > 0 then some { s with pending := s.pending.erase r }
      else some { s with pending := s.pending.erase r, passed := r :: s.passed }
    else none
  | .delete r => if r ∈ s.passed then some { s with chunk := false, passed := s.passed.erase r } else none

/-- A sequence of events. -/
def lrun (s : LState) : List LEvent → Option LState
  | [] => some s
  | e :: es => (lstep s e).bind fun t => lrun t es

end LitData
