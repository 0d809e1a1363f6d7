import Verif.Model.Reader

/-!
The counters of the chunks over several passes, some of which are broken off.
Models what the calls of `_increment_local_lock`, `_decrement_local_lock` and `_apply_delete` (`src/litdata/streaming/config.py` lines 124-147,
`src/litdata/streaming/reader.py` lines 94-159) do to the counter files and the chunks of one worker that is alone on its cache, together with the thread of
`Model/Prepare.lean`. Breaking out of a loop over the dataset drops its reader, which stops its thread at the next turn of its loop
(`src/litdata/streaming/reader.py` lines 165-166, 221-223, 469-472); the counter files stay. Locks are obtained in time.
-/

namespace LitData

/-- The thread, the number in the counter file of each chunk, where zero stands for no file, and which chunks are in the cache (`streaming/reader.py:94-102`). -/
structure LockState where
  p : PrepState
  count : Nat → Nat
  here : Nat → Bool

/-- The chunks that a step of the thread counts: those that are not fetched by force (`streaming/config.py:130-143`, `streaming/reader.py:208`). -/
def countedIn (p t : PrepState) : List Nat := t.downloaded.drop p.downloaded.length

/-- The chunks that a step of the reader gives up (`streaming/reader.py:414-416`, 427-429). -/
def givenUpIn (p t : PrepState) : List Nat := t.consumed.drop p.consumed.length

/-- The steps of the thread and of the reader. `ahead` says whether the reader may read a chunk that is in the cache before its thread has counted it, or ask for one
by force; with `ahead = false` it does so only afterwards. -/
inductive LockStep (cfg : PrepCfg) (ahead : Bool) : LockState → LockState → Prop
  /-- What is fetched is counted; what is given to `_apply_delete` goes if nobody has counted it (`streaming/config.py:130-147`, `streaming/reader.py:132-152`). -/
  | thread (s : LockState) (t : PrepState) : TStep cfg s.p t →
      LockStep cfg ahead s ⟨t, fun c => s.count c + (countedIn s.p t).count c,
        fun c => (s.here c || (fetchedIn s.p t).contains c) && !((deletedIn s.p t).contains c && s.count c == 0)⟩
  /-- The reader counts down before it gives a chunk up (`streaming/reader.py:104-130`, 414-416, 427-429). -/
  | reader (s : LockState) (t : PrepState) (w : List Nat) : (∀ c ∈ w, s.here c = true) → (ahead = false → w = [] ∧ t.forceQ = s.p.forceQ) →
      MStep { cfg with warm := w } s.p t → LockStep cfg ahead s ⟨t, fun c => s.count c - (givenUpIn s.p t).count c, s.here⟩

/-- What happens from one state on, over any number of passes. A pass begins with a new thread when the one before has ended (`streaming/reader.py:427-441`), or, if `broken`,
when it was told to stop and has come to the head of its loop (`streaming/reader.py:221-223`, 469-472). -/
inductive LockRun (cfg : PrepCfg) (ahead broken : Bool) : LockState → LockState → Prop
  | refl (a : LockState) : LockRun cfg ahead broken a a
  | step {a s t : LockState} : LockRun cfg ahead broken a s → LockStep cfg ahead s t → LockRun cfg ahead broken a t
  | next {a s : LockState} : LockRun cfg ahead broken a s → s.p.pc = .exited ∨ broken = true ∧ s.p.pc = .force → LockRun cfg ahead broken a ⟨.init, s.count, s.here⟩

/-- A pass begins over a cache with these counters and chunks (`streaming/reader.py:368-379`). -/
def LockState.begin (count : Nat → Nat) (here : Nat → Bool) : LockState := ⟨.init, count, here⟩

end LitData
