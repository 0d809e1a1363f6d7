import Verif.Model.Prepare
import Verif.Model.Streaming

/-!
Reading the samples of a remote dataset: `BinaryReader.read` together with the thread that fetches and deletes chunks, the files in the
cache, and the other workers that share it.
Models `src/litdata/streaming/reader.py` lines 347-448 and `src/litdata/streaming/item_loader.py` lines 146-213 under every interleaving
with `PrepareChunksThread` (`Model/Prepare.lean`), for `PyTreeLoader` and chunks that are not compressed.
-/

namespace LitData

/-- The fields of `BinaryReader` that `read` changes (`streaming/reader.py:291-304`): whether there is a `_prepare_thread`,
`_last_chunk_index`, `_chunks_queued_for_download`, and the fields of its item loader. -/
structure ReaderState where
  thread : Bool
  last : Option Nat
  queued : Bool
  loader : PyTreeState

/-- A new reader (`streaming/reader.py:291-304`). -/
def ReaderState.init : ReaderState := ⟨false, none, false, .init⟩

/-- `read` for a dataset with a remote folder up to the point where it wants the item (`streaming/reader.py:366-394`): whether a thread is
started, and the chunks passed to `download`. An empty list of chunks counts as none (line 382). -/
def beginRead (r : ReaderState) (x : ChunkedIndex) : ReaderState × Bool × List Nat :=
  let all := if r.thread then [] else x.chunkIndexes.getD []
  let queued := r.queued || !all.isEmpty
  let one := if queued = false ∧ r.last ≠ some x.chunkIndex then [x.chunkIndex] else []
  ({ r with thread := true, queued := queued, last := if r.last = none then some x.chunkIndex else r.last }, !r.thread, all ++ one)

/-- `read` once it has the item and its loader is `ld` (`streaming/reader.py:409-443`): the chunks passed to `delete`, and whether the thread
is told to stop. The wait for the thread (lines 431-438) is left out. -/
def endRead (r : ReaderState) (x : ChunkedIndex) (ld : PyTreeState) : ReaderState × List Nat × Bool :=
  let gone := if r.last = some x.chunkIndex then [] else r.last.toList
  if x.isLastIndex && r.thread then (⟨false, none, false, closeLoader ld⟩, gone ++ [x.chunkIndex], true)
  else ({ r with last := some x.chunkIndex, loader := ld }, gone, false)

/-- What does not change while a worker streams: the limits of its thread (`streaming/reader.py:65-82`), the files of the remote folder under the paths that they
get in the cache, and what `index.json` says (`streaming/config.py:60-109`). `prep.others` are the chunks that other workers fetch and delete. -/
structure RemoteCfg where
  prep : PrepCfg
  files : String → Option Bytes
  join : String → String
  enc : Option Encryption
  ecfg : Option EncConfig
  chunks : List ChunkInfo
  ivs : List Interval

/-- The path of a chunk in the cache (`streaming/config.py:250-256`). -/
def RemoteCfg.pathOf (cfg : RemoteCfg) (c : Nat) : Option String := cfg.chunks[c]?.map fun i => cfg.join i.filename

/-- Where the reader is in `__next__` and `read`: between two calls, passing the rest of the chunks to `download`
(`streaming/reader.py:84-87`), waiting for the file of its chunk (`streaming/item_loader.py:182-201`), or an exception was raised. -/
inductive ReadPc where
  | idle
  | asking (cs : List Nat)
  | waiting
  | failed
  deriving DecidableEq, Repr

/-- The thread with its queues, the files in the cache, the reader, and the samples that it has delivered (`streaming/reader.py:347-448`). -/
structure RemoteState where
  p : PrepState
  disk : String → Option Bytes
  reader : ReaderState
  pc : ReadPc
  done : Nat
  out : List Bytes

/-- Before the first `next` (`streaming/dataset.py:271-337`): the cache has the files that others or earlier epochs left there. -/
def RemoteState.start (disk : String → Option Bytes) : RemoteState := ⟨.init, disk, .init, .idle, 0, []⟩

/-- The chunks that a step of the thread fetches (`streaming/reader.py:212`, 235). -/
def fetchedIn (p t : PrepState) : List Nat := t.downloaded.drop p.downloaded.length ++ t.forced.drop p.forced.length

/-- The chunks that a step of the thread gives to `_apply_delete` (`streaming/reader.py:132-152`). -/
def deletedIn (p t : PrepState) : List Nat := t.deleted.drop p.deleted.length

/-- The files after a step of the thread: those of fetched chunks are there, except that another worker that is fetching the same chunk holds
its lock (`streaming/downloader.py:97-99`, 217-219, 276); those of deleted chunks are gone, except that their counter is not zero
(`streaming/reader.py:138-142`). -/
def DiskAfter (cfg : RemoteCfg) (p t : PrepState) (disk disk' : String → Option Bytes) : Prop :=
  (∀ q, disk' q = disk q ∨ (∃ c ∈ fetchedIn p t, cfg.pathOf c = some q ∧ disk' q = cfg.files q) ∨
    (∃ c ∈ deletedIn p t, cfg.pathOf c = some q ∧ disk' q = none)) ∧
  ∀ c ∈ fetchedIn p t, c ∉ cfg.prep.others → ∀ q, cfg.pathOf c = some q → disk' q = cfg.files q

/-- The calls `delete` and `stop` of one `read` (`streaming/reader.py:89-98`, 415-430); `begun` is the number of chunks begun by then. -/
def giveUp (p : PrepState) (gone : List Nat) (stop : Bool) (begun : Nat) : PrepState :=
  { p with toDelete := p.toDelete ++ gone, consumed := p.consumed ++ gone, cur := begun,
           queue := if stop then p.queue ++ [none] else p.queue, stopped := p.stopped || stop }

/-- The steps of a worker that reads the items `xs` of one pass, of its thread, and of other workers. -/
inductive RStep (cfg : RemoteCfg) (xs : List ChunkedIndex) : RemoteState → RemoteState → Prop
  /-- The thread, once started, goes on, also after the last item (`streaming/reader.py:219-247`). -/
  | thread (s : RemoteState) (t : PrepState) (disk : String → Option Bytes) : s.reader.thread = true ∨ s.p.stopped = true → TStep cfg.prep s.p t →
      DiskAfter cfg s.p t s.disk disk → RStep cfg xs s { s with p := t, disk := disk }
  /-- A file that the thread is fetching grows in place (`streaming/downloader.py:225-226`). -/
  | arriving (s : RemoteState) (c : Nat) (info : ChunkInfo) (part : Bytes) : s.reader.thread = true ∨ s.p.stopped = true →
      s.p.forceQ.head? = some c ∨ s.p.queue.head? = some (some c) → cfg.chunks[c]? = some info → part.length < info.chunkBytes →
      (∀ f, s.disk (cfg.join info.filename) = some f → f.length < info.chunkBytes) →
      RStep cfg xs s { s with disk := fun q => if q = cfg.join info.filename then some part else s.disk q }
  /-- Another worker fetches or deletes a chunk; what it is fetching also grows in place. -/
  | others (s : RemoteState) (c : Nat) (info : ChunkInfo) (f : Option Bytes) : c ∈ cfg.prep.others → cfg.chunks[c]? = some info →
      f = none ∨ f = cfg.files (cfg.join info.filename) ∨
        ((∃ part, f = some part ∧ part.length < info.chunkBytes) ∧ ∀ g, s.disk (cfg.join info.filename) = some g → g.length < info.chunkBytes) →
      RStep cfg xs s { s with disk := fun q => if q = cfg.join info.filename then f else s.disk q }
  /-- `__next__` asks for an item (`streaming/dataset.py:454-473`, `streaming/reader.py:366-394`). -/
  | ask (s : RemoteState) (x : ChunkedIndex) : s.pc = .idle → xs[s.done]? = some x →
      RStep cfg xs s { s with p := if (beginRead s.reader x).2.1 then .init else s.p, reader := (beginRead s.reader x).1, pc := .asking (beginRead s.reader x).2.2 }
  /-- One chunk is put into the queue of the thread (`streaming/reader.py:84-87`). -/
  | request (s : RemoteState) (c : Nat) (cs : List Nat) : s.pc = .asking (c :: cs) →
      RStep cfg xs s { s with p := { s.p with requested := s.p.requested ++ [c], queue := s.p.queue ++ [some c] }, pc := .asking cs }
  /-- All chunks are in the queue (`streaming/reader.py:396-397`). -/
  | requested (s : RemoteState) : s.pc = .asking [] → RStep cfg xs s { s with pc := .waiting }
  /-- The file has not come for long: the loader asks for it itself (`streaming/item_loader.py:193-195`). -/
  | force (s : RemoteState) (x : ChunkedIndex) : s.pc = .waiting → xs[s.done]? = some x → s.reader.loader.path ≠ cfg.pathOf x.chunkIndex →
      RStep cfg xs s { s with p := { s.p with forceQ := s.p.forceQ ++ [x.chunkIndex] } }
  /-- The item is there (`streaming/reader.py:396-448`, `streaming/item_loader.py:146-213`). -/
  | read (s : RemoteState) (x : ChunkedIndex) (path : String) (begin filesize : Nat) (raw : Bytes) (ld : PyTreeState) : s.pc = .waiting → xs[s.done]? = some x →
      configGet cfg.join cfg.chunks cfg.ivs x.chunkIndex = .ok (path, begin, filesize) →
      loadItem s.disk cfg.ecfg cfg.enc s.reader.loader path x.chunkIndex x.index begin filesize = .ok (raw, ld) →
      RStep cfg xs s { s with p := giveUp s.p (endRead s.reader x ld).2.1 (endRead s.reader x ld).2.2 (if s.p.cur = 0 ∨ s.reader.last ≠ some x.chunkIndex then s.p.cur + 1 else s.p.cur),
                              reader := (endRead s.reader x ld).1, pc := .idle, done := s.done + 1, out := s.out ++ [raw] }
  /-- An exception: the file did not come in time (`streaming/item_loader.py:197-198`), or another one. -/
  | fail (s : RemoteState) : s.pc = .waiting → RStep cfg xs s { s with pc := .failed }

/-- States that a new worker gets to. At first the cache only has whole chunks: those that others fetched, and those of an earlier epoch. -/
inductive RReach (cfg : RemoteCfg) (xs : List ChunkedIndex) : RemoteState → Prop
  | init (disk : String → Option Bytes) : (∀ q f, disk q = some f → cfg.files q = some f ∧ ∃ c ∈ cfg.prep.warm, cfg.pathOf c = some q) →
      (∀ c ∈ cfg.prep.warm, c ∉ cfg.prep.others → ∀ q, cfg.pathOf c = some q → disk q = cfg.files q) →
      RReach cfg xs (.start disk)
  | step {s t : RemoteState} : RReach cfg xs s → RStep cfg xs s t → RReach cfg xs t

/-- A number of steps of the thread while the reader waits; meanwhile files may grow or be changed by others. -/
inductive RWaits (cfg : RemoteCfg) (xs : List ChunkedIndex) : Nat → RemoteState → RemoteState → Prop
  | refl (s : RemoteState) : RWaits cfg xs 0 s s
  | tick {n : Nat} {s t : RemoteState} (p : PrepState) (disk : String → Option Bytes) : RWaits cfg xs n s t → TStep cfg.prep t.p p →
      RStep cfg xs t { t with p := p, disk := disk } → RWaits cfg xs (n + 1) s { t with p := p, disk := disk }
  | still {n : Nat} {s t : RemoteState} (disk : String → Option Bytes) : RWaits cfg xs n s t → RStep cfg xs t { t with disk := disk } →
      RWaits cfg xs n s { t with disk := disk }

end LitData
