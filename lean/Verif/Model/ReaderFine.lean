import Verif.Model.Reader

/-!
Reading a remote dataset while its files arrive byte by byte, plain or compressed.
Models `ChunksConfig.download_chunk_from_index` and `try_decompress` (`src/litdata/streaming/config.py` lines 124-168) as the single steps
of the thread of `Model/Reader.lean`, in which a fetch is one step: the tests for files, the download, the removal of the compressed file, the
writing in place, and the counter that is updated only when the call has returned (`src/litdata/streaming/reader.py` lines 202-217, 235-244).
-/

namespace LitData

/-- Where the thread is in `download_chunk_from_index` (`streaming/config.py:124-168`) for a chunk: outside, before the test for the file to
download, before the test for the decompressed file, between the removal of the compressed file and the opening of the other, having written a
number of bytes, and back from the call. -/
inductive FetchPc where
  | idle
  | look (c : Nat)
  | check (c : Nat)
  | unpack (c : Nat)
  | writing (c k : Nat)
  | ready (c : Nat)
  deriving DecidableEq, Repr

/-- The state of `Model/Reader.lean`, the chunks whose compressed file is in the cache, and where the thread is in its fetch. `files` of the
configuration and `disk` are the files that are read, hence decompressed ones (`streaming/config.py:250-256`). -/
structure FineState where
  s : RemoteState
  packed : Nat → Bool
  job : FetchPc

/-- The thread has taken `c` from one of its queues (`streaming/reader.py:203`, 228). The queues of the model keep it until the call returns. -/
def Wants (cfg : PrepCfg) (p : PrepState) (c : Nat) : Prop :=
  (p.pc = .force ∧ p.forceQ.head? = some c) ∨ (p.pc = .fetch ∧ p.counter < cfg.maxPre ∧ p.queue.head? = some (some c))

/-- The steps of the reader among those of `RStep` (`streaming/reader.py:347-448`). -/
inductive ReaderStep (cfg : RemoteCfg) (xs : List ChunkedIndex) : RemoteState → RemoteState → Prop
  /-- `RStep.ask`. -/
  | ask (s : RemoteState) (x : ChunkedIndex) : s.pc = .idle → xs[s.done]? = some x →
      ReaderStep cfg xs s { s with p := if (beginRead s.reader x).2.1 then .init else s.p, reader := (beginRead s.reader x).1, pc := .asking (beginRead s.reader x).2.2 }
  /-- `RStep.request`. -/
  | request (s : RemoteState) (c : Nat) (cs : List Nat) : s.pc = .asking (c :: cs) →
      ReaderStep cfg xs s { s with p := { s.p with requested := s.p.requested ++ [c], queue := s.p.queue ++ [some c] }, pc := .asking cs }
  /-- `RStep.requested`. -/
  | requested (s : RemoteState) : s.pc = .asking [] → ReaderStep cfg xs s { s with pc := .waiting }
  /-- `RStep.force`. -/
  | force (s : RemoteState) (x : ChunkedIndex) : s.pc = .waiting → xs[s.done]? = some x → s.reader.loader.path ≠ cfg.pathOf x.chunkIndex →
      ReaderStep cfg xs s { s with p := { s.p with forceQ := s.p.forceQ ++ [x.chunkIndex] } }
  /-- `RStep.read`. -/
  | read (s : RemoteState) (x : ChunkedIndex) (path : String) (begin filesize : Nat) (raw : Bytes) (ld : PyTreeState) : s.pc = .waiting → xs[s.done]? = some x →
      configGet cfg.join cfg.chunks cfg.ivs x.chunkIndex = .ok (path, begin, filesize) →
      loadItem s.disk cfg.ecfg cfg.enc s.reader.loader path x.chunkIndex x.index begin filesize = .ok (raw, ld) →
      ReaderStep cfg xs s { s with p := giveUp s.p (endRead s.reader x ld).2.1 (endRead s.reader x ld).2.2 (if s.p.cur = 0 ∨ s.reader.last ≠ some x.chunkIndex then s.p.cur + 1 else s.p.cur),
                                   reader := (endRead s.reader x ld).1, pc := .idle, done := s.done + 1, out := s.out ++ [raw] }
  /-- `RStep.fail`. -/
  | fail (s : RemoteState) : s.pc = .waiting → ReaderStep cfg xs s { s with pc := .failed }

/-- One file of the cache is replaced. -/
def setFile (disk : String → Option Bytes) (q : String) (f : Option Bytes) : String → Option Bytes := fun r => if r = q then f else disk r

/-- The steps of a worker, of its thread inside and outside of a fetch, and of other workers. `comp` says whether the chunks are compressed. -/
inductive FStep (cfg : RemoteCfg) (comp : Bool) (xs : List ChunkedIndex) : FineState → FineState → Prop
  /-- The reader. It makes a new thread only once the old one is not within a fetch any more (`streaming/reader.py:431-438`; that this wait can time out
  is left out). -/
  | reader (f : FineState) (t : RemoteState) : ReaderStep cfg xs f.s t → (f.s.reader.thread = false → t.reader.thread = true → f.job = .idle) →
      FStep cfg comp xs f { f with s := t }
  /-- The thread does something else than to fetch (`streaming/reader.py:175-196`, 203, 227-233). -/
  | thread (f : FineState) (p : PrepState) (disk : String → Option Bytes) : f.job = .idle → f.s.reader.thread = true ∨ f.s.p.stopped = true →
      TStep cfg.prep f.s.p p → fetchedIn f.s.p p = [] → DiskAfter cfg f.s.p p f.s.disk disk → FStep cfg comp xs f { f with s := { f.s with p := p, disk := disk } }
  /-- It begins to fetch a chunk (`streaming/reader.py:203-209`, 228-235). -/
  | begin (f : FineState) (c : Nat) (info : ChunkInfo) : f.job = .idle → f.s.reader.thread = true ∨ f.s.p.stopped = true → Wants cfg.prep f.s.p c → cfg.chunks[c]? = some info →
      FStep cfg comp xs f { f with job := .look c }
  /-- The file is there (`streaming/config.py:130-137`). -/
  | there (f : FineState) (c : Nat) (info : ChunkInfo) (g : Bytes) : comp = false → f.job = .look c → cfg.chunks[c]? = some info → f.s.disk (cfg.join info.filename) = some g →
      FStep cfg comp xs f { f with job := .ready c }
  /-- It is not there and comes at once (`streaming/downloader.py:230-246`: written elsewhere and moved). -/
  | atOnce (f : FineState) (c : Nat) (info : ChunkInfo) : comp = false → f.job = .look c → cfg.chunks[c]? = some info → f.s.disk (cfg.join info.filename) = none →
      FStep cfg comp xs f { f with s := { f.s with disk := setFile f.s.disk (cfg.join info.filename) (cfg.files (cfg.join info.filename)) }, job := .ready c }
  /-- Another worker that is fetching the chunk holds the lock (`streaming/downloader.py:97-99`, 217-219, 276). -/
  | busy (f : FineState) (c : Nat) : comp = false → f.job = .look c → c ∈ cfg.prep.others → FStep cfg comp xs f { f with job := .ready c }
  /-- It is created and filled in place (`streaming/downloader.py:225-226`). -/
  | create (f : FineState) (c : Nat) (info : ChunkInfo) (file : Bytes) : comp = false → f.job = .look c → cfg.chunks[c]? = some info →
      f.s.disk (cfg.join info.filename) = none → cfg.files (cfg.join info.filename) = some file → 0 < file.length →
      FStep cfg comp xs f { f with s := { f.s with disk := setFile f.s.disk (cfg.join info.filename) (some []) }, job := .writing c 0 }
  /-- The compressed file is there (`streaming/config.py:130-131`). -/
  | packedThere (f : FineState) (c : Nat) : comp = true → f.job = .look c → f.packed c = true → FStep cfg comp xs f { f with job := .check c }
  /-- It is downloaded (`streaming/config.py:145`). -/
  | fetchPacked (f : FineState) (c : Nat) : comp = true → f.job = .look c → f.packed c = false →
      FStep cfg comp xs f { f with packed := fun d => if d = c then true else f.packed d, job := .check c }
  /-- The decompressed file is there: nothing is done and the compressed one stays (`streaming/config.py:155-156`). -/
  | unpacked (f : FineState) (c : Nat) (info : ChunkInfo) (g : Bytes) : f.job = .check c → cfg.chunks[c]? = some info → f.s.disk (cfg.join info.filename) = some g →
      FStep cfg comp xs f { f with job := .ready c }
  /-- The compressed file is read and removed (`streaming/config.py:158-163`). -/
  | unpack (f : FineState) (c : Nat) (info : ChunkInfo) : f.job = .check c → cfg.chunks[c]? = some info → f.s.disk (cfg.join info.filename) = none → f.packed c = true →
      FStep cfg comp xs f { f with packed := fun d => if d = c then false else f.packed d, job := .unpack c }
  /-- `open(target_local_chunkpath, "wb")` (`streaming/config.py:167`). -/
  | open_ (f : FineState) (c : Nat) (info : ChunkInfo) (file : Bytes) : f.job = .unpack c → cfg.chunks[c]? = some info → cfg.files (cfg.join info.filename) = some file →
      0 < file.length → FStep cfg comp xs f { f with s := { f.s with disk := setFile f.s.disk (cfg.join info.filename) (some []) }, job := .writing c 0 }
  /-- More bytes are written (`streaming/config.py:168`, `streaming/downloader.py:225-226`), under the lock if others may write. -/
  | write (f : FineState) (c k n : Nat) (info : ChunkInfo) (file : Bytes) : f.job = .writing c k → cfg.chunks[c]? = some info →
      cfg.files (cfg.join info.filename) = some file → k + n < file.length →
      (c ∈ cfg.prep.others → ∀ g, f.s.disk (cfg.join info.filename) = some g → g.length < info.chunkBytes) →
      FStep cfg comp xs f { f with s := { f.s with disk := setFile f.s.disk (cfg.join info.filename) (some (file.take (k + n))) }, job := .writing c (k + n) }
  /-- The rest is written. -/
  | finish (f : FineState) (c : Nat) (info : ChunkInfo) : f.job = .unpack c ∨ (∃ k, f.job = .writing c k) → cfg.chunks[c]? = some info →
      FStep cfg comp xs f { f with s := { f.s with disk := setFile f.s.disk (cfg.join info.filename) (cfg.files (cfg.join info.filename)) }, job := .ready c }
  /-- The call has returned: the counter is updated (`streaming/reader.py:217`, 244). -/
  | commit (f : FineState) (c : Nat) (p : PrepState) : f.job = .ready c → TStep cfg.prep f.s.p p → fetchedIn f.s.p p = [c] →
      FStep cfg comp xs f { f with s := { f.s with p := p }, job := .idle }
  /-- `RStep.others`. -/
  | others (f : FineState) (c : Nat) (info : ChunkInfo) (g : Option Bytes) : c ∈ cfg.prep.others → cfg.chunks[c]? = some info →
      g = none ∨ g = cfg.files (cfg.join info.filename) ∨
        ((∃ part, g = some part ∧ part.length < info.chunkBytes) ∧ ∀ h, f.s.disk (cfg.join info.filename) = some h → h.length < info.chunkBytes) →
      FStep cfg comp xs f { f with s := { f.s with disk := setFile f.s.disk (cfg.join info.filename) g } }

/-- States that a new worker gets to. Compressed files may be left from before, whole ones. -/
inductive FReach (cfg : RemoteCfg) (comp : Bool) (xs : List ChunkedIndex) : FineState → Prop
  | init (disk : String → Option Bytes) (packed : Nat → Bool) : (∀ q f, disk q = some f → cfg.files q = some f ∧ ∃ c ∈ cfg.prep.warm, cfg.pathOf c = some q) →
      (∀ c ∈ cfg.prep.warm, c ∉ cfg.prep.others → ∀ q, cfg.pathOf c = some q → disk q = cfg.files q) →
      FReach cfg comp xs ⟨.start disk, packed, .idle⟩
  | step {f g : FineState} : FReach cfg comp xs f → FStep cfg comp xs f g → FReach cfg comp xs g

/-- Any number of steps. -/
inductive FSteps (cfg : RemoteCfg) (comp : Bool) (xs : List ChunkedIndex) : FineState → FineState → Prop
  | refl (f : FineState) : FSteps cfg comp xs f f
  | tail {f g h : FineState} : FSteps cfg comp xs f g → FStep cfg comp xs g h → FSteps cfg comp xs f h

end LitData
