import Verif.Model.LoaderIter
import Verif.Model.Checkpoint
import Verif.Model.Merge

/-!
The processes behind `optimize` and `map` on one node: for every worker its downloaders, its uploaders and its
remover, and the main process which waits for the workers and then writes the index.
Models `src/litdata/processing/data_processor.py` lines 124-293, 418-431, 540-600, 636-772, 774-788, 897-909 and
1187-1240.

Every process runs on its own. A state changes by one event of one process at a time (a `get` or a `put` on a queue
together with the work that belongs to it), and every order of events is an execution. Simplified: a download or an
upload is one event; messages of different processes in one queue are ordered by their `put`; the user's function
and the writer are a function of the worker's own state; `delete_cached_files` is `True`, as `optimize` and `map`
leave it; `stop_queue` (only used on SIGINT) is left out.
-/

namespace LitData

/-- A file name without directory. -/
abbrev FName := String

/-- What a worker computes (`_handle_data_chunk_recipe`, `_handle_data_transform_recipe`,
`_handle_data_chunk_recipe_end`, `data_processor.py:751-812`): from its state and the number of an input a new state
and the files to upload, and the files to upload at the end. `none` is an exception. -/
structure PipeJob (σ C : Type) where
  start : σ
  onInput : σ → Nat → Option (σ × List (FName × C))
  atEnd : σ → Option (List (FName × C))

/-- The inputs one after the other: the state and all files that were sent. -/
def jobRun {σ C : Type} (j : PipeJob σ C) : σ → List Nat → Option (σ × List (FName × C))
  | st, [] => some (st, [])
  | st, i :: is => match j.onInput st i with
    | none => none
    | some (st', files) => (jobRun j st' is).map fun r => (r.1, files ++ r.2)

/-- All files of a worker which handles its inputs in the given order. -/
def jobFiles {σ C : Type} (j : PipeJob σ C) (order : List Nat) : Option (List (FName × C)) :=
  (jobRun j j.start order).bind fun r => (j.atEnd r.1).map fun files => r.2 ++ files

/-- Where a worker is in `_loop` (`data_processor.py:540-598`): in the loop; waiting for the uploaders (line 566-567);
waiting for the remover (line 572); done; stopped by an exception (line 513-518). -/
inductive WPhase where
  | running
  | uploading
  | removing
  | done
  | failed
  deriving DecidableEq, Repr

/-- An entry of `remove_queue`: the files of an input (line 591), or an uploaded file (line 293). -/
inductive RemoveReq where
  | inputs (worker index : Nat)
  | chunk (name : FName)
  deriving DecidableEq, Repr

/-- A worker with its queues. `None` in a queue is `none`.
* `toDownload d`, `uploadQ u`, `removeQ`, `ready` are `to_download_queues[d]`, `to_upload_queues[u]`, `remove_queue` and
  `ready_to_process_queue`;
* `nones` is `num_downloader_finished`, `counter` is `_counter`;
* `upDone u`, `removerDone`: the process has ended;
* `processed`, `emitted` and `uploaded` record the inputs handled, the files put into the upload queues and the
  files taken from them. They are not used by the program. -/
structure PWorker (σ C : Type) where
  toDownload : Nat → List (Option Nat)
  ready : List (Option Nat)
  nones : Nat
  phase : WPhase
  st : σ
  counter : Nat
  processed : List Nat
  emitted : List (FName × C)
  uploaded : List FName
  uploadQ : Nat → List (Option FName)
  upDone : Nat → Bool
  removeQ : List (Option RemoveReq)
  removerDone : Bool

/-- The main process (`DataProcessor.run`): in its loop (`data_processor.py:1199-1240`), joining the workers
(line 1219-1221), after it has written the index, and after an exception. -/
inductive MainPhase where
  | waiting
  | joining
  | indexed
  | error
  deriving DecidableEq, Repr

/-- The whole node. `cached` are the input files in the cache, `disk` the files of the workers, `remote` the output
directory, `progress` is `progress_queue` and `tracker` is `workers_tracker`. `received` tells whether a message was
received. -/
structure PWorld (σ C : Type) where
  ws : Nat → PWorker σ C
  cached : FName → Bool
  disk : FName → Option C
  remote : FName → Option C
  progress : List (Nat × Nat)
  tracker : Nat → Nat
  received : Bool
  main : MainPhase

/-- The parameters of a run.
* `inputDir`: `input_dir.path` is given and there is no reader (`no_downloaders` is its negation, line 489);
* `outPath`: `output_dir.path` is given; `cloud`: the output directory is a supported cloud provider;
* `faulty`: uploads may fail. -/
structure PipeCfg (σ C : Type) where
  workers : Nat
  downloaders : Nat
  uploaders : Nat
  inputDir : Bool
  outPath : Bool
  cloud : Bool
  faulty : Bool
  items : Nat → Nat
  paths : Nat → Nat → List FName
  job : Nat → PipeJob σ C

/-- Files are written. -/
def putFiles {C : Type} (f : FName → Option C) : List (FName × C) → FName → Option C
  | [], n => f n
  | (m, c) :: r, n => putFiles (fun k => if k = m then some c else f k) r n

/-- A file is removed. -/
def dropFile {C : Type} (f : FName → Option C) (m : FName) : FName → Option C := fun k => if k = m then none else f k

/-- `_collect_paths` and `_start_downloaders` (`data_processor.py:648-716`): input `i` goes to downloader `i %
num_downloaders`; without downloaders `FakeQueue` holds all inputs and then gives `None` for ever, of which the
loop reads `num_downloaders`. -/
def startPWorker {σ C : Type} (cfg : PipeCfg σ C) (w : Nat) : PWorker σ C where
  toDownload := fun d => if cfg.inputDir then ((List.range (cfg.items w)).filter fun i => i % cfg.downloaders == d).map some ++ [none] else []
  ready := if cfg.inputDir then [] else (List.range (cfg.items w)).map some ++ List.replicate cfg.downloaders none
  nones := 0
  phase := .running
  st := (cfg.job w).start
  counter := 0
  processed := []
  emitted := []
  uploaded := []
  uploadQ := fun _ => []
  upDone := fun _ => false
  removeQ := []
  removerDone := false

/-- The beginning, with the files that are already in the output directory. The caches were emptied
(`_cleanup_cache`, `data_processor.py:1318-1334`). -/
def startPWorld {σ C : Type} (cfg : PipeCfg σ C) (remote0 : FName → Option C) : PWorld σ C where
  ws := startPWorker cfg
  cached := fun _ => false
  disk := fun _ => none
  remote := remote0
  progress := []
  tracker := fun _ => 0
  received := false
  main := .waiting

/-- The world with another worker `w`. -/
def PWorld.set {σ C : Type} (s : PWorld σ C) (w : Nat) (x : PWorker σ C) : PWorld σ C := { s with ws := upd s.ws w x }

/-- The entries which `_handle_data_chunk_recipe_end` puts into queue `u` (`data_processor.py:779-784`), and the
`None` that follows (line 561-563). -/
def endEntries {C : Type} (uploaders u : Nat) (files : List (FName × C)) : List (Option FName) :=
  if u < uploaders then ((files.zipIdx.filter fun e => e.2 % uploaders == u).map fun e => some e.1.1) ++ [none] else []

/-- The number of all inputs of the node, `num_items` (`data_processor.py:1169`). -/
def totalItems {σ C : Type} (cfg : PipeCfg σ C) : Nat := ((List.range cfg.workers).map cfg.items).sum

/-- `sum(self.workers_tracker.values())` (`data_processor.py:1210`). -/
def trackerSum (workers : Nat) (tracker : Nat → Nat) : Nat := ((List.range workers).map tracker).sum

/-- The files of an input are in the cache; without `input_dir` nothing is needed. -/
def filesReady {σ C : Type} (cfg : PipeCfg σ C) (s : PWorld σ C) (w i : Nat) : Prop :=
  cfg.inputDir = true → ∀ p ∈ cfg.paths w i, s.cached p = true

/-- One event. The events of workers need a main process that has not raised: it terminates the workers
(`_exit_on_error`, `data_processor.py:1266-1270`). -/
inductive PStep {σ C : Type} (cfg : PipeCfg σ C) : PWorld σ C → PWorld σ C → Prop where
  /-- A downloader fetches the files of an input, unless they are there, and announces the input (lines 131-177). -/
  | download (s : PWorld σ C) (w d i : Nat) (q : List (Option Nat)) : s.main = .waiting ∨ s.main = .joining →
      w < cfg.workers → d < cfg.downloaders → (s.ws w).toDownload d = some i :: q →
      PStep cfg s ({ s with cached := fun p => if p ∈ cfg.paths w i then true else s.cached p }.set w
        { s.ws w with toDownload := upd (s.ws w).toDownload d q, ready := (s.ws w).ready ++ [some i] })
  /-- A downloader ends (lines 136-138). -/
  | downloadEnd (s : PWorld σ C) (w d : Nat) (q : List (Option Nat)) : s.main = .waiting ∨ s.main = .joining →
      w < cfg.workers → d < cfg.downloaders → (s.ws w).toDownload d = none :: q →
      PStep cfg s (s.set w { s.ws w with toDownload := upd (s.ws w).toDownload d q, ready := (s.ws w).ready ++ [none] })
  /-- The worker handles an input and may report its progress (lines 578-591). -/
  | process (s : PWorld σ C) (w i : Nat) (q : List (Option Nat)) (st : σ) (files : List (FName × C)) (report : Bool) :
      s.main = .waiting ∨ s.main = .joining →
      w < cfg.workers → (s.ws w).phase = .running → (s.ws w).ready = some i :: q → filesReady cfg s w i →
      (cfg.job w).onInput (s.ws w).st i = some (st, files) → (report = true → (s.ws w).counter + 1 + 2 < cfg.items w) →
      PStep cfg s ({ s with
          disk := putFiles s.disk files, progress := if report then s.progress ++ [(w, (s.ws w).counter + 1)] else s.progress }.set w
        { s.ws w with
          ready := q, st := st, counter := (s.ws w).counter + 1, processed := (s.ws w).processed ++ [i],
          emitted := (s.ws w).emitted ++ files,
          uploadQ := upd (s.ws w).uploadQ ((s.ws w).counter % cfg.uploaders)
            ((s.ws w).uploadQ ((s.ws w).counter % cfg.uploaders) ++ files.map fun f : FName × C => some f.1),
          removeQ := if cfg.inputDir then (s.ws w).removeQ ++ [some (RemoveReq.inputs w i)] else (s.ws w).removeQ })
  /-- An exception, in the user's function or because a file is missing (lines 771-772, 513-518). -/
  | processFail (s : PWorld σ C) (w i : Nat) (q : List (Option Nat)) : s.main = .waiting ∨ s.main = .joining →
      w < cfg.workers → (s.ws w).phase = .running → (s.ws w).ready = some i :: q →
      (¬ filesReady cfg s w i ∨ (cfg.job w).onInput (s.ws w).st i = none) →
      PStep cfg s (s.set w { s.ws w with phase := .failed })
  /-- A downloader has ended, another has not (lines 553-554, 576). -/
  | countNone (s : PWorld σ C) (w : Nat) (q : List (Option Nat)) : s.main = .waiting ∨ s.main = .joining →
      w < cfg.workers → (s.ws w).phase = .running → (s.ws w).ready = none :: q → (s.ws w).nones + 1 ≠ cfg.downloaders →
      PStep cfg s (s.set w { s.ws w with ready := q, nones := (s.ws w).nones + 1 })
  /-- The last downloader has ended: the last files and the `None`s are sent (lines 555-563). -/
  | finishInputs (s : PWorld σ C) (w : Nat) (q : List (Option Nat)) (files : List (FName × C)) :
      s.main = .waiting ∨ s.main = .joining → w < cfg.workers → (s.ws w).phase = .running → (s.ws w).ready = none :: q →
      (s.ws w).nones + 1 = cfg.downloaders → (cfg.job w).atEnd (s.ws w).st = some files →
      PStep cfg s ({ s with disk := putFiles s.disk files }.set w
        { s.ws w with
          ready := q, nones := (s.ws w).nones + 1, phase := .uploading, emitted := (s.ws w).emitted ++ files,
          uploadQ := fun u => (s.ws w).uploadQ u ++ endEntries cfg.uploaders u files })
  /-- An exception in `cache.done()`. -/
  | finishFail (s : PWorld σ C) (w : Nat) (q : List (Option Nat)) : s.main = .waiting ∨ s.main = .joining →
      w < cfg.workers → (s.ws w).phase = .running → (s.ws w).ready = none :: q → (s.ws w).nones + 1 = cfg.downloaders →
      (cfg.job w).atEnd (s.ws w).st = none →
      PStep cfg s (s.set w { s.ws w with phase := .failed })
  /-- A file is uploaded and then given to the remover (lines 249-293). -/
  | upload (s : PWorld σ C) (w u : Nat) (n : FName) (c : C) (q : List (Option FName)) : s.main = .waiting ∨ s.main = .joining →
      w < cfg.workers → u < cfg.uploaders → (s.ws w).upDone u = false → (s.ws w).uploadQ u = some n :: q → s.disk n = some c →
      PStep cfg s ({ s with remote := putFiles s.remote [(n, c)] }.set w
        { s.ws w with
          uploadQ := upd (s.ws w).uploadQ u q, uploaded := (s.ws w).uploaded ++ [n],
          removeQ := (s.ws w).removeQ ++ [some (RemoveReq.chunk n)] })
  /-- An upload to a cloud provider fails: the exception is printed, and the file is given to the remover all the same
  (lines 272-273, 292-293). -/
  | uploadLost (s : PWorld σ C) (w u : Nat) (n : FName) (q : List (Option FName)) : s.main = .waiting ∨ s.main = .joining →
      w < cfg.workers → u < cfg.uploaders → (s.ws w).upDone u = false → cfg.faulty = true → cfg.cloud = true →
      (s.ws w).uploadQ u = some n :: q →
      PStep cfg s (s.set w
        { s.ws w with
          uploadQ := upd (s.ws w).uploadQ u q, uploaded := (s.ws w).uploaded ++ [n],
          removeQ := (s.ws w).removeQ ++ [some (RemoveReq.chunk n)] })
  /-- A copy to a local directory fails: the uploader dies of the exception (line 289). -/
  | uploaderDies (s : PWorld σ C) (w u : Nat) (n : FName) (q : List (Option FName)) : s.main = .waiting ∨ s.main = .joining →
      w < cfg.workers → u < cfg.uploaders → (s.ws w).upDone u = false → cfg.faulty = true → cfg.cloud = false →
      (s.ws w).uploadQ u = some n :: q →
      PStep cfg s (s.set w { s.ws w with upDone := upd (s.ws w).upDone u true })
  /-- An uploader ends (lines 246-247). -/
  | uploadEnd (s : PWorld σ C) (w u : Nat) (q : List (Option FName)) : s.main = .waiting ∨ s.main = .joining →
      w < cfg.workers → u < cfg.uploaders → (s.ws w).upDone u = false → (s.ws w).uploadQ u = none :: q →
      PStep cfg s (s.set w { s.ws w with uploadQ := upd (s.ws w).uploadQ u q, upDone := upd (s.ws w).upDone u true })
  /-- The worker has joined all uploaders (lines 565-571). -/
  | joinUploaders (s : PWorld σ C) (w : Nat) : s.main = .waiting ∨ s.main = .joining → w < cfg.workers →
      (s.ws w).phase = .uploading → (∀ u, u < cfg.uploaders → (s.ws w).upDone u = true) →
      PStep cfg s (s.set w { s.ws w with phase := .removing, removeQ := (s.ws w).removeQ ++ [none] })
  /-- The remover removes the files of an input (lines 185-205). -/
  | removeInputs (s : PWorld σ C) (w v i : Nat) (q : List (Option RemoveReq)) : s.main = .waiting ∨ s.main = .joining →
      w < cfg.workers → (s.ws w).removerDone = false → (s.ws w).removeQ = some (.inputs v i) :: q →
      PStep cfg s ({ s with cached := fun p => if p ∈ cfg.paths v i then false else s.cached p }.set w { s.ws w with removeQ := q })
  /-- The remover removes an uploaded file. -/
  | removeChunk (s : PWorld σ C) (w : Nat) (n : FName) (q : List (Option RemoveReq)) : s.main = .waiting ∨ s.main = .joining →
      w < cfg.workers → (s.ws w).removerDone = false → (s.ws w).removeQ = some (.chunk n) :: q →
      PStep cfg s ({ s with disk := dropFile s.disk n }.set w { s.ws w with removeQ := q })
  /-- The remover ends (lines 191-192). -/
  | removeEnd (s : PWorld σ C) (w : Nat) (q : List (Option RemoveReq)) : s.main = .waiting ∨ s.main = .joining →
      w < cfg.workers → (s.ws w).removerDone = false → (s.ws w).removeQ = none :: q →
      PStep cfg s (s.set w { s.ws w with removeQ := q, removerDone := true })
  /-- The worker has joined the remover and sends its last report (lines 572-575). -/
  | finish (s : PWorld σ C) (w : Nat) : s.main = .waiting ∨ s.main = .joining → w < cfg.workers →
      (s.ws w).phase = .removing → (s.ws w).removerDone = true →
      PStep cfg s ({ s with progress := s.progress ++ [(w, (s.ws w).counter)] }.set w { s.ws w with phase := .done })
  /-- The main process receives a report and goes on waiting (lines 1205-1217). -/
  | receive (s : PWorld σ C) (w c : Nat) (q : List (Nat × Nat)) : s.main = .waiting → s.progress = (w, c) :: q →
      trackerSum cfg.workers (upd s.tracker w c) ≠ totalItems cfg →
      PStep cfg s { s with progress := q, tracker := upd s.tracker w c, received := true }
  /-- The main process receives the last report (line 1217). -/
  | receiveLast (s : PWorld σ C) (w c : Nat) (q : List (Nat × Nat)) : s.main = .waiting → s.progress = (w, c) :: q →
      trackerSum cfg.workers (upd s.tracker w c) = totalItems cfg →
      PStep cfg s { s with progress := q, tracker := upd s.tracker w c, received := true, main := .joining }
  /-- The main process sees the exception of a worker (lines 1200-1202, 1234-1236). -/
  | raise (s : PWorld σ C) (w : Nat) : s.main = .waiting → w < cfg.workers → (s.ws w).phase = .failed →
      PStep cfg s { s with main := .error }
  /-- All workers have ended; files that are left are an error when `output_dir.path` is given (lines 901-903). A worker that has
  failed does not end here: a process that ends joins the processes it has started, and nobody has told its uploaders and its remover to end. -/
  | leftover (s : PWorld σ C) (n : FName) : s.main = .joining →
      (∀ w, w < cfg.workers → (s.ws w).phase = .done) → cfg.outPath = true → s.disk n ≠ none →
      PStep cfg s { s with main := .error }
  /-- All workers have ended, and the index is written (lines 905-909). -/
  | index (s : PWorld σ C) : s.main = .joining →
      (∀ w, w < cfg.workers → (s.ws w).phase = .done) →
      (cfg.outPath = true → ∀ n, s.disk n = none) →
      PStep cfg s { s with main := .indexed }

/-- The states of a run. -/
inductive PReach {σ C : Type} (cfg : PipeCfg σ C) (remote0 : FName → Option C) : PWorld σ C → Prop where
  | start : PReach cfg remote0 (startPWorld cfg remote0)
  | step {s t : PWorld σ C} : PReach cfg remote0 s → PStep cfg s t → PReach cfg remote0 t

/-- Chunk files with their names, numbered from `next` on (`get_chunk_filename`, `streaming/writer.py:299-302`). -/
def chunkFiles (comp : Option String) (rank next : Nat) (chunks : List (List WItem)) : List (FName × List WItem) :=
  (numbered next chunks).map fun e => (chunkFilename comp rank e.1, e.2)

/-- The job of a worker of `optimize` without checkpoints (`data_processor.py:751-784`). `out i` are the samples that the
user's function returns for input `i` (several for a generator, none for `None`), or an exception; the state is
the writer and `_index_counter`; `first` is the number of the first chunk. The content of a chunk file is given by its
samples; the bytes are modelled in `Model/ChunkFile.lean`. -/
def writerJob (cfg : WriterCfg) (comp : Option String) (rank first : Nat) (out : Nat → Option (List WItem)) : PipeJob (WriterState × Nat) (List WItem) where
  start := (WriterState.init, 0)
  onInput := fun st i => match out i with
    | none => none
    | some xs => match addAll cfg st.1 ((List.range' st.2 xs.length).zip xs) with
      | .error _ => none
      | .ok s => some ((s, st.2 + xs.length), chunkFiles comp rank (first + st.1.chunks.length) (s.chunks.drop st.1.chunks.length))
  atEnd := fun st => match writerDone cfg false st.1 with
    | .error _ => none
    | .ok s => some (chunkFiles comp rank (first + st.1.chunks.length) (s.chunks.drop st.1.chunks.length))

end LitData
