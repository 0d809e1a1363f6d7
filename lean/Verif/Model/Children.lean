import Verif.Model.Processes

/-!
The processes behind `optimize` and `map` when a run does not end regularly.
Models `src/litdata/processing/data_processor.py` lines 509-538 (`run`, `_terminate`), 594-598 (the stop queue), 1266-1270 (`_exit_on_error`) and
1310-1316 (`_signal_handler`).

`Process.terminate` ends the process of a worker at once, but not the processes that it has started: downloaders, uploaders and the remover are ordinary
processes (not daemons), and each holds both ends of the pipes of its queues, so that a `get` on an empty queue waits for ever.
A process that ends joins the processes it has started.
Simplified as in `Model/Processes.lean`: what a process has put into a queue is in it, even if the process is terminated right afterwards.
-/

namespace LitData

/-- One event of a downloader, an uploader or a remover, whatever has become of the main process and of the worker
(`data_processor.py:124-293`). -/
inductive ChildStep {σ C : Type} (cfg : PipeCfg σ C) : PWorld σ C → PWorld σ C → Prop where
  /-- A downloader fetches the files of an input (lines 131-177). -/
  | download (s : PWorld σ C) (w d i : Nat) (q : List (Option Nat)) : w < cfg.workers → d < cfg.downloaders → (s.ws w).toDownload d = some i :: q →
      ChildStep cfg s ({ s with cached := fun p => if p ∈ cfg.paths w i then true else s.cached p }.set w
        { s.ws w with toDownload := upd (s.ws w).toDownload d q, ready := (s.ws w).ready ++ [some i] })
  /-- A downloader ends (lines 136-138). -/
  | downloadEnd (s : PWorld σ C) (w d : Nat) (q : List (Option Nat)) : w < cfg.workers → d < cfg.downloaders → (s.ws w).toDownload d = none :: q →
      ChildStep cfg s (s.set w { s.ws w with toDownload := upd (s.ws w).toDownload d q, ready := (s.ws w).ready ++ [none] })
  /-- A file is uploaded and then given to the remover (lines 249-293). -/
  | upload (s : PWorld σ C) (w u : Nat) (n : FName) (c : C) (q : List (Option FName)) :
      w < cfg.workers → u < cfg.uploaders → (s.ws w).upDone u = false → (s.ws w).uploadQ u = some n :: q → s.disk n = some c →
      ChildStep cfg s ({ s with remote := putFiles s.remote [(n, c)] }.set w
        { s.ws w with
          uploadQ := upd (s.ws w).uploadQ u q, uploaded := (s.ws w).uploaded ++ [n],
          removeQ := (s.ws w).removeQ ++ [some (RemoveReq.chunk n)] })
  /-- An upload to a cloud provider fails and is only printed (lines 272-273, 292-293). -/
  | uploadLost (s : PWorld σ C) (w u : Nat) (n : FName) (q : List (Option FName)) :
      w < cfg.workers → u < cfg.uploaders → (s.ws w).upDone u = false → cfg.faulty = true → cfg.cloud = true →
      (s.ws w).uploadQ u = some n :: q →
      ChildStep cfg s (s.set w
        { s.ws w with
          uploadQ := upd (s.ws w).uploadQ u q, uploaded := (s.ws w).uploaded ++ [n],
          removeQ := (s.ws w).removeQ ++ [some (RemoveReq.chunk n)] })
  /-- A copy to a local directory fails: the uploader dies of the exception (line 289). -/
  | uploaderDies (s : PWorld σ C) (w u : Nat) (n : FName) (q : List (Option FName)) :
      w < cfg.workers → u < cfg.uploaders → (s.ws w).upDone u = false → cfg.faulty = true → cfg.cloud = false →
      (s.ws w).uploadQ u = some n :: q →
      ChildStep cfg s (s.set w { s.ws w with upDone := upd (s.ws w).upDone u true })
  /-- An uploader ends (lines 246-247). -/
  | uploadEnd (s : PWorld σ C) (w u : Nat) (q : List (Option FName)) :
      w < cfg.workers → u < cfg.uploaders → (s.ws w).upDone u = false → (s.ws w).uploadQ u = none :: q →
      ChildStep cfg s (s.set w { s.ws w with uploadQ := upd (s.ws w).uploadQ u q, upDone := upd (s.ws w).upDone u true })
  /-- The remover removes the files of an input (lines 185-205). -/
  | removeInputs (s : PWorld σ C) (w v i : Nat) (q : List (Option RemoveReq)) :
      w < cfg.workers → (s.ws w).removerDone = false → (s.ws w).removeQ = some (.inputs v i) :: q →
      ChildStep cfg s ({ s with cached := fun p => if p ∈ cfg.paths v i then false else s.cached p }.set w { s.ws w with removeQ := q })
  /-- The remover removes an uploaded file. -/
  | removeChunk (s : PWorld σ C) (w : Nat) (n : FName) (q : List (Option RemoveReq)) :
      w < cfg.workers → (s.ws w).removerDone = false → (s.ws w).removeQ = some (.chunk n) :: q →
      ChildStep cfg s ({ s with disk := dropFile s.disk n }.set w { s.ws w with removeQ := q })
  /-- The remover ends (lines 191-192). -/
  | removeEnd (s : PWorld σ C) (w : Nat) (q : List (Option RemoveReq)) :
      w < cfg.workers → (s.ws w).removerDone = false → (s.ws w).removeQ = none :: q →
      ChildStep cfg s (s.set w { s.ws w with removeQ := q, removerDone := true })

/-- What happens after `_exit_on_error` has terminated the workers (`data_processor.py:1266-1270`). -/
inductive ChildSteps {σ C : Type} (cfg : PipeCfg σ C) : PWorld σ C → PWorld σ C → Prop where
  | refl (s : PWorld σ C) : ChildSteps cfg s s
  | step {s t u : PWorld σ C} : ChildSteps cfg s t → ChildStep cfg t u → ChildSteps cfg s u

/-- A worker after the signal: it has not seen the stop message; it has left `_loop` and is in `_terminate` (`data_processor.py:527-538`); it has ended. -/
inductive StopPhase where
  | going
  | stopping
  | gone
  deriving DecidableEq, Repr

/-- The processes after the signal handler of the main process has ended it with `os._exit(0)` (`data_processor.py:1310-1316`). -/
structure Stopped (σ C : Type) where
  s : PWorld σ C
  flag : Nat → StopPhase

/-- One event after the signal.
* A downloader, uploader or remover goes on.
* A worker that has not seen the message goes on as before. The main process is gone: it receives nothing.
* A worker sees the message after an input (lines 594-598); the message may also be lost, as `os._exit` does not wait for the queue.
* A worker ends when its uploaders, downloaders and its remover have (lines 527-538). -/
inductive StopStep {σ C : Type} (cfg : PipeCfg σ C) : Stopped σ C → Stopped σ C → Prop where
  | child (x : Stopped σ C) (t : PWorld σ C) : ChildStep cfg x.s t → StopStep cfg x { x with s := t }
  | work (x : Stopped σ C) (t : PWorld σ C) : PStep cfg { x.s with main := .waiting } t → t.main = .waiting → x.s.progress.length ≤ t.progress.length →
      (∀ v, x.flag v ≠ .going → t.ws v = x.s.ws v) → StopStep cfg x { x with s := t }
  | stop (x : Stopped σ C) (w : Nat) : w < cfg.workers → x.flag w = .going → (x.s.ws w).phase = .running → 0 < (x.s.ws w).counter →
      StopStep cfg x { x with flag := upd x.flag w .stopping }
  | leave (x : Stopped σ C) (w : Nat) : w < cfg.workers → x.flag w = .stopping → (∀ u, u < cfg.uploaders → (x.s.ws w).upDone u = true) →
      (∀ d, d < cfg.downloaders → (x.s.ws w).toDownload d = []) → (x.s.ws w).removerDone = true →
      StopStep cfg x { x with flag := upd x.flag w .gone }

/-- Any number of events after the signal. -/
inductive StopSteps {σ C : Type} (cfg : PipeCfg σ C) : Stopped σ C → Stopped σ C → Prop where
  | refl (x : Stopped σ C) : StopSteps cfg x x
  | step {x y z : Stopped σ C} : StopSteps cfg x y → StopStep cfg y z → StopSteps cfg x z

end LitData
