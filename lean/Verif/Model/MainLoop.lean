import Verif.Model.LoaderIter

/-!
How the main process of `map` and `optimize` learns that the workers are done or have failed.
Models the loop of `DataProcessor.run` (`src/litdata/processing/data_processor.py` lines 1197-1240), `_exit_on_error` (1269-1273),
`BaseWorker.run` (512-519) and the messages of `BaseWorker._loop` (552-591).

`Model/Processes` has the files and queues between the processes of a worker; here a worker is the number of items it has handled, and it
may fail or be killed at any time. Messages arrive after any delay, those of one worker in the order in which they were sent.
-/

namespace LitData

/-- A worker process: handling items, ended after its last message, ended by an exception that it reported, or ended without a word (killed,
or waiting for ever for a process that died). -/
inductive WorkerEnd where
  | running
  | finished
  | failed
  | killed
  deriving DecidableEq, Repr

/-- The main process: in its loop; past it, where it joins the workers that are alive (lines 1219-1221) and goes on once they have ended (`Model/Children` has
when a worker that failed ends); or in `_exit_on_error`. -/
inductive MainEnd where
  | looping
  | returned
  | raised
  deriving DecidableEq, Repr

/-- `counter` is `_counter` of each worker, `progress` the messages of each worker that the main process has not read, `errors` the number of
messages in `error_queue`, `tracker` is `workers_tracker` (0 for a worker not heard of, which does not change the sum), `heard` whether any
progress message was read. -/
structure MainState where
  status : Nat → WorkerEnd
  counter : Nat → Nat
  progress : Nat → List Nat
  errors : Nat
  tracker : Nat → Nat
  heard : Bool
  main : MainEnd

/-- All workers have started. -/
def MainState.init : MainState := ⟨fun _ => .running, fun _ => 0, fun _ => [], 0, fun _ => 0, false, .looping⟩

/-- The sum of a function over the workers. -/
def workerSum (workers : Nat) (f : Nat → Nat) : Nat := ((List.range workers).map f).sum

/-- The steps, for `workers` processes with `items w` items each. -/
inductive MainStep (workers : Nat) (items : Nat → Nat) : MainState → MainState → Prop where
  /-- A worker handles an item without telling (`processing/data_processor.py:580`). -/
  | work (s : MainState) (w : Nat) (hw : w < workers) (hs : s.status w = .running) (hc : s.counter w < items w) :
      MainStep workers items s { s with counter := upd s.counter w (s.counter w + 1) }
  /-- It handles an item and tells, which it only does when `_counter < num_items - 2` (`processing/data_processor.py:583-585`). -/
  | workTell (s : MainState) (w : Nat) (hw : w < workers) (hs : s.status w = .running) (hc : s.counter w + 1 + 2 < items w) :
      MainStep workers items s { s with
        counter := upd s.counter w (s.counter w + 1), progress := upd s.progress w (s.progress w ++ [s.counter w + 1]) }
  /-- It ends: the last message is sent after uploaders and remover are done (`processing/data_processor.py:574-576`). -/
  | finish (s : MainState) (w : Nat) (hw : w < workers) (hs : s.status w = .running) (hc : s.counter w = items w) :
      MainStep workers items s { s with
        status := upd s.status w .finished, progress := upd s.progress w (s.progress w ++ [s.counter w]) }
  /-- An exception, wherever before that message: `error_queue.put` (`processing/data_processor.py:517-518`). -/
  | fail (s : MainState) (w : Nat) (hw : w < workers) (hs : s.status w = .running) :
      MainStep workers items s { s with status := upd s.status w .failed, errors := s.errors + 1 }
  /-- The process disappears. -/
  | kill (s : MainState) (w : Nat) (hw : w < workers) (hs : s.status w = .running) :
      MainStep workers items s { s with status := upd s.status w .killed }
  /-- The main process finds an error (`processing/data_processor.py:1199-1200` and 1236-1238). -/
  | readError (s : MainState) (hm : s.main = .looping) (he : 0 < s.errors) :
      MainStep workers items s { s with errors := s.errors - 1, main := .raised }
  /-- It finds none and reads a message about progress; it leaves the loop if all items are accounted for
  (`processing/data_processor.py:1203-1222`). -/
  | readProgress (s : MainState) (w c : Nat) (rest : List Nat) (hw : w < workers) (hm : s.main = .looping)
      (hp : s.progress w = c :: rest) :
      MainStep workers items s { s with
        progress := upd s.progress w rest
        tracker := upd s.tracker w c
        heard := true
        main := if workerSum workers (upd s.tracker w c) = workerSum workers items then .returned else .looping }

/-- Any number of steps. -/
inductive MainSteps (workers : Nat) (items : Nat → Nat) : MainState → MainState → Prop where
  | refl (s : MainState) : MainSteps workers items s s
  | tail {s t u : MainState} (h : MainSteps workers items s t) (hst : MainStep workers items t u) : MainSteps workers items s u

end LitData
