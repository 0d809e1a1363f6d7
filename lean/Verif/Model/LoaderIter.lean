import Verif.Model.Basic

/-!
The multi-process iterator of `StreamingDataLoader`.

Models `_StreamingMultiProcessingDataLoaderIter` (`src/litdata/streaming/dataloader.py:458-495`) together with
the part of PyTorch it relies on. PyTorch is not in the repository: `_reset`, `_next_data`, `_process_data`,
`_try_put_index`, `_mark_worker_as_unavailable` of `torch.utils.data.dataloader._MultiProcessingDataLoaderIter`
and `_worker_loop` of `torch.utils.data._utils.worker` are modelled from their source for iterable datasets.

Worker processes and the main process run concurrently. A state is changed by one atomic event at a time: a
worker answers the first task in its queue, or the main process makes one turn of the loop of `_next_data`.
Every order of events is an execution. Not modelled: exceptions in workers, time-outs, pinned memory,
persistent workers, and the assertion on the number of outstanding tasks.
-/

namespace LitData

/-- What a worker sends back: `(idx, data)` with a batch or `_IterableDatasetStopIteration(worker_id)`.
The worker of a batch is kept for the proofs, the main process does not look at it. -/
inductive LoaderMsg (β : Type) where
  | data (idx worker : Nat) (batch : β)
  | stop (idx worker : Nat)
  deriving DecidableEq, Repr

/-- The worker that sent a message. -/
def LoaderMsg.worker {β : Type} : LoaderMsg β → Nat
  | .data _ w _ => w
  | .stop _ w => w

/-- Update of a dictionary or list given as a function. -/
def upd {α : Type} (f : Nat → α) (i : Nat) (a : α) : Nat → α := fun j => if j = i then a else f j

/-- The main process and its workers.
* `pre` is `_indexes` (`dataloader.py:461-465`), `cyc` the position of `_worker_queue_idx_cycle`;
* `send`, `rcvd`, `info`, `status` are `_send_idx`, `_rcvd_idx`, `_task_info`, `_workers_status`;
* `queue w` are the tasks worker `w` has not taken yet, `left w` the batches it can still produce and
  `ended w` its flag `iteration_end`;
* `inbox` is `_data_queue`;
* `out` are the batches returned to the user, `finished` that `StopIteration` was raised. -/
structure LoaderIter (β : Type) where
  pre : List Nat
  cyc : Nat
  send : Nat
  rcvd : Nat
  info : Nat → Option (Nat × Option β)
  status : Nat → Bool
  queue : Nat → List Nat
  left : Nat → List β
  ended : Nat → Bool
  inbox : List (LoaderMsg β)
  out : List β
  finished : Bool

/-- Send a task to worker `w` (`dataloader.py:487-493`, and the end of PyTorch's `_try_put_index`). -/
def putTask {β : Type} (s : LoaderIter β) (w : Nat) : LoaderIter β :=
  { s with queue := upd s.queue w (s.queue w ++ [s.send]), info := upd s.info s.send (some (w, none)), send := s.send + 1 }

/-- PyTorch's `_try_put_index`: go round the workers once, at most `fuel` of them, until one is active. -/
def putCycle {β : Type} (nw : Nat) : Nat → LoaderIter β → LoaderIter β
  | 0, s => s
  | fuel + 1, s =>
    let w := s.cyc
    let s' := { s with cyc := (s.cyc + 1) % nw }
    if s.status w then putTask s' w else putCycle nw fuel s'

/-- `_try_put_index` (`dataloader.py:478-495`). `_next_index` never ends for iterable datasets. -/
def tryPut {β : Type} (nw : Nat) (restore : Bool) (s : LoaderIter β) : LoaderIter β :=
  match restore, s.pre with
  | true, w :: rest => putTask { s with pre := rest } w
  | _, _ => putCycle nw nw s

/-- `_indexes` (`dataloader.py:461-465`). -/
def restartIndexes (latest nw : Nat) : List Nat :=
  if latest > 0 then List.range' latest (nw - latest) else []

/-- Apply a function a number of times. -/
def times {α : Type} (f : α → α) : Nat → α → α
  | 0, a => a
  | n + 1, a => times f n (f a)

/-- The iterator after `__init__` and `_reset`: `prefetch_factor * num_workers` tasks are sent. `streams w` are
the batches worker `w` will produce. -/
def loaderStart {β : Type} (nw prefetch latest : Nat) (restore : Bool) (streams : Nat → List β) : LoaderIter β :=
  times (tryPut nw restore) (prefetch * nw)
    { pre := restartIndexes latest nw, cyc := 0, send := 0, rcvd := 0, info := fun _ => none, status := fun _ => true,
      queue := fun _ => [], left := streams, ended := fun _ => false, inbox := [], out := [], finished := false }

/-- Worker `w` takes the first task from its queue (`_worker_loop`): after its stream has ended it ignores
further tasks. -/
def workerStep {β : Type} (s : LoaderIter β) (w : Nat) : LoaderIter β :=
  match s.queue w with
  | [] => s
  | idx :: rest =>
    if s.ended w then { s with queue := upd s.queue w rest }
    else match s.left w with
      | b :: bs => { s with queue := upd s.queue w rest, left := upd s.left w bs, inbox := s.inbox ++ [.data idx w b] }
      | [] => { s with queue := upd s.queue w rest, ended := upd s.ended w true, inbox := s.inbox ++ [.stop idx w] }

/-- The inner loop of `_next_data`: skip tasks of inactive workers that brought no data. -/
def skipTasks {β : Type} : Nat → LoaderIter β → LoaderIter β
  | 0, s => s
  | fuel + 1, s =>
    match s.info s.rcvd with
    | some (w, d) =>
      if d.isSome || s.status w then s
      else skipTasks fuel { s with info := upd s.info s.rcvd none, rcvd := s.rcvd + 1 }
    | none => skipTasks fuel { s with rcvd := s.rcvd + 1 }

/-- Hand a batch to the user: `_rcvd_idx` moves on and `_process_data` sends a new task. -/
def deliver {β : Type} (nw : Nat) (restore : Bool) (s : LoaderIter β) (b : β) : LoaderIter β :=
  tryPut nw restore { s with info := upd s.info s.rcvd none, rcvd := s.rcvd + 1, out := s.out ++ [b] }

/-- One turn of the `while True` loop of `_next_data`. With no message waiting the main process blocks. -/
def mainStep {β : Type} (nw : Nat) (restore : Bool) (s₀ : LoaderIter β) : LoaderIter β :=
  if s₀.finished then s₀
  else
    let s := skipTasks (s₀.send - s₀.rcvd) s₀
    if s.rcvd < s.send then
      match s.info s.rcvd with
      | some (_, some b) => deliver nw restore s b
      | _ =>
        match s.inbox with
        | [] => s
        | .stop _ w :: rest => tryPut nw restore { s with inbox := rest, status := upd s.status w false }
        | .data idx _ b :: rest =>
          if idx = s.rcvd then deliver nw restore { s with inbox := rest } b
          else { s with inbox := rest, info := upd s.info idx ((s.info idx).map fun x => (x.1, some b)) }
    else { s with finished := true }

/-- An event: the main process asks for data, or a worker runs. -/
inductive LoaderEvent where
  | main
  | work (w : Nat)
  deriving DecidableEq, Repr

def loaderStep {β : Type} (nw : Nat) (restore : Bool) (s : LoaderIter β) : LoaderEvent → LoaderIter β
  | .main => mainStep nw restore s
  | .work w => if w < nw then workerStep s w else s

/-- An execution. -/
def loaderRun {β : Type} (nw : Nat) (restore : Bool) (s : LoaderIter β) (es : List LoaderEvent) : LoaderIter β :=
  es.foldl (loaderStep nw restore) s

end LitData
