import Verif.Model.Basic

/-!
# Profiling the workers of a data loader (`streaming/dataloader.py`)

Models `_wrapper`, `_ProfileWorkerLoop`, the profiling part of `WorkerLoop`, and the places where both replace PyTorch's `_worker_loop`. A fetch is a call of the
`fetch` method of the fetcher of a worker; what it returns or raises is given as a list. A trace is the list of the numbers of the fetches that ran while the tracer
was enabled, with the number of the pass.

Simplified: VizTracer is a flag and the list of recorded fetches; saving twice writes the same. A worker is a forked process, so reloading the module in it
(`streaming/dataloader.py:421`, 193) leaves the process of the user as it is. Workers end regularly. The messages printed are left out.
-/

namespace LitData

/-- The argument `profile_batches`, `Union[bool, int]` (`streaming/dataloader.py:574`). -/
inductive ProfArg where
  | bool (b : Bool)
  | int (k : Int)
  deriving DecidableEq

/-- The number that Python computes with: `True` is 1 (`streaming/dataloader.py:367`). -/
def ProfArg.num : ProfArg → Int
  | .bool b => if b then 1 else 0
  | .int k => k

/-- `isinstance(self._profile, bool)` (`streaming/dataloader.py:453`). -/
def ProfArg.isBool : ProfArg → Bool
  | .bool _ => true
  | .int _ => false

/-- Truth of the argument (`streaming/dataloader.py:470`, 600). -/
def ProfArg.truthy (a : ProfArg) : Bool := a.num ≠ 0

/-- The attributes of `_ProfileWorkerLoop` (`streaming/dataloader.py:385-388`); `dir` is `profile_dir` or the current directory. -/
structure ProfCfg where
  profile : ProfArg
  skip : Int
  dir : String

/-- A trace: the number of the pass that wrote it and the fetches it records. -/
abbrev Trace := Nat × List Nat

/-- A tracer: `tracer.enable`, and what was recorded. -/
structure Tracer where
  enable : Bool
  recorded : List Nat

/-- The state of a worker while it is profiled: the fetches begun, the variables `counter` and `tracer` of `_wrapper`, whether `fetcher.fetch` is wrapped, and the file
`result.json` (`streaming/dataloader.py:347-379`). -/
structure ProfState where
  calls : Nat
  counter : Nat
  tracer : Option Tracer
  wrapped : Bool
  file : Option Trace

/-- Before the loop of a worker (`streaming/dataloader.py:409-434`): with `skip_batches` 0 worker 0 removes the old file and starts a tracer; worker 0 wraps `fetch`,
since booleans are integers too. -/
def profStart (cfg : ProfCfg) (workerId : Nat) (file : Option Trace) : ProfState :=
  let start := workerId == 0 && cfg.skip == 0
  ⟨0, 0, if start then some ⟨true, []⟩ else none, workerId == 0, if start then none else file⟩

/-- The fetch itself: an enabled tracer records it. -/
def recordFetch (st : ProfState) : ProfState :=
  { st with calls := st.calls + 1, tracer := st.tracer.map fun t => if t.enable then { t with recorded := t.recorded ++ [st.calls] } else t }

/-- The start of a tracer in `wrap` (`streaming/dataloader.py:354-363`). -/
def wrapStart (cfg : ProfCfg) (st : ProfState) : ProfState :=
  if cfg.skip > 0 && cfg.skip == (st.counter : Int) && st.tracer.isNone then { st with tracer := some ⟨true, []⟩, file := none } else st

/-- The end of the trace in `wrap`, after a fetch that returned (`streaming/dataloader.py:367-376`). -/
def wrapStop (cfg : ProfCfg) (pass : Nat) (st : ProfState) : ProfState :=
  match st.tracer with
  | some t =>
    if t.enable && (st.counter : Int) == cfg.profile.num + cfg.skip then
      { st with tracer := some { t with enable := false }, file := some (pass, t.recorded), wrapped := false }
    else st
  | none => st

/-- A call of `fetcher.fetch` with the result `r` (`streaming/dataloader.py:350-377`): when it raises, the lines after the call are not reached. -/
def profFetch {α : Type} (cfg : ProfCfg) (pass : Nat) (st : ProfState) (r : Py α) : ProfState × Py α :=
  if st.wrapped then
    let st := recordFetch (wrapStart cfg st)
    match r with
    | .error e => (st, .error e)
    | .ok x =>
      let st := wrapStop cfg pass st
      ({ st with counter := st.counter + 1 }, .ok x)
  else (recordFetch st, r)

/-- The fetches of a worker, one after the other. -/
def profFetches {α : Type} (cfg : ProfCfg) (pass : Nat) : ProfState → List (Py α) → ProfState × List (Py α)
  | st, [] => (st, [])
  | st, r :: rs =>
    let (st, x) := profFetch cfg pass st r
    let (st, xs) := profFetches cfg pass st rs
    (st, x :: xs)

/-- After the loop (`streaming/dataloader.py:453-455`): the variable `tracer` of `__call__` is the one started before the loop, if there was one. -/
def profEnd (cfg : ProfCfg) (workerId : Nat) (pass : Nat) (st : ProfState) : ProfState :=
  if workerId == 0 && cfg.skip == 0 && cfg.profile.isBool then
    match st.tracer with
    | some t => { st with tracer := some { t with enable := false }, file := some (pass, t.recorded) }
    | none => st
  else st

/-- `_ProfileWorkerLoop.__call__` (`streaming/dataloader.py:390-455`): what worker `workerId` leaves in `result.json`, and what its fetches gave. -/
def profWorker {α : Type} (cfg : ProfCfg) (workerId pass : Nat) (file : Option Trace) (rs : List (Py α)) : Option Trace × List (Py α) :=
  let (st, xs) := profFetches cfg pass (profStart cfg workerId file) rs
  ((profEnd cfg workerId pass st).file, xs)

/-- The checks of the constructor of `StreamingDataLoader` (`streaming/dataloader.py:600-604`). -/
def profCheck (viz : Bool) (profile : ProfArg) (numWorkers : Nat) : Py Unit :=
  if profile.truthy && !viz then .error .exception
  else if profile.truthy && numWorkers == 0 then .error .valueError
  else .ok ()

/-- What `torch.utils.data._utils.worker._worker_loop` is in the process of the user: PyTorch's own, a `_ProfileWorkerLoop` (`streaming/dataloader.py:473-475`), or a
`WorkerLoop` with its arguments (`streaming/dataloader.py:236`). -/
inductive Patch where
  | torch
  | profile (cfg : ProfCfg)
  | cache (globalRank : Nat) (profile : Bool)

/-- A pass over a data loader of any kind, with what the fetches of its workers give. -/
inductive LoaderPass (α : Type) where
  /-- over a `StreamingDataLoader` with workers -/
  | streaming (profile : ProfArg) (skip : Int) (dir : String) (fetches : List (List (Py α)))
  /-- over a `CacheDataLoader` with workers -/
  | caching (profile : Bool) (fetches : List (List (Py α)))
  /-- over a `DataLoader` of PyTorch with workers -/
  | plain (fetches : List (List (Py α)))

/-- The fetches of a pass, by worker. -/
def LoaderPass.fetches {α : Type} : LoaderPass α → List (List (Py α))
  | .streaming _ _ _ fs => fs
  | .caching _ fs => fs
  | .plain fs => fs

/-- The process of the user on one rank: its rank, whether VizTracer is installed, the current directory, what the worker loop is, the passes made, and the trace files
by directory and name. -/
structure LoaderProc where
  rank : Nat
  viz : Bool
  cwd : String
  patch : Patch
  passes : Nat
  files : String → String → Option Trace

/-- `_StreamingMultiProcessingDataLoaderIter.__init__` and `_MultiProcessingDataLoaderIterPatch.__init__` (`streaming/dataloader.py:470-475`, 233-236): the worker loop is
replaced, and nothing ever puts it back. -/
def newPatch {α : Type} (p : LoaderProc) : LoaderPass α → Patch
  | .streaming profile skip dir _ => if profile.truthy && p.rank == 0 && p.viz then .profile ⟨profile, skip, dir⟩ else p.patch
  | .caching profile _ => .cache p.rank profile
  | .plain _ => p.patch

/-- A file is given a new content. -/
def setTrace (files : String → String → Option Trace) (dir name : String) (t : Option Trace) : String → String → Option Trace :=
  fun d n => if d = dir ∧ n = name then t else files d n

/-- Worker `w` runs the worker loop that it finds (`streaming/dataloader.py:390-455`, 162-226). -/
def patchedWorker {α : Type} (p : LoaderProc) (w : Nat) (rs : List (Py α)) : LoaderProc × List (Py α) :=
  match p.patch with
  | .torch => (p, rs)
  | .profile cfg =>
    let (f, xs) := profWorker cfg w p.passes (p.files cfg.dir "result.json") rs
    ({ p with files := setTrace p.files cfg.dir "result.json" f }, xs)
  | .cache rank profile =>
    if rank == 0 && w == 0 && p.viz && profile then
      ({ p with files := setTrace p.files p.cwd "trace.json" (some (p.passes, List.range rs.length)) }, rs)
    else (p, rs)

/-- The workers of a pass. Only worker 0 touches files, so their order does not matter. -/
def patchedWorkers {α : Type} : LoaderProc → Nat → List (List (Py α)) → LoaderProc × List (List (Py α))
  | p, _, [] => (p, [])
  | p, w, rs :: rest =>
    let (p, xs) := patchedWorker p w rs
    let (p, xss) := patchedWorkers p (w + 1) rest
    (p, xs :: xss)

/-- A pass: the iterator is made, and its workers run (`streaming/dataloader.py:459-477`, 231-237). -/
def loaderPass {α : Type} (p : LoaderProc) (l : LoaderPass α) : LoaderProc × List (List (Py α)) :=
  let (p, xss) := patchedWorkers { p with patch := newPatch p l } 0 l.fetches
  ({ p with passes := p.passes + 1 }, xss)

/-- Passes one after the other. -/
def loaderPasses {α : Type} : LoaderProc → List (LoaderPass α) → LoaderProc × List (List (List (Py α)))
  | p, [] => (p, [])
  | p, l :: ls =>
    let (p, x) := loaderPass p l
    let (p, xs) := loaderPasses p ls
    (p, x :: xs)

end LitData
