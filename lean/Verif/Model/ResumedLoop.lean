import Verif.Model.Loader

/-!
What a script does with one `StreamingDataLoader` over a `StreamingDataset`: it loads a state, begins passes, takes batches, saves states, and breaks passes off.
Models `src/litdata/streaming/dataloader.py:632-703`, 705-756 together with the part of the dataset that stays in the main process
(`src/litdata/streaming/dataset.py:475-507`). The workers are processes that are started for each pass and get a copy of the dataset, so a pass begins where the state kept
in the main process says (`dataset.py:339-392`). Simplified: the state of the dataset is its number of samples; `persistent_workers` is not set.
-/

namespace LitData

/-- The loader, the number in the dataset's `_state_dict` (`dataset.py:503-507`), and, of the pass that was begun last: the number from which its workers
resumed, the worker that was asked first, and how many batches it has given. -/
structure ScriptState where
  loader : LoaderState
  kept : Option Nat
  start : Nat
  worker : Nat
  given : Nat
  deriving DecidableEq, Repr

/-- A loader and a dataset that were just made (`dataloader.py:567-630`). -/
def scriptNew : ScriptState := ⟨newLoader, none, 0, 0, 0⟩

/-- The beginning of a pass: `__iter__` (`dataloader.py:632-646`, with `reset_state_dict`, line 640), the workers that resume from what the dataset keeps (`dataset.py:339-356`),
and the first worker that is asked (`dataloader.py:461-465`, 479-497). -/
def passBegin (nw : Nat) (s : ScriptState) : ScriptState :=
  let kept := if s.loader.restore then s.kept else none
  let loader := loaderBegin s.loader
  { loader := loader, kept := kept, start := kept.getD 0, given := 0,
    worker := (if loader.restore then restartIndexes loader.latest nw else []).headD 0 }

/-- A step of the script in a pass: a batch (`true`; `dataloader.py:647-650`) or a call of `state_dict` (`false`; `dataloader.py:679-690`, `dataset.py:479-481`: a state that
is kept gets the number). -/
def passStep (nw bs : Nat) (s : ScriptState) (batch : Bool) : ScriptState :=
  if batch then { s with loader := loaderBatch nw bs s.loader, given := s.given + 1 }
  else { s with kept := s.kept.map fun _ => s.loader.yielded }

/-- A pass that is broken off after some steps: nothing runs after the last `yield` (`dataloader.py:646-650`). -/
def passBroken (nw bs : Nat) (s : ScriptState) (steps : List Bool) : ScriptState := steps.foldl (passStep nw bs) (passBegin nw s)

/-- A pass that is read to its end (`dataloader.py:667`). -/
def passEnded (nw bs : Nat) (s : ScriptState) (steps : List Bool) : ScriptState :=
  let t := passBroken nw bs s steps
  { t with loader := loaderEnd t.loader }

/-- `load_state_dict` (`dataloader.py:705-726`, 750-756; `dataset.py:502-505`). -/
def scriptLoad (len : Nat) (d : LoaderDict) (s : ScriptState) : ScriptState :=
  { s with loader := loaderLoad len d s.loader, kept := some d.yielded }

end LitData
