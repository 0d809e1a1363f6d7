import Verif.Model.Persistent
import Verif.Model.Loader

/-!
Workers that live through several passes of a loader into which a state was loaded before the first one (`persistent_workers=True`, `src/litdata/streaming/dataloader.py:705-756`).
Each copy of the dataset has the state that was loaded (`src/litdata/streaming/dataset.py:502-505`) and drops it when its own iterator ends (`dataset.py:421`, 431); what the loader
does later to the dataset in the main process (`dataloader.py:640-642`) does not reach it. Simplified: the split is the one of the loader's own number of workers.
-/

namespace LitData

/-- The copy of the dataset in a worker that lives on: its epoch, and of the state it keeps the number of samples and the epoch (`dataset.py:182`, 186). -/
structure KeptCopy where
  epoch : Nat
  kept : Option (Nat × Nat)
  deriving DecidableEq, Repr

/-- A pass of worker `i` of `nw` on a rank: `__iter__`, which takes the epoch of a state that is kept and resumes from it (`dataset.py:283-298`, 339-387), then at most `calls`
calls of `__next__` (414-473), of which the one that ends drops the state (420-421, 430-431). -/
def copyPass (sh : Shuffler) (split : Nat → Py (List (List Piece))) (rank nw bs i : Nat) (c : KeptCopy) (calls : Nat) : Py (List ChunkedIndex × Bool × KeptCopy) :=
  let begin : Py IterState := match c.kept with
    | some (n, e) => (split e).bind fun ws => resumeState sh ws rank nw i n bs nw e
    | none => (split c.epoch).bind fun ws => match ws[rank * nw + i]? with
      | none => .error .indexError
      | some ps => .ok (iterStart ps c.epoch)
  begin.bind fun st => (runIter sh calls st).bind fun r => .ok (r.1, r.2.1, ⟨r.2.2.epoch, if r.2.1 then none else c.kept⟩)

/-- Its passes one after the other. -/
def copyPasses (sh : Shuffler) (split : Nat → Py (List (List Piece))) (rank nw bs i : Nat) : KeptCopy → List Nat → Py (List (List ChunkedIndex × Bool) × KeptCopy)
  | c, [] => .ok ([], c)
  | c, calls :: rest => (copyPass sh split rank nw bs i c calls).bind fun r =>
    (copyPasses sh split rank nw bs i r.2.2 rest).bind fun q => .ok ((r.1, r.2.1) :: q.1, q.2)

/-- A script with such workers: the loader, what the dataset in the main process keeps, and the copies, which are there from the first pass on. -/
structure KeptScript where
  loader : LoaderState
  kept : Option (Nat × Nat)
  copies : Option (List KeptCopy)
  deriving DecidableEq, Repr

/-- `load_state_dict` of the loader (`dataloader.py:705-756`): it changes the dataset in the main process (`dataset.py:502-505`). -/
def keptLoad (len : Nat) (d : LoaderDict) (s : KeptScript) : KeptScript :=
  { s with loader := loaderLoad len d s.loader, kept := some (d.yielded, d.epoch) }

/-- The beginning of a pass (`dataloader.py:632-646`, `dataset.py:201-210`, 506-507): the copies are made in the first one. The epoch of a copy with a state is of no use, as `__iter__` takes that of the
state (`dataset.py:283-287`); here it is that of the loader. -/
def keptBegin (nw : Nat) (s : KeptScript) : KeptScript :=
  let kept := if s.loader.restore then s.kept else none
  let loader := loaderBegin s.loader
  { loader := loader, kept := kept, copies := some (s.copies.getD (List.replicate nw ⟨loader.epoch, kept⟩)) }

end LitData
