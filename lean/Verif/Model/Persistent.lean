import Verif.Model.Dataset

/-!
Workers that live through several passes (`persistent_workers=True`, handed to PyTorch in `src/litdata/streaming/dataloader.py:618-630`).
The loader sets the epoch of the dataset in the main process only (`dataloader.py:634-642`); a worker that lives on has its own copy, which counts an epoch whenever its own
iterator ends (`src/litdata/streaming/dataset.py:415-432`). At the beginning of a pass PyTorch makes the worker call `iter` on its copy again. A worker is asked for samples
ahead, so that when a pass is broken off it may have come anywhere, also to its end. Simplified: no state was loaded.
-/

namespace LitData

/-- A pass of the worker with number `j` among all workers, whose copy has the given epoch: `__iter__` (`dataset.py:271-337`), then at most `calls` calls of `__next__` (414-473).
The result is what it gave, whether it came to its end, and the epoch of its copy afterwards. -/
def keptPass (sh : Shuffler) (split : Nat → Py (List (List Piece))) (j epoch calls : Nat) : Py (List ChunkedIndex × Bool × Nat) :=
  (split epoch).bind fun ws => match ws[j]? with
    | none => .error .indexError
    | some ps => (runIter sh calls (iterStart ps epoch)).bind fun r => .ok (r.1, r.2.1, r.2.2.epoch)

/-- Its passes one after the other: for each what it gave and whether it came to its end; and the epoch of its copy afterwards. -/
def keptPasses (sh : Shuffler) (split : Nat → Py (List (List Piece))) (j : Nat) : Nat → List Nat → Py (List (List ChunkedIndex × Bool) × Nat)
  | epoch, [] => .ok ([], epoch)
  | epoch, calls :: rest => (keptPass sh split j epoch calls).bind fun r =>
    (keptPasses sh split j r.2.2 rest).bind fun q => .ok ((r.1, r.2.1) :: q.1, q.2)

end LitData
