import Verif.Model.ReaderFine

/-!
Several epochs over a remote dataset with one cache.
Models what one worker of `StreamingDataset` (`src/litdata/streaming/dataset.py` lines 217-243, 271-279) keeps from one epoch to the next: `__iter__` makes a new
`Cache` and with it a new reader (`src/litdata/streaming/reader.py` lines 291-306), but the files in the cache stay, and so does an item loader that was passed to
the dataset; otherwise the reader makes a new one (line 306). The worker is alone on its cache.
-/

namespace LitData

/-- A worker that is alone on its cache, in which the files of the chunks `w` are left from before (`streaming/reader.py:132-152`). -/
def RemoteCfg.left (cfg : RemoteCfg) (w : List Nat) : RemoteCfg := { cfg with prep := { cfg.prep with warm := w, own := w } }

/-- The beginning of the next epoch (`streaming/dataset.py:271-279`, `streaming/reader.py:291-306`). `given` says whether the item loader was passed to the dataset
(`streaming/dataset.py:136`, 226). -/
def FineState.again (given : Bool) (f : FineState) : FineState :=
  ⟨⟨.init, f.s.disk, ⟨false, none, false, if given then f.s.reader.loader else .init⟩, .idle, 0, []⟩, f.packed, .idle⟩

/-- A worker has read the items of the passes `before` and is now in the pass over `xs`. A pass begins once the items of the one before have all been read and its
thread has ended (`streaming/reader.py:431-438`; that the wait for the thread can time out is left out). At first the cache has nothing but whole chunks. -/
inductive Epochs (cfg : RemoteCfg) (comp given : Bool) : List (List ChunkedIndex) → List ChunkedIndex → FineState → Prop
  | first (xs : List ChunkedIndex) (disk : String → Option Bytes) (packed : Nat → Bool) : (∀ q g, disk q = some g → cfg.files q = some g ∧ ∃ c, cfg.pathOf c = some q) →
      Epochs cfg comp given [] xs ⟨.start disk, packed, .idle⟩
  | step {before : List (List ChunkedIndex)} {xs : List ChunkedIndex} {f g : FineState} : Epochs cfg comp given before xs f → FStep (cfg.left []) comp xs f g →
      Epochs cfg comp given before xs g
  | next {before : List (List ChunkedIndex)} {xs : List ChunkedIndex} {f : FineState} (ys : List ChunkedIndex) : Epochs cfg comp given before xs f →
      f.s.done = xs.length → f.job = .idle → (0 < f.s.done → f.s.p.pc = .exited) → Epochs cfg comp given (before ++ [xs]) ys (f.again given)

/-- The same with passes that end anywhere: by their last item, because the loop over the dataset is left, or by an exception. `before` says how many items each of them
gave. The item loader is a new one in each pass. The reader is dropped and its thread stops as soon as it is not within a fetch (`streaming/reader.py:219-223`,
469-472); simplified: the next pass begins only then. -/
inductive EpochsOff (cfg : RemoteCfg) (comp : Bool) : List (List ChunkedIndex × Nat) → List ChunkedIndex → FineState → Prop
  | first (xs : List ChunkedIndex) (disk : String → Option Bytes) (packed : Nat → Bool) : (∀ q g, disk q = some g → cfg.files q = some g ∧ ∃ c, cfg.pathOf c = some q) →
      EpochsOff cfg comp [] xs ⟨.start disk, packed, .idle⟩
  | step {before : List (List ChunkedIndex × Nat)} {xs : List ChunkedIndex} {f g : FineState} : EpochsOff cfg comp before xs f → FStep (cfg.left []) comp xs f g →
      EpochsOff cfg comp before xs g
  | next {before : List (List ChunkedIndex × Nat)} {xs : List ChunkedIndex} {f : FineState} (ys : List ChunkedIndex) : EpochsOff cfg comp before xs f → f.job = .idle →
      EpochsOff cfg comp (before ++ [(xs, f.s.done)]) ys (f.again false)

end LitData
