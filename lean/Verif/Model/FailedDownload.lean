import Verif.Model.ReaderFine

/-!
Reading a remote dataset when a download fails.
Models `PrepareChunksThread.run` and `_force_download` (`src/litdata/streaming/reader.py` lines 202-247) with exceptions: nothing there catches one, so the
thread ends where it is, and the reader is not told. What a failed download has written stays (`src/litdata/streaming/downloader.py` lines 225-226,
`src/litdata/streaming/config.py` lines 167-168).
-/

namespace LitData

/-- The state of `Model/ReaderFine.lean`, and whether an exception has ended the thread (`streaming/reader.py:219-247`). -/
structure FailState where
  f : FineState
  dead : Bool

/-- The steps of a worker, of its thread, which may fail, and of other workers. -/
inductive CutStep (cfg : RemoteCfg) (comp : Bool) (xs : List ChunkedIndex) : FailState → FailState → Prop
  /-- As long as no download fails everything is as before (`Model/ReaderFine.lean`). -/
  | live (f g : FineState) : FStep cfg comp xs f g → CutStep cfg comp xs ⟨f, false⟩ ⟨g, false⟩
  /-- An exception between the beginning of a fetch and its end (`streaming/reader.py:209-217`, 235-244). -/
  | die (f : FineState) : f.job ≠ .idle → CutStep cfg comp xs ⟨f, false⟩ ⟨f, true⟩
  /-- The reader goes on (`streaming/reader.py:347-448`): it neither looks whether its thread is alive, nor makes another one before the last item. -/
  | reader (f : FineState) (t : RemoteState) : ReaderStep cfg xs f.s t → (f.s.reader.thread = true ∨ t.reader.thread = false) →
      CutStep cfg comp xs ⟨f, true⟩ ⟨{ f with s := t }, true⟩
  /-- Other workers go on (`FStep.others`). -/
  | others (f : FineState) (c : Nat) (info : ChunkInfo) (g : Option Bytes) : c ∈ cfg.prep.others → cfg.chunks[c]? = some info →
      g = none ∨ g = cfg.files (cfg.join info.filename) ∨
        ((∃ part, g = some part ∧ part.length < info.chunkBytes) ∧ ∀ h, f.s.disk (cfg.join info.filename) = some h → h.length < info.chunkBytes) →
      CutStep cfg comp xs ⟨f, true⟩ ⟨{ f with s := { f.s with disk := setFile f.s.disk (cfg.join info.filename) g } }, true⟩

/-- Any number of steps. -/
inductive CutSteps (cfg : RemoteCfg) (comp : Bool) (xs : List ChunkedIndex) : FailState → FailState → Prop
  | refl (a : FailState) : CutSteps cfg comp xs a a
  | tail {a b c : FailState} : CutSteps cfg comp xs a b → CutStep cfg comp xs b c → CutSteps cfg comp xs a c

end LitData
