import Verif.Model.Loader
import Verif.Model.Combined

/-!
What a script does with one `StreamingDataLoader` over a `CombinedStreamingDataset`: passes over a loader into which a state was loaded.
Models `src/litdata/streaming/dataloader.py:632-667`, 705-748 together with `_num_samples_yielded` of the dataset in the main process
(`src/litdata/streaming/combined.py:158-161`, 171-191, 224-225). `load_state_dict` gives the same dictionary to the loader and to the dataset, so that what the loader
writes into it changes that of the dataset as well, until the loader makes a new dictionary for its next epoch. Simplified: at least one worker, and the batches come from
the workers in turn.
-/

namespace LitData

/-- The loader; whether its dictionary is the one of the dataset; the dataset; and the counters with which the workers of the last pass have begun, of which they got a copy. -/
structure CombinedScript where
  loader : LoaderState
  shared : Bool
  ds : CombinedDataset
  base : Nat → List Nat

/-- The counters with which worker `w` begins (`streaming/combined.py:176-180`, 243); `n` is the number of datasets. -/
def combinedBase (n : Nat) (ds : CombinedDataset) (w : Nat) : List Nat :=
  (match ds.numSamplesYielded with
    | none => none
    | some m => m.lookup w).getD (List.replicate n 0)

/-- The beginning of a pass (`dataloader.py:632-642`): the dictionary is a new one unless the loader restores; the one of the dataset stays (`streaming/combined.py:158-161`). -/
def combinedPassBegin (n : Nat) (s : CombinedScript) : CombinedScript :=
  { loader := loaderBegin s.loader, shared := s.shared && s.loader.restore, ds := combinedReset s.ds, base := combinedBase n (combinedReset s.ds) }

/-- A batch of the worker whose turn it is: `inc` is what this worker has taken of each dataset in this pass (`dataloader.py:655-664`, `streaming/combined.py:301-336`). -/
def combinedPassBatch (nw : Nat) (s : CombinedScript) (inc : List Nat) : CombinedScript :=
  let w := s.loader.cycle % cycleLength nw
  let counts := List.zipWith (· + ·) (s.base w) inc
  { s with loader := loaderBatchCombined nw counts s.loader,
           ds := if s.shared then ⟨s.ds.numSamplesYielded.map fun m => dictPut m w counts⟩ else s.ds }

/-- A pass, read to its end (`dataloader.py:667`) or broken off. -/
def combinedPass (n nw : Nat) (s : CombinedScript) (p : List (List Nat) × Bool) : CombinedScript :=
  let t := p.1.foldl (combinedPassBatch nw) (combinedPassBegin n s)
  if p.2 then { t with loader := loaderEnd t.loader } else t

/-- `load_state_dict` (`dataloader.py:705-748`, `streaming/combined.py:202-225`). -/
def combinedScriptLoad (iterateOverAll : Bool) (len : Nat) (d : LoaderDict) (s : CombinedScript) : CombinedScript :=
  { s with loader := loaderLoadCombined iterateOverAll len d s.loader, shared := true, ds := ⟨some d.yieldedCombined⟩ }

/-- A loader and a dataset that were just made (`dataloader.py:567-630`). -/
def combinedScriptNew : CombinedScript := ⟨newLoader, false, ⟨none⟩, fun _ => []⟩

end LitData
