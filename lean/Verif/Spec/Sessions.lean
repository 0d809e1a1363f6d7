import Verif.Spec.Regions
import Verif.Model.Sessions

/-! What a program that reads several datasets should get: a dataset is nothing but a list of samples, there are no item loaders. -/

namespace LitData

/-- A dataset: its directory, its chunks with their regions. -/
structure RefDs (V : Type) where
  dir : DataDir V
  sel : List ChunkInfo
  roi : List (Nat × Nat)

/-- The samples of a dataset, one after the other; `content` gives the samples stored in a file. -/
def RefDs.samples {V : Type} (content : String → List Bytes) (r : RefDs V) : List Bytes :=
  (regionSamples r.sel r.roi).map fun s => (content (r.dir.join s.1.filename)).getD s.2 []

/-- The values that a program reads: `dataset[i]` is the `i`-th sample of the dataset, an index that is out of range is refused, and splitting adds datasets. -/
def refRun {V : Type} (content : String → List Bytes) : List (RefDs V) → List SessOp → List V × Option Err
  | _, [] => ([], none)
  | rs, .get d i :: ops => match rs[d]? with
    | none => ([], some .indexError)
    | some r =>
      if i < 0 ∨ (r.samples content).length ≤ i then ([], some .valueError)
      else match r.dir.deser ((r.samples content).getD i.toNat []) with
        | .error e => ([], some e)
        | .ok v => (v :: (refRun content rs ops).1, (refRun content rs ops).2)
  | rs, .split d perm ratios q :: ops => match rs[d]? with
    | none => ([], some .indexError)
    | some r => match trainTestSplit perm r.dir.original (r.sel.map (·.filename)) r.roi ratios q with
      | .error e => ([], some e)
      | .ok outs => refRun content (rs ++ outs.map fun o => ⟨r.dir, o.1, o.2⟩) ops

end LitData
