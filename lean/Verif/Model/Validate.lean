import Verif.Model.Basic

/-!
Checking a state dict against the running dataset.
Models `src/litdata/streaming/dataset.py` lines 475-498 and 508-620.
-/

namespace LitData

/-- The state dict (`streaming/dataset.py:483-498`). Item loader states are dictionaries; `L` stands
for their type. -/
structure StateDict (L : Type) where
  numSamplesYielded : Nat
  numWorkers : Nat
  batchSize : Nat
  currentEpoch : Nat
  inputDirPath : Option String
  inputDirUrl : Option String
  cacheDirPath : Option String
  itemLoader : Option L
  dropLast : Bool
  seed : Nat
  worldSize : Nat
  shuffle : Bool
  subsampledFiles : List String
  regionOfInterest : List (Nat × Nat)
  deriving DecidableEq, Repr

/-- The attributes of the running dataset that are compared (`streaming/dataset.py:508-620`):
`workers` is `worker_env.world_size`, `length` is `len(self)`. -/
structure RunningDataset (L : Type) where
  shuffle : Bool
  workers : Nat
  inputDirPath : Option String
  inputDirUrl : Option String
  seed : Nat
  itemLoader : Option L
  dropLast : Bool
  length : Nat
  force : Bool

/-- Path resolution used by the check, kept abstract: `_should_replace_path`
(`streaming/dataset.py`, from `utilities/dataset_utilities.py`) and `_try_create_cache_dir`. -/
structure PathEnv where
  shouldReplace : Option String → Bool
  cachePath : Option String → Option String → Option String

/-- The path the state's `input_dir_path` must equal (`streaming/dataset.py:545-569`). An empty
string is falsy in Python, hence the filter. -/
def expectedPath (env : PathEnv) {L : Type} (st : StateDict L) : Option String :=
  if env.shouldReplace st.inputDirPath then
    env.cachePath (match st.inputDirPath with
      | some p => if p = "" then st.inputDirUrl else some p
      | none => st.inputDirUrl) st.cacheDirPath
  else st.inputDirPath

/-- One comparison of `_validate_state_dict`, for example `streaming/dataset.py:521-531`: when the entry
differs, raise `ValueError` unless `force` (`_force_override_state_dict`), and then overwrite the entry. -/
def checkField {L : Type} (differs force : Bool) (st fixed : StateDict L) : Py (StateDict L) :=
  if differs then (if force then .ok fixed else .error .valueError) else .ok st

/-- `_validate_state_dict` (`streaming/dataset.py:508-620`): the comparisons in source order. -/
def validate {L : Type} [DecidableEq L] (env : PathEnv) (ds : RunningDataset L) (st0 : StateDict L) :
    Py (StateDict L) :=
  (checkField (st0.shuffle != ds.shuffle) ds.force st0 { st0 with shuffle := ds.shuffle }).bind fun st1 =>
  (checkField (st1.numWorkers != ds.workers) ds.force st1 { st1 with numWorkers := ds.workers }).bind fun st2 =>
  (checkField (expectedPath env st2 != ds.inputDirPath) ds.force st2
    { st2 with inputDirPath := ds.inputDirPath }).bind fun st3 =>
  (checkField (st3.inputDirUrl != ds.inputDirUrl) ds.force st3
    { st3 with inputDirUrl := ds.inputDirUrl }).bind fun st4 =>
  (checkField (st4.seed != ds.seed) ds.force st4 { st4 with seed := ds.seed }).bind fun st5 =>
  (checkField (ds.itemLoader.isSome && (st5.itemLoader != ds.itemLoader)) ds.force st5
    { st5 with itemLoader := ds.itemLoader }).bind fun st6 =>
  (checkField (st6.dropLast != ds.dropLast) ds.force st6 { st6 with dropLast := ds.dropLast }).bind fun st7 =>
  if st7.numSamplesYielded > ds.length then .error .valueError else .ok st7

end LitData
