import Verif.Model.Merge

/-!
`merge_datasets`. Models `src/litdata/processing/functions.py` lines 577-696 and
`src/litdata/processing/utilities.py` lines 203-241.
-/

namespace LitData

/-- `Dir` (`streaming/resolver.py:29-38`): a local directory, or a URL. Compared field by field. -/
structure MDir where
  path : Option String
  url : Option String
  deriving DecidableEq

/-- The `config` of an index: the two entries that are looked at, and all others. -/
structure MConfig (O : Type) where
  dataFormat : List String
  compression : Option String
  other : O
  deriving DecidableEq

/-- The content of `index.json`. `config` is `null` for a dataset written without a single chunk. -/
structure MIndex (O : Type) where
  config : Option (MConfig O)
  chunks : List ChunkInfo
  deriving DecidableEq

/-- A file: an index, or anything else. -/
inductive MFile (O : Type) where
  | index (i : MIndex O)
  | data (b : Bytes)
  deriving DecidableEq

/-- The files of all directories and buckets, by the place of the directory and the name in it. -/
abbrev MFs (O : Type) := String → String → Option (MFile O)

/-- Writing (or replacing) one file. -/
def MFs.put {O : Type} (fs : MFs O) (l f : String) (x : MFile O) : MFs O :=
  fun l' f' => if l' = l ∧ f' = f then some x else fs l' f'

/-- `read_index_file_content` (`processing/utilities.py:203-241`). `loc` gives the place that a `Dir` names:
different spellings may name the same place. A file that is not JSON raises `JSONDecodeError` (a
`ValueError`) for a local directory, and counts as absent for a URL. -/
def readIndexContent {O : Type} (loc : MDir → String) (fs : MFs O) (d : MDir) : Py (Option (MIndex O)) :=
  if d.url = none ∧ d.path = none then .ok none
  else match fs (loc d) "index.json" with
    | none => .ok none
    | some (.index i) => .ok (some i)
    | some (.data _) => if d.url = none then .error .valueError else .ok none

/-- `CopyInfo` (`processing/functions.py:577-581`). -/
structure CopyInfo where
  inputDir : MDir
  old : String
  new : String
  deriving DecidableEq

/-- The comparison of the configurations with the first one (`processing/functions.py:623-628`); a `null`
configuration cannot be subscripted. -/
def checkConfigs {O : Type} (first : Option (MConfig O)) : List (MIndex O) → Py Unit
  | [] => .ok ()
  | i :: is => match first, i.config with
    | some a, some b =>
      if a.dataFormat ≠ b.dataFormat then .error .valueError
      else if a.compression ≠ b.compression then .error .valueError
      else checkConfigs first is
    | _, _ => .error .typeError

/-- The new entries and the copies of the chunks of one dataset, from number `counter` on
(`processing/functions.py:635-644`). -/
def renumber (d : MDir) (compression : Option String) : Nat → List ChunkInfo → List (ChunkInfo × CopyInfo)
  | _, [] => []
  | counter, c :: cs =>
    ({ c with filename := chunkFilename compression 0 counter },
      ⟨d, c.filename, chunkFilename compression 0 counter⟩) :: renumber d compression (counter + 1) cs

/-- The loop over the datasets (`processing/functions.py:633-644`). -/
def mergePlan {O : Type} : Nat → List (MDir × MIndex O) → List (ChunkInfo × CopyInfo)
  | _, [] => []
  | counter, (d, i) :: rest =>
    renumber d (i.config.bind (·.compression)) counter i.chunks ++ mergePlan (counter + i.chunks.length) rest

/-- Everything before the copies (`processing/functions.py:598-646`): the new index and the copies to make. -/
def planMerge {O : Type} (loc : MDir → String) (dirs : List MDir) (out : MDir) (fs : MFs O) :
    Py (MIndex O × List CopyInfo) :=
  if dirs.length ≤ 1 then .error .valueError
  else if out ∈ dirs then .error .valueError
  else do
    let contents ← dirs.mapM (readIndexContent loc fs)
    if contents.any Option.isNone then throw .valueError
    let indexes := contents.filterMap id
    let o ← readIndexContent loc fs out
    if o.isSome then throw .valueError
    match indexes with
    | [] => throw .assertion
    | i :: is =>
      checkConfigs i.config is
      let plan := mergePlan 0 (dirs.zip indexes)
      pure (⟨i.config, plan.map (·.1)⟩, plan.map (·.2))

/-- `_apply_copy` (`processing/functions.py:662-678`): one file is read and written in full; a missing
source raises before the target is opened. -/
def applyCopy {O : Type} (loc : MDir → String) (out : MDir) (fs : MFs O) (c : CopyInfo) : Py (MFs O) :=
  if out.url.isNone = c.inputDir.url.isNone then
    match fs (loc c.inputDir) c.old with
    | none => .error .fileNotFound
    | some x => .ok (fs.put (loc out) c.new x)
  else .error .notImplemented

/-- The thread pool (`processing/functions.py:650-657`): all copies are made, in some order; an exception is
raised after they ended. -/
def runCopies {O : Type} (loc : MDir → String) (out : MDir) : List CopyInfo → MFs O → Py Unit × MFs O
  | [], fs => (.ok (), fs)
  | c :: cs, fs => match applyCopy loc out fs c with
    | .ok fs' => runCopies loc out cs fs'
    | .error e => (.error e, (runCopies loc out cs fs).2)

/-- `merge_datasets` (`processing/functions.py:584-659`). `sched` is the order in which the threads make the
copies. -/
def mergeDatasets {O : Type} (loc : MDir → String) (sched : List CopyInfo → List CopyInfo) (dirs : List MDir)
    (out : MDir) (fs : MFs O) : Py Unit × MFs O :=
  match planMerge loc dirs out fs with
  | .error e => (.error e, fs)
  | .ok (index, copies) => match runCopies loc out (sched copies) fs with
    | (.error e, fs') => (.error e, fs')
    | (.ok (), fs') => (.ok (), fs'.put (loc out) "index.json" (.index index))

end LitData
