import Verif.Model.NumpyItems
import Verif.Model.CheckpointStore
import Verif.Model.Resolver

/-!
The functions that users call, `map` and `optimize`, from their arguments to the inputs of the workers: the checks of the arguments, what is removed from the
output directory, the input directory, the number of workers, the grouping and the mapping of the inputs. Models `src/litdata/processing/functions.py`
lines 59-103, 207-324, 345-523, the constructor of `DataProcessor` and its `run` up to the creation of the workers
(`src/litdata/processing/data_processor.py` lines 999-1091, 1093-1175).

Simplified: no user-given reader; the loading of checkpoints is left out here (see `Model/CheckpointStore.lean`); the input files do not lie in the output
directory; environment variables hold numbers; the same machine of every node (`broadcast_object` gives back what is put in).
-/

namespace LitData

/-- What may be given as `inputs` (`functions.py:209`, 347): a list, a tuple, a `StreamingDataLoader` of a length, or something that is no sequence. -/
inductive CallInputs where
  | list (l : List UserItem)
  | tuple (l : List UserItem)
  | loader (len : Nat)
  | other

/-- What surrounds a call: `_IS_IN_STUDIO`, `DATA_OPTIMIZER_NUM_NODES`, the rank of the node, the default number of workers (`functions.py:100-103`), the sizes of
the existing files, the permutations that are drawn, the names of the chunks in an index file, and `_get_work_dir`. -/
structure CallEnv where
  cloud : CloudEnv
  inStudio : Bool
  nodesVar : Option Nat
  nodeRank : Nat
  defaultWorkers : Nat
  size : PathStr → Option Nat
  draw : Nat → List UserItem → List UserItem
  readIndex : Bytes → Py (List String)
  workDir : Py PathStr

/-- `_is_remote_file` (`functions.py:59-61`). -/
def isRemoteFile (p : PathStr) : Bool := ["s3".toList, "gs".toList].contains (urlParse p).scheme

mutual
/-- The leaves of an input: a text, or `none` for a number (`tree_flatten`, `functions.py:65`, `data_processor.py:367`). -/
def UserItem.leaves : UserItem → List (Option PathStr)
  | .int _ => [none]
  | .str s => [some s.toList]
  | .list l => leavesAll l
  | .tuple l => leavesAll l

/-- The leaves of the elements of a list (`functions.py:65`). -/
def leavesAll : List UserItem → List (Option PathStr)
  | [] => []
  | x :: l => x.leaves ++ leavesAll l
end

/-- The sizes of the leaves that are existing files (`data_processor.py:370-378`). -/
def CallEnv.fileSizes (env : CallEnv) (x : UserItem) : List (Option Nat) := x.leaves.map fun l => l.bind env.size

/-- `_get_indexed_paths` (`functions.py:64-71`), without the positions. -/
def CallEnv.indexedPaths (env : CallEnv) (x : UserItem) : List PathStr :=
  (x.leaves.filterMap id).filter fun p => (env.size p).isSome || isRemoteFile p

/-- `text in s`. -/
def hasInfix (text : PathStr) : PathStr → Bool
  | [] => text.isPrefixOf []
  | c :: s => text.isPrefixOf (c :: s) || hasInfix text s

/-- `"/" + os.path.join(*s.split("/")[:4])` (`functions.py:95-96`). -/
def firstFour (s : PathStr) : PathStr :=
  match (splitChar '/' s).take 4 with
  | [] => "/".toList
  | a :: parts => '/' :: joinPaths a parts

/-- `_get_input_dir` (`functions.py:74-97`), given the first input and the second, if there is one. -/
def CallEnv.inferInputDir (env : CallEnv) (first : UserItem) (second : Option UserItem) : Py (Option PathStr) :=
  match env.indexedPaths first with
  | [] => match second with
    | none => .ok none
    | some y => if env.indexedPaths y = [] then .ok none else .error .valueError
  | p :: _ =>
    if isRemoteFile p then .ok (some (osSplit p).1)
    else
      let a := env.cloud.absolute p
      if env.inStudio || startsWith "/teamspace" a then .ok (some (firstFour (if hasInfix "/.project".toList a then p else a)))
      else .ok none

/-- The arguments that `map` and `optimize` share. Of `machine` only whether it is given is used. -/
structure CallArgs where
  inputs : CallInputs
  output : DirArg
  inputDir : Option PathStr
  weights : Option (List Int)
  numWorkers : Option Int
  fastDevRun : FastDevRun
  numNodes : Option Nat
  machine : Bool
  reorder : Bool
  batchSize : Option Int

/-- The arguments of `optimize` beside these (`functions.py:345-370`): whether the limits of a chunk are given, the mode, the checkpoints, and whether the
function is a generator. -/
structure OptimizeArgs extends CallArgs where
  chunkSize : Bool
  chunkBytes : Bool
  mode : OptMode
  useCheckpoint : Bool
  isGenerator : Bool

/-- The checks on the inputs (`functions.py:253-265`, 406-419). -/
def checkInputs (a : CallArgs) : Py Unit :=
  match a.inputs with
  | .loader n => if a.batchSize.isSome then .error .valueError else if a.weights.isSome then .error .valueError
    else if n = 0 then .error .valueError else .ok ()
  | .other => .error .valueError
  | .list l => if l = [] then .error .valueError else .ok ()
  | .tuple l => if l = [] then .error .valueError else .ok ()

/-- Several nodes and other machines exist only in a Studio (`functions.py:267-271`, 423-426). -/
def checkStudio (env : CallEnv) (a : CallArgs) : Py Unit :=
  if !env.inStudio && (a.machine || a.numNodes.isSome) then .error .valueError else .ok ()

/-- Does this process do the work (`functions.py:279`, 434), or does it start the nodes? -/
def runsHere (env : CallEnv) (a : CallArgs) : Bool := a.numNodes.isNone || decide (0 < env.nodesVar.getD 0)

/-- The input directory (`functions.py:292-299`, 464-470). -/
def CallEnv.resolveInput (env : CallEnv) (a : CallArgs) : Py UserDir :=
  let go (l : List UserItem) : Py UserDir := do
    let d ← match nonEmpty a.inputDir with
      | some d => .ok (some d)
      | none => match l with
        | [] => .error .indexError
        | x :: rest => env.inferInputDir x rest.head?
    match d with
    | none => resolveDir env.cloud .none
    | some d => resolveDir env.cloud (.text d)
  match a.inputs with
  | .list l => go l
  | .tuple l => go l
  | _ => .ok ⟨none, none⟩

/-- The number of workers (`functions.py:301-307`, 472-475). -/
def CallEnv.workers (env : CallEnv) (a : CallArgs) : Int :=
  match a.numWorkers with
  | none => env.defaultWorkers
  | some n => if n = 0 then 1 else n

/-- What the recipe hands to `run` (`functions.py:296-297`, 467-468; `data_processor.py:1110-1122`): groups are slices of what was given, and anything but a list
or a loader is refused by `run`. -/
def preparedItems (a : CallArgs) : Py (List UserItem) :=
  match a.inputs with
  | .list l => match batchInputs a.batchSize l with
    | .inl l => .ok l
    | .inr gs => .ok (gs.map .list)
  | .tuple l => match batchInputs a.batchSize l with
    | .inl _ => .error .valueError
    | .inr gs => .ok (gs.map .tuple)
  | .loader n => .ok ((List.range n).map fun i => .int (i : Nat))
  | .other => .error .valueError

/-- The mapping of the inputs (`data_processor.py:1124-1138`) for any number of workers: with a negative one there is no bin (`utilities/packing.py:42-48`), or the
sequential mapping has no part for this node (`data_processor.py:302-329`). -/
def CallEnv.assign (env : CallEnv) (n : Int) (items : List UserItem) (weights : Option (List Int)) (reorder : Bool) : Py (List (List UserItem)) :=
  if 0 < n then mapItemsNp (env.nodesVar.getD 1) env.nodeRank n.toNat env.draw env.fileSizes items weights reorder
  else match weights with
    | some ws => if ws.length ≠ items.length then .error .valueError
      else (packGreedily items ws 0).map fun _ => []
    | none => if reorder then do
        let sizes ← items.mapM (itemBytes env.fileSizes)
        (packGreedily items sizes 0).map fun _ => []
      else .error .runtimeError

/-- What a run starts with. -/
structure RunPlan where
  output : UserDir
  input : UserDir
  starts : List Nat
  workers : List (List UserItem)

/-- How a call goes on: the workers are started, or the nodes are. -/
inductive CallResult where
  | started (p : RunPlan)
  | launched

/-- The inputs of the workers of this node (`data_processor.py:1106-1166`). `weights` are those of the processor. -/
def CallEnv.runItems (env : CallEnv) (a : CallArgs) (input : UserDir) (weights : Option (List Int)) (refuse : Bool) : Py (List (List UserItem)) := do
  let items ← preparedItems a
  let workers ← env.assign (env.workers a) items weights (a.reorder && input.path.isSome)
  if refuse then .error .valueError else .ok (fastDevRun a.fastDevRun workers)

/-- The outputs: local files, and objects in the stores. -/
structure Outputs where
  files : LocalFs
  objects : Objects Bytes

/-- The components of an absolute path. -/
def pathParts (p : PathStr) : List String := ((splitChar '/' p).filter (· ≠ [])).map String.ofList

/-- `_assert_dir_has_index_file` (`streaming/resolver.py:259-336`), when the stores answer. -/
def Outputs.clear (o : Outputs) (d : UserDir) (mode : OptMode) (useCheckpoint : Bool) : Py Unit × Outputs :=
  match mode with
  | .other _ => (.error .valueError, o)
  | .append => (.ok (), o)
  | m => match d.url with
    | none => match nonEmpty d.path with
      | none => (.error .assertion, o)
      | some p => let r := assertDirLocal (pathParts p) m useCheckpoint o.files
        (r.1, { o with files := r.2 })
    | some url => match fsProvider url with
      | .error e => (.error e, o)
      | .ok st => match bucketAndPath url st.scheme with
        | .error e => (.error e, o)
        | .ok k => let r := liftBucket o.objects k.1 (assertDirRemote st k.2 m useCheckpoint false)
          (r.1, { o with objects := r.2 })

/-- `_cleanup_checkpoints` (`data_processor.py:1335-1359`). -/
def Outputs.cleanup (o : Outputs) (d : UserDir) : Py Unit × Outputs :=
  match d.url with
  | none => match d.path with
    | none => (.ok (), o)
    | some p =>
      if o.files.has (pathParts p) then match o.files.rmtree (pathParts p ++ [".checkpoints"]) with
        | .ok fs => (.ok (), { o with files := fs })
        | .error e => (.error e, o)
      else (.ok (), o)
  | some url => match fsProvider url with
    | .error e => (.error e, o)
    | .ok st => match st.deleteAll o.objects (joinPath (rstripSlash url ++ "/".toList) ".checkpoints".toList) with
      | .ok ob => (.ok (), { o with objects := ob })
      | .error e => (.error e, o)

/-- `read_index_file_content` (`processing/utilities.py:203-241`): the names of the chunks. Every error while reading from a store counts as no index. -/
def CallEnv.existing (env : CallEnv) (o : Outputs) (d : UserDir) : Py (Option (List String)) :=
  match d.url with
  | none => match d.path with
    | none => .ok none
    | some p => match o.files.lookup (pathParts p ++ ["index.json"]) with
      | none => .ok none
      | some b => (env.readIndex b).map some
  | some url => match fsProvider url with
    | .error e => .error e
    | .ok st => match (st.download o.objects (joinPath (rstripSlash url ++ "/".toList) "index.json".toList)).bind env.readIndex with
      | .ok l => .ok (some l)
      | .error _ => .ok none

/-- The output directory of `optimize` (`functions.py:436-450`): in a job of several nodes a folder of the Studio is replaced by one of the work. The prefix is taken
off once. -/
def CallEnv.optimizeOutput (env : CallEnv) (a : OptimizeArgs) : Py UserDir := do
  let d ← resolveDir env.cloud a.output
  match d.url, nonEmpty d.path with
  | none, some p =>
    if startsWith "/teamspace/studios/this_studio" p && decide (0 < env.nodesVar.getD 0) then do
      let w ← env.workDir
      resolveDir env.cloud (.text (rstripSlash (lstripSlash w) ++ "/".toList ++
        rstripSlash (lstripSlash (p.drop "/teamspace/studios/this_studio".toList.length))))
    else .ok d
  | _, _ => .ok d

/-- The checks at the start of `optimize` (`functions.py:403-426`). -/
def optimizeChecks (env : CallEnv) (a : OptimizeArgs) : Py Unit := do
  match a.mode with
  | .other _ => .error .valueError
  | _ => .ok ()
  checkInputs a.toCallArgs
  if !a.chunkSize && !a.chunkBytes then .error .valueError else .ok ()
  checkStudio env a.toCallArgs

/-- Is a folder of a Studio given as output (`functions.py:282`, 452)? -/
def inCloudspaces (d : UserDir) : Bool := d.url.any (hasInfix "cloudspaces".toList)

/-- `optimize` between the removal of the old dataset and `run` (`functions.py:464-517`; `data_processor.py:876-877`): the input directory, the first chunk of every
worker, and the limits of the chunks. -/
def CallEnv.optimizePrepare (env : CallEnv) (a : OptimizeArgs) (o : Outputs) (d : UserDir) : Py (UserDir × List Nat) := do
  let input ← env.resolveInput a.toCallArgs
  let old ← if a.mode = .append then env.existing o d else .ok none
  let starts ← match old with
    | none => .ok (List.replicate (env.workers a.toCallArgs).toNat 0)
    | some names => startingChunks (env.workers a.toCallArgs).toNat names
  if a.chunkSize && a.chunkBytes then .error .valueError else .ok (input, starts)

/-- `optimize` (`functions.py:345-523`). The weights are not given to the processor (`functions.py:489-503`). The outputs are returned also when an exception is
raised. -/
def CallEnv.optimizeCall (env : CallEnv) (a : OptimizeArgs) (o : Outputs) : Py CallResult × Outputs :=
  match optimizeChecks env a with
  | .error e => (.error e, o)
  | .ok () =>
    if !runsHere env a.toCallArgs then (.ok .launched, o)
    else match env.optimizeOutput a with
      | .error e => (.error e, o)
      | .ok d =>
        if inCloudspaces d then (.error .valueError, o)
        else match o.clear d a.mode a.useCheckpoint with
          | (.error e, o) => (.error e, o)
          | (.ok (), o) => match env.optimizePrepare a o d with
            | .error e => (.error e, o)
            | .ok (input, starts) => match (if a.useCheckpoint then (.ok (), o) else o.cleanup d) with
              | (.error e, o) => (.error e, o)
              | (.ok (), o) => match env.runItems a.toCallArgs input none (a.useCheckpoint && a.isGenerator) with
                | .error e => (.error e, o)
                | .ok ws => (.ok (.started ⟨d, input, starts, ws⟩), o)

/-- `_assert_dir_is_empty` (`streaming/resolver.py:232-256`): a local folder is not examined. -/
def Outputs.checkEmpty (o : Outputs) (d : UserDir) : Py Unit :=
  match d.url with
  | none => .ok ()
  | some url => match fsProvider url with
    | .error e => .error e
    | .ok st => match bucketAndPath url st.scheme with
      | .error e => .error e
      | .ok k => if st.isEmpty (((o.objects.filter fun e => e.1.1 == k.1).map fun e => (e.1.2, e.2))) k.2 then .ok () else .error .runtimeError

/-- `map` (`functions.py:207-324`). It removes nothing. -/
def CallEnv.mapCall (env : CallEnv) (a : CallArgs) (errorWhenNotEmpty : Bool) (o : Outputs) : Py CallResult := do
  checkInputs a
  checkStudio env a
  if !runsHere env a then .ok .launched
  else do
    let d ← resolveDir env.cloud a.output
    if inCloudspaces d then .error .valueError
    else do
      if errorWhenNotEmpty then o.checkEmpty d else .ok ()
      let input ← env.resolveInput a
      let ws ← env.runItems a input a.weights false
      .ok (.started ⟨d, input, List.replicate (env.workers a).toNat 0, ws⟩)

end LitData
