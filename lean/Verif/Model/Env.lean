import Verif.Model.Append

/-!
How a process finds its place among the others.
Models `src/litdata/utilities/env.py` lines 38-83 (`_DistributedEnv.detect`), 112-127 (`_WorkerEnv.detect`), 175-201 (`num_shards`,
`shard_rank`), 210-212, and the variables that a worker of `map` and `optimize` sets
(`src/litdata/processing/data_processor.py` lines 600-603).
-/

namespace LitData

/-- What a process can see: environment variables, the world size and rank of an initialized `torch.distributed`, the number of GPUs of
this machine if there are any, and the number and rank of the data loader worker that it is. -/
structure ProcView where
  var : String → Option (List Char)
  torch : Option (Nat × Nat)
  gpus : Option Nat
  worker : Option (Nat × Nat)

/-- `_DistributedEnv` (`utilities/env.py:32-35`). -/
structure DistEnv where
  worldSize : Nat
  globalRank : Nat
  numNodes : Nat
  deriving DecidableEq, Repr

/-- `int(os.environ.get(name, default))`. -/
def intVar (v : ProcView) (name : String) (default : Nat) : Py Nat :=
  match v.var name with
  | none => .ok default
  | some s => parseInt s

/-- `_instantiate_in_map_or_optimize` (`utilities/env.py:78-83`). -/
def detectOptimize (v : ProcView) : Py DistEnv := do
  let rank ← intVar v "DATA_OPTIMIZER_GLOBAL_RANK" 0
  let workers ← intVar v "DATA_OPTIMIZER_NUM_WORKERS" 0
  let nodes ← intVar v "DATA_OPTIMIZER_NUM_NODES" 1
  .ok ⟨workers * nodes, rank, nodes⟩

/-- The number of nodes guessed from the GPUs (`utilities/env.py:52-58`). -/
def guessNodes (world : Nat) : Option Nat → Nat
  | some gpus => if 1 ≤ world / gpus then world / gpus else 1
  | none => 1

/-- `_DistributedEnv.detect` (`utilities/env.py:38-75`). `torch.distributed` reports a world size of -1 to a process outside the group; here
that is an uninitialized one. `gpus` is not zero when CUDA is available. -/
def detectDist (v : ProcView) : Py DistEnv :=
  if (v.var "DATA_OPTIMIZER_GLOBAL_RANK").isSome then detectOptimize v
  else do
    let (world, rank, nodes) ← match v.torch with
      | some (world, rank) =>
        if v.gpus.isSome ∧ 1 < guessNodes world v.gpus ∧ world % v.gpus.getD 1 ≠ 0 then .error .runtimeError
        else .ok (world, rank, guessNodes world v.gpus)
      | none => .ok (1, 0, 1)
    let world ← intVar v "WORLD_SIZE" world
    let rank ← intVar v "GLOBAL_RANK" rank
    let nodes ← intVar v "NNODES" nodes
    .ok ⟨world, rank, nodes⟩

/-- `_WorkerEnv.detect` (`utilities/env.py:110-123`): number of workers and rank. -/
def detectWorker (v : ProcView) : Nat × Nat := v.worker.getD (1, 0)

/-- `num_shards` (`utilities/env.py:169-179`). -/
def numShards (d : DistEnv) (w : Nat × Nat) : Nat := w.1 * d.worldSize

/-- `shard_rank` (`utilities/env.py:182-192`), and the number of a worker in `streaming/dataset.py:290`, `streaming/writer.py:144` and
`streaming/reader.py:344`. -/
def shardRank (d : DistEnv) (w : Nat × Nat) : Nat := d.globalRank * w.1 + w.2

/-- The view of worker `worker` of node `node` in `map` and `optimize`: `_set_environ_variables`
(`processing/data_processor.py:600-603`), with the variables of the node (`processing/data_processor.py:63-70`). -/
def optimizeView (nodes workers node worker : Nat) : ProcView :=
  { var := fun name =>
      if name = "DATA_OPTIMIZER_GLOBAL_RANK" then some (Nat.toDigits 10 (node * workers + worker))
      else if name = "DATA_OPTIMIZER_NUM_WORKERS" then some (Nat.toDigits 10 workers)
      else if name = "DATA_OPTIMIZER_NUM_NODES" then some (Nat.toDigits 10 nodes)
      else none
    torch := none
    gpus := none
    worker := none }

end LitData
