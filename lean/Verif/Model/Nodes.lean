import Verif.Model.Merge
import Verif.Model.LoaderIter

/-!
The end of `optimize` on several nodes: each node merges the index files of its workers and uploads the result, the last node merges the
indexes of all nodes. Models `src/litdata/processing/data_processor.py` lines 63-70, 98-105, 897-981.
-/

namespace LitData

/-- Where a node is in `_done` (`processing/data_processor.py:897-937`): its workers have just ended; it is the last node and fetches the
index of node `k` (lines 966-977); it has returned; it has raised. -/
inductive NodePhase where
  | working
  | collecting (k : Nat)
  | done
  | failed
  deriving DecidableEq

/-- The index files in the output directory, and the cache directory and phase of each node. -/
structure NodesWorld (C : Type) where
  out : String → Option (IndexData C)
  cache : Nat → CacheDir C
  phase : Nat → NodePhase

/-- `upload_file`, or `shutil.copyfile` to the output directory (`processing/data_processor.py:950-957`). -/
def putIndex {C : Type} (out : String → Option (IndexData C)) (name : String) (x : IndexData C) : String → Option (IndexData C) :=
  fun f => if f = name then some x else out f

/-- `node_rank if num_nodes > 1 else None` (`processing/data_processor.py:907`). -/
def nodeRankArg (nodes n : Nat) : Option Nat := if nodes > 1 then some n else none

/-- The name of the index file that a node uploads (`processing/data_processor.py:945-948`). -/
def nodeOutName (nodes n : Nat) : String := if nodes > 1 then nodeIndexName n else "index.json"

/-- One step of `_done` on one of the nodes (`processing/data_processor.py:897-981`). `cloud` is `obj.scheme in _SUPPORTED_PROVIDERS`; otherwise
the output directory is a folder that all nodes see. `existing` is the `existing_index` of the recipe. Merging and uploading are
one step, since no other node sees the cache directory. -/
inductive NodeStep {C : Type} [DecidableEq C] (cloud : Bool) (nodes : Nat) (existing : Option (IndexData C)) : NodesWorld C → NodesWorld C → Prop
  /-- `_merge_no_wait` and the upload (lines 905-909, 939-957). -/
  | merge (s : NodesWorld C) (n : Nat) (d : CacheDir C) (x : IndexData C) (hn : n < nodes) (hp : s.phase n = .working)
      (hm : mergeNoWait (nodeRankArg nodes n) existing (s.cache n) = (.ok (), d)) (hx : dirGet d (nodeOutName nodes n) = some (.index x)) :
      NodeStep cloud nodes existing s ⟨putIndex s.out (nodeOutName nodes n) x, upd s.cache n d,
        upd s.phase n (if nodes > 1 ∧ n + 1 = nodes then .collecting 0 else .done)⟩
  /-- `_merge_no_wait` raises. -/
  | mergeFail (s : NodesWorld C) (n : Nat) (d : CacheDir C) (e : Err) (hn : n < nodes) (hp : s.phase n = .working)
      (hm : mergeNoWait (nodeRankArg nodes n) existing (s.cache n) = (.error e, d)) :
      NodeStep cloud nodes existing s { s with cache := upd s.cache n d, phase := upd s.phase n .failed }
  /-- The index of node `k` is in the output directory and is copied to the cache directory (lines 966-977). While it is not there,
  `_wait_for_file_to_exist` makes the last node wait (lines 98-105). -/
  | collect (s : NodesWorld C) (n k : Nat) (x : IndexData C) (hn : n < nodes) (hp : s.phase n = .collecting k) (hk : k < nodes - 1)
      (hx : s.out (nodeIndexName k) = some x) :
      NodeStep cloud nodes existing s { s with
        cache := upd s.cache n (dirWrite (s.cache n) (nodeIndexName k) (.index x)), phase := upd s.phase n (.collecting (k + 1)) }
  /-- In a folder nobody waits: `shutil.copyfile` raises (line 977). -/
  | missing (s : NodesWorld C) (n k : Nat) (hn : n < nodes) (hp : s.phase n = .collecting k) (hk : k < nodes - 1) (hc : cloud = false)
      (hx : s.out (nodeIndexName k) = none) :
      NodeStep cloud nodes existing s { s with phase := upd s.phase n .failed }
  /-- All indexes have been fetched, they are merged and `index.json` is uploaded (lines 979-981). -/
  | finish (s : NodesWorld C) (n : Nat) (d : CacheDir C) (x : IndexData C) (hn : n < nodes) (hp : s.phase n = .collecting (nodes - 1))
      (hm : mergeNoWait none none (s.cache n) = (.ok (), d)) (hx : dirGet d "index.json" = some (.index x)) :
      NodeStep cloud nodes existing s ⟨putIndex s.out "index.json" x, upd s.cache n d, upd s.phase n .done⟩
  /-- Merging them raises. -/
  | finishFail (s : NodesWorld C) (n : Nat) (d : CacheDir C) (e : Err) (hn : n < nodes) (hp : s.phase n = .collecting (nodes - 1))
      (hm : mergeNoWait none none (s.cache n) = (.error e, d)) :
      NodeStep cloud nodes existing s { s with cache := upd s.cache n d, phase := upd s.phase n .failed }

/-- The states that can be reached, with the number of steps: the nodes run `_done` in any interleaving. -/
inductive NodesReach {C : Type} [DecidableEq C] (cloud : Bool) (nodes : Nat) (existing : Option (IndexData C)) (out0 : String → Option (IndexData C))
    (cache0 : Nat → CacheDir C) : Nat → NodesWorld C → Prop
  | start : NodesReach cloud nodes existing out0 cache0 0 ⟨out0, cache0, fun _ => .working⟩
  | step {s s' : NodesWorld C} {k : Nat} (h : NodesReach cloud nodes existing out0 cache0 k s) (hs : NodeStep cloud nodes existing s s') :
      NodesReach cloud nodes existing out0 cache0 (k + 1) s'

/-- What the last node returns (`processing/data_processor.py:911-934`), from the chunks of the index. `data_format` and
`compression` are left out. -/
structure OptResult where
  size : Nat
  numBytes : Nat
  numChunks : Nat
  numBytesPerChunk : List Nat
  deriving DecidableEq

/-- `_Result(...)` (`processing/data_processor.py:914-934`). -/
def optResult (chunks : List ChunkInfo) : OptResult :=
  ⟨(chunks.map fun c => match c.dim with
    | some d => d
    | none => c.chunkSize).sum, (chunks.map (·.chunkBytes)).sum, chunks.length,
   if chunks.length < 1024 then chunks.map (·.chunkSize) else []⟩

end LitData
