import Verif.Model.FsProvider
import Verif.Model.Checkpoint
import Verif.Model.Modes

/-!
Where the checkpoints of `optimize` are kept, in a local folder or an object store: `_cleanup_checkpoints`, `_save_current_config` and `_load_checkpoint_config`
(`src/litdata/processing/data_processor.py` lines 1335-1490), and their place in a run (lines 1097-1099, 1139-1156, 1265-1267).

Simplified: the contents of the JSON files are values; a file that holds something else than is looked for has none of its keys. The temporary folder is named by the caller.
-/

namespace LitData

/-- What a JSON file holds: `config.json`, a checkpoint, or something else (`processing/data_processor.py:1366-1369`, `streaming/writer.py:557`). -/
inductive CkText where
  | config (numWorkers : Nat) (items : List (List UserItem))
  | ckpt (c : Ckpt)
  | other

/-- The name of the checkpoint of a worker (`processing/data_processor.py:1434`, 1478). -/
def ckptName (worker : Nat) : PathStr := "checkpoint-".toList ++ Nat.toDigits 10 worker ++ ".json".toList

/-- The checkpoints of the workers that have one (`processing/data_processor.py:1436-1445`, 1480-1489). -/
def readCkpts (dir : PathStr) (files : LocalFiles CkText) : List Nat → Py (List Ckpt)
  | [] => .ok []
  | i :: is => match files (joinPath dir (ckptName i)) with
    | none => do
      let rest ← readCkpts dir files is
      return ⟨[], 0⟩ :: rest
    | some (.ckpt c) => do
      let rest ← readCkpts dir files is
      return c :: rest
    | some _ => .error .keyError

/-- The configuration in a folder is compared and the checkpoints are read (`processing/data_processor.py:1417-1446`, 1462-1489). -/
noncomputable def loadFrom (dir : PathStr) (files : LocalFiles CkText) (numWorkers : Nat) (items : List (List UserItem)) : Py (List Ckpt) :=
  match files (joinPath dir "config.json".toList) with
  | none => .ok (List.replicate numWorkers ⟨[], 0⟩)
  | some (.config n its) => do
    checkConfig (n, its) numWorkers items
    readCkpts dir files (List.range numWorkers)
  | some _ => .error .keyError

/-- `_load_checkpoint_config` for a local folder (`processing/data_processor.py:1404-1446`). -/
noncomputable def loadLocal (output : PathStr) (files : LocalFiles CkText) (numWorkers : Nat) (items : List (List UserItem)) : Py (List Ckpt) :=
  loadFrom (joinPath output ".checkpoints".toList) files numWorkers items

/-- The URL of the folder of checkpoints (`processing/data_processor.py:1390`, 1453). -/
def checkpointsUrl (url : PathStr) : PathStr := rstripSlash url ++ "/".toList ++ ".checkpoints/".toList

/-- `_load_checkpoint_config` for an object store (`processing/data_processor.py:1448-1490`); `files` are the local files, paths in the current folder begin with `./`. -/
noncomputable def loadRemote (st : ObjStore) (o : Objects CkText) (url tmp : PathStr) (files : LocalFiles CkText) (numWorkers : Nat) (items : List (List UserItem)) :
    Py (List Ckpt) := do
  let r ← st.downloadDir o (checkpointsUrl url) tmp files
  loadFrom r.1 r.2 numWorkers items

/-- `_save_current_config` for an object store (`processing/data_processor.py:1383-1402`): errors are printed. -/
def saveRemote (st : ObjStore) (o : Objects CkText) (url : PathStr) (numWorkers : Nat) (items : List (List UserItem)) : Objects CkText :=
  match st.upload o (joinPath (checkpointsUrl url) "config.json".toList) (.config (savedConfig numWorkers items).1 (savedConfig numWorkers items).2) with
  | .ok o' => o'
  | .error _ => o

/-- `_save_current_config` for a local folder (`processing/data_processor.py:1371-1381`). -/
def saveLocal (output : PathStr) (files : LocalFiles CkText) (numWorkers : Nat) (items : List (List UserItem)) : LocalFiles CkText :=
  fun p => if p = joinPath (joinPath output ".checkpoints".toList) "config.json".toList then
    some (.config (savedConfig numWorkers items).1 (savedConfig numWorkers items).2) else files p

/-- The start of a run with checkpoints (`processing/data_processor.py:1145-1156`): the checkpoints, and the store, where the configuration is saved if no worker
has got anywhere. -/
noncomputable def beginRemote (st : ObjStore) (o : Objects CkText) (url tmp : PathStr) (files : LocalFiles CkText) (numWorkers : Nat) (items : List (List UserItem)) :
    Py (List Ckpt × Objects CkText) := do
  let cs ← loadRemote st o url tmp files numWorkers items
  return (cs, if cs.all (fun c => c.doneTill == 0) then saveRemote st o url numWorkers items else o)

/-- The same for a local folder (`processing/data_processor.py:1145-1156`). -/
noncomputable def beginLocal (output : PathStr) (files : LocalFiles CkText) (numWorkers : Nat) (items : List (List UserItem)) : Py (List Ckpt × LocalFiles CkText) := do
  let cs ← loadLocal output files numWorkers items
  return (cs, if cs.all (fun c => c.doneTill == 0) then saveLocal output files numWorkers items else files)

/-- `_cleanup_checkpoints` for an object store (`processing/data_processor.py:1350-1359`). -/
def cleanupRemote (st : ObjStore) (o : Objects CkText) (url : PathStr) : Py (Objects CkText) :=
  st.deleteAll o (joinPath (rstripSlash url ++ "/".toList) ".checkpoints".toList)

/-- An operation on the keys of a bucket, applied to the objects. -/
def liftBucket {α : Type} (o : Objects α) (bucket : PathStr) (f : Bucket → Py Unit × Bucket) : Py Unit × Objects α :=
  let r := f ((sortBy lexLe ((o.filter fun e => e.1.1 == bucket).map fun e => e.1.2)).map fun k => (k, []))
  (r.1, o.filter fun e => e.1.1 != bucket || r.2.any fun k => k.1 == e.1.2)

/-- The start of `optimize` with `use_checkpoint` for an object store: `_assert_dir_has_index_file` (`processing/functions.py:460-462`), then the start of the run. -/
noncomputable def optimizeBegin (st : ObjStore) (o : Objects CkText) (url tmp : PathStr) (files : LocalFiles CkText) (mode : OptMode) (refuse : Bool) (numWorkers : Nat)
    (items : List (List UserItem)) : Py (List Ckpt × Objects CkText) :=
  match bucketAndPath url st.scheme with
  | .error e => .error e
  | .ok k => match liftBucket o k.1 (assertDirRemote st k.2 mode true refuse) with
    | (.error e, _) => .error e
    | (.ok (), o) => beginRemote st o url tmp files numWorkers items

end LitData
