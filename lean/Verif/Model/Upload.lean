import Verif.Model.InputFiles
import Verif.Model.CacheSize
import Verif.Model.Resolver

/-!
Where the uploaders of `optimize` and `map` put the files (`processing/data_processor.py:227-293`): the names of the targets, and what is at the output when all files were copied.

Simplified: the output is a function from paths to contents, folders are not represented, and every copy succeeds (failing copies are in `Model/Processes.lean`).
-/

namespace LitData

/-- `os.path.basename` (used in `processing/data_processor.py:260`, 280). -/
def baseName (p : PathStr) : PathStr := (p.reverse.takeWhile (· != '/')).reverse

/-- `remove_uuid_from_filename` (`processing/utilities.py:262-274`): `filepath[:-38] + ".json"` if `".checkpoints"` is in the path. -/
def removeUuid (path : PathStr) : PathStr :=
  if strContains ".checkpoints".toList path then path.take (path.length - 38) ++ ".json".toList else path

/-- The local file that is uploaded (`processing/data_processor.py:250-251`). -/
def uploadSource (cacheDir file : PathStr) : PathStr := if cacheDir.isPrefixOf file then file else joinPath cacheDir file

/-- The target of an upload below `output`, which is `output_dir.url` or `output_dir.path` (`processing/data_processor.py:253-269`, 274-287). -/
def uploadTarget (cacheDir output : PathStr) (tmpdir : Option PathStr) (file : PathStr) : PathStr :=
  let file := uploadSource cacheDir file
  let output := if strContains ".checkpoints".toList file then joinPath output ".checkpoints".toList else output
  removeUuid (match tmpdir with
    | none => joinPath output (baseName file)
    | some t => joinPath output ((pyReplace t [] 0 file).drop 1))

/-- `checkpoint_filepath` (`streaming/writer.py:544, 555`). -/
def checkpointFile (cacheDir : PathStr) (rank : Nat) (uuid : PathStr) : PathStr :=
  joinPath (joinPath cacheDir ".checkpoints".toList) ("checkpoint-".toList ++ Nat.toDigits 10 rank ++ '-' :: uuid ++ ".json".toList)

/-- The name under which a checkpoint is looked for (`processing/data_processor.py:1434, 1441`, 1478). -/
def checkpointRead (output : PathStr) (worker : Nat) : PathStr :=
  joinPath (joinPath output ".checkpoints".toList) ("checkpoint-".toList ++ Nat.toDigits 10 worker ++ ".json".toList)

/-- The loop of an uploader over the files in its queue (`processing/data_processor.py:238-293`): each is copied to its target. -/
def uploadFiles (cacheDir output : PathStr) (read : PathStr → Bytes) : List (Option PathStr × PathStr) → (PathStr → Option Bytes) → PathStr → Option Bytes
  | [], out => out
  | (t, f) :: files, out => uploadFiles cacheDir output read files fun p =>
      if p = uploadTarget cacheDir output t f then some (read (uploadSource cacheDir f)) else out p

/-- What `map` puts into the queues for one input (`processing/data_processor.py:795-812`): the files that the user's function left in its temporary folder. -/
def mapUploads (tmp : PathStr) (rels : List PathStr) : List (Option PathStr × PathStr) := rels.map fun r => (some tmp, tmp ++ '/' :: r)

end LitData
