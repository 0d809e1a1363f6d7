import Verif.Model.Writer

/-!
`optimize(..., use_checkpoint=True)`: the worker which saves a checkpoint after its chunks, the uploaders, a
crash, and the run which continues from the checkpoint.
Models `src/litdata/processing/data_processor.py` lines 600-647, 751-788, 1141-1161 and 1404-1490 and
`src/litdata/streaming/writer.py:542-562`.

Simplified: chunk files are identified by their number (the rank is that of the one worker considered, see
`chunkFilename`); an upload takes effect at once; the user's function is a function of the input.
-/

namespace LitData

/-- An entry of `_chunks_info`: the number in its `filename`, and its `chunk_size`. -/
structure CkInfo where
  number : Nat
  size : Nat
  deriving DecidableEq, Repr

/-- The content of a checkpoint file (`streaming/writer.py:557`). -/
structure Ckpt where
  chunks : List CkInfo
  doneTill : Nat
  deriving DecidableEq, Repr

/-- `save_checkpoint` (`streaming/writer.py:542-562`): nothing for the empty list, since
`last_checkpoint_chunk_info` is never changed from `[]`. -/
def saveCheckpoint (infos : List CkInfo) : Option Ckpt :=
  if infos = [] then none else some ⟨infos, (infos.map (·.size)).sum⟩

/-- A file put into an upload queue: a chunk, or a checkpoint (which replaces the one before: the uploader
removes the unique part of its name, `data_processor.py:266,286`). -/
inductive Upload where
  | chunk (number : Nat) (items : List WItem)
  | ckpt (c : Ckpt)
  deriving DecidableEq, Repr

/-- The output directory: chunk files and the checkpoint of the worker. -/
structure Remote where
  files : List (Nat × List WItem)
  ckpt : Option Ckpt
  deriving DecidableEq, Repr

/-- A chunk file of the output directory. -/
def fileGet (files : List (Nat × List WItem)) (n : Nat) : Option (List WItem) :=
  (files.find? fun e => e.1 == n).map (·.2)

/-- One upload (`data_processor.py:249-287`). -/
def applyUpload (r : Remote) : Upload → Remote
  | .chunk n items => { r with files := (n, items) :: r.files.filter fun e => e.1 != n }
  | .ckpt c => { r with ckpt := some c }

/-- Uploads one after the other. -/
def applyUploads (r : Remote) (us : List Upload) : Remote := us.foldl applyUpload r

/-- The state of the worker. `emitted` lists what was put into the upload queues, each with the number of its
queue. -/
structure CkWorker where
  writer : WriterState
  infos : List CkInfo
  nextNumber : Nat
  counter : Nat
  indexCounter : Nat
  emitted : List (Nat × Upload)
  deriving DecidableEq, Repr

/-- The checkpoint as `_load_checkpoint_config` finds it (`data_processor.py:1404-1490`). -/
def loadedCkpt (r : Remote) : Ckpt := r.ckpt.getD ⟨[], 0⟩

/-- `_create_cache` (`data_processor.py:605-634`): the chunk information is taken from the checkpoint, and the
number of the next chunk is raised by the number of finished samples. -/
def startWorker (firstNumber : Nat) (c : Ckpt) : CkWorker :=
  ⟨WriterState.init, c.chunks, firstNumber + c.doneTill, 0, 0, []⟩

/-- New chunks, with their numbers. -/
def numbered (next : Nat) : List (List WItem) → List (Nat × List WItem)
  | [] => []
  | c :: cs => (next, c) :: numbered (next + 1) cs

/-- The entries of new chunks (`streaming/writer.py:284-293`). -/
def infosOf (l : List (Nat × List WItem)) : List CkInfo := l.map fun e => ⟨e.1, e.2.length⟩

/-- `_handle_data_chunk_recipe` for a function which is no generator (`data_processor.py:751-772`), followed by
`self._counter += 1` (line 583). -/
def handleInput {β : Type} (cfg : WriterCfg) (numUploaders : Nat) (f : β → Option WItem) (w : CkWorker) (x : β) : Py CkWorker :=
  match f x with
  | none => .ok { w with counter := w.counter + 1 }
  | some item => (addItem cfg w.writer w.indexCounter item).bind fun s =>
    let new := numbered w.nextNumber (s.chunks.drop w.writer.chunks.length)
    let infos := w.infos ++ infosOf new
    let q := w.counter % numUploaders
    .ok { writer := s, infos := infos, nextNumber := w.nextNumber + new.length, counter := w.counter + 1,
          indexCounter := w.indexCounter + 1,
          emitted := w.emitted ++ new.map (fun e => (q, .chunk e.1 e.2)) ++ (saveCheckpoint infos).toList.map (fun c => (q, .ckpt c)) }

/-- The inputs one after the other (`data_processor.py:540-598`). -/
def handleInputs {β : Type} (cfg : WriterCfg) (numUploaders : Nat) (f : β → Option WItem) : CkWorker → List β → Py CkWorker
  | w, [] => .ok w
  | w, x :: xs => (handleInput cfg numUploaders f w x).bind fun w => handleInputs cfg numUploaders f w xs

/-- `_handle_data_chunk_recipe_end` (`data_processor.py:774-788`): the last chunks go to the queues in turn. -/
def endWorker (cfg : WriterCfg) (numUploaders : Nat) (w : CkWorker) : Py CkWorker :=
  (writerDone cfg false w.writer).bind fun s =>
    let new := numbered w.nextNumber (s.chunks.drop w.writer.chunks.length)
    let infos := w.infos ++ infosOf new
    .ok { w with
          writer := s, infos := infos, nextNumber := w.nextNumber + new.length,
          emitted := w.emitted ++ new.mapIdx (fun i e => (i % numUploaders, .chunk e.1 e.2)) ++
            (saveCheckpoint infos).toList.map (fun c => (w.counter % numUploaders, .ckpt c)) }

/-- A whole run of a worker against the given output directory, with the inputs that are left in the order in
which they arrive in `ready_to_process_queue`. The `infos` of the result are what the worker writes into its
index. -/
def checkpointRun {β : Type} (cfg : WriterCfg) (numUploaders firstNumber : Nat) (f : β → Option WItem) (arriving : List β) (r : Remote) :
    Py CkWorker :=
  (handleInputs cfg numUploaders f (startWorker firstNumber (loadedCkpt r)) arriving).bind (endWorker cfg numUploaders)

/-- The inputs that are left: `done_till_index` inputs are skipped (`data_processor.py:1160`). -/
def remainingInputs {β : Type} (inputs : List β) (r : Remote) : List β := inputs.drop (loadedCkpt r).doneTill

/-- The order in which inputs arrive. Without downloaders `FakeQueue` hands them out in order
(`data_processor.py:418-431,650-655`); with downloaders each of them reports an input when it is done with it
(`data_processor.py:124-177`), in any order. -/
def Arrives {β : Type} (downloaders : Bool) (arriving rest : List β) : Prop :=
  if downloaders then arriving.Perm rest else arriving = rest

/-- What the uploaders may have done when everything stops: each uploader has handled a prefix of its queue. -/
def Uploaded (emitted applied : List (Nat × Upload)) : Prop :=
  ∀ q, applied.filter (fun e => e.1 == q) <+: emitted.filter (fun e => e.1 == q)

/-- The directory after the uploads. -/
def afterUploads (r : Remote) (applied : List (Nat × Upload)) : Remote := applyUploads r (applied.map (·.2))

/-- The output directories that any number of interrupted runs may leave behind. -/
inductive Interrupted {β : Type} (cfg : WriterCfg) (downloaders : Bool) (numUploaders firstNumber : Nat) (f : β → Option WItem)
    (inputs : List β) : Remote → Prop where
  | fresh : Interrupted cfg downloaders numUploaders firstNumber f inputs ⟨[], none⟩
  | crash {r : Remote} {w : CkWorker} {arriving : List β} {applied : List (Nat × Upload)} :
      Interrupted cfg downloaders numUploaders firstNumber f inputs r →
      Arrives downloaders arriving (remainingInputs inputs r) →
      checkpointRun cfg numUploaders firstNumber f arriving r = .ok w → Uploaded w.emitted applied →
      Interrupted cfg downloaders numUploaders firstNumber f inputs (afterUploads r applied)

/-- Reading the chunks of an index in order. -/
def readIndex (files : List (Nat × List WItem)) : List CkInfo → Option (List WItem)
  | [] => some []
  | i :: is => match fileGet files i.number, readIndex files is with
    | some c, some rest => some (c ++ rest)
    | _, _ => none

/-- An input as given by the user; other atoms than integers and strings are not modelled. -/
inductive UserItem where
  | int (i : Int)
  | str (s : String)
  | list (l : List UserItem)
  | tuple (l : List UserItem)

mutual
/-- A value written by `json.dump` and read by `json.load`: a tuple becomes a list. -/
def UserItem.viaJson : UserItem → UserItem
  | .int i => .int i
  | .str s => .str s
  | .list l => .list (viaJsonList l)
  | .tuple l => .list (viaJsonList l)

/-- The elements of a list. -/
def viaJsonList : List UserItem → List UserItem
  | [] => []
  | x :: l => x.viaJson :: viaJsonList l
end

/-- `_save_current_config` (`data_processor.py:1361-1402`): the number of workers and their inputs, as they
come back from `config.json`. -/
def savedConfig (numWorkers : Nat) (items : List (List UserItem)) : Nat × List (List UserItem) :=
  (numWorkers, items.map viaJsonList)

/-- The comparison with the saved configuration (`data_processor.py:1426-1433`). -/
noncomputable def checkConfig (saved : Nat × List (List UserItem)) (numWorkers : Nat) (items : List (List UserItem)) : Py Unit :=
  open Classical in
  if saved.1 ≠ numWorkers then .error .valueError
  else if saved.2 ≠ items then .error .valueError
  else .ok ()

end LitData
