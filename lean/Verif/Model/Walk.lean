import Verif.Model.Basic

/-!
`walk` (`src/litdata/processing/functions.py` lines 526-572): listing a folder tree with a pool of threads.

The tree does not change while it is listed and contains no links that lead back into it. A future is the folder whose listing it
computes; listings finish in any order.
-/

namespace LitData

/-- What a path is: a file, a folder with the entries in the order of `os.listdir`, or something for which `os.path.isfile` is false
and `os.listdir` fails (a broken link, a socket). -/
inductive FsNode where
  | file
  | other
  | dir (entries : List (String × FsNode))

/-- `os.path.join(folder, name)` for a name without slash, on POSIX (`processing/functions.py:558, 562`). -/
def pathJoin (folder name : String) : String :=
  if folder = "" ∨ folder.toList.getLast? = some '/' then folder ++ name else folder ++ "/" ++ name

/-- `os.path.isfile` (`processing/functions.py:558`). -/
def FsNode.isFile : FsNode → Bool
  | .file => true
  | _ => false

/-- What `walk` yields: a folder, the names of its folders, the names of its files (`processing/functions.py:564`). -/
abbrev WalkEntry := String × List String × List String

/-- A folder to list: its path and what is there. -/
abbrev WalkTask := String × FsNode

/-- The state of the generator: `self.folders`; `self.futures` split into those that the running `as_completed` has still to give and
those submitted since it was called; what was yielded; whether an exception left the generator. -/
structure WalkState where
  folders : List WalkTask
  pending : List WalkTask
  later : List WalkTask
  out : List WalkEntry
  failed : Bool

/-- The generator after its first loop: every given folder is submitted (`processing/functions.py:545-548`). -/
def WalkState.init (folder : String) (root : FsNode) : WalkState := ⟨[], [], [(folder, root)], [], false⟩

/-- `len(self.futures)`. -/
def WalkState.futures (s : WalkState) : Nat := s.pending.length + s.later.length

/-- The loop that submits waiting folders while there is room (`processing/functions.py:566-569`). -/
def walkFill (maxWorkers pending : Nat) : List WalkTask → List WalkTask → List WalkTask × List WalkTask
  | [], later => ([], later)
  | f :: folders, later =>
    if pending + later.length ≤ maxWorkers * 2 then walkFill maxWorkers pending folders (later ++ [f]) else (f :: folders, later)

/-- The names of the files of a listing (`processing/functions.py:557-559`). -/
def listedFiles (entries : List (String × FsNode)) : List String := (entries.filter fun e => e.2.isFile).map (·.1)

/-- The other names of a listing (`processing/functions.py:560-561`). -/
def listedFolders (entries : List (String × FsNode)) : List (String × FsNode) := entries.filter fun e => !e.2.isFile

/-- The steps of the generator. -/
inductive WalkStep (maxWorkers : Nat) : WalkState → WalkState → Prop where
  /-- `while self.futures: for future in as_completed(self.futures)` takes the futures there are (`processing/functions.py:550-551`). -/
  | round (s : WalkState) (h : s.pending = []) (hl : s.later ≠ []) (hf : s.failed = false) :
      WalkStep maxWorkers s { s with pending := s.later, later := [] }
  /-- One of them completes, is taken from `self.futures` and yielded, and waiting folders are submitted
  (`processing/functions.py:552-569`). -/
  | complete (s : WalkState) (a b : List WalkTask) (path : String) (entries : List (String × FsNode))
      (h : s.pending = a ++ (path, .dir entries) :: b) (hf : s.failed = false) :
      WalkStep maxWorkers s
        (let folders := s.folders ++ (listedFolders entries).map fun e => (pathJoin path e.1, e.2)
         let r := walkFill maxWorkers (a ++ b).length folders s.later
         ⟨r.1, a ++ b, r.2, s.out ++ [(path, (listedFolders entries).map (·.1), listedFiles entries)], false⟩)
  /-- A listing fails: `future.result()` raises out of the generator (`processing/functions.py:555`). -/
  | fail (s : WalkState) (a b : List WalkTask) (path : String) (node : FsNode)
      (h : s.pending = a ++ (path, node) :: b) (hn : ∀ entries, node ≠ .dir entries) (hf : s.failed = false) :
      WalkStep maxWorkers s { s with failed := true }

/-- Any number of steps. -/
inductive WalkSteps (maxWorkers : Nat) : WalkState → WalkState → Prop where
  | refl (s : WalkState) : WalkSteps maxWorkers s s
  | tail {s t u : WalkState} (h : WalkSteps maxWorkers s t) (hst : WalkStep maxWorkers t u) : WalkSteps maxWorkers s u

/-- The generator has returned: `self.futures` is empty (`processing/functions.py:550, 570`). -/
def WalkState.returned (s : WalkState) : Prop := s.failed = false ∧ s.pending = [] ∧ s.later = []

end LitData
