import Verif.Model.Walk

/-! What `os.walk` lists, without threads. -/

namespace LitData.Spec

open LitData

mutual
/-- Every folder at or below a path, with the names in it. -/
def osWalk (path : String) : FsNode → List WalkEntry
  | .dir entries =>
    (path, (entries.filter fun e => !e.2.isFile).map (·.1), (entries.filter fun e => e.2.isFile).map (·.1)) :: osWalkAll path entries
  | _ => []

/-- The same for every entry of a folder. -/
def osWalkAll (path : String) : List (String × FsNode) → List WalkEntry
  | [] => []
  | (name, node) :: entries => osWalk (pathJoin path name) node ++ osWalkAll path entries
end

mutual
/-- Every path at or below this one is a file or a folder that can be listed. -/
def readable : FsNode → Bool
  | .file => true
  | .other => false
  | .dir entries => readableAll entries

/-- The same for every entry of a folder. -/
def readableAll : List (String × FsNode) → Bool
  | [] => true
  | e :: entries => readable e.2 && readableAll entries
end

end LitData.Spec
