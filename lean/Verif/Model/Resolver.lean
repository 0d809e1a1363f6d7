import Verif.Model.InputFiles
import Verif.Model.Append

/-!
From what a user gives as a directory to a path and a URL.
Models `_resolve_dir`, the resolvers of Studio, connection, folder and dataset paths and `_resolve_time_template`
(`src/litdata/streaming/resolver.py` lines 33-229, 347-354) and `_should_replace_path`
(`src/litdata/utilities/dataset_utilities.py` lines 127-138). Texts are lists of characters. What the cloud client answers is a parameter.
-/

namespace LitData

/-- `Dir` (`streaming/resolver.py:33-38`). -/
structure UserDir where
  path : Option PathStr
  url : Option PathStr
  deriving DecidableEq, Repr

/-- What a user may give (`streaming/resolver.py:41-49`). -/
inductive DirArg where
  | none
  | dir (d : UserDir)
  | text (s : PathStr)
  | other

/-- A Studio as the client lists it (`streaming/resolver.py:85-96`, 119-120). -/
structure CloudSpace where
  name : Option PathStr
  id : PathStr
  displayName : Option PathStr
  clusterId : PathStr

/-- What surrounds the resolution: the resolved absolute path of a text, the formatted time, the environment variables and the answers of the client:
buckets of the clusters by id, Studios of the cluster of the process, sources of the data connections by name (`aws` and `s3_folder`). -/
structure CloudEnv where
  absolute : PathStr → PathStr
  strftime : PathStr → PathStr
  lower : PathStr → PathStr
  clusterId : Option PathStr
  projectId : Option PathStr
  studioId : Option PathStr
  clusters : List (PathStr × PathStr)
  spaces : List CloudSpace
  awsSources : List (PathStr × PathStr)
  folderSources : List (PathStr × PathStr)

/-- `os.path.join(a, b)` on POSIX. -/
def joinPath (a b : PathStr) : PathStr :=
  if b.head? = some '/' then b else if a = [] ∨ a.getLast? = some '/' then a ++ b else a ++ '/' :: b

/-- `os.path.join(a, *parts)`. -/
def joinPaths (a : PathStr) (parts : List PathStr) : PathStr := parts.foldl joinPath a

/-- `bool(s)` of an optional text turned back into one (`streaming/resolver.py:43`). -/
def nonEmpty (s : Option PathStr) : Option PathStr := s.filter fun t => t ≠ []

/-- Does the text hold `{%` somewhere before a closing brace at its end (`streaming/resolver.py:348`, the pattern `^.*{%.*}$`, for texts without line
breaks)? -/
def hasTimeTemplate (path : PathStr) : Bool :=
  path.getLast? = some '}' && (List.range path.length).any fun i => ['{', '%'].isPrefixOf (path.dropLast.drop i)

/-- `_resolve_time_template` (`streaming/resolver.py:347-354`). -/
def resolveTimeTemplate (strftime : PathStr → PathStr) (path : PathStr) : PathStr :=
  if hasTimeTemplate path then
    let pattern := (splitChar '}' ((splitChar '{' path).getD 1 [])).getD 0 []
    pyReplace ('{' :: pattern ++ ['}']) (strftime pattern) 0 path
  else path

/-- `_match_studio` (`streaming/resolver.py:85-96`), called with a name and without an id. -/
def matchStudio (lower : PathStr → PathStr) (target : PathStr) (s : CloudSpace) : Bool :=
  (match s.name with | some n => lower n == lower target | none => false) ||
  (match s.displayName with | some n => lower n == lower target | none => false)

/-- `_resolve_studio` with the third component of the path as name (`streaming/resolver.py:99-137`, 72). -/
def resolveStudio (env : CloudEnv) (path target : PathStr) : Py UserDir :=
  match env.clusterId, env.projectId with
  | none, _ => .error .runtimeError
  | some _, none => .error .runtimeError
  | some _, some project =>
    match env.spaces.filter (matchStudio env.lower target) with
    | [] => .error .valueError
    | s :: _ => match env.clusters.lookup s.clusterId with
      | none => .error .valueError
      | some bucket => .ok ⟨some path, some (joinPaths ("s3://".toList ++ bucket ++ "/projects/".toList ++ project ++ "/cloudspaces/".toList ++ s.id ++
          "/code/content".toList) ((splitChar '/' path).drop 4))⟩

/-- `_resolve_s3_connections` and `_resolve_s3_folders` (`streaming/resolver.py:140-181`), which differ in the field that holds the source. -/
def resolveConnection (project : Option PathStr) (sources : List (PathStr × PathStr)) (path : PathStr) : Py UserDir :=
  match project with
  | none => .error .runtimeError
  | some _ => match sources.lookup ((splitChar '/' path).getD 3 []) with
    | none => .error .valueError
    | some source => .ok ⟨some path, some (joinPaths source ((splitChar '/' path).drop 4))⟩

/-- `_resolve_datasets` (`streaming/resolver.py:184-229`). -/
def resolveDatasets (env : CloudEnv) (path : PathStr) : Py UserDir :=
  match env.clusterId, env.projectId, env.studioId with
  | none, _, _ => .error .runtimeError
  | some _, none, _ => .error .runtimeError
  | some _, some _, none => .error .runtimeError
  | some _, some project, some studio =>
    match env.spaces.filter fun s => s.id == studio with
    | [] => .error .valueError
    | s :: _ => match env.clusters.lookup s.clusterId with
      | none => .error .valueError
      | some bucket => .ok ⟨some path, some (joinPaths ("s3://".toList ++ bucket ++ "/projects/".toList ++ project ++ "/datasets/".toList)
          ((splitChar '/' path).drop 3))⟩

/-- `s.startswith(p)`. -/
def startsWith (p : String) (s : PathStr) : Bool := p.toList.isPrefixOf s

/-- The prefixes of `streaming/resolver.py:53-58`. -/
def isRemote (s : PathStr) : Bool := ["s3://", "gs://", "azure://", "hf://", "local:"].any fun p => startsWith p s

/-- `_resolve_dir` of a local path whose absolute form is `p` (`streaming/resolver.py:65-82`). -/
def resolveAbsolute (env : CloudEnv) (p : PathStr) : Py UserDir :=
  if startsWith "/teamspace/studios" p ∧ 3 < (splitChar '/' p).length then resolveStudio env p ((splitChar '/' p).getD 3 [])
  else if startsWith "/teamspace/s3_connections" p ∧ 3 < (splitChar '/' p).length then resolveConnection env.projectId env.awsSources p
  else if startsWith "/teamspace/s3_folders" p ∧ 3 < (splitChar '/' p).length then resolveConnection env.projectId env.folderSources p
  else if startsWith "/teamspace/datasets" p ∧ 3 < (splitChar '/' p).length then resolveDatasets env p
  else .ok ⟨some p, none⟩

/-- `_resolve_dir` (`streaming/resolver.py:41-82`). -/
def resolveDir (env : CloudEnv) : DirArg → Py UserDir
  | .dir d => .ok ⟨nonEmpty d.path, nonEmpty d.url⟩
  | .none => .ok ⟨none, none⟩
  | .other => .error .valueError
  | .text s =>
    if isRemote s then .ok ⟨none, some s⟩
    else
      let t := resolveTimeTemplate env.strftime s
      let a := env.absolute t
      if startsWith "/teamspace/studios/this_studio" a then .ok ⟨some a, none⟩
      else resolveAbsolute env (if startsWith "/.project" a then t else a)

/-- `_should_replace_path` (`utilities/dataset_utilities.py:127-138`). -/
def shouldReplacePath : Option PathStr → Bool
  | none => true
  | some p => p = [] || ["/teamspace/datasets/", "/teamspace/s3_connections/", "/teamspace/s3_folders/", "/teamspace/gcs_folders/",
      "/teamspace/gcs_connections/"].any fun q => startsWith q p

end LitData
