import Verif.Model.Entry
import Verif.Model.Env

/-!
What the function that the user gives to `map` or `optimize` is called with: the input with the paths of the local copies of its files, and the extra
arguments. Models `src/litdata/processing/functions.py` lines 106-153 and 186-192 (the recipes), `src/litdata/processing/data_processor.py` lines 396-415 (`_to_path`, `_is_path`),
644-686 (`_collect_paths`), 142-182 (the downloader, for an input directory with a URL), 751-772 and 790-812 (the calls).

The rest of the downloader is in `Model/InputFiles.lean`, the queues are in `Model/Processes.lean`. Inputs are made of numbers, texts, lists and tuples.
-/

namespace LitData

/-- What a worker sees of the files: `_IS_IN_STUDIO`, `os.path.isfile`, `Path.absolute` and `Path.resolve`. -/
structure FileView where
  inStudio : Bool
  isFile : PathStr → Bool
  absolute : PathStr → PathStr
  resolve : PathStr → PathStr

/-- `_to_path` (`data_processor.py:396-397`). -/
def FileView.toPath (v : FileView) (p : PathStr) : PathStr := if v.inStudio && startsWith "/teamspace" p then p else v.resolve p

/-- `os.path.splitext(p)[1]` is not empty (`data_processor.py:411`): a dot in the name of the file behind a character that is not one. -/
def hasExtension (p : PathStr) : Bool := ((baseName p).dropWhile (· == '.')).contains '.'

/-- `_is_path` (`data_processor.py:400-415`) of a text. -/
def FileView.isPath (v : FileView) (inputDir : PathStr) (p : PathStr) : Bool :=
  if v.inStudio then
    if inputDir.isPrefixOf p then true
    else
      let a := v.absolute p
      if inputDir.isPrefixOf a then hasExtension a || v.isFile a else v.isFile a
  else v.isFile p

mutual
/-- The texts of an input that are paths, in the order of its leaves (`data_processor.py:654-664`). -/
def UserItem.pathLeaves (isPath : PathStr → Bool) : UserItem → List PathStr
  | .int _ => []
  | .str s => if isPath s.toList then [s.toList] else []
  | .list l => pathLeavesAll isPath l
  | .tuple l => pathLeavesAll isPath l

/-- The same for the elements of a list (`data_processor.py:654-664`). -/
def pathLeavesAll (isPath : PathStr → Bool) : List UserItem → List PathStr
  | [] => []
  | x :: l => x.pathLeaves isPath ++ pathLeavesAll isPath l
end

mutual
/-- An input with its paths replaced (`data_processor.py:671-684`): `tree_flatten`, the replacement of the leaves, `tree_unflatten`. -/
def UserItem.replacePaths (isPath : PathStr → Bool) (f : PathStr → PathStr) : UserItem → UserItem
  | .int i => .int i
  | .str s => if isPath s.toList then .str (String.ofList (f s.toList)) else .str s
  | .list l => .list (replacePathsAll isPath f l)
  | .tuple l => .tuple (replacePathsAll isPath f l)

/-- The same for the elements of a list (`data_processor.py:671-684`). -/
def replacePathsAll (isPath : PathStr → Bool) (f : PathStr → PathStr) : List UserItem → List UserItem
  | [] => []
  | x :: l => x.replacePaths isPath f :: replacePathsAll isPath f l
end

/-- The loop of `_collect_paths` (`data_processor.py:652-686`): the inputs with the paths that the worker reads, and for each of them the files to fetch. An
input without a file is a ValueError. -/
def FileView.collectPaths (v : FileView) (cfg : InputCfg) : List UserItem → Py (List (UserItem × List PathStr))
  | [] => .ok []
  | x :: l =>
    match x.pathLeaves (v.isPath cfg.inputDir) with
    | [] => .error .valueError
    | paths => (v.collectPaths cfg l).map fun r =>
      (x.replacePaths (v.isPath cfg.inputDir) (fun p => workerPath cfg (v.toPath p)), paths.map v.toPath) :: r

/-- The inputs of a worker after `_collect_paths` (`data_processor.py:501`, 644-686): without an input directory, or with a reader, nothing is replaced or fetched. -/
def FileView.workerItems (v : FileView) (cfg : Option InputCfg) (reader : Bool) (items : List UserItem) : Py (List (UserItem × List PathStr)) :=
  match cfg with
  | some cfg => if reader then .ok (items.map fun x => (x, [])) else v.collectPaths cfg items
  | none => .ok (items.map fun x => (x, []))

/-- The loop over the paths of a request for an input directory with a URL (`data_processor.py:158-179`): a path in the input directory is an object of the store,
any other is copied if it is a file. -/
def fetchPaths (cfg : InputCfg) (url : PathStr) (o : Objects Bytes) : InputFs → List PathStr → InputFs × Option Err
  | fs, [] => (fs, none)
  | fs, path :: paths =>
    let remote := pyReplace cfg.inputDir url 0 path
    if isRemoteFile remote then
      match (fsProvider url).bind fun st => st.download o remote with
      | .error e => (fs, some e)
      | .ok content => fetchPaths cfg url o (fs.put (localCopy cfg path) (some content)) paths
    else match fs remote with
      | none => (fs, some .valueError)
      | some content =>
        if thisStudio.isPrefixOf remote then fetchPaths cfg url o fs paths
        else if localCopy cfg path = remote then (fs, some .exception)
        else fetchPaths cfg url o (fs.put (localCopy cfg path) (some content)) paths

/-- One request of the downloader for an input directory with a URL (`data_processor.py:142-182`). -/
def fetchItem (cfg : InputCfg) (url : PathStr) (o : Objects Bytes) (fs : InputFs) (paths : List PathStr) : InputFs × Option Err :=
  if paths.all fun p => (fs (localCopy cfg p)).isSome then (fs, none) else fetchPaths cfg url o fs paths

/-- A callable that the user may give: a function with the names of its parameters, one with some arguments bound (`functools.partial`), a method of an object, or an
object with a method `__call__`; and whether calling it gives a generator. -/
inductive UserFn where
  | function (params : List String) (generator : Bool)
  | bound (fn : UserFn)
  | method (params : List String) (generator : Bool)
  | object (params : List String) (generator : Bool)

/-- The parameters by their names that calling it accepts (`functions.py:140-144`). Arguments bound by `partial` can be given again by name. -/
def UserFn.params : UserFn → List String
  | .function p _ => p
  | .bound f => f.params
  | .method p _ => p
  | .object p _ => p

/-- Does a call give a generator (`functions.py:194-198`)? -/
def UserFn.generates : UserFn → Bool
  | .function _ g => g
  | .bound f => f.generates
  | .method _ g => g
  | .object _ g => g

/-- `inspect.signature(_fn).parameters` (`functions.py:120-121`): for anything but a function the signature of its `__call__`, which is `(*args, **kwargs)` for
partials and methods. -/
def UserFn.seenParams : UserFn → List String
  | .function p _ => p
  | .bound _ => ["args", "kwargs"]
  | .method _ _ => ["args", "kwargs"]
  | .object p _ => p

/-- `inspect.isgeneratorfunction` of a function or of a partial, which it looks into (`functions.py:188-189`). -/
def UserFn.isGeneratorFunction : UserFn → Bool
  | .function _ g => g
  | .bound f => f.isGeneratorFunction
  | .method _ g => g
  | .object _ _ => false

/-- `check_fn` (`functions.py:186-192`): `__call__` of a function, a partial or a method is no generator function. -/
def UserFn.checkFn : UserFn → Bool
  | .function _ g => g
  | .bound f => f.isGeneratorFunction
  | .method _ _ => false
  | .object _ g => g

/-- `_find_device` (`functions.py:148-153`): the GPU of a worker. -/
def findDevice (gpus : Nat) (globalRank : Option Nat) : Option Nat :=
  match globalRank with
  | some r => if 0 < gpus then some (r % gpus) else none
  | none => none

/-- A call of the user's function by `map`: the input, and the keyword arguments if given. -/
structure MapCall where
  item : UserItem
  device : Option (Option Nat)
  isLast : Option Bool

/-- `prepare_item` of `map` (`functions.py:128-146`), called for an input by its position (`data_processor.py:797-798`). -/
def mapCallOf (fn : UserFn) (gpus : Nat) (globalRank : Option Nat) (items : List UserItem) (index : Nat) (item : UserItem) : MapCall :=
  ⟨item, if fn.seenParams.contains "device" then some (findDevice gpus globalRank) else none,
    if fn.seenParams.contains "is_last" then some (decide (items.length - 1 = index)) else none⟩

/-- What the recipe of `optimize` does with the result of the user's function for one input (`functions.py:194-198`; `data_processor.py:757-769`): the values of a generator that it
recognises, or the one value, and nothing for `None`. `γ` are the values; a call gives one value, or a generator, which is itself a value. -/
def recipeValues {γ : Type} (fn : UserFn) (result : Option γ) (yields : List (Option γ)) (generatorObject : γ) : List γ :=
  if fn.checkFn then yields.filterMap id
  else if fn.generates then [generatorObject]
  else result.toList

/-- What `prepare_item` of `map` returns (`functions.py:128-146`): there is no `return`, whatever the function returns. -/
def mapReturns {γ : Type} (_result : Option γ) : Option γ := none

/-- The check of `map` on what `prepare_item` returns (`data_processor.py:798-803`). -/
def mapCheck {γ : Type} (result : Option γ) : Py Unit := if (mapReturns result).isSome then .error .valueError else .ok ()

end LitData
