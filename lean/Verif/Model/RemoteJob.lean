import Verif.Model.Basic

/-!
`map` and `optimize` on several machines.
Models `_execute` (`src/litdata/streaming/resolver.py:357-409`), which starts a job that runs the script of the user again, and what this does to a script that calls `map` and
`optimize` several times (`src/litdata/processing/functions.py:279`, 320-324, 436, 519-523).
-/

namespace LitData

/-- `' '.join(words)` (`streaming/resolver.py:380`). -/
def joinBlank : List (List Char) → List Char
  | [] => []
  | [w] => w
  | w :: ws => w ++ ' ' :: joinBlank ws

/-- A variable of the environment in the command (`streaming/resolver.py:370-376`): nothing if it is empty or not set. -/
def jobVariable (name value : List Char) : List Char :=
  if value = [] then [] else ' ' :: name ++ '=' :: value ++ [' ']

/-- The command of the job (`streaming/resolver.py:380`), unless one is given, which `map` and `optimize` never do. -/
def jobCommand (cwd skip branch : List Char) (argv : List (List Char)) : List Char :=
  "cd ".toList ++ cwd ++ " &&".toList ++ jobVariable "LIGHTNING_SKIP_INSTALL".toList skip ++ jobVariable "LIGHTNING_BRANCH".toList branch ++
    " python ".toList ++ joinBlank argv

/-- Where a shell separates words. -/
def isShellBlank (c : Char) : Bool := c == ' ' || c == '\t' || c == '\n'

/-- The words that a shell makes of a command without quotes and other special characters: `cur` is the word that was begun. -/
def blankWordsFrom (cur : List Char) : List Char → List (List Char)
  | [] => if cur = [] then [] else [cur]
  | c :: cs => if isShellBlank c then (if cur = [] then [] else [cur]) ++ blankWordsFrom [] cs else blankWordsFrom (cur ++ [c]) cs

/-- The words of a command. -/
def blankWords (s : List Char) : List (List Char) := blankWordsFrom [] s

/-- The state of a job: failed, stopped by someone, completed, or anything else (`streaming/resolver.py:403-407`). -/
inductive JobPhase where
  | failed | stopped | completed | going
  deriving DecidableEq, Repr

/-- The loop of `_execute` (`streaming/resolver.py:392-409`), at most `n` rounds, given the phase that each round sees: `none` if it still goes on. -/
def waitJob (phase : Nat → JobPhase) : Nat → Nat → Option (Nat × Py Unit)
  | 0, _ => none
  | n + 1, i => match phase i with
    | .failed => some (i, .error .runtimeError)
    | .stopped => some (i, .ok ())
    | .completed => some (i, .ok ())
    | .going => waitJob phase n (i + 1)

/-- A call of `map` or `optimize` in a script, with an output of its own: is `num_nodes` given, and may the output have a dataset already (`mode`, `error_when_not_empty`)? -/
structure ScriptOp where
  remote : Bool
  again : Bool
  deriving DecidableEq, Repr

/-- A call that does the work (`processing/functions.py:279-319`, 436-518). `runs i` is how often call `i` has filled its output: a second time it raises, unless the output may have
a dataset (`processing/functions.py:288-289`, 458-460). -/
def workOp (ops : List ScriptOp) (runs : Nat → Nat) (i : Nat) : Py (Nat → Nat) :=
  match ops[i]? with
  | none => .ok runs
  | some o => if 0 < runs i ∧ o.again = false then .error .runtimeError else .ok fun j => if j = i then runs i + 1 else runs j

/-- The job: the script from its start, where the variable `DATA_OPTIMIZER_NUM_NODES` is set, so that every call does the work (`processing/functions.py:279`, 436). -/
def jobWork (ops : List ScriptOp) (runs : Nat → Nat) : Py (Nat → Nat) := (List.range ops.length).foldlM (workOp ops) runs

/-- A call in the script that the user started: it does the work itself, or starts a job and waits for it (`processing/functions.py:320-324`, 519-523); a job that fails raises
(`streaming/resolver.py:403-404`). -/
def callOp (ops : List ScriptOp) (runs : Nat → Nat) (i : Nat) : Py (Nat → Nat) :=
  match ops[i]? with
  | none => .ok runs
  | some o => if o.remote then match jobWork ops runs with
      | .ok r => .ok r
      | .error _ => .error .runtimeError
    else workOp ops runs i

/-- The script that the user started. -/
def scriptRun (ops : List ScriptOp) (runs : Nat → Nat) : Py (Nat → Nat) := (List.range ops.length).foldlM (callOp ops) runs

end LitData
