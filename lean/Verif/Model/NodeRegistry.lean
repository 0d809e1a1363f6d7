import Verif.Model.Basic

/-!
The registration of container types of the user with the pytrees (`src/litdata/utilities/_pytree.py:139-403`), and the dumping and loading of the structure of a sample with
such types (`_pytree.py:1351-1415`), which is part of the index of a dataset. `Model/Pytree` has the types that are registered in the package.
Simplified: a class is a number; a context is a number that `json` can dump; the lock (`_pytree.py:188`) is held during a check and during an
entry, so that each is one step.
-/

namespace LitData

/-- `NO_SERIALIZED_TYPE_NAME_FOUND` (`_pytree.py:139`). -/
def noTypeName : String := "NO_SERIALIZED_TYPE_NAME_FOUND"

/-- `_SerializeNodeDef` (`_pytree.py:199-203`): the name, and the functions for the context if there are any. -/
structure SerialDef where
  name : String
  toText : Option (Nat → String)
  ofText : Option (String → Nat)

/-- `SUPPORTED_NODES`, `SUPPORTED_SERIALIZED_TYPES` and `SERIALIZED_TYPE_TO_PYTHON_TYPE` (`_pytree.py:189`, 206-207). Of a node definition only which functions it has matters, a number. -/
structure NodeRegistry where
  nodes : Nat → Option Nat
  serial : Nat → Option SerialDef
  byName : String → Option Nat

/-- The registry before the first call (`_pytree.py:189`, 206-207). -/
def NodeRegistry.empty : NodeRegistry := ⟨fun _ => none, fun _ => none, fun _ => none⟩

/-- The arguments of a registration (`_pytree.py:210-219`). -/
structure RegisterCall where
  cls : Nat
  fns : Nat
  name : Option String
  toText : Option (Nat → String)
  ofText : Option (String → Nat)

/-- The name under which a class is registered (`_pytree.py:393-394`). -/
def RegisterCall.typeName (q : RegisterCall) : String := q.name.getD noTypeName

/-- `_private_register_pytree_node` (`_pytree.py:362-403`): the registry after the call, and what it raised. -/
def registerPrivate (r : NodeRegistry) (q : RegisterCall) : NodeRegistry × Option Err :=
  let nodes := fun c => if c = q.cls then some q.fns else r.nodes c
  if q.toText.isNone ≠ q.ofText.isNone then ({ r with nodes := nodes }, some .valueError)
  else ({ nodes := nodes, serial := fun c => if c = q.cls then some ⟨q.typeName, q.toText, q.ofText⟩ else r.serial c,
          byName := fun n => if n = q.typeName then some q.cls else r.byName n }, none)

/-- `register_pytree_node` (`_pytree.py:210-272`). -/
def registerNode (r : NodeRegistry) (q : RegisterCall) : NodeRegistry × Option Err :=
  if (r.nodes q.cls).isSome then (r, some .valueError) else registerPrivate r q

/-- The first step of `register_pytree_node`, under the lock (`_pytree.py:245-247`); the second one, `registerPrivate`, takes the lock anew (line 378). -/
def registerCheck (r : NodeRegistry) (q : RegisterCall) : Option Err := if (r.nodes q.cls).isSome then some .valueError else none

/-- Calls of `register_pytree_node` one after the other (`_pytree.py:210-272`), errors caught by the script. -/
def registerNodes (r : NodeRegistry) (qs : List RegisterCall) : NodeRegistry := qs.foldl (fun r q => (registerNode r q).1) r

/-- Specs of trees next to each other (`TreeSpec`, `_pytree.py:716-843`): leaves, and nodes with a class, a context and children. The spec of a sample is a list of length one. -/
inductive ClassSpecs where
  | nil
  | leaf (rest : ClassSpecs)
  | node (cls ctx : Nat) (children rest : ClassSpecs)
  deriving DecidableEq, Repr

/-- What is dumped for them (`_TreeSpecSchema`, `_pytree.py:1328-1340`). -/
inductive NameSpecs where
  | nil
  | leaf (rest : NameSpecs)
  | node (name text : String) (children rest : NameSpecs)
  deriving DecidableEq, Repr

/-- `_treespec_to_json` (`_pytree.py:1351-1384`). -/
def dumpSpecs (jsonText : Nat → String) (r : NodeRegistry) : ClassSpecs → Py NameSpecs
  | .nil => .ok .nil
  | .leaf rest => (dumpSpecs jsonText r rest).bind fun t => .ok (.leaf t)
  | .node c ctx children rest => match r.serial c with
    | none => .error .notImplemented
    | some d => if d.name = noTypeName then .error .notImplemented
      else (dumpSpecs jsonText r children).bind fun s => (dumpSpecs jsonText r rest).bind fun t =>
        .ok (.node d.name ((d.toText.getD jsonText) ctx) s t)

/-- `_json_to_treespec` (`_pytree.py:1387-1415`). -/
def loadSpecs (jsonValue : String → Nat) (r : NodeRegistry) : NameSpecs → Py ClassSpecs
  | .nil => .ok .nil
  | .leaf rest => (loadSpecs jsonValue r rest).bind fun t => .ok (.leaf t)
  | .node name text children rest => match r.byName name with
    | none => .error .notImplemented
    | some typ => match r.serial typ with
      | none => .error .keyError
      | some d => (loadSpecs jsonValue r children).bind fun s => (loadSpecs jsonValue r rest).bind fun t =>
        .ok (.node typ ((d.ofText.getD jsonValue) text) s t)

end LitData
