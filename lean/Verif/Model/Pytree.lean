import Verif.Model.Json
import Verif.Model.Writer

/-!
Nested samples: flattening, rebuilding, and the stored structure.
Models `src/litdata/utilities/_pytree.py` lines 442-610 (flatten and unflatten functions of the built-in
containers), 677-713, 715-860, 866-912 and 1351-1449.

Not modelled: node types registered by users other than named tuples, floats as dictionary keys, and
dictionary keys that are tuples of tuples.
-/

namespace LitData

/-- A simple dictionary key. -/
inductive Atom where
  | str (s : String)
  | int (i : Int)
  | bool (b : Bool)
  | none
  deriving DecidableEq, Repr

/-- Equal as Python dictionary keys: `True == 1` and `False == 0`. -/
def Atom.norm : Atom → Atom
  | .bool b => .int (if b then 1 else 0)
  | a => a

/-- A value used as dictionary key. `lst` is what a tuple becomes after a trip through JSON; a list cannot
be a key. -/
inductive Key where
  | atom (a : Atom)
  | tup (l : List Atom)
  | lst (l : List Atom)
  | bytes (b : Bytes)
  deriving DecidableEq, Repr

/-- Representative of a key up to Python equality. -/
def Key.norm : Key → Key
  | .atom a => .atom a.norm
  | .tup l => .tup (l.map Atom.norm)
  | .lst l => .lst (l.map Atom.norm)
  | .bytes b => .bytes b

/-- `hash(key)` does not raise `TypeError`. -/
def Key.hashable : Key → Bool
  | .lst _ => false
  | _ => true

/-- The type of a container together with the context returned by its flatten function
(`utilities/_pytree.py:442-610`). A `namedtuple` context is its class, given by its name and number of
fields; the default factory of a `defaultdict` is given by module and name, or is `None`. -/
inductive Head where
  | tuple
  | list
  | dict (keys : List Key)
  | odict (keys : List Key)
  | ddict (factory : Option (String × String)) (keys : List Key)
  | named (cls : String) (arity : Nat)
  | deque (maxlen : Option Nat)
  deriving DecidableEq, Repr

/-- A nested sample. A dictionary is its list of keys (in the head) and its list of values. -/
inductive Tree (α : Type) where
  | leaf (a : α)
  | node (head : Head) (children : List (Tree α))

/-- `TreeSpec` and `LeafSpec` (`utilities/_pytree.py:715-733`, 846-860). -/
inductive TSpec where
  | leaf
  | node (head : Head) (children : List TSpec)

/-- `_is_jpeg_array` (`utilities/_pytree.py:687-693`); `isJpeg` tells which leaves are JPEG images. -/
def isJpegArray {α : Type} (isJpeg : α → Bool) (h : Head) (cs : List (Tree α)) : Bool :=
  (match h with
    | .tuple => true
    | .list => true
    | _ => false) && !cs.isEmpty && cs.all fun c => match c with
      | .leaf a => isJpeg a
      | .node _ _ => false

mutual
/-- `_tree_flatten_helper` (`utilities/_pytree.py:866-882`): the leaves, in order, and the structure. -/
def flatten {α : Type} (isJpeg : α → Bool) : Tree α → List (Tree α) × TSpec
  | .leaf a => ([.leaf a], .leaf)
  | .node h cs =>
    if isJpegArray isJpeg h cs then ([.node h cs], .leaf)
    else
      let r := flattenList isJpeg cs
      (r.1, .node h r.2)

/-- The children, one after the other (`utilities/_pytree.py:880`). -/
def flattenList {α : Type} (isJpeg : α → Bool) : List (Tree α) → List (Tree α) × List TSpec
  | [] => ([], [])
  | c :: cs =>
    let r := flatten isJpeg c
    let rs := flattenList isJpeg cs
    (r.1 ++ rs.1, r.2 :: rs.2)
end

mutual
/-- `num_leaves` (`utilities/_pytree.py:731`, 855). -/
def TSpec.numLeaves : TSpec → Nat
  | .leaf => 1
  | .node _ cs => numLeavesList cs

/-- The sum over the children. -/
def numLeavesList : List TSpec → Nat
  | [] => 0
  | c :: cs => c.numLeaves + numLeavesList cs
end

mutual
/-- `num_nodes` (`utilities/_pytree.py:730`, 852). -/
def TSpec.numNodes : TSpec → Nat
  | .leaf => 1
  | .node _ cs => 1 + numNodesList cs

/-- The sum over the children. -/
def numNodesList : List TSpec → Nat
  | [] => 0
  | c :: cs => c.numNodes + numNodesList cs
end

/-- `is_leaf` (`utilities/_pytree.py:743-744`). -/
def TSpec.isLeaf (s : TSpec) : Bool := s.numNodes == 1 && s.numLeaves == 1

/-- `d[key] = value` on an insertion-ordered dictionary. -/
def dictSet {β : Type} (d : List (Key × β)) (k : Key) (v : β) : List (Key × β) :=
  match d with
  | [] => [(k, v)]
  | (k', v') :: r => if k'.norm = k.norm then (k', v) :: r else (k', v') :: dictSet r k v

/-- `dict(pairs)`: `TypeError` for an unhashable key. -/
def dictOf {β : Type} : List (Key × β) → List (Key × β) → Py (List (Key × β))
  | d, [] => .ok d
  | d, (k, v) :: r => if k.hashable then dictOf (dictSet d k v) r else .error .typeError

/-- The unflatten functions (`utilities/_pytree.py:450-610`). -/
def build {α : Type} (h : Head) (cs : List (Tree α)) : Py (Tree α) :=
  match h with
  | .tuple => .ok (.node .tuple cs)
  | .list => .ok (.node .list cs)
  | .dict ks => match dictOf [] (ks.zip cs) with
    | .error e => .error e
    | .ok d => .ok (.node (.dict (d.map (·.1))) (d.map (·.2)))
  | .odict ks => match dictOf [] (ks.zip cs) with
    | .error e => .error e
    | .ok d => .ok (.node (.odict (d.map (·.1))) (d.map (·.2)))
  | .ddict f ks => match dictOf [] (ks.zip cs) with
    | .error e => .error e
    | .ok d => .ok (.node (.ddict f (d.map (·.1))) (d.map (·.2)))
  | .named c n => if cs.length = n then .ok (.node (.named c n) cs) else .error .typeError
  | .deque none => .ok (.node (.deque none) cs)
  | .deque (some m) => .ok (.node (.deque (some m)) (cs.drop (cs.length - m)))

mutual
/-- `TreeSpec.unflatten` (`utilities/_pytree.py:818-843`). -/
def unflatten {α : Type} : TSpec → List (Tree α) → Py (Tree α)
  | .leaf, leaves =>
    if leaves.length ≠ 1 then .error .valueError
    else match leaves with
      | x :: _ => .ok x
      | [] => .error .indexError
  | .node h cs, leaves =>
    if leaves.length ≠ numLeavesList cs then .error .valueError
    else match unflattenList cs leaves with
      | .error e => .error e
      | .ok ts => build h ts

/-- The loop over the children (`utilities/_pytree.py:834-841`). -/
def unflattenList {α : Type} : List TSpec → List (Tree α) → Py (List (Tree α))
  | [], _ => .ok []
  | c :: cs, leaves => match unflatten c (leaves.take c.numLeaves) with
    | .error e => .error e
    | .ok t => match unflattenList cs (leaves.drop c.numLeaves) with
      | .error e => .error e
      | .ok ts => .ok (t :: ts)
end

/-- What is registered with the pytree module and importable when reading. -/
structure PyEnv where
  /-- Named tuple classes registered with a serialized name (here the name itself), with their arity. -/
  registered : String → Option Nat
  /-- `getattr(importlib.import_module(module), name)` finds the factory. -/
  importable : String × String → Bool

/-- A simple key as JSON. -/
def Atom.toJson : Atom → Json
  | .str s => .str s
  | .int i => .num i
  | .bool b => .bool b
  | .none => .null

/-- A key as JSON: tuples become arrays; `json.dumps` raises `TypeError` for bytes. -/
def Key.toJson : Key → Py Json
  | .atom a => .ok a.toJson
  | .tup l => .ok (.arr (l.map Atom.toJson))
  | .lst l => .ok (.arr (l.map Atom.toJson))
  | .bytes _ => .error .typeError

/-- The list of keys as JSON. -/
def keysToJson : List Key → Py (List Json)
  | [] => .ok []
  | k :: ks => match k.toJson with
    | .error e => .error e
    | .ok j => match keysToJson ks with
      | .error e => .error e
      | .ok js => .ok (j :: js)

/-- A simple key from JSON. -/
def Atom.ofJson : Json → Py Atom
  | .str s => .ok (.str s)
  | .num i => .ok (.int i)
  | .bool b => .ok (.bool b)
  | .null => .ok .none
  | _ => .error .typeError

/-- Simple keys from JSON. -/
def atomsOfJson : List Json → Py (List Atom)
  | [] => .ok []
  | j :: js => match Atom.ofJson j with
    | .error e => .error e
    | .ok a => match atomsOfJson js with
      | .error e => .error e
      | .ok as => .ok (a :: as)

/-- A key from JSON: an array is a Python list. (Simplified: nested arrays and objects, which no modelled
key produces, are refused here instead of when they are hashed.) -/
def Key.ofJson : Json → Py Key
  | .arr l => match atomsOfJson l with
    | .error e => .error e
    | .ok as => .ok (.lst as)
  | j => match Atom.ofJson j with
    | .error e => .error e
    | .ok a => .ok (.atom a)

/-- A list of keys from JSON. -/
def keysOfJson : List Json → Py (List Key)
  | [] => .ok []
  | j :: js => match Key.ofJson j with
    | .error e => .error e
    | .ok k => match keysOfJson js with
      | .error e => .error e
      | .ok ks => .ok (k :: ks)

/-- The type name and context written for a node (`utilities/_pytree.py:498-516`, 558-565, 1355-1380). -/
def headToJson (env : PyEnv) : Head → Py (String × Json)
  | .tuple => .ok ("builtins.tuple", .str (dumps .null))
  | .list => .ok ("builtins.list", .str (dumps .null))
  | .dict ks => match keysToJson ks with
    | .error e => .error e
    | .ok js => .ok ("builtins.dict", .str (dumps (.arr js)))
  | .odict ks => match keysToJson ks with
    | .error e => .error e
    | .ok js => .ok ("collections.OrderedDict", .str (dumps (.arr js)))
  | .ddict none _ => .error .attributeError
  | .ddict (some (m, n)) ks => match keysToJson ks with
    | .error e => .error e
    | .ok js => .ok ("collections.defaultdict",
        .obj ["default_factory_module", "default_factory_name", "dict_context"] [.str m, .str n, .arr js])
  | .named c _ => match env.registered c with
    | none => .error .notImplemented
    | some _ => .ok ("collections.namedtuple", .str c)
  | .deque m => .ok ("collections.deque", .str (dumps (match m with
    | none => .null
    | some n => .num n)))

/-- A JSON array of keys. -/
def contextKeys : Json → Py (List Key)
  | .arr js => keysOfJson js
  | _ => .error .typeError

/-- The container read from a type name and a context (`utilities/_pytree.py:519-527`, 568-587, 1391-1409). -/
def headOfJson (env : PyEnv) (type : String) (context : Json) : Py Head :=
  if type = "builtins.tuple" then .ok .tuple
  else if type = "builtins.list" then .ok .list
  else if type = "builtins.dict" then match context with
    | .str t => match loads t with
      | .error e => .error e
      | .ok j => match contextKeys j with
        | .error e => .error e
        | .ok ks => .ok (.dict ks)
    | _ => .error .typeError
  else if type = "collections.OrderedDict" then match context with
    | .str t => match loads t with
      | .error e => .error e
      | .ok j => match contextKeys j with
        | .error e => .error e
        | .ok ks => .ok (.odict ks)
    | _ => .error .typeError
  else if type = "collections.defaultdict" then match context with
    | .obj ["default_factory_module", "default_factory_name", "dict_context"] [.str m, .str n, ctx] =>
      if env.importable (m, n) then match contextKeys ctx with
        | .error e => .error e
        | .ok ks => .ok (.ddict (some (m, n)) ks)
      else .error .attributeError
    | _ => .error .assertion
  else if type = "collections.namedtuple" then match context with
    | .str c => match env.registered c with
      | none => .error .notImplemented
      | some n => .ok (.named c n)
    | _ => .error .typeError
  else if type = "collections.deque" then match context with
    | .str t => match loads t with
      | .error e => .error e
      | .ok .null => .ok (.deque none)
      | .ok (.num (.ofNat n)) => .ok (.deque (some n))
      | .ok _ => .error .typeError
    | _ => .error .typeError
  else .error .notImplemented

mutual
/-- `_treespec_to_json` (`utilities/_pytree.py:1351-1384`) followed by `dataclasses.asdict`. -/
def specToJson (env : PyEnv) : TSpec → Py Json
  | .leaf => .ok (.obj ["type", "context", "children_spec"] [.null, .null, .arr []])
  | .node h cs => match headToJson env h with
    | .error e => .error e
    | .ok (t, c) => match specsToJson env cs with
      | .error e => .error e
      | .ok js => .ok (.obj ["type", "context", "children_spec"] [.str t, c, .arr js])

/-- The children. -/
def specsToJson (env : PyEnv) : List TSpec → Py (List Json)
  | [] => .ok []
  | c :: cs => match specToJson env c with
    | .error e => .error e
    | .ok j => match specsToJson env cs with
      | .error e => .error e
      | .ok js => .ok (j :: js)
end

mutual
/-- `_json_to_treespec` (`utilities/_pytree.py:1387-1415`). -/
def specOfJson (env : PyEnv) : Json → Py TSpec
  | .obj ["type", "context", "children_spec"] [.null, .null, .arr []] => .ok .leaf
  | .obj ["type", "context", "children_spec"] [.str t, c, .arr js] => match headOfJson env t c with
    | .error e => .error e
    | .ok h => match specsOfJson env js with
      | .error e => .error e
      | .ok cs => .ok (.node h cs)
  | _ => .error .notImplemented

/-- The children. -/
def specsOfJson (env : PyEnv) : List Json → Py (List TSpec)
  | [] => .ok []
  | j :: js => match specOfJson env j with
    | .error e => .error e
    | .ok c => match specsOfJson env js with
      | .error e => .error e
      | .ok cs => .ok (c :: cs)
end

/-- `treespec_dumps` (`utilities/_pytree.py:1421-1440`), protocol 1. -/
def treespecDumps (env : PyEnv) (s : TSpec) : Py String :=
  match specToJson env s with
  | .error e => .error e
  | .ok j => .ok (dumps (.arr [.num 1, j]))

/-- `treespec_loads` (`utilities/_pytree.py:1442-1449`). -/
def treespecLoads (env : PyEnv) (text : String) : Py TSpec :=
  match loads text with
  | .error e => .error e
  | .ok (.arr [.num 1, j]) => specOfJson env j
  | .ok _ => .error .valueError

end LitData
