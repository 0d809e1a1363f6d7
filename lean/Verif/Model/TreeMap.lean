import Verif.Model.Pytree

/-!
Functions over nested samples: leaves, key paths, mapping, broadcasting.
Models `src/litdata/utilities/_pytree.py` lines 404-440 (key entries), 442-600 (the functions with keys), 695-707, 746-816, 866-984, 987-1019, 1060-1100,
1139-1145, 1184-1208, 1238-1245, 1275-1282, 1293-1324, 1478-1615.

Not modelled: node types registered by users other than named tuples; a `defaultdict` that is asked for a missing key; the text of `treespec_pprint`.
A custom `is_leaf` is a function of the tree that does not raise.
-/

namespace LitData

/-- `_is_leaf` (`utilities/_pytree.py:695-707`); `isLeaf` is the predicate of the user, `fun _ => false` for `None`. -/
def isLeafNode {α : Type} (isJpeg : α → Bool) (isLeaf : Tree α → Bool) : Tree α → Bool
  | .leaf _ => true
  | .node h cs => isLeaf (.node h cs) || isJpegArray isJpeg h cs

mutual
/-- `_tree_flatten_helper` with `is_leaf` (`utilities/_pytree.py:866-892`). -/
def flattenW {α : Type} (isJpeg : α → Bool) (isLeaf : Tree α → Bool) : Tree α → List (Tree α) × TSpec
  | .leaf a => ([.leaf a], .leaf)
  | .node h cs =>
    if isLeafNode isJpeg isLeaf (.node h cs) then ([.node h cs], .leaf)
    else
      let r := flattenWList isJpeg isLeaf cs
      (r.1, .node h r.2)

/-- The children, one after the other (`utilities/_pytree.py:880`). -/
def flattenWList {α : Type} (isJpeg : α → Bool) (isLeaf : Tree α → Bool) : List (Tree α) → List (Tree α) × List TSpec
  | [] => ([], [])
  | c :: cs =>
    let r := flattenW isJpeg isLeaf c
    let rs := flattenWList isJpeg isLeaf cs
    (r.1 ++ rs.1, r.2 :: rs.2)
end

mutual
/-- `tree_iter` and `tree_leaves` (`utilities/_pytree.py:909-931`). -/
def treeIter {α : Type} (isJpeg : α → Bool) (isLeaf : Tree α → Bool) : Tree α → List (Tree α)
  | .leaf a => [.leaf a]
  | .node h cs => if isLeafNode isJpeg isLeaf (.node h cs) then [.node h cs] else treeIterList isJpeg isLeaf cs

/-- The loop over the children (`utilities/_pytree.py:922-923`). -/
def treeIterList {α : Type} (isJpeg : α → Bool) (isLeaf : Tree α → Bool) : List (Tree α) → List (Tree α)
  | [] => []
  | c :: cs => treeIter isJpeg isLeaf c ++ treeIterList isJpeg isLeaf cs
end

/-- The type of a container (`utilities/_pytree.py:695-702`). -/
inductive NodeKind where
  | tuple | list | dict | odict | ddict | named | deque
  deriving DecidableEq, Repr

/-- `_get_node_type` of a container that is no list of JPEG images (`utilities/_pytree.py:695-702`). -/
def Head.kind : Head → NodeKind
  | .tuple => .tuple
  | .list => .list
  | .dict _ => .dict
  | .odict _ => .odict
  | .ddict _ _ => .ddict
  | .named _ _ => .named
  | .deque _ => .deque

/-- The keys of one of the `STANDARD_DICT_TYPES` (`utilities/_pytree.py:669-671`, 783-789). -/
def Head.dictKeys : Head → Option (List Key)
  | .dict ks | .odict ks | .ddict _ ks => some ks
  | _ => none

/-- `tree[key]` for a dictionary with these keys and values. -/
def dictGet {β : Type} (k : Key) : List Key → List β → Option β
  | k' :: ks, v :: vs => if k'.norm = k.norm then some v else dictGet k ks vs
  | _, _ => none

/-- `set(a) == set(b)` (`utilities/_pytree.py:790-793`). -/
def sameKeySet (a b : List Key) : Bool :=
  (a.all fun k => b.any fun k' => k'.norm = k.norm) && (b.all fun k => a.any fun k' => k'.norm = k.norm)

/-- `[tree[key] for key in expected_keys]` (`utilities/_pytree.py:802`). -/
def dictGetAll {β : Type} (ks : List Key) (vs : List β) : List Key → Py (List β)
  | [] => .ok []
  | k :: rest => match dictGet k ks vs with
    | none => .error .keyError
    | some v => match dictGetAll ks vs rest with
      | .error e => .error e
      | .ok r => .ok (v :: r)

/-- The children of a node that is compared with the node `h` with `n` children of a structure (`utilities/_pytree.py:771-811`). The list `set(expected_keys)`
raises `TypeError` for keys that cannot be hashed. -/
def childrenFor {β : Type} (h : Head) (n : Nat) (h' : Head) (ts : List β) : Py (List β) :=
  match h.dictKeys, h'.dictKeys with
  | some ks, some ks' =>
    if ts.length ≠ n then .error .valueError
    else if !(ks.all Key.hashable) then .error .typeError
    else if !sameKeySet ks ks' then .error .valueError
    else dictGetAll ks' ts ks
  | _, _ =>
    if h.kind ≠ h'.kind then .error .valueError
    else if ts.length ≠ n then .error .valueError
    else match h, h' with
      | .named c a, .named c' a' => if c = c' ∧ a = a' then .ok ts else .error .valueError
      | _, _ => .ok ts

mutual
/-- `_flatten_up_to_helper` (`utilities/_pytree.py:746-818`). -/
def flattenUpTo {α : Type} (isJpeg : α → Bool) : TSpec → Tree α → Py (List (Tree α))
  | .leaf, t => .ok [t]
  | .node _ _, .leaf _ => .error .valueError
  | .node h cs, .node h' ts =>
    if isJpegArray isJpeg h' ts then .error .valueError
    else match childrenFor h cs.length h' ts with
      | .error e => .error e
      | .ok us => flattenUpToList isJpeg cs us

/-- The loop over the children (`utilities/_pytree.py:812-813`). -/
def flattenUpToList {α : Type} (isJpeg : α → Bool) : List TSpec → List (Tree α) → Py (List (Tree α))
  | c :: cs, u :: us => match flattenUpTo isJpeg c u with
    | .error e => .error e
    | .ok a => match flattenUpToList isJpeg cs us with
      | .error e => .error e
      | .ok b => .ok (a ++ b)
  | _, _ => .ok []
end

/-- `[treespec.flatten_up_to(r) for r in rests]` (`utilities/_pytree.py:983`). -/
def flattenAll {α : Type} (isJpeg : α → Bool) (s : TSpec) : List (Tree α) → Py (List (List (Tree α)))
  | [] => .ok []
  | r :: rs => match flattenUpTo isJpeg s r with
    | .error e => .error e
    | .ok c => match flattenAll isJpeg s rs with
      | .error e => .error e
      | .ok cs => .ok (c :: cs)

/-- The first elements of all columns, if every column has one. -/
def heads {β : Type} : List (List β) → Option (List β)
  | [] => some []
  | [] :: _ => none
  | (x :: _) :: cs => (heads cs).map (x :: ·)

/-- The arguments of the calls of `map(func, first, *columns)`: as long as every column has an element. -/
def rows {γ β : Type} : List γ → List (List β) → List (γ × List β)
  | [], _ => []
  | x :: xs, cols => match heads cols with
    | none => []
    | some r => (x, r) :: rows xs (cols.map List.tail)

/-- A function is called for each element, until it raises. -/
def mapPy {β γ : Type} (f : β → Py γ) : List β → Py (List γ)
  | [] => .ok []
  | x :: xs => match f x with
    | .error e => .error e
    | .ok y => match mapPy f xs with
      | .error e => .error e
      | .ok ys => .ok (y :: ys)

/-- `tree_map` (`utilities/_pytree.py:942-984`). -/
def treeMap {α : Type} (isJpeg : α → Bool) (isLeaf : Tree α → Bool) (f : Tree α → List (Tree α) → Py (Tree α)) (t : Tree α) (rests : List (Tree α)) :
    Py (Tree α) :=
  let r := flattenW isJpeg isLeaf t
  match flattenAll isJpeg r.2 rests with
  | .error e => .error e
  | .ok cols => match mapPy (fun a => f a.1 a.2) (rows r.1 cols) with
    | .error e => .error e
    | .ok ys => unflatten r.2 ys

/-- `tree_map_` (`utilities/_pytree.py:987-1019`): the results are dropped. -/
def treeMapInPlace {α : Type} (isJpeg : α → Bool) (isLeaf : Tree α → Bool) (f : Tree α → List (Tree α) → Py (Tree α)) (t : Tree α)
    (rests : List (Tree α)) : Py (Tree α) :=
  let r := flattenW isJpeg isLeaf t
  match flattenAll isJpeg r.2 rests with
  | .error e => .error e
  | .ok cols => match mapPy (fun a => f a.1 a.2) (rows r.1 cols) with
    | .error e => .error e
    | .ok _ => .ok t

/-- `map_only` (`utilities/_pytree.py:1091-1100`). -/
def mapOnly {β : Type} (p : β → Bool) (f : β → Py β) (x : β) : Py β := if p x then f x else .ok x

/-- `tree_map_only` (`utilities/_pytree.py:1139-1145`). -/
def treeMapOnly {α : Type} (isJpeg : α → Bool) (isLeaf : Tree α → Bool) (p : Tree α → Bool) (f : Tree α → Py (Tree α)) (t : Tree α) : Py (Tree α) :=
  treeMap isJpeg isLeaf (fun x _ => mapOnly p f x) t []

/-- `tree_all` (`utilities/_pytree.py:1193-1199`). -/
def treeAll {α : Type} (isJpeg : α → Bool) (isLeaf : Tree α → Bool) (p : Tree α → Bool) (t : Tree α) : Bool := (treeIter isJpeg isLeaf t).all p

/-- `tree_any` (`utilities/_pytree.py:1202-1208`). -/
def treeAny {α : Type} (isJpeg : α → Bool) (isLeaf : Tree α → Bool) (p : Tree α → Bool) (t : Tree α) : Bool := (treeIter isJpeg isLeaf t).any p

/-- `tree_all_only` (`utilities/_pytree.py:1238-1245`). -/
def treeAllOnly {α : Type} (isJpeg : α → Bool) (isLeaf : Tree α → Bool) (only p : Tree α → Bool) (t : Tree α) : Bool :=
  ((treeIter isJpeg isLeaf t).filter only).all p

/-- `tree_any_only` (`utilities/_pytree.py:1275-1282`). -/
def treeAnyOnly {α : Type} (isJpeg : α → Bool) (isLeaf : Tree α → Bool) (only p : Tree α → Bool) (t : Tree α) : Bool :=
  ((treeIter isJpeg isLeaf t).filter only).any p

/-- `arg_tree_leaves` (`utilities/_pytree.py:1478-1489`). -/
def argTreeLeaves {α : Type} (isJpeg : α → Bool) (args kwargs : List (Tree α)) : List (Tree α) :=
  treeIterList isJpeg (fun _ => false) args ++ treeIterList isJpeg (fun _ => false) kwargs

/-- A container up to the equality of Python, which is used to compare contexts (`utilities/_pytree.py:1312`). -/
def Head.norm : Head → Head
  | .dict ks => .dict (ks.map Key.norm)
  | .odict ks => .odict (ks.map Key.norm)
  | .ddict f ks => .ddict f (ks.map Key.norm)
  | h => h

mutual
/-- `_broadcast_to_and_flatten` (`utilities/_pytree.py:1293-1324`). -/
def broadcastTo {α : Type} (isJpeg : α → Bool) (isLeaf : Tree α → Bool) : Tree α → TSpec → Option (List (Tree α))
  | .leaf a, s => some (List.replicate s.numLeaves (.leaf a))
  | .node h cs, s =>
    if isLeafNode isJpeg isLeaf (.node h cs) then some (List.replicate s.numLeaves (.node h cs))
    else match s with
      | .leaf => none
      | .node h' ss => if h.norm = h'.norm ∧ cs.length = ss.length then broadcastList isJpeg isLeaf cs ss else none

/-- The loop over the children (`utilities/_pytree.py:1316-1322`). -/
def broadcastList {α : Type} (isJpeg : α → Bool) (isLeaf : Tree α → Bool) : List (Tree α) → List TSpec → Option (List (Tree α))
  | c :: cs, s :: ss => match broadcastTo isJpeg isLeaf c s with
    | none => none
    | some a => match broadcastList isJpeg isLeaf cs ss with
      | none => none
      | some b => some (a ++ b)
  | _, _ => some []
end

/-- `SequenceKey`, `MappingKey` and `GetAttrKey` (`utilities/_pytree.py:406-440`). -/
inductive KeyEntry where
  | seq (i : Nat)
  | map (k : Key)
  | attr (name : String)
  deriving DecidableEq, Repr

/-- The key entries of the children (`utilities/_pytree.py:446-600`, the `_flatten_with_keys` functions); `fields` are the names of the fields of a named tuple. -/
def entriesOf (fields : String → List String) : Head → Nat → List KeyEntry
  | .dict ks, _ | .odict ks, _ | .ddict _ ks, _ => ks.map .map
  | .named c _, _ => (fields c).map .attr
  | _, n => (List.range n).map .seq

mutual
/-- `_generate_key_paths` (`utilities/_pytree.py:1539-1565`). -/
def keyPaths {α : Type} (isJpeg : α → Bool) (isLeaf : Tree α → Bool) (fields : String → List String) (pre : List KeyEntry) :
    Tree α → List (List KeyEntry × Tree α)
  | .leaf a => [(pre, .leaf a)]
  | .node h cs =>
    if isLeafNode isJpeg isLeaf (.node h cs) then [(pre, .node h cs)]
    else keyPathsList isJpeg isLeaf fields pre (entriesOf fields h cs.length) cs

/-- The loop over the children with their keys (`utilities/_pytree.py:1556-1558`). -/
def keyPathsList {α : Type} (isJpeg : α → Bool) (isLeaf : Tree α → Bool) (fields : String → List String) (pre : List KeyEntry) :
    List KeyEntry → List (Tree α) → List (List KeyEntry × Tree α)
  | e :: es, c :: cs => keyPaths isJpeg isLeaf fields (pre ++ [e]) c ++ keyPathsList isJpeg isLeaf fields pre es cs
  | _, _ => []
end

/-- `tree_leaves_with_path` (`utilities/_pytree.py:1517-1536`). -/
def leavesWithPath {α : Type} (isJpeg : α → Bool) (isLeaf : Tree α → Bool) (fields : String → List String) (t : Tree α) : List (List KeyEntry × Tree α) :=
  keyPaths isJpeg isLeaf fields [] t

/-- `tree_flatten_with_path` (`utilities/_pytree.py:1492-1514`). -/
def flattenWithPath {α : Type} (isJpeg : α → Bool) (isLeaf : Tree α → Bool) (fields : String → List String) (t : Tree α) :
    List (List KeyEntry × Tree α) × TSpec :=
  (keyPaths isJpeg isLeaf fields [] t, (flattenW isJpeg isLeaf t).2)

/-- `tree_map_with_path` (`utilities/_pytree.py:1568-1601`). -/
def treeMapWithPath {α : Type} (isJpeg : α → Bool) (isLeaf : Tree α → Bool) (fields : String → List String)
    (f : List KeyEntry → Tree α → List (Tree α) → Py (Tree α)) (t : Tree α) (rests : List (Tree α)) : Py (Tree α) :=
  let r := flattenWithPath isJpeg isLeaf fields t
  match flattenAll isJpeg r.2 rests with
  | .error e => .error e
  | .ok cols => match mapPy (fun a => f a.1.1 a.1.2 a.2) (rows r.1 cols) with
    | .error e => .error e
    | .ok ys => unflatten r.2 ys

/-- The value under the name of a field. -/
def fieldGet {β : Type} (name : String) : List String → List β → Option β
  | n :: ns, v :: vs => if n = name then some v else fieldGet name ns vs
  | _, _ => none

/-- `k.get(obj)` (`utilities/_pytree.py:413-414`, 427-428, 438-439). -/
def KeyEntry.get {α : Type} (fields : String → List String) : KeyEntry → Tree α → Py (Tree α)
  | .attr n, .node (.named c _) cs => match fieldGet n (fields c) cs with
    | none => .error .attributeError
    | some v => .ok v
  | .attr _, _ => .error .attributeError
  | .seq i, .node h cs => match h.dictKeys with
    | none => match cs[i]? with
      | none => .error .indexError
      | some v => .ok v
    | some ks => match dictGet (.atom (.int i)) ks cs with
      | none => .error .keyError
      | some v => .ok v
  | .map k, .node h cs => match h.dictKeys with
    | none => .error .typeError
    | some ks => match dictGet k ks cs with
      | none => .error .keyError
      | some v => .ok v
  | _, .leaf _ => .error .typeError

/-- `key_get` (`utilities/_pytree.py:1611-1615`). -/
def keyGet {α : Type} (fields : String → List String) : Tree α → List KeyEntry → Py (Tree α)
  | t, [] => .ok t
  | t, k :: ks => match k.get fields t with
    | .error e => .error e
    | .ok u => keyGet fields u ks

end LitData
