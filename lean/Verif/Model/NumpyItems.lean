import Verif.Model.Packing
import Verif.Model.Checkpoint

/-!
The inputs of a worker after `np.random.permutation(...).tolist()`, which `_map_items_to_workers_weighted` applies to them
(`src/litdata/processing/data_processor.py` lines 334-362): the list of inputs becomes a numpy array and the array a list again.

Simplified: numpy 1.24 or later (earlier versions warn about inputs of different shapes instead of raising). The inputs are made of integers of at most
64 bits, texts, lists and tuples; dictionaries, floats, `None` and other objects are left out, and so is numpy's limit on the number of dimensions.
-/

namespace LitData

/-- The shape of a sequence whose elements have the given shapes, when all have the same one (`np.asarray`, called by `np.random.permutation` in
`data_processor.py:362`). -/
def seqShape : List (Option (List Nat)) → Option (List Nat)
  | [] => some [0]
  | none :: _ => none
  | some s :: rest => if rest.all (· == some s) then some ((rest.length + 1) :: s) else none

mutual
/-- The shape that numpy finds in an input: texts and numbers are single entries (`data_processor.py:362`). -/
def UserItem.shape : UserItem → Option (List Nat)
  | .int _ => some []
  | .str _ => some []
  | .list l => seqShape (shapes l)
  | .tuple l => seqShape (shapes l)

/-- The shapes of the elements of a list (`data_processor.py:362`). -/
def shapes : List UserItem → List (Option (List Nat))
  | [] => []
  | x :: l => x.shape :: shapes l
end

mutual
/-- Does a text occur in the input? Then the array is one of texts (`data_processor.py:362`). -/
def UserItem.hasText : UserItem → Bool
  | .int _ => false
  | .str _ => true
  | .list l => anyText l
  | .tuple l => anyText l

/-- Does a text occur in the inputs of a list (`data_processor.py:362`)? -/
def anyText : List UserItem → Bool
  | [] => false
  | x :: l => x.hasText || anyText l
end

/-- An entry of an array of texts is padded with zero characters, which are not given back (`data_processor.py:362`). -/
def stripNul (s : String) : String := String.ofList (s.toList.reverse.dropWhile (· == '\x00')).reverse

mutual
/-- What comes back from the array by `tolist()`: in an array of texts the numbers are texts, and all sequences are lists (`data_processor.py:362`). -/
def UserItem.viaNumpy (text : Bool) : UserItem → UserItem
  | .int i => if text then .str (toString i) else .int i
  | .str s => .str (stripNul s)
  | .list l => .list (viaNumpyList text l)
  | .tuple l => .list (viaNumpyList text l)

/-- The elements of a list (`data_processor.py:362`). -/
def viaNumpyList (text : Bool) : List UserItem → List UserItem
  | [] => []
  | x :: l => x.viaNumpy text :: viaNumpyList text l
end

/-- The inputs of one worker as an array and back, before they are permuted (`data_processor.py:362`): inputs of different shapes are a ValueError. -/
def npItems (l : List UserItem) : Py (List UserItem) :=
  match seqShape (shapes l) with
  | none => .error .valueError
  | some _ => .ok (viaNumpyList (anyText l) l)

/-- `np.random.permutation(items).tolist()` for the workers in turn (`data_processor.py:362`); `draw w` is the permutation drawn for worker `w`. -/
def npWorkers (draw : Nat → List UserItem → List UserItem) (bins : List (List UserItem × Int)) : List Nat → Py (List (List UserItem))
  | [] => .ok []
  | w :: ws =>
    match npItems (bins.getD w ([], 0)).1 with
    | .error e => .error e
    | .ok l => (npWorkers draw bins ws).map (draw w l :: ·)

/-- `_map_items_to_workers_weighted` with the conversion of the inputs (`data_processor.py:334-362`). -/
def mapWeightedNp (numNodes nodeRank numWorkers : Nat) (draw : Nat → List UserItem → List UserItem) (items : List UserItem)
    (weights : Option (List Int)) : Py (List (List UserItem)) := do
  let bins ← packGreedily items (weights.getD (List.replicate items.length 1)) (numNodes * numWorkers)
  npWorkers draw bins (List.range' (nodeRank * numWorkers) numWorkers)

/-- The choice between the three ways of mapping, with the conversion of the inputs (`data_processor.py:1124-1138`). -/
def mapItemsNp (numNodes nodeRank numWorkers : Nat) (draw : Nat → List UserItem → List UserItem) (leaves : UserItem → List (Option Nat))
    (items : List UserItem) (weights : Option (List Int)) (reorder : Bool) : Py (List (List UserItem)) :=
  match weights with
  | some ws =>
    if ws.length ≠ items.length then .error .valueError
    else mapWeightedNp numNodes nodeRank numWorkers draw items (some ws)
  | none =>
    if reorder then do
      let sizes ← items.mapM (itemBytes leaves)
      mapWeightedNp numNodes nodeRank numWorkers draw items (some sizes)
    else mapSequentially numNodes nodeRank numWorkers items

end LitData
