import Verif.Model.Merge

/-!
Blocks of tokens.
Models `src/litdata/streaming/item_loader.py` lines 373-583 (`TokensLoader`).

A token is kept as the bytes of its value (`dtype.itemsize` of them); what `torch` or `numpy` make of the bytes is not
modelled. A tensor returned by `frombuffer` is a view of a memory map, so that what happens to it after `close` or
`delete` can be stated. The other thread of the reader (`pre_load_chunk`, `delete`) and this one are interleaved method
by method.
-/

namespace LitData

/-- The fields of `TokensLoader` (`streaming/item_loader.py:381-388`). `maps` are all memory maps ever made: the bytes
behind the offset, `none` once unmapped. `_mmaps` and `_buffers` always have the same keys: `current`. -/
structure TokState where
  maps : List (Option Bytes)
  current : Nat → Option Nat
  counter : Nat → Int
  known : List String

/-- The fields after `__init__`. -/
def TokState.init : TokState := ⟨[], fun _ => none, fun _ => 0, []⟩

/-- A tensor made by `frombuffer`: the memory map, the offset in bytes, the number of tokens. -/
structure TokView where
  map : Nat
  offset : Nat
  count : Nat
  deriving DecidableEq, Repr

/-- `count` groups of `sz` bytes. -/
def groups (sz : Nat) : Nat → Bytes → List Bytes
  | 0, _ => []
  | n + 1, b => b.take sz :: groups sz n (b.drop sz)

/-- The tokens seen through a view now; `none`: the memory is not mapped any more. -/
def tokDeref (st : TokState) (sz : Nat) (v : TokView) : Option (List Bytes) :=
  match st.maps[v.map]? with
  | some (some b) => some (groups sz v.count (b.drop v.offset))
  | _ => none

/-- `generate_intervals` (`streaming/item_loader.py:418-433`), from chunk `idx` on. `None // int` is a `TypeError`; `block_size`
`None` or 0 fails the assertion. -/
def tokIntervals (blockSize : Nat) (roi : Option (List (Nat × Nat))) : Nat → Nat → List ChunkInfo → Py (List Interval)
  | _, _, [] => if blockSize = 0 then .error .assertion else .ok []
  | idx, begin, c :: cs =>
    if blockSize = 0 then .error .assertion
    else match c.dim with
    | none => .error .typeError
    | some dim =>
      let here : Py (Nat × Nat) := match roi with
        | none => .ok (begin, begin + dim / blockSize)
        | some l => match l[idx]? with
          | none => .error .indexError
          | some r => .ok (begin + r.1, begin + r.2)
      match here with
      | .error e => .error e
      | .ok (s, e) => match tokIntervals blockSize roi (idx + 1) (begin + dim / blockSize) cs with
        | .error e => .error e
        | .ok rest => .ok (⟨begin, s, e, begin + dim / blockSize⟩ :: rest)

/-- The test of `setup` on the chunks (`streaming/item_loader.py:415-416`). -/
def tokSetup (chunks : List ChunkInfo) : Py Unit := if chunks.all fun c => c.dim == none then .error .valueError else .ok ()

/-- `_load_chunk` (`streaming/item_loader.py:435-448`). `np.memmap` of nothing is a `ValueError`. -/
def tokLoadChunk (fs : String → Option Bytes) (chunks : List ChunkInfo) (st : TokState) (k : Nat) (path : String) : Py TokState :=
  let st := { st with counter := fun i => if i = k then st.counter i + 1 else st.counter i }
  match st.current k with
  | some _ => .ok st
  | none => match chunks[k]? with
    | none => .error .indexError
    | some c => match fs path with
      | none => .error .fileNotFound
      | some file =>
        let offset := (1 + c.chunkSize + 1) * 4
        if file.length ≤ offset then .error .valueError
        else .ok { st with
          maps := st.maps ++ [some (file.drop offset)]
          current := fun i => if i = k then some st.maps.length else st.current i }

/-- `pre_load_chunk` (`streaming/item_loader.py:450-456`). -/
def tokPreLoad (fs : String → Option Bytes) (chunks : List ChunkInfo) (st : TokState) (k : Nat) (path : String) : Py TokState :=
  let st := if path ∈ st.known then st else { st with known := path :: st.known }
  match fs path with
  | none => .ok st
  | some file => if file.length > 0 then tokLoadChunk fs chunks st k path else .ok st

/-- The part of `load_item_from_chunk` that waits for the file (`streaming/item_loader.py:468-492`).
Simplified: the polling loop is replaced by the state of the file system at its last iteration. -/
def tokWait (fs : String → Option Bytes) (st : TokState) (path : String) (filesize : Nat) : Py TokState :=
  let st := if path ∈ st.known ∧ fs path = none then { st with known := st.known.filter (· != path) } else st
  if path ∈ st.known then .ok st
  else match fs path with
    | none => .error .fileNotFound
    | some file => if file.length ≥ filesize then .ok { st with known := path :: st.known } else .error .fileNotFound

/-- `load_item_from_chunk` (`streaming/item_loader.py:458-518`). `frombuffer` raises `ValueError` for a negative offset and when
the buffer is too short. -/
def tokLoadItem (fs : String → Option Bytes) (chunks : List ChunkInfo) (blockSize sz : Nat) (st : TokState)
    (index k : Nat) (path : String) (begin filesize : Nat) : Py (TokView × TokState) :=
  if blockSize = 0 then .error .assertion
  else match tokWait fs st path filesize with
  | .error e => .error e
  | .ok st => match tokLoadChunk fs chunks st k path with
    | .error e => .error e
    | .ok st => match st.current k with
      | none => .error .keyError
      | some m =>
        if index < begin then .error .valueError
        else
          let offset := sz * (index - begin) * blockSize
          match st.maps[m]? with
          | some (some b) => if offset + sz * blockSize ≤ b.length then .ok (⟨m, offset, blockSize⟩, st) else .error .valueError
          | _ => .error .valueError

/-- Unmapping the memory map of a chunk (`streaming/item_loader.py:531-537`, 554-558). -/
def tokUnmap (st : TokState) (k : Nat) : TokState :=
  match st.current k with
  | none => st
  | some m => { st with maps := st.maps.set m none, current := fun i => if i = k then none else st.current i }

/-- `delete` (`streaming/item_loader.py:520-538`) with the file system it leaves. -/
def tokDelete (fs : String → Option Bytes) (st : TokState) (k : Nat) (path : String) : TokState × (String → Option Bytes) :=
  match fs path with
  | none => (st, fs)
  | some _ =>
    let st' := match st.current k with
      | none => st
      | some _ => { tokUnmap st k with counter := fun i => if i = k then 0 else st.counter i }
    (st', fun p => if p = path then none else fs p)

/-- `close` (`streaming/item_loader.py:549-558`). -/
def tokClose (st : TokState) (k : Nat) : TokState :=
  let st := { st with counter := fun i => if i = k then st.counter i - 1 else st.counter i }
  if st.counter k = 0 then tokUnmap st k else st

end LitData
