import Verif.Model.Basic

/-!
Grouping serialized samples into chunks.
Models `src/litdata/streaming/writer.py` lines 36-44, 81-82 and 208-443.
-/

namespace LitData

/-- Raw bytes. -/
abbrev Bytes := List UInt8

/-- `Item` (`streaming/writer.py:36-44`). The `index` field is the key of the dictionary that stores the
item; `bytes` is always `len(data)` (`add_item`, line 337-342). -/
structure WItem where
  data : Bytes
  dim : Option Nat
  deriving DecidableEq, Repr

/-- `Item.bytes` and `len(item)` (`streaming/writer.py:43-44`). -/
def WItem.bytes (x : WItem) : Nat := x.data.length

/-- `item.dim if item.dim else 1` (`streaming/writer.py:388`). -/
def WItem.count (x : WItem) : Nat := match x.dim with
  | some d => if d = 0 then 1 else d
  | none => 1

/-- `chunk_bytes` and `chunk_size` of the constructor. Python treats `None` and `0` alike
(`if self._chunk_bytes and ...`); here both are `0`. -/
structure WriterCfg where
  chunkBytes : Nat
  chunkSize : Nat
  deriving DecidableEq, Repr

/-- The validation `streaming/writer.py:81-82` (for options given as `None` or a number). -/
def mkWriterCfg (chunkSize chunkBytes : Option Nat) : Py WriterCfg :=
  if (chunkSize = none ∧ chunkBytes = none) ∨ (chunkSize.getD 0 ≠ 0 ∧ chunkBytes.getD 0 ≠ 0) then
    .error .valueError
  else .ok ⟨chunkBytes.getD 0, chunkSize.getD 0⟩

/-- The state of `BinaryWriter` used for grouping (`streaming/writer.py:104-118`). `buf` is the
dictionary `_serialized_items` in insertion order; `chunks` holds the items of each chunk written. -/
structure WriterState where
  buf : List (Nat × WItem)
  minIdx : Option Nat
  maxIdx : Option Nat
  perBytes : Nat
  perItems : Nat
  chunks : List (List WItem)
  deriving DecidableEq, Repr

/-- The initial state (`streaming/writer.py:104-118`). -/
def WriterState.init : WriterState := ⟨[], none, none, 0, 0, []⟩

/-- `dict.get`. -/
def bufGet (buf : List (Nat × WItem)) (i : Nat) : Option WItem := (buf.find? (fun e => e.1 == i)).map (·.2)

/-- `dict.pop(key)`. -/
def bufPop (buf : List (Nat × WItem)) (i : Nat) : Py (WItem × List (Nat × WItem)) :=
  match bufGet buf i with
  | none => .error .keyError
  | some x => .ok (x, buf.filter (fun e => e.1 != i))

/-- `[self._serialized_items.pop(index) for index in indices]` (`streaming/writer.py:239,246`). -/
def bufPopAll (buf : List (Nat × WItem)) : List Nat → Py (List WItem × List (Nat × WItem))
  | [] => .ok ([], buf)
  | i :: is => do
    let (x, buf) ← bufPop buf i
    let (xs, buf) ← bufPopAll buf is
    return (x :: xs, buf)

/-- The limit test of `_should_write` (`streaming/writer.py:390-392`). -/
def overLimit (cfg : WriterCfg) (numBytes numItems : Nat) : Bool :=
  (cfg.chunkBytes != 0 && decide (cfg.chunkBytes < numBytes)) ||
  (cfg.chunkSize != 0 && decide (numItems > cfg.chunkSize))

/-- The `while True` loop of `_should_write` (`streaming/writer.py:384-399`). An item of zero bytes is
falsy in Python (`Item.__len__`), so it stops the scan like a missing one. Each turn but the last visits
another key of the dictionary, so `buf.length + 1` turns are enough. -/
def scan (cfg : WriterCfg) (s : WriterState) : Nat → Nat → Nat → Nat → Bool × WriterState
  | 0, index, nb, ni => (false, { s with perBytes := nb, perItems := ni, maxIdx := some index })
  | fuel + 1, index, nb, ni =>
    match bufGet s.buf index with
    | some x =>
      if x.bytes ≠ 0 then
        let nb := nb + x.bytes
        let ni := ni + x.count
        if overLimit cfg nb ni then (true, { s with maxIdx := some index })
        else scan cfg s fuel (index + 1) nb ni
      else (false, { s with perBytes := nb, perItems := ni, maxIdx := some index })
    | none => (false, { s with perBytes := nb, perItems := ni, maxIdx := some index })

/-- `_should_write` (`streaming/writer.py:371-399`). -/
def shouldWrite (cfg : WriterCfg) (s : WriterState) : Bool × WriterState :=
  if s.buf.isEmpty then (false, s)
  else match s.maxIdx with
    | none => (false, s)
    | some i => scan cfg s (s.buf.length + 1) i s.perBytes s.perItems

/-- `assert indices[i] == indices[i + 1] - 1` for all `i` (`streaming/writer.py:236-238`). -/
def contiguous : List Nat → Bool
  | [] => true
  | [_] => true
  | a :: b :: rest => decide (a + 1 = b) && contiguous (b :: rest)

/-- The choice of items in `_create_chunk` (`streaming/writer.py:233-246`). -/
def chunkItems (s : WriterState) (onDone : Bool) : Py (List WItem × List (Nat × WItem)) :=
  if onDone then
    let indices := pySorted (s.buf.map (·.1))
    if contiguous indices then bufPopAll s.buf indices else .error .assertion
  else match s.maxIdx, s.minIdx with
    | some mx, some mn =>
      if mx = mn then do
        let (x, buf) ← bufPop s.buf mx
        let (xs, buf) ← bufPopAll buf (List.range' mn (mx - mn))
        return (x :: xs, buf)
      else bufPopAll s.buf (List.range' mn (mx - mn))
    | _, _ => .error .assertion

/-- `write_chunk` (`streaming/writer.py:304-309`) with `_create_chunk` (208-297); the bytes of the file
are modelled in `Model/ChunkFile.lean`. -/
def writeChunk (cfg : WriterCfg) (s : WriterState) (onDone : Bool) : Py WriterState := do
  let (items, buf) ← chunkItems s onDone
  if items.length = 0 then .error .runtimeError
  else if cfg.chunkSize ≠ 0 ∧ ¬ items.length ≤ cfg.chunkSize then .error .assertion
  else .ok { s with buf := buf, chunks := s.chunks ++ [items] }

/-- The end of `add_item` (`streaming/writer.py:359-369`). -/
def flushIf (cfg : WriterCfg) (r : Bool × WriterState) : Py WriterState :=
  if r.1 then do
    let s ← writeChunk cfg r.2 false
    return { s with minIdx := none, maxIdx := none, perBytes := 0, perItems := 0 }
  else .ok r.2

/-- `min` of the keys (`streaming/writer.py:345-346`). -/
def bufMin (buf : List (Nat × WItem)) : Option Nat :=
  match buf.map (·.1) with
  | [] => none
  | k :: ks => some (ks.foldl min k)

/-- `add_item` (`streaming/writer.py:321-369`), given the serialized item. -/
def addItem (cfg : WriterCfg) (s : WriterState) (index : Nat) (x : WItem) : Py WriterState :=
  if (bufGet s.buf index).isSome then .error .valueError
  else
    let s := { s with buf := s.buf ++ [(index, x)] }
    match s.minIdx with
    | none =>
      let m := bufMin s.buf
      flushIf cfg (shouldWrite cfg { s with minIdx := m, maxIdx := m, perBytes := 0, perItems := 0 })
    | some mn =>
      if index < mn then
        flushIf cfg (shouldWrite cfg { s with minIdx := some index, maxIdx := some index, perBytes := 0, perItems := 0 })
      else if some index = s.maxIdx then flushIf cfg (shouldWrite cfg s)
      else .ok s

/-- The loop `while self._should_write()` of `done` (`streaming/writer.py:432-433`). Each turn writes at
least one item, so `buf.length + 1` turns are enough. -/
def doneLoop (cfg : WriterCfg) : Nat → WriterState → Py WriterState
  | 0, s => .ok s
  | fuel + 1, s =>
    let r := shouldWrite cfg s
    if r.1 then (writeChunk cfg r.2 false).bind (doneLoop cfg fuel) else .ok r.2

/-- `done` (`streaming/writer.py:425-443`). `filled` is the property of lines 121-133. -/
def writerDone (cfg : WriterCfg) (filled : Bool) (s : WriterState) : Py WriterState :=
  if filled then .ok s
  else (doneLoop cfg (s.buf.length + 1) s).bind fun s =>
    if s.buf.isEmpty then .ok s else writeChunk cfg s true

/-- Adding items one after the other. -/
def addAll (cfg : WriterCfg) : WriterState → List (Nat × WItem) → Py WriterState
  | s, [] => .ok s
  | s, (i, x) :: rest => (addItem cfg s i x).bind fun s => addAll cfg s rest

end LitData
