import Verif.Model.Serializers

/-!
From samples to bytes and back.
Models `src/litdata/streaming/writer.py` lines 159-206 (`serialize`) and
`src/litdata/streaming/item_loader.py` lines 48-82 (`setup`, `_data_format_to_key`), 287-297 (`deserialize`)
and 337-364 (`encode_data`), for any table of serializers.

Simplified: `Serializer.setup` only records the data format (a malformed data format is reported when a
sample is read instead of at setup), and `_data_format_to_key` is not cached.
-/

namespace LitData

/-- A leaf that may be any subtree kept whole, as returned by `tree_flatten`. -/
abbrev Table (V : Type) := List (String × Serializer V)

/-- The fields of `BinaryWriter` used by `serialize` (`streaming/writer.py:97-99`). -/
structure SerState (V : Type) where
  format : Option (List String)
  spec : Option TSpec
  extra : Table V

/-- The fields after `__init__`. -/
def SerState.init {V : Type} : SerState V := ⟨none, none, []⟩

/-- `sizes.append(serializer.size if hasattr(serializer, "size") else len(serialized_item))`
(`streaming/writer.py:190`, 206). -/
def recordedSize {V : Type} (s : Serializer V) (b : Bytes) : Nat := s.size.getD b.length

/-- `name or serializer_name` (`streaming/writer.py:191`). -/
def formatOf (key : String) (name : Option String) : String :=
  match name with
  | none => key
  | some n => if n = "" then key else n

/-- `_serialize` (`streaming/writer.py:184-195`): the first serializer accepting the leaf. -/
def serializeLeaf {V : Type} (sers extra : Table V) (x : V) : Py ((Bytes × Nat) × String × Table V) :=
  match sers.find? fun e => e.2.canSerialize x with
  | none => .error .valueError
  | some (key, s) => match s.serialize x with
    | .error e => .error e
    | .ok (b, name) =>
      let n := formatOf key name
      .ok ((b, recordedSize s b), n, if (extra.lookup n).isSome then extra else extra ++ [(n, s)])

/-- The loop of `serialize` for the first sample (`streaming/writer.py:169-171`). -/
def serializeFirst {V : Type} (sers : Table V) : Table V → List V → Py (List (Bytes × Nat) × List String × Table V)
  | extra, [] => .ok ([], [], extra)
  | extra, x :: xs => match serializeLeaf sers extra x with
    | .error e => .error e
    | .ok (d, n, extra') => match serializeFirst sers extra' xs with
      | .error e => .error e
      | .ok (ds, ns, extra'') => .ok (d :: ds, n :: ns, extra'')

/-- The loop of `_serialize_with_data_format` (`streaming/writer.py:201-206`); `zip` stops with the
shorter list. -/
def serializeNext {V : Type} (extra : Table V) : List V → List String → Py (List (Bytes × Nat))
  | x :: xs, n :: ns => match extra.lookup n with
    | none => .error .keyError
    | some s => match s.serialize x with
      | .error e => .error e
      | .ok (b, _) => match serializeNext extra xs ns with
        | .error e => .error e
        | .ok ds => .ok ((b, recordedSize s b) :: ds)
  | _, _ => .ok []

/-- `PyTreeLoader.encode_data` (`streaming/item_loader.py:337-364`). -/
def encodeData (ds : List (Bytes × Nat)) : Bytes := (ds.map (·.2)).flatMap le32 ++ (ds.map (·.1)).flatten

/-- `serialize` (`streaming/writer.py:159-182`) on a flattened sample. -/
def serializeSample {V : Type} (sers : Table V) (st : SerState V) (leaves : List V) (spec : TSpec) :
    Py (Bytes × SerState V) :=
  match st.format with
  | none => match serializeFirst sers st.extra leaves with
    | .error e => .error e
    | .ok (ds, ns, extra) => .ok (encodeData ds, ⟨some ns, some spec, extra⟩)
  | some ns =>
    if ns = [] then .error .assertion
    else match serializeNext st.extra leaves ns with
      | .error e => .error e
      | .ok ds => .ok (encodeData ds, st)

/-- Serialize one sample after the other. -/
def serializeAll {V : Type} (sers : Table V) (flat : α → List V × TSpec) :
    SerState V → List α → Py (List Bytes × SerState V)
  | st, [] => .ok ([], st)
  | st, x :: xs => match serializeSample sers st (flat x).1 (flat x).2 with
    | .error e => .error e
    | .ok (b, st') => match serializeAll sers flat st' xs with
      | .error e => .error e
      | .ok (bs, st'') => .ok (b :: bs, st'')

/-- The reader's table: name, serializer, and the data format it was set up with. -/
abbrev ReadTable (V : Type) := List (String × Serializer V × Option String)

/-- `d[key] = value`. -/
def tableSet {β : Type} (d : List (String × β)) (k : String) (v : β) : List (String × β) :=
  match d with
  | [] => [(k, v)]
  | (k', v') :: r => if k' = k then (k', v) :: r else (k', v') :: tableSet r k v

/-- `_data_format_to_key` (`streaming/item_loader.py:74-82`): unpacking more than two parts raises
`ValueError`. -/
def dataFormatToKey {β : Type} (d : List (String × β)) (format : String) : Py String :=
  match splitColon format.toList with
  | [_] => .ok format
  | [a, b] => .ok (if (d.lookup (String.ofList b)).isSome then String.ofList b else String.ofList a)
  | _ => .error .valueError

/-- `BaseItemLoader.setup` (`streaming/item_loader.py:64-68`). -/
def setupFormats {V : Type} : ReadTable V → List String → Py (ReadTable V)
  | d, [] => .ok d
  | d, f :: fs => match dataFormatToKey d f with
    | .error e => .error e
    | .ok k => match d.lookup k with
      | none => .error .keyError
      | some (s, _) => setupFormats (tableSet d f (s, some f)) fs

/-- The table before the setup. -/
def ReadTable.ofTable {V : Type} (sers : Table V) : ReadTable V := sers.map fun e => (e.1, e.2, none)

/-- The loop of `deserialize` (`streaming/item_loader.py:291-296`). -/
def deserializeLeaves {V : Type} (d : ReadTable V) (raw : Bytes) : Nat → List Nat → List String → Py (List V)
  | idx, size :: sizes, f :: fs => match d.lookup f with
    | none => .error .keyError
    | some (s, fmt) => match s.deserialize (fmt.getD "") ((raw.drop idx).take size) with
      | .error e => .error e
      | .ok x => match deserializeLeaves d raw (idx + size) sizes fs with
        | .error e => .error e
        | .ok xs => .ok (x :: xs)
  | _, _, _ => .ok []

/-- `deserialize` (`streaming/item_loader.py:287-297`), without the final `tree_unflatten`. -/
def deserializeSample {V : Type} (d : ReadTable V) (formats : List String) (raw : Bytes) : Py (List V) :=
  match u32s (raw.take (4 * formats.length)) with
  | .error e => .error e
  | .ok sizes => deserializeLeaves d raw (4 * formats.length) sizes formats

/-- Is the leaf a JPEG image. -/
def Leaf.isJpeg : Leaf → Bool
  | .jpeg _ => true
  | _ => false

/-- Write all samples with the default and user serializers (`streaming/writer.py:159-182`, 321-330). -/
def writeSamples (sers : Table LeafTree) (xs : List LeafTree) : Py (List Bytes × SerState LeafTree) :=
  serializeAll sers (flatten Leaf.isJpeg) SerState.init xs

/-- Read one sample with the data format and structure stored in the index
(`streaming/item_loader.py:48-68`, 287-297). -/
def readSample (sers : Table LeafTree) (formats : List String) (spec : TSpec) (raw : Bytes) : Py LeafTree :=
  match setupFormats (ReadTable.ofTable sers) formats with
  | .error e => .error e
  | .ok d => match deserializeSample d formats raw with
    | .error e => .error e
    | .ok leaves => unflatten spec leaves

end LitData
