import Verif.Model.Writer

/-!
The binary chunk file and its reader.
Models `src/litdata/streaming/writer.py` lines 208-297 (the bytes built by `_create_chunk`) and
`src/litdata/streaming/item_loader.py` lines 146-264, 299-334 (`PyTreeLoader`).
-/

namespace LitData

/-- The little-endian bytes of a `uint32` (`tobytes` of numpy). -/
def le32 (n : Nat) : Bytes :=
  [UInt8.ofNat n, UInt8.ofNat (n / 256), UInt8.ofNat (n / 65536), UInt8.ofNat (n / 16777216)]

/-- `np.frombuffer(bytes, np.uint32)`: `ValueError` unless the length is a multiple of four. -/
def u32s : Bytes → Py (List Nat)
  | [] => .ok []
  | a :: b :: c :: d :: rest => do
    let r ← u32s rest
    return (a.toNat + 256 * b.toNat + 65536 * c.toNat + 16777216 * d.toNat) :: r
  | _ => .error .valueError

/-- `np.array([0] + sizes).cumsum()` (`streaming/writer.py:256`): the running sums starting at `acc`. -/
def cumsum (acc : Nat) : List Nat → List Nat
  | [] => [acc]
  | s :: rest => acc :: cumsum (acc + s) rest

/-- The offsets of a chunk (`streaming/writer.py:254-259`): `uint32` numbers, so modulo `2^32`; the
second term is the size of `num_items` and of the offsets themselves. -/
def chunkOffsets (items : List Bytes) : List Nat :=
  (cumsum 0 (items.map List.length)).map fun o => (o % 2 ^ 32 + (4 + 4 * (items.length + 1))) % 2 ^ 32

/-- The bytes of a chunk before encryption (`streaming/writer.py:254-263`). -/
def chunkBytes (items : List Bytes) : Bytes :=
  le32 items.length ++ (chunkOffsets items).flatMap le32 ++ items.flatten

/-- `fp.seek(start); fp.read(n)`. -/
def readAt (file : Bytes) (start n : Nat) : Bytes := (file.drop start).take n

/-- `_load_data` (`streaming/item_loader.py:253-264`). `end - begin` is a `uint32` subtraction. -/
def loadData (file : Bytes) (offset : Nat) : Py Bytes :=
  match u32s (readAt file offset 8) with
  | .error e => .error e
  | .ok [b, e] => .ok (readAt file b ((e + 2 ^ 32 - b) % 2 ^ 32))
  | .ok _ => .error .valueError

/-- `offset = (1 + (index - begin) if index >= begin else index + 1) * 4`
(`streaming/item_loader.py:180`). -/
def itemOffset (index begin : Nat) : Nat := (if index ≥ begin then 1 + (index - begin) else index + 1) * 4

/-- `EncryptionLevel` (`utilities/encryption.py:17-20`). -/
inductive EncLevel where
  | sample
  | chunk
  deriving DecidableEq, Repr

/-- An `Encryption` object (`utilities/encryption.py:26-52`). The key material is inside the functions;
`encrypt` takes a nonce because the real ones are randomised. -/
structure Encryption where
  algorithm : String
  level : EncLevel
  encrypt : Nat → Bytes → Bytes
  decrypt : Bytes → Py Bytes

/-- What `index.json` records about encryption (`streaming/writer.py:147-157`). -/
structure EncConfig where
  algorithm : String
  level : EncLevel
  deriving DecidableEq, Repr

/-- The configuration written for an encryption object (`utilities/encryption.py`, `state_dict`). -/
def Encryption.config (e : Encryption) : EncConfig := ⟨e.algorithm, e.level⟩

/-- `add_item` encrypts one sample at sample level (`streaming/writer.py:331-333`). -/
def encryptItem (enc : Option Encryption) (nonce : Nat) (data : Bytes) : Bytes :=
  match enc with
  | some e => if e.level = .sample then e.encrypt nonce data else data
  | none => data

/-- `_create_chunk` (`streaming/writer.py:254-267`): chunk bytes, encrypted at chunk level. -/
def createChunk (enc : Option Encryption) (nonce : Nat) (items : List Bytes) : Bytes :=
  match enc with
  | some e => if e.level = .chunk then e.encrypt nonce (chunkBytes items) else chunkBytes items
  | none => chunkBytes items

/-- Writing a whole chunk from plain samples; `nonces 0` is for the chunk, `nonces (i + 1)` for sample `i`. -/
def writeItems (enc : Option Encryption) (nonces : Nat → Nat) (items : List Bytes) : Bytes :=
  createChunk enc (nonces 0) (items.mapIdx fun i x => encryptItem enc (nonces (i + 1)) x)

/-- `_validate_encryption` (`streaming/item_loader.py:327-334`). -/
def validateEncryption (cfg : EncConfig) (enc : Option Encryption) : Py Encryption :=
  match enc with
  | none => .error .valueError
  | some e =>
    if e.algorithm ≠ cfg.algorithm then .error .valueError
    else if e.level ≠ cfg.level then .error .valueError
    else .ok e

/-- The mutable fields of `PyTreeLoader` (`streaming/item_loader.py:121-125`). An open handle is modelled
by the content of the file it refers to: a chunk file is not modified once complete, and stays readable
through an open handle after it is removed. -/
structure PyTreeState where
  path : Option String
  handle : Option Bytes
  decrypted : Option (Nat × Bytes)

/-- The fields after `__init__` (`streaming/item_loader.py:121-125`). -/
def PyTreeState.init : PyTreeState := ⟨none, none, none⟩

/-- The part of `load_item_from_chunk` that opens the file (`streaming/item_loader.py:182-204`).
Simplified: the polling loop is replaced by the state of the file system at its last iteration. -/
def openChunk (fs : String → Option Bytes) (st : PyTreeState) (path : String) (filesize : Nat) : Py PyTreeState :=
  if st.path = some path then .ok st
  else match fs path with
    | some file => if file.length ≥ filesize then .ok { st with path := some path, handle := some file }
        else .error .fileNotFound
    | none => .error .fileNotFound

/-- `_load_encrypted_data` (`streaming/item_loader.py:223-251`). -/
def loadEncrypted (fs : String → Option Bytes) (cfg : EncConfig) (enc : Option Encryption) (st : PyTreeState)
    (path : String) (chunkIndex offset : Nat) : Py (Bytes × PyTreeState) := do
  let e ← validateEncryption cfg enc
  match cfg.level with
  | .chunk =>
    let cached := match st.decrypted with
      | some (k, d) => if k = chunkIndex then some d else none
      | none => none
    match cached with
    | some d => do
      let data ← loadData d offset
      return (data, st)
    | none =>
      match fs path with
      | none => .error .fileNotFound
      | some file => do
        let d ← e.decrypt file
        let data ← loadData d offset
        return (data, { st with decrypted := some (chunkIndex, d) })
  | .sample =>
    match fs path with
    | none => .error .fileNotFound
    | some file => do
      let data ← loadData file offset
      let data ← e.decrypt data
      return (data, st)

/-- `load_item_from_chunk` up to deserialization (`streaming/item_loader.py:146-213`). -/
def loadItem (fs : String → Option Bytes) (cfg : Option EncConfig) (enc : Option Encryption) (st : PyTreeState)
    (path : String) (chunkIndex index begin filesize : Nat) : Py (Bytes × PyTreeState) := do
  let st ← openChunk fs st path filesize
  match cfg with
  | some c => loadEncrypted fs c enc st path chunkIndex (itemOffset index begin)
  | none =>
    match st.handle with
    | none => .error .assertion
    | some file => do
      let data ← loadData file (itemOffset index begin)
      return (data, st)

/-- `close` (`streaming/item_loader.py:299-303`): the path is kept. -/
def closeLoader (st : PyTreeState) : PyTreeState := { st with handle := none }

end LitData
