import Verif.Model.ChunkFile
import Verif.Model.Pytree

/-!
Leaf serializers and their table.
Models `src/litdata/streaming/serializers.py` (all serializers of the default table, lines 60-546) and
`src/litdata/constants.py:56-99` (dtype tables).

Simplified: a serializer applied to a leaf of a type it does not accept raises here, where numpy might
convert the leaf instead (`np.int64(3.7)`). The NumPy scalars that integers and floats are read as are
not told apart from the numbers here; `Model/Rewrite.lean` does that. Image, video and pickle codecs are outside the model: they are
parameters (`SerEnv`).
-/

namespace LitData

/-- The `k` little-endian bytes of `n`. -/
def leBytes : Nat → Nat → Bytes
  | 0, _ => []
  | k + 1, n => UInt8.ofNat n :: leBytes k (n / 256)

/-- The number with the given little-endian bytes. -/
def leNat : Bytes → Nat
  | [] => 0
  | b :: r => b.toNat + 256 * leNat r

/-- The torch dtypes (`constants.py:57-78`); aliases are the same dtype. -/
inductive TorchDType where
  | float32 | float64 | complex64 | complex128 | float16 | bfloat16
  | uint8 | int8 | int16 | int32 | int64 | bool
  deriving DecidableEq, Repr

/-- `_TORCH_DTYPES_MAPPING` (`constants.py:57-78`), by index. -/
def torchTable : List TorchDType :=
  [.float32, .float32, .float64, .float64, .complex64, .complex64, .complex128, .complex128, .float16, .float16,
   .bfloat16, .uint8, .int8, .int16, .int16, .int32, .int32, .int64, .int64, .bool]

/-- `item.element_size()`. -/
def TorchDType.size : TorchDType → Nat
  | .float32 => 4 | .float64 => 8 | .complex64 => 8 | .complex128 => 16 | .float16 => 2 | .bfloat16 => 2
  | .uint8 => 1 | .int8 => 1 | .int16 => 2 | .int32 => 4 | .int64 => 8 | .bool => 1

/-- `{v: k for k, v in mapping.items()}[d]`: the last index of `d` in the table
(`serializers.py:244`, 283, 306, 342). -/
def lastIndex {δ : Type} [DecidableEq δ] (d : δ) : List δ → Option Nat
  | [] => none
  | x :: r => match lastIndex d r with
    | some i => some (i + 1)
    | none => if x = d then some 0 else none

/-- The numpy dtypes of `_NUMPY_SCTYPES` with a fixed item size (`constants.py:80-96`). -/
inductive NumpyDType where
  | int8 | int16 | int32 | int64 | uint8 | uint16 | uint32 | uint64
  | float16 | float32 | float64 | complex64 | complex128 | bool
  deriving DecidableEq, Repr

/-- `_NUMPY_DTYPES_MAPPING` (`constants.py:99`), by index; the entries 14-17 (`object`, `bytes`, `str`,
`void`) are left out. -/
def numpyTable : List NumpyDType :=
  [.int8, .int16, .int32, .int64, .uint8, .uint16, .uint32, .uint64, .float16, .float32, .float64, .complex64,
   .complex128, .bool]

/-- `dtype.itemsize`. -/
def NumpyDType.size : NumpyDType → Nat
  | .int8 => 1 | .int16 => 2 | .int32 => 4 | .int64 => 8 | .uint8 => 1 | .uint16 => 2 | .uint32 => 4
  | .uint64 => 8 | .float16 => 2 | .float32 => 4 | .float64 => 8 | .complex64 => 8 | .complex128 => 16 | .bool => 1

/-- The leaves of a sample. A float is its bit pattern; an array is its dtype, shape and bytes in C order;
a PIL image is mode, width, height, raw bytes and the colours of its
palette, if it has one; a JPEG image is the content of its file; any other
object is only known by an identifier. -/
inductive Leaf where
  | str (s : String)
  | bool (b : Bool)
  | int (i : Int)
  | float (bits : UInt64)
  | bytes (b : Bytes)
  | pil (mode : String) (width height : Nat) (raw : Bytes) (palette : Option Bytes)
  | jpeg (file : Bytes)
  | ndarray (dtype : NumpyDType) (shape : List Nat) (data : Bytes)
  | tensor (dtype : TorchDType) (shape : List Nat) (data : Bytes)
  | other (id : Nat)

/-- A leaf of a sample as `tree_flatten` returns it: a `Leaf`, or a list of JPEG images. -/
abbrev LeafTree := Tree Leaf

/-- What lies outside the model: the files on disk and the codecs. -/
structure SerEnv where
  /-- Content of the regular files. -/
  files : String → Option Bytes
  /-- `os.path.splitext`, without the dot and in lower case. -/
  ext : String → String
  /-- The path ends with one of the video extensions. -/
  isVideo : String → Bool
  /-- The path ends with `.tif` or `.tiff`. -/
  isTiff : String → Bool
  decodeVideo : Bytes → Py LeafTree
  decodeTiff : Bytes → Py LeafTree
  decodeJpeg : Bytes → Py LeafTree
  pickle : LeafTree → Bytes
  unpickle : Bytes → Py LeafTree

/-- A serializer (`serializers.py:41-57`). `size` is the optional attribute; `deserialize` gets the data
format passed to `setup`. -/
structure Serializer (V : Type) where
  canSerialize : V → Bool
  serialize : V → Py (Bytes × Option String)
  size : Option Nat
  deserialize : String → Bytes → Py V

/-- The UTF-8 bytes of a string (`serializers.py:419`). -/
def utf8 (s : String) : Bytes := s.toUTF8.data.toList

/-- `data.decode("utf-8")` (`serializers.py:422`); `UnicodeDecodeError` is a `ValueError`. -/
def unUtf8 (b : Bytes) : Py String :=
  match String.fromUTF8? ⟨b.toArray⟩ with
  | some s => .ok s
  | none => .error .valueError

/-- `StringSerializer` (`serializers.py:417-425`). -/
def strSer (env : SerEnv) : Serializer LeafTree where
  canSerialize
    | .leaf (.str s) => (env.files s).isNone
    | _ => false
  serialize
    | .leaf (.str s) => .ok (utf8 s, none)
    | _ => .error .attributeError
  size := none
  deserialize _ data := match unUtf8 data with
    | .ok s => .ok (.leaf (.str s))
    | .error e => .error e

/-- `BooleanSerializer` (`serializers.py:458-492`). -/
def boolSer : Serializer LeafTree where
  canSerialize
    | .leaf (.bool _) => true
    | _ => false
  serialize
    | .leaf (.bool b) => .ok ([if b then 1 else 0], none)
    | _ => .error .typeError
  size := none
  deserialize _ data := match data with
    | b :: _ => .ok (.leaf (.bool (b != 0)))
    | [] => .error .indexError

/-- `np.int64(i)` raises `OverflowError` outside its range. -/
def int64Bytes (i : Int) : Py Bytes :=
  if -(2 ^ 63 : Int) ≤ i ∧ i < 2 ^ 63 then .ok (leBytes 8 (i % 2 ^ 64).toNat) else .error .overflow

/-- The `int64` with the given bytes. -/
def int64Of (b : Bytes) : Int :=
  if leNat b < 2 ^ 63 then (leNat b : Int) else (leNat b : Int) - 2 ^ 64

/-- `np.frombuffer(data, dtype)[0]` for an 8-byte dtype (`serializers.py:438-439`). -/
def first8 (data : Bytes) : Py Bytes :=
  if data.length % 8 ≠ 0 then .error .valueError
  else if data = [] then .error .indexError
  else .ok (data.take 8)

/-- `IntegerSerializer` (`serializers.py:442-447`). A Python `bool` is an `int`. -/
def intSer : Serializer LeafTree where
  canSerialize
    | .leaf (.int _) => true
    | .leaf (.bool _) => true
    | _ => false
  serialize
    | .leaf (.int i) => match int64Bytes i with
      | .ok b => .ok (b, none)
      | .error e => .error e
    | .leaf (.bool b) => .ok (leBytes 8 (if b then 1 else 0), none)
    | _ => .error .typeError
  size := some 8
  deserialize _ data := match first8 data with
    | .ok b => .ok (.leaf (.int (int64Of b)))
    | .error e => .error e

/-- `FloatSerializer` (`serializers.py:450-455`). -/
def floatSer : Serializer LeafTree where
  canSerialize
    | .leaf (.float _) => true
    | _ => false
  serialize
    | .leaf (.float w) => .ok (leBytes 8 w.toNat, none)
    | _ => .error .typeError
  size := some 8
  deserialize _ data := match first8 data with
    | .ok b => .ok (.leaf (.float (UInt64.ofNat (leNat b))))
    | .error e => .error e

/-- `VideoSerializer` (`serializers.py:388-414`). -/
def videoSer (env : SerEnv) : Serializer LeafTree where
  canSerialize
    | .leaf (.str s) => (env.files s).isSome && env.isVideo s
    | _ => false
  serialize
    | .leaf (.str s) => match env.files s with
      | some b => .ok (b, some ("video:" ++ env.ext s))
      | none => .error .fileNotFound
    | _ => .error .typeError
  size := none
  deserialize _ data := env.decodeVideo data

/-- `TIFFSerializer` (`serializers.py:495-512`). -/
def tiffSer (env : SerEnv) : Serializer LeafTree where
  canSerialize
    | .leaf (.str s) => (env.files s).isSome && env.isTiff s
    | _ => false
  serialize
    | .leaf (.str s) => match env.files s with
      | some b => .ok (b, none)
      | none => .error .valueError
    | _ => .error .valueError
  size := none
  deserialize _ data := env.decodeTiff data

/-- `FileSerializer` (`serializers.py:373-385`): never accepts anything. -/
def fileSer (env : SerEnv) : Serializer LeafTree where
  canSerialize _ := false
  serialize
    | .leaf (.str s) => match env.files s with
      | some b => .ok (b, some ("file:" ++ env.ext s))
      | none => .error .fileNotFound
    | _ => .error .typeError
  size := none
  deserialize _ data := .ok (.leaf (.bytes data))

/-- `PILSerializer` (`serializers.py:60-91`). `tobytes` gives the pixels without the palette, and `Image.frombytes` makes an image with an
empty one. -/
def pilSer : Serializer LeafTree where
  canSerialize
    | .leaf (.pil ..) => true
    | _ => false
  serialize
    | .leaf (.pil mode w h raw _) =>
      .ok (le32 w ++ le32 h ++ le32 (utf8 mode).length ++ utf8 mode ++ raw, none)
    | _ => .error .attributeError
  size := none
  deserialize _ data := match u32s (data.take 12) with
    | .ok [w, h, m] => match unUtf8 ((data.drop 12).take m) with
      | .ok mode => .ok (.leaf (.pil mode w h (data.drop (12 + m)) none))
      | .error e => .error e
    | .ok _ => .error .valueError
    | .error e => .error e

/-- `JPEGSerializer` (`serializers.py:94-154`), for JPEG images with a file. -/
def jpegSer (env : SerEnv) : Serializer LeafTree where
  canSerialize
    | .leaf (.jpeg _) => true
    | _ => false
  serialize
    | .leaf (.jpeg file) => .ok (file, none)
    | _ => .error .typeError
  size := none
  deserialize _ data := env.decodeJpeg data

/-- The files of a list of JPEG images. -/
def jpegFiles : List LeafTree → Option (List Bytes)
  | [] => some []
  | .leaf (.jpeg f) :: r => (jpegFiles r).map (f :: ·)
  | _ => none

/-- `JPEGArraySerializer.serialize` (`serializers.py:160-179`). -/
def jpegArrayBytes (files : List Bytes) : Bytes :=
  le32 files.length ++ (files.map List.length).flatMap le32 ++ files.flatten

/-- The slices `data[offsets[i]:offsets[i+1]]` (`serializers.py:203-214`). -/
def slices (data : Bytes) : Nat → List Nat → List Bytes
  | _, [] => []
  | off, s :: r => (data.drop off).take s :: slices data (off + s) r

/-- Decode one image after the other (`serializers.py:209-214`). -/
def decodeAll (dec : Bytes → Py LeafTree) : List Bytes → Py (List LeafTree)
  | [] => .ok []
  | b :: r => match dec b with
    | .error e => .error e
    | .ok t => match decodeAll dec r with
      | .error e => .error e
      | .ok ts => .ok (t :: ts)

/-- `JPEGArraySerializer.deserialize` (`serializers.py:181-215`): the image files, then decoded. The result
is a list even if a tuple was written. -/
def jpegArrayOf (dec : Bytes → Py LeafTree) (data : Bytes) : Py LeafTree :=
  if data.length < 4 then .error .valueError
  else match u32s (data.take 4) with
    | .ok [n] =>
      if n = 0 then .error .valueError
      else if data.length < 4 + 4 * n then .error .valueError
      else match u32s ((data.drop 4).take (4 * n)) with
        | .error e => .error e
        | .ok sizes => match decodeAll dec (slices data (4 + 4 * n) sizes) with
          | .error e => .error e
          | .ok ts => .ok (.node .list ts)
    | .ok _ => .error .valueError
    | .error e => .error e

/-- `JPEGArraySerializer` (`serializers.py:157-223`). -/
def jpegArraySer (env : SerEnv) : Serializer LeafTree where
  canSerialize
    | .node .list cs => (jpegFiles cs).isSome
    | .node .tuple cs => (jpegFiles cs).isSome
    | _ => false
  serialize
    | .node _ cs => match jpegFiles cs with
      | some fs => .ok (jpegArrayBytes fs, none)
      | none => .error .typeError
    | _ => .error .typeError
  size := none
  deserialize _ data := jpegArrayOf env.decodeJpeg data

/-- `BytesSerializer` (`serializers.py:226-236`). -/
def bytesSer : Serializer LeafTree where
  canSerialize
    | .leaf (.bytes _) => true
    | _ => false
  serialize
    | .leaf (.bytes b) => .ok (b, none)
    | _ => .error .typeError
  size := none
  deserialize _ data := .ok (.leaf (.bytes data))

/-- The product of the dimensions. -/
def prod (shape : List Nat) : Nat := shape.foldr (· * ·) 1

/-- The header of a serialized array (`serializers.py:247-251`, 309-313): dtype index, number of
dimensions, dimensions. -/
def arrayHeader (dtypeIndex : Nat) (shape : List Nat) : Bytes :=
  le32 dtypeIndex ++ le32 shape.length ++ shape.flatMap le32

/-- `np.frombuffer(data[a:a+4], np.uint32).item()`: `ValueError` unless there are four bytes. -/
def u32At (data : Bytes) (a : Nat) : Py Nat :=
  match u32s ((data.drop a).take 4) with
  | .ok [n] => .ok n
  | .ok _ => .error .valueError
  | .error e => .error e

/-- The loop reading the shape (`serializers.py:259-261`, 323-324). -/
def shapeAt (data : Bytes) : Nat → Nat → Py (List Nat)
  | _, 0 => .ok []
  | a, k + 1 => match u32At data a with
    | .error e => .error e
    | .ok n => match shapeAt data (a + 4) k with
      | .error e => .error e
      | .ok ns => .ok (n :: ns)

/-- Reading a serialized array: dtype index, shape and remaining bytes. -/
def arrayOf (data : Bytes) : Py (Nat × List Nat × Bytes) :=
  match u32At data 0 with
  | .error e => .error e
  | .ok d => match u32At data 4 with
    | .error e => .error e
    | .ok k => match shapeAt data 8 k with
      | .error e => .error e
      | .ok shape => .ok (d, shape, data.drop (8 + 4 * k))

/-- `frombuffer(bytes, dtype)` followed by `reshape`: `ValueError` if the number of bytes does not fit
(`RuntimeError` in torch). -/
def reshapeOk (itemSize : Nat) (shape : List Nat) (data : Bytes) : Bool := data.length == itemSize * prod shape

/-- `TensorSerializer` (`serializers.py:239-275`). `item.numpy()` raises `TypeError` for `bfloat16`. -/
def tensorSer : Serializer LeafTree where
  canSerialize
    | .leaf (.tensor _ shape _) => shape.length != 1
    | _ => false
  serialize
    | .leaf (.tensor d shape data) => match lastIndex d torchTable with
      | some i => if d = .bfloat16 then .error .typeError else .ok (arrayHeader i shape ++ data, none)
      | none => .error .keyError
    | _ => .error .attributeError
  size := none
  deserialize _ data := match arrayOf data with
    | .error e => .error e
    | .ok (i, shape, rest) => match torchTable[i]? with
      | none => .error .keyError
      | some d => if rest = [] then .ok (.leaf (.tensor d shape []))
          else if reshapeOk d.size shape rest then .ok (.leaf (.tensor d shape rest)) else .error .runtimeError

/-- `NumpySerializer` (`serializers.py:301-334`). -/
def numpySer : Serializer LeafTree where
  canSerialize
    | .leaf (.ndarray _ shape _) => decide (shape.length > 1)
    | _ => false
  serialize
    | .leaf (.ndarray d shape data) => match lastIndex d numpyTable with
      | some i => .ok (arrayHeader i shape ++ data, none)
      | none => .error .keyError
    | _ => .error .attributeError
  size := none
  deserialize _ data := match arrayOf data with
    | .error e => .error e
    | .ok (i, shape, rest) => match numpyTable[i]? with
      | none => .error .keyError
      | some d => if reshapeOk d.size shape rest then .ok (.leaf (.ndarray d shape rest)) else .error .valueError

/-- `str.split(":")`. -/
def splitColon : List Char → List (List Char)
  | [] => [[]]
  | c :: r => if c = ':' then [] :: splitColon r else match splitColon r with
    | h :: t => (c :: h) :: t
    | [] => [[c]]

/-- `int(data_format.split(":")[1])` (`serializers.py:287`, 346) for a decimal numeral. -/
def formatIndex (format : String) : Py Nat :=
  match splitColon format.toList with
  | _ :: n :: _ => if n ≠ [] ∧ n.all Char.isDigit then .ok (Nat.ofDigitChars 10 n 0) else .error .valueError
  | _ => .error .indexError

/-- A name such as `no_header_tensor:17`. -/
def formatName (key : String) (i : Nat) : String := String.ofList (key.toList ++ ':' :: Nat.toDigits 10 i)

/-- `NoHeaderTensorSerializer` (`serializers.py:278-298`). -/
def noHeaderTensorSer : Serializer LeafTree where
  canSerialize
    | .leaf (.tensor _ shape _) => shape.length == 1
    | _ => false
  serialize
    | .leaf (.tensor d _ data) => match lastIndex d torchTable with
      | some i => if d = .bfloat16 then .error .typeError else .ok (data, some (formatName "no_header_tensor" i))
      | none => .error .keyError
    | _ => .error .attributeError
  size := none
  deserialize format data := match formatIndex format with
    | .error e => .error e
    | .ok i => match torchTable[i]? with
      | none => .error .keyError
      | some d => if data.length % d.size = 0 then .ok (.leaf (.tensor d [data.length / d.size] data))
          else .error .valueError

/-- `NoHeaderNumpySerializer` (`serializers.py:337-357`). -/
def noHeaderNumpySer : Serializer LeafTree where
  canSerialize
    | .leaf (.ndarray _ shape _) => shape.length == 1
    | _ => false
  serialize
    | .leaf (.ndarray d _ data) => match lastIndex d numpyTable with
      | some i => .ok (data, some (formatName "no_header_numpy" i))
      | none => .error .keyError
    | _ => .error .attributeError
  size := none
  deserialize format data := match formatIndex format with
    | .error e => .error e
    | .ok i => match numpyTable[i]? with
      | none => .error .keyError
      | some d => if data.length % d.size = 0 then .ok (.leaf (.ndarray d [data.length / d.size] data))
          else .error .valueError

/-- `PickleSerializer` (`serializers.py:360-370`): accepts everything. -/
def pickleSer (env : SerEnv) : Serializer LeafTree where
  canSerialize _ := true
  serialize t := .ok (env.pickle t, none)
  size := none
  deserialize _ data := env.unpickle data

/-- `_SERIALIZERS` (`serializers.py:515-534`), in order. -/
def builtins (env : SerEnv) : List (String × Serializer LeafTree) :=
  [("str", strSer env), ("bool", boolSer), ("int", intSer), ("float", floatSer), ("video", videoSer env),
   ("tifffile", tiffSer env), ("file", fileSer env), ("pil", pilSer), ("jpeg", jpegSer env),
   ("jpeg_array", jpegArraySer env), ("bytes", bytesSer), ("no_header_numpy", noHeaderNumpySer),
   ("numpy", numpySer), ("no_header_tensor", noHeaderTensorSer), ("tensor", tensorSer), ("pickle", pickleSer env)]

/-- `_get_serializers` (`serializers.py:537-546`): the user's serializers first, then the default ones
whose name is not taken. -/
def getSerializers {V : Type} (user defaults : List (String × Serializer V)) : List (String × Serializer V) :=
  user ++ defaults.filter fun e => !(user.any fun u => u.1 == e.1)

end LitData
