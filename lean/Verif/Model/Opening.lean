import Verif.Model.Sample
import Verif.Model.Floats
import Verif.Model.Tokens
import Verif.Model.Merge

/-!
Opening a dataset: from the text of `index.json` to the chunks, the intervals and the serializers of the reader.
Models `BinaryWriter.get_config` and the writing of the index (`src/litdata/streaming/writer.py` lines 147-157, 415-423, 511-517), `load_index_file` and
`generate_roi` (`src/litdata/utilities/dataset_utilities.py` lines 214-253), the constructor of `StreamingDataset` (`src/litdata/streaming/dataset.py` lines
91-137, with `dataset_utilities.py` lines 69-124), and its first use: `_create_cache` (`dataset.py` lines 213-241), `ChunksConfig.load`, `__init__` and
`_validate_item_loader` (`src/litdata/streaming/config.py` lines 33-109, 279-326), `BaseItemLoader.setup` and `TokensLoader.setup`
(`src/litdata/streaming/item_loader.py` lines 48-69, 392-416).

Simplified: the directory is resolved and the index has been fetched (`Model/CacheDir.lean`, `Model/Resolver.lean`); an index with `shards` is in `Model/Mds.lean`;
all entries of `chunks` are read at once, so that an entry without a field is refused at once; the level of an encryption is one of the two known ones;
`ParquetLoader` is left out. `Serializer.setup` records the data format only (`Model/Sample.lean`).
-/

namespace LitData

/-- `data[key]` for a value that `json.load` has returned: of two fields with the same name the last one counts, `KeyError` without the field,
`TypeError` for other values (`streaming/config.py:66-67`). -/
def Json.field (key : String) : Json → Py Json
  | .obj ks vs => match (ks.zip vs).reverse.lookup key with
    | some v => .ok v
    | none => .error .keyError
  | _ => .error .typeError

/-- `key in data` for a dictionary (`streaming/config.py:316`). -/
def Json.hasField (key : String) : Json → Bool
  | .obj ks vs => ((ks.zip vs).reverse.lookup key).isSome
  | _ => false

/-- The configuration in `index.json` (`streaming/writer.py:147-157`). `item_loader` is missing in the index of older versions. -/
structure IndexConfig where
  compression : Option String
  chunkSize : Option Nat
  chunkBytes : Option Nat
  dataFormat : Option (List String)
  dataSpec : Option String
  encryption : Option EncConfig
  itemLoader : Option String
  deriving DecidableEq, Repr

/-- A value or `null`. -/
def optJson {α : Type} (f : α → Json) : Option α → Json
  | none => .null
  | some a => f a

/-- A number. -/
def natJson (n : Nat) : Json := .num n

/-- The level of an encryption as text (`utilities/encryption.py:18-20`). -/
def encLevelName : EncLevel → String
  | .sample => "sample"
  | .chunk => "chunk"

/-- `state_dict` of an encryption (`utilities/encryption.py:100-104`, 182-186). -/
def encJson (e : EncConfig) : Json := .obj ["algorithm", "level"] [.str e.algorithm, .str (encLevelName e.level)]

/-- One entry of `chunks` (`streaming/writer.py:284-289`), with `sort_keys=True`. -/
def chunkJson (c : ChunkInfo) : Json :=
  .obj ["chunk_bytes", "chunk_size", "dim", "filename"] [natJson c.chunkBytes, natJson c.chunkSize, optJson natJson c.dim, .str c.filename]

/-- `get_config` (`streaming/writer.py:147-157`), with `sort_keys=True`. -/
def configJson (c : IndexConfig) : Json :=
  .obj (["chunk_bytes", "chunk_size", "compression", "data_format", "data_spec", "encryption"] ++ (c.itemLoader.map fun _ => "item_loader").toList)
    ([optJson natJson c.chunkBytes, optJson natJson c.chunkSize, optJson .str c.compression, optJson (fun l => .arr (l.map .str)) c.dataFormat,
      optJson .str c.dataSpec, optJson encJson c.encryption] ++ (c.itemLoader.map .str).toList)

/-- The text of `index.json` (`streaming/writer.py:512-514`); `updatedAt` is `None` in the index of a node (516-517). -/
def indexText (updatedAt : Option String) (chunks : List ChunkInfo) (c : IndexConfig) : String :=
  dumps (.obj (["chunks", "config"] ++ (updatedAt.map fun _ => "updated_at").toList)
    ([.arr (chunks.map chunkJson), configJson c] ++ (updatedAt.map .str).toList))

/-- A number that is not negative. -/
def Json.nat : Json → Py Nat
  | .num i => if 0 ≤ i then .ok i.toNat else .error .valueError
  | _ => .error .typeError

/-- A text. -/
def Json.text : Json → Py String
  | .str s => .ok s
  | _ => .error .typeError

/-- `null` or something else. -/
def Json.opt {α : Type} (f : Json → Py α) : Json → Py (Option α)
  | .null => .ok none
  | j => match f j with
    | .error e => .error e
    | .ok a => .ok (some a)

/-- All values of a list. -/
def jsonAll {α : Type} (f : Json → Py α) : List Json → Py (List α)
  | [] => .ok []
  | j :: l => match f j with
    | .error e => .error e
    | .ok a => match jsonAll f l with
      | .error e => .error e
      | .ok as => .ok (a :: as)

/-- A list. -/
def Json.list {α : Type} (f : Json → Py α) : Json → Py (List α)
  | .arr l => jsonAll f l
  | _ => .error .typeError

/-- `data[key]`, converted. -/
def Json.fieldAs {α : Type} (key : String) (f : Json → Py α) (j : Json) : Py α :=
  match j.field key with
  | .error e => .error e
  | .ok v => f v

/-- The fields of an entry of `chunks` that a reader uses (`streaming/config.py:107-109`, `streaming/item_loader.py:133`, 423). -/
def Json.chunk (j : Json) : Py ChunkInfo := do
  let bytes ← j.fieldAs "chunk_bytes" Json.nat
  let size ← j.fieldAs "chunk_size" Json.nat
  let dim ← j.fieldAs "dim" (Json.opt Json.nat)
  let name ← j.fieldAs "filename" Json.text
  .ok ⟨name, size, bytes, dim⟩

/-- A level (`streaming/item_loader.py:231`, 243). -/
def jsonLevel (s : String) : Py EncLevel := if s = "sample" then .ok .sample else if s = "chunk" then .ok .chunk else .error .valueError

/-- `config["encryption"]` (`streaming/item_loader.py:331-333`). -/
def Json.enc (j : Json) : Py EncConfig := do
  let algorithm ← j.fieldAs "algorithm" Json.text
  let level ← j.fieldAs "level" Json.text
  let level ← jsonLevel level
  .ok ⟨algorithm, level⟩

/-- The configuration as it is used (`streaming/config.py:67-84`, `streaming/item_loader.py:204`). -/
def Json.config (j : Json) : Py IndexConfig := do
  let bytes ← j.fieldAs "chunk_bytes" (Json.opt Json.nat)
  let size ← j.fieldAs "chunk_size" (Json.opt Json.nat)
  let compression ← j.fieldAs "compression" (Json.opt Json.text)
  let format ← j.fieldAs "data_format" (Json.opt (Json.list Json.text))
  let spec ← j.fieldAs "data_spec" (Json.opt Json.text)
  let enc ← j.fieldAs "encryption" (Json.opt Json.enc)
  if j.hasField "item_loader" then
    let loader ← j.fieldAs "item_loader" Json.text
    .ok ⟨compression, size, bytes, format, spec, enc, some loader⟩
  else .ok ⟨compression, size, bytes, format, spec, enc, none⟩

/-- `load_index_file(dir)["chunks"]` (`utilities/dataset_utilities.py:229-253`). -/
def loadChunks (text : String) : Py (List ChunkInfo) :=
  match loads text with
  | .error e => .error e
  | .ok j => j.fieldAs "chunks" (Json.list Json.chunk)

/-- `load_index_file(dir)["config"]` (`streaming/config.py:65-67`). -/
def loadConfig (text : String) : Py IndexConfig :=
  match loads text with
  | .error e => .error e
  | .ok j => j.fieldAs "config" Json.config

/-- An item loader as the user gives it: the name of its class and, for a `TokensLoader`, its block size (`streaming/item_loader.py:373-381`). -/
structure LoaderArg where
  className : String
  tokens : Option (Option Nat)
  deriving DecidableEq, Repr

/-- `PyTreeLoader()` (`streaming/config.py:62`). -/
def LoaderArg.pytree : LoaderArg := ⟨"PyTreeLoader", none⟩

/-- `TokensLoader(block_size=…)` (`streaming/item_loader.py:373-381`). -/
def LoaderArg.ofTokens (blockSize : Option Nat) : LoaderArg := ⟨"TokensLoader", some blockSize⟩

/-- The region of one chunk in `generate_roi` (`utilities/dataset_utilities.py:218-224`): dividing `None` or by `None` is a `TypeError`. -/
def roiOf (tokens : Option (Option Nat)) (c : ChunkInfo) : Py Roi :=
  match tokens with
  | none => .ok (0, c.chunkSize)
  | some b => match c.dim, b with
    | some d, some b => if b = 0 then .error .zeroDivision else .ok (0, d / b)
    | _, _ => .error .typeError

/-- `generate_roi` (`utilities/dataset_utilities.py:214-226`). -/
def roiAll (tokens : Option (Option Nat)) : List ChunkInfo → Py (List Roi)
  | [] => .ok []
  | c :: cs => match roiOf tokens c with
    | .error e => .error e
    | .ok r => match roiAll tokens cs with
      | .error e => .error e
      | .ok rs => .ok (r :: rs)

/-- What the constructor of `StreamingDataset` is given: the item loader, the ratio (a double, or something that is no positive float), the shuffles
(`streaming/dataset.py:48-64`). -/
structure OpenArgs (V : Type) where
  loader : Option LoaderArg
  subsample : Nat
  perm : Nat → Option (List Nat → List Nat)
  sers : Table V
  keep : String → Bool

/-- The constructor (`streaming/dataset.py:96-97`, 123-137; `utilities/dataset_utilities.py:69-124`): the files and the regions of the dataset.
`dirExists` and `index` are what is found in the directory. -/
def datasetInit {V : Type} (dirExists : Bool) (index : Option String) (a : OpenArgs V) : Py (List String × List Roi) :=
  if a.subsample = 0 then .error .valueError
  else if !dirExists then .error .fileNotFound
  else match index with
    | none => .error .valueError
    | some text => match loadChunks text with
      | .error e => .error e
      | .ok original =>
        let chunks := original.filter fun c => a.keep c.filename
        if chunks = [] then .error .assertion
        else match roiAll (a.loader.bind (·.tokens)) chunks with
          | .error e => .error e
          | .ok roi => match subsampleFloat a.perm chunks roi a.subsample with
            | .error e => .error e
            | .ok (sel, roi) => .ok (sel.map (·.filename), roi)

/-- `_validate_item_loader` (`streaming/config.py:314-326`). -/
def validateLoader (c : IndexConfig) (l : LoaderArg) : Py Unit :=
  match c.itemLoader with
  | some name => if l.className = name then .ok () else .error .valueError
  | none => match c.dataFormat with
    | none => .error .typeError
    | some [f] => if "no_header_tensor".toList.isPrefixOf f.toList ∧ l.tokens = none then .error .valueError else .ok ()
    | some _ => .ok ()

/-- The size of a token, from the data format (`streaming/item_loader.py:401-414`). -/
def tokenSize (format : String) : Py Nat :=
  match splitColon format.toList with
  | [name, _] => match formatIndex format with
    | .error e => .error e
    | .ok i =>
      if name = "no_header_tensor".toList then match torchTable[i]? with
        | none => .error .keyError
        | some d => .ok d.size
      else if name = "no_header_numpy".toList then match numpyTable[i]? with
        | none => .error .keyError
        | some d => .ok d.size
      else .error .valueError
  | _ => .error .valueError

/-- An opened dataset: what `ChunksConfig` and its item loader have set (`streaming/config.py:56-109`, `streaming/item_loader.py:56-69`). -/
structure Opened (V : Type) where
  chunks : List ChunkInfo
  intervals : List Interval
  formats : List String
  table : ReadTable V
  spec : Option TSpec
  encryption : Option EncConfig
  compressor : Option String
  /-- The block size and the size of a token, for a `TokensLoader`. -/
  tokens : Option (Nat × Nat)

/-- `setup` and `generate_intervals` of the item loader (`streaming/item_loader.py:48-69`, 128-141, 392-433). -/
def setupLoader {V : Type} (l : LoaderArg) (format : Option (List String)) (sers : Table V) (chunks : List ChunkInfo) (roi : List Roi) :
    Py (List String × ReadTable V × List Interval × Option (Nat × Nat)) :=
  match format with
  | none => .error .typeError
  | some formats => match setupFormats (ReadTable.ofTable sers) formats with
    | .error e => .error e
    | .ok table => match l.tokens with
      | none => match generateIntervals (some roi) 0 0 chunks with
        | .error e => .error e
        | .ok ivs => .ok (formats, table, ivs, none)
      | some bs => match formats with
        | [] => .error .indexError
        | f :: _ => match tokenSize f with
          | .error e => .error e
          | .ok sz => match tokSetup chunks with
            | .error e => .error e
            | .ok () => match tokIntervals (bs.getD 0) (some roi) 0 0 chunks with
              | .error e => .error e
              | .ok ivs => .ok (formats, table, ivs, some (bs.getD 0, sz))

/-- `config["data_spec"]` is loaded (`streaming/config.py:77-78`). -/
def loadSpec (penv : PyEnv) (text : Option String) : Py (Option TSpec) :=
  match text with
  | none => .ok none
  | some t => match treespecLoads penv t with
    | .error e => .error e
    | .ok s => .ok (some s)

/-- The compressor (`streaming/config.py:88-101`); the empty name is none. `available` are the names in `_COMPRESSORS`. -/
def findCompressor (available : List String) (name : Option String) : Py (Option String) :=
  match name with
  | none => .ok none
  | some n => if n = "" then .ok none else if n ∈ available then .ok (some n) else .error .valueError

/-- `ChunksConfig.__init__` (`streaming/config.py:33-109`). -/
def openConfig {V : Type} (penv : PyEnv) (available : List String) (text : String) (loader : Option LoaderArg) (sers : Table V) (files : List String)
    (roi : List Roi) : Py (Opened V) :=
  match loadChunks text, loadConfig text with
  | .error e, _ => .error e
  | _, .error e => .error e
  | .ok original, .ok c => match validateLoader c (loader.getD .pytree) with
    | .error e => .error e
    | .ok () => match loadSubsampledChunks original files with
      | .error e => .error e
      | .ok chunks => match loadSpec penv c.dataSpec with
        | .error e => .error e
        | .ok spec => match setupLoader (loader.getD .pytree) c.dataFormat sers chunks roi with
          | .error e => .error e
          | .ok (formats, table, ivs, tokens) => match findCompressor available c.compression with
            | .error e => .error e
            | .ok comp => .ok ⟨chunks, ivs, formats, table, spec, c.encryption, comp, tokens⟩

/-- `_create_cache` (`streaming/dataset.py:213-241`, `streaming/config.py:303-309`), at the first use. -/
def createCache {V : Type} (penv : PyEnv) (available : List String) (index : Option String) (loader : Option LoaderArg) (sers : Table V)
    (files : List String) (roi : List Roi) : Py (Opened V) :=
  match index with
  | none => .error .valueError
  | some text => openConfig penv available text loader sers files roi

/-- A dataset is constructed and used for the first time. -/
def openDataset {V : Type} (penv : PyEnv) (available : List String) (dirExists : Bool) (index : Option String) (a : OpenArgs V) : Py (Opened V) :=
  match datasetInit dirExists index a with
  | .error e => .error e
  | .ok (files, roi) => createCache penv available index a.loader a.sers files roi

/-- `PyTreeLoader.deserialize` with what was set up (`streaming/item_loader.py:287-297`); unflattening with the structure `None` fails. -/
def Opened.read (o : Opened LeafTree) (raw : Bytes) : Py LeafTree :=
  match deserializeSample o.table o.formats raw with
  | .error e => .error e
  | .ok leaves => match o.spec with
    | none => .error .attributeError
    | some s => unflatten s leaves

end LitData
