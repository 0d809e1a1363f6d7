import Verif.Model.Sample
import Verif.Model.Config
import Verif.Model.InputFiles

/-!
Datasets in the MDS format of MosaicML Streaming.
Models `src/litdata/utilities/dataset_utilities.py` lines 229-301 (`load_index_file`, `adapt_mds_shards_to_chunks`) and
`src/litdata/streaming/item_loader.py` lines 266-285 (`mds_deserialize`).

The writer of that format is not part of the repository: `mdsItem` and `mdsFile` state what its files look like.
-/

namespace LitData

/-- An entry of `shards` in an MDS index, with the fields read by `adapt_mds_shards_to_chunks` (`utilities/dataset_utilities.py:270-300`).
`zipData` is `null` when the shard is not compressed. -/
structure MdsShard where
  zipData : Option (String × Nat)
  samples : Nat
  columnSizes : List (Option Nat)
  columnNames : List String
  columnEncodings : List String
  compression : Option String
  format : String
  deriving DecidableEq

/-- The chunk made of a shard, with its `column_sizes` (`utilities/dataset_utilities.py:272-282`): subscripting `None` raises `TypeError`. -/
def mdsChunk (s : MdsShard) : Py (ChunkInfo × List (Option Nat)) :=
  match s.zipData with
  | none => .error .typeError
  | some (name, bytes) => .ok (⟨name, s.samples, bytes, none⟩, s.columnSizes)

/-- The loop over the shards (`utilities/dataset_utilities.py:272-282`). -/
def mdsChunks : List MdsShard → Py (List (ChunkInfo × List (Option Nat)))
  | [] => .ok []
  | s :: ss => match mdsChunk s with
    | .error e => .error e
    | .ok c => match mdsChunks ss with
      | .error e => .error e
      | .ok cs => .ok (c :: cs)

/-- The text of the `data_spec` (`utilities/dataset_utilities.py:285-292`, 299). -/
def mdsSpecText (names : List String) : String :=
  dumps (.arr [.num 1, .obj ["type", "context", "children_spec"]
    [.str "builtins.dict", .str (dumps (.arr (names.map .str))),
      .arr (names.map fun _ => .obj ["type", "context", "children_spec"] [.null, .null, .arr []])]])

/-- The index after `adapt_mds_shards_to_chunks`, as far as it is used to read. -/
structure MdsIndex where
  chunks : List (ChunkInfo × List (Option Nat))
  compression : Option String
  dataFormat : List String
  format : String
  dataSpec : String
  deriving DecidableEq

/-- `adapt_mds_shards_to_chunks` (`utilities/dataset_utilities.py:259-301`): `shards[0]` raises `IndexError` for no shards. -/
def adaptMds (shards : List MdsShard) : Py MdsIndex :=
  match mdsChunks shards with
  | .error e => .error e
  | .ok chunks => match shards with
    | [] => .error .indexError
    | s :: _ => .ok ⟨chunks, s.compression, s.columnEncodings, s.format, mdsSpecText s.columnNames⟩

/-- The first loop of `mds_deserialize` (`streaming/item_loader.py:272-278`): the sizes of the columns and the position after the stored
ones. A size of zero is treated like `null`. `(size,) = np.frombuffer(…)` raises `ValueError` unless there are four bytes. -/
def mdsSizes (raw : Bytes) : Nat → List (Option Nat) → Py (List Nat × Nat)
  | idx, [] => .ok ([], idx)
  | idx, c :: cs =>
    if c.getD 0 ≠ 0 then match mdsSizes raw idx cs with
      | .error e => .error e
      | .ok (ss, i) => .ok (c.getD 0 :: ss, i)
    else match u32s ((raw.drop idx).take 4) with
      | .ok [n] => match mdsSizes raw (idx + 4) cs with
        | .error e => .error e
        | .ok (ss, i) => .ok (n :: ss, i)
      | _ => .error .valueError

/-- `mds_deserialize` (`streaming/item_loader.py:266-285`), without the final `tree_unflatten`. Its second loop is that of `deserialize`. -/
def mdsDeserialize {V : Type} (d : ReadTable V) (formats : List String) (columnSizes : List (Option Nat)) (raw : Bytes) : Py (List V) :=
  match mdsSizes raw 0 columnSizes with
  | .error e => .error e
  | .ok (sizes, idx) => deserializeLeaves d raw idx sizes formats

/-- Reading a raw item of chunk `k` of an MDS dataset (`streaming/item_loader.py:64-68`, 210-211, 266-285; `streaming/config.py:83-84`). -/
def readMds (sers : Table LeafTree) (penv : PyEnv) (index : MdsIndex) (k : Nat) (raw : Bytes) : Py LeafTree :=
  match index.chunks[k]? with
  | none => .error .indexError
  | some (_, columnSizes) => match treespecLoads penv index.dataSpec with
    | .error e => .error e
    | .ok spec => match setupFormats (ReadTable.ofTable sers) index.dataFormat with
      | .error e => .error e
      | .ok d => match mdsDeserialize d index.dataFormat columnSizes raw with
        | .error e => .error e
        | .ok leaves => unflatten spec leaves

/-- The size stored for a column of variable size. (The writer is not in the repository.) -/
def mdsHeader (c : Option Nat × Bytes) : Bytes :=
  match c.1 with
  | none => le32 c.2.length
  | some _ => []

/-- A sample as the MDS writer stores it: the sizes of the columns of variable size, then the columns. (The writer is not in the
repository; `streaming/item_loader.py:271` refers to its reader.) -/
def mdsItem (columnSizes : List (Option Nat)) (cols : List Bytes) : Bytes :=
  (columnSizes.zip cols).flatMap mdsHeader ++ cols.flatten

/-- A decompressed MDS shard: number of samples, absolute offsets, a description, samples. -/
def mdsFile (description : Bytes) (items : List Bytes) : Bytes :=
  le32 items.length ++
    ((cumsum 0 (items.map List.length)).map fun o => 4 + 4 * (items.length + 1) + description.length + o).flatMap le32 ++
    description ++ items.flatten

/-- The path of the decompressed chunk: `local_chunkpath.replace(f".{self._compressor_name}", "")` (`streaming/config.py:154`, 250-253). -/
def decompressedPath (compressor : Option PathStr) (path : PathStr) : PathStr :=
  match compressor with
  | none => path
  | some name => pyReplace ('.' :: name) [] 0 path

/-- `try_decompress` by one process without a downloader (`streaming/config.py:149-168`): the files afterwards. -/
def tryDecompress (decompress : Bytes → Bytes) (compressor : Option PathStr) (fs : InputFs) (path : PathStr) : Py InputFs :=
  match compressor with
  | none => .ok fs
  | some _ =>
    if (fs (decompressedPath compressor path)).isSome then .ok fs
    else match fs path with
      | none => .error .fileNotFound
      | some data => .ok fun p => if p = decompressedPath compressor path then some (decompress data) else fs p

end LitData
