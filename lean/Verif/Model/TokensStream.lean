import Verif.Model.Tokens
import Verif.Model.Dataset
import Verif.Model.Config

/-!
Streaming blocks of tokens from a local folder into batches: the reader, which closes a chunk when it leaves it, and the fetcher of a worker
of the data loader, which collects the samples of a batch before they are collated.
-/

namespace LitData

/-- The reader of a worker: its item loader and `_last_chunk_index` (`streaming/reader.py:284-296`). -/
structure TokReader where
  loader : TokState
  last : Option Nat

/-- `BinaryReader.read` (`streaming/reader.py:347-448`) of block `index` in chunk `k`, for `TokensLoader` and a local dataset that is not compressed: there
is no thread, so lines 368-397, 407-417 and 428-443 do nothing. The block is read first, then the chunk read before is closed if it is another one
(`streaming/reader.py:419-426`). -/
def tokReaderRead (fs : String → Option Bytes) (join : String → String) (chunks : List ChunkInfo) (ivs : List Interval) (blockSize sz : Nat)
    (r : TokReader) (k index : Nat) : Py (TokView × TokReader) :=
  match configGet join chunks ivs k with
  | .error e => .error e
  | .ok (path, begin, filesize) => match tokLoadItem fs chunks blockSize sz r.loader index k path begin filesize with
    | .error e => .error e
    | .ok (v, st) =>
      if r.last = some k then .ok (v, ⟨st, r.last⟩)
      else .ok (v, ⟨match r.last with | some l => tokClose st l | none => st, some k⟩)

/-- Up to `n` calls of `next` on the dataset (`streaming/dataset.py:414-473`) by the fetcher of a worker (`_IterableDatasetFetcher.fetch` in PyTorch):
the blocks, whether the iterator has stopped, and the states. -/
def tokFetch (sh : Shuffler) (fs : String → Option Bytes) (join : String → String) (chunks : List ChunkInfo) (ivs : List Interval) (blockSize sz : Nat) :
    Nat → IterState → TokReader → Py (List TokView × Bool × IterState × TokReader)
  | 0, s, r => .ok ([], false, s, r)
  | n + 1, s, r => match nextItem sh s with
    | .error e => .error e
    | .ok (none, s') => .ok ([], true, s', r)
    | .ok (some x, s') => match tokReaderRead fs join chunks ivs blockSize sz r x.chunkIndex x.index with
      | .error e => .error e
      | .ok (v, r') => match tokFetch sh fs join chunks ivs blockSize sz n s' r' with
        | .error e => .error e
        | .ok (vs, b, s'', r'') => .ok (v :: vs, b, s'', r'')

/-- What collating makes of the blocks of a batch: their tokens at that moment; `none`: a block is not mapped any more and the process reads
invalid memory. -/
def tokCollate (st : TokState) (sz : Nat) (vs : List TokView) : Option (List (List Bytes)) := vs.mapM (tokDeref st sz)

/-- The batches of an epoch in one worker, at most `fuel` of them: fetch `batch` blocks, collate them, until the iterator stops. An empty batch is not made.
Simplified: a batch that reads invalid memory does not end the run, so that the later ones can be spoken about. -/
def tokBatches (sh : Shuffler) (fs : String → Option Bytes) (join : String → String) (chunks : List ChunkInfo) (ivs : List Interval) (blockSize sz batch : Nat) :
    Nat → IterState → TokReader → Py (List (Option (List (List Bytes))) × Bool × TokReader)
  | 0, _, r => .ok ([], false, r)
  | fuel + 1, s, r => match tokFetch sh fs join chunks ivs blockSize sz batch s r with
    | .error e => .error e
    | .ok (vs, stopped, s', r') =>
      let here := if vs.isEmpty then [] else [tokCollate r'.loader sz vs]
      if stopped then .ok (here, true, r')
      else match tokBatches sh fs join chunks ivs blockSize sz batch fuel s' r' with
        | .error e => .error e
        | .ok (bs, b, r'') => .ok (here ++ bs, b, r'')

/-- Several epochs in one worker that lives on (`num_workers=0` or `persistent_workers`): `StreamingDataset.__iter__` makes a new cache and with it a new reader
(`streaming/dataset.py:277-278`), but hands it the same item loader. An epoch is the pieces of the worker and its
number. -/
def tokEpochs (sh : Shuffler) (fs : String → Option Bytes) (join : String → String) (chunks : List ChunkInfo) (ivs : List Interval) (blockSize sz batch fuel : Nat) :
    List (List Piece × Nat) → TokState → Py (List (List (Option (List (List Bytes)))))
  | [], _ => .ok []
  | (ps, epoch) :: rest, st =>
    match tokBatches sh fs join chunks ivs blockSize sz batch fuel (iterStart ps epoch) ⟨st, none⟩ with
    | .error e => .error e
    | .ok (out, _, r) => match tokEpochs sh fs join chunks ivs blockSize sz batch fuel rest r.loader with
      | .error e => .error e
      | .ok outs => .ok (out :: outs)

end LitData
