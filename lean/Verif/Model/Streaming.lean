import Verif.Model.Dataset
import Verif.Model.Config
import Verif.Model.Slice

/-! Iterating over a `StreamingDataset` in one worker down to the samples: `__next__` chooses the next index and reads it. -/

namespace LitData

/-- Calling `next` until `StopIteration`, at most `fuel` times (`streaming/dataset.py:414-473`): each index is read by
`self.__getitem__(ChunkedIndex(…))` (`streaming/dataset.py:389-412`, `streaming/cache.py:141-145`, `streaming/reader.py:347-448`) and
deserialized by `read`. The samples, and whether the iterator stopped. Simplified: a chunk file that is asked for is there (the
download and its deletion are modelled elsewhere), and no chunk is compressed. -/
def streamWorker {α : Type} (sh : Shuffler) (fs : String → Option Bytes) (join : String → String) (enc : Option Encryption)
    (cfg : Option EncConfig) (chunks : List ChunkInfo) (ivs : List Interval) (read : Bytes → Py α) :
    Nat → IterState → PyTreeState → Py (List α × Bool)
  | 0, _, _ => .ok ([], false)
  | fuel + 1, s, st => match nextItem sh s with
    | .error e => .error e
    | .ok (none, _) => .ok ([], true)
    | .ok (some x, s') => match configGet join chunks ivs x.chunkIndex with
      | .error e => .error e
      | .ok (path, begin, filesize) => match loadItem fs cfg enc st path x.chunkIndex x.index begin filesize with
        | .error e => .error e
        | .ok (raw, st') => match read raw with
          | .error e => .error e
          | .ok y => match streamWorker sh fs join enc cfg chunks ivs read fuel s' st' with
            | .error e => .error e
            | .ok (ys, b) => .ok (y :: ys, b)

end LitData
