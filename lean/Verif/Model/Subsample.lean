import Verif.Model.Config

/-!
Subsampling and splitting a dataset.
Models `src/litdata/utilities/subsample.py`, `src/litdata/utilities/train_test_split.py:14-98`,
`src/litdata/utilities/dataset_utilities.py:74-124`, 214-226.
Simplification: ratios are exact fractions; the rounding of doubles is in `Model/Floats.lean`.
-/

namespace LitData

/-- A region of interest: first position and end, inside the chunk. -/
abbrev Roi := Nat × Nat

/-- `r[1] - r[0]`. -/
def roiSize (r : Roi) : Nat := r.2 - r.1

/-- `np.cumsum([r[1] - r[0] for r in roi_list])` (`utilities/subsample.py:49`), starting at `acc`. -/
def cumSizes (acc : Nat) : List Roi → List Nat
  | [] => []
  | r :: rs => (acc + roiSize r) :: cumSizes (acc + roiSize r) rs

/-- `np.argmax(l >= k)` on a non-empty array: the first position that is large enough, 0 if there is none
(`utilities/subsample.py:51`). -/
def argmaxGe (l : List Nat) (k : Nat) : Nat :=
  match l.findIdx? (fun x => decide (k ≤ x)) with
  | some i => i
  | none => 0

/-- `subsample_filenames_and_roi` (`utilities/subsample.py:41-79`): the chunks kept and their regions, the
chunks left over and their regions. The function returns the file names of the chunks kept; here the
chunks themselves. `np.argmax` of an empty array raises `ValueError`. -/
def subsampleRoi {α : Type} (chunks : List α) (roi : List Roi) (count : Nat) :
    Py (List α × List Roi × List α × List Roi) :=
  if chunks.length ≠ roi.length then .error .assertion
  else if count = 0 then .ok ([], [], chunks, roi)
  else
    let cs := cumSizes 0 roi
    let m := argmaxGe cs count
    match roi[m]?, cs[m]? with
    | some last, some total =>
      -- `last[1] - (total - count)`
      let stop := last.2 + count - total
      let kept := roi.take m ++ [(last.1, stop)]
      if (kept.map roiSize).sum ≠ count then .error .assertion
      else if total = count then .ok (chunks.take (m + 1), kept, chunks.drop (m + 1), roi.drop (m + 1))
      else .ok (chunks.take (m + 1), kept, chunks.drop m, (stop, last.2) :: roi.drop (m + 1))
    | _, _ => .error .valueError

/-- `[l[i] for i in indices]`. -/
def pick {α : Type} (l : List α) (indices : List Nat) : List α := indices.filterMap fun i => l[i]?

/-- `shuffle_lists_together` (`utilities/subsample.py:6-38`); `perm` stands for
`random_seed_sampler.permutation`. -/
def shuffleTogether {α β : Type} (perm : List Nat → List Nat) (a : List α) (b : List β) : Py (List α × List β) :=
  if a.length ≠ b.length then .error .valueError
  else .ok (pick a (perm (List.range a.length)), pick b (perm (List.range a.length)))

/-- `generate_roi` (`utilities/dataset_utilities.py:214-226`); `blockSize` for a `TokensLoader`, whose
chunks always have a `dim`. -/
def generateRoi (blockSize : Option Nat) (chunks : List ChunkInfo) : List Roi :=
  chunks.map fun c => match blockSize with
    | some b => (0, c.dim.getD 0 / b)
    | none => (0, c.chunkSize)

/-- The shuffle before each copy (`utilities/dataset_utilities.py:104-105`, 113-114), if any. -/
def maybeShuffle {α : Type} (perm : Option (List Nat → List Nat)) (chunks : List α) (roi : List Roi) : Py (List α × List Roi) :=
  match perm with
  | none => .ok (chunks, roi)
  | some p => shuffleTogether p chunks roi

/-- The loop `while subsample >= 1.0` (`utilities/dataset_utilities.py:102-109`) for `n` turns; the `k`-th
call of the random generator is `perm k`. -/
def wholeCopies {α : Type} (perm : Nat → Option (List Nat → List Nat)) (chunks : List α) (roi : List Roi) :
    Nat → Nat → Py (List α × List Roi × List α × List Roi)
  | _, 0 => .ok ([], [], chunks, roi)
  | k, n + 1 => match maybeShuffle (perm k) chunks roi with
    | .error e => .error e
    | .ok (chunks, roi) => match wholeCopies perm chunks roi (k + 1) n with
      | .error e => .error e
      | .ok (fs, rs, chunks', roi') => .ok (chunks ++ fs, roi ++ rs, chunks', roi')

/-- `subsample_streaming_dataset` from the chunks on (`utilities/dataset_utilities.py:86-124`), for the
ratio `p / q`. The chunks returned stand for their file names. -/
def subsampleDataset {α : Type} (perm : Nat → Option (List Nat → List Nat)) (chunks : List α) (roi : List Roi) (p q : Nat) :
    Py (List α × List Roi) :=
  if chunks = [] then .error .assertion
  else if p = q then .ok (chunks, roi)
  else match wholeCopies perm chunks roi 0 (p / q) with
    | .error e => .error e
    | .ok (fs, rs, chunks, roi) =>
      if p % q = 0 then .ok (fs, rs)
      else match maybeShuffle (perm (p / q)) chunks roi with
        | .error e => .error e
        | .ok (chunks, roi) => match subsampleRoi chunks roi ((roi.map roiSize).sum * (p % q) / q) with
          | .error e => .error e
          | .ok (fs', rs', _, _) => .ok (fs ++ fs', rs ++ rs')

/-- A ratio given to `train_test_split`: `num / q`, and whether it is a Python `float`. -/
structure SplitRatio where
  isFloat : Bool
  num : Int
  deriving DecidableEq, Repr

/-- The loop of `train_test_split` (`utilities/train_test_split.py:84-98`). -/
def splitLoop {α : Type} : List Nat → List α → List Roi → Py (List (List α × List Roi))
  | [], _, _ => .ok []
  | n :: ns, chunks, roi => match subsampleRoi chunks roi n with
    | .error e => .error e
    | .ok (fs, rs, left, leftRoi) => match splitLoop ns left leftRoi with
      | .error e => .error e
      | .ok rest => .ok ((fs, rs) :: rest)

/-- `train_test_split` (`utilities/train_test_split.py:14-100`). `original` are the chunks of `index.json`,
`files` and `roi` the subsampled files and regions of the dataset; ratios have the common denominator `q`. -/
def trainTestSplit (perm : List Nat → List Nat) (original : List ChunkInfo) (files : List String) (roi : List Roi)
    (splits : List SplitRatio) (q : Nat) : Py (List (List ChunkInfo × List Roi)) :=
  if splits.any (fun s => !s.isFloat) then .error .valueError
  else if ¬ splits.all (fun s => decide (0 ≤ s.num) && decide (s.num ≤ q)) then .error .valueError
  else if (splits.map (·.num)).sum > q then .error .valueError
  else match shuffleTogether perm (original.filter fun c => files.contains c.filename) roi with
    | .error e => .error e
    | .ok (chunks, roi') => splitLoop (splits.map fun s => (roi.map roiSize).sum * s.num.toNat / q) chunks roi'

end LitData
