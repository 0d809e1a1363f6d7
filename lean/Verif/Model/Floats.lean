import Verif.Model.Subsample
import Verif.Model.Format

/-!
Subsampling and splitting with ratios as Python has them: doubles. Models the arithmetic of `src/litdata/utilities/dataset_utilities.py` lines 87-124 and `src/litdata/utilities/train_test_split.py`
lines 39-98 that `Model/Subsample.lean` leaves out, and the check of `src/litdata/streaming/dataset.py` lines 96-97.

A double that is not negative is the natural number of its units of `2 ^ -1074`. Infinity and NaN are left out. `sum` adds from left to right, as Python does before version 3.12.
-/

namespace LitData

/-- `1.0`. -/
def Dbl.one : Nat := 2 ^ 1074

/-- The double next to `num / den` units, ties to even: 53 significant bits, and whole units. -/
def Dbl.round (num den : Nat) : Nat :=
  if num / den < 2 ^ 53 then roundHalfEven num den
  else roundHalfEven num (den * 2 ^ (Nat.log2 (num / den) - 52)) * 2 ^ (Nat.log2 (num / den) - 52)

/-- The double next to the fraction `p / q`: what a literal like `0.33` means. -/
def Dbl.ofRatio (p q : Nat) : Nat := Dbl.round (p * Dbl.one) q

/-- `float(n)` of an integer. -/
def Dbl.ofNat (n : Nat) : Nat := Dbl.round (n * Dbl.one) 1

/-- `x + y`. -/
def Dbl.add (x y : Nat) : Nat := Dbl.round (x + y) 1

/-- `x - y`, for `y` not above `x`. -/
def Dbl.sub (x y : Nat) : Nat := Dbl.round (x - y) 1

/-- `x * y`. -/
def Dbl.mul (x y : Nat) : Nat := Dbl.round (x * y) Dbl.one

/-- `int(x)`. -/
def Dbl.toInt (x : Nat) : Nat := x / Dbl.one

/-- `int(n * x)` for an integer `n` (`utilities/dataset_utilities.py:118`, `utilities/train_test_split.py:76`). -/
def Dbl.scale (n : Nat) (x : Nat) : Nat := Dbl.toInt (Dbl.mul (Dbl.ofNat n) x)

/-- `1e-9`. -/
def Dbl.relTol : Nat := 0x112e0be826d695 * 2 ^ 992

/-- `math.isclose(x, 1.0)` (`utilities/dataset_utilities.py:92`). -/
def Dbl.isCloseOne (x : Nat) : Bool :=
  let diff := if x ≤ Dbl.one then Dbl.sub Dbl.one x else Dbl.sub x Dbl.one
  decide (x = Dbl.one) || decide (diff ≤ Dbl.mul Dbl.relTol Dbl.one) || decide (diff ≤ Dbl.mul Dbl.relTol x)

/-- The loop `while subsample >= 1.0` (`utilities/dataset_utilities.py:104-111`) for at most `fuel` turns, with the number of shuffles so far and what is left of the ratio. -/
def floatCopies {α : Type} (perm : Nat → Option (List Nat → List Nat)) : Nat → Nat → List α → List Roi → Nat → Py (List α × List Roi × List α × List Roi × Nat × Nat)
  | 0, k, chunks, roi, s => .ok ([], [], chunks, roi, k, s)
  | fuel + 1, k, chunks, roi, s =>
    if s < Dbl.one then .ok ([], [], chunks, roi, k, s)
    else match maybeShuffle (perm k) chunks roi with
      | .error e => .error e
      | .ok (chunks, roi) => match floatCopies perm fuel (k + 1) chunks roi (Dbl.sub s Dbl.one) with
        | .error e => .error e
        | .ok (fs, rs, rest) => .ok (chunks ++ fs, roi ++ rs, rest)

/-- `subsample_streaming_dataset` from the chunks on (`utilities/dataset_utilities.py:87-124`), with the check of the ratio (`streaming/dataset.py:96-97`). -/
def subsampleFloat {α : Type} (perm : Nat → Option (List Nat → List Nat)) (chunks : List α) (roi : List Roi) (s : Nat) : Py (List α × List Roi) :=
  if s = 0 then .error .valueError
  else if chunks = [] then .error .assertion
  else if Dbl.isCloseOne s then .ok (chunks, roi)
  else match floatCopies perm (Dbl.toInt s + 1) 0 chunks roi s with
    | .error e => .error e
    | .ok (fs, rs, chunks, roi, k, s) =>
      if s = 0 then .ok (fs, rs)
      else match maybeShuffle (perm k) chunks roi with
        | .error e => .error e
        | .ok (chunks, roi) => match subsampleRoi chunks roi (Dbl.scale (roi.map roiSize).sum s) with
          | .error e => .error e
          | .ok (fs', rs', _, _) => .ok (fs ++ fs', rs ++ rs')

/-- A ratio given to `train_test_split`: is it a `float`, its sign, and its size. -/
structure FloatRatio where
  isFloat : Bool
  negative : Bool
  size : Nat
  deriving DecidableEq

/-- `sum(splits)` (`utilities/train_test_split.py:44`) of ratios that are not negative. -/
def floatSum (l : List Nat) : Nat := l.foldl Dbl.add 0

/-- `train_test_split` (`utilities/train_test_split.py:14-98`). -/
def splitFloat (perm : List Nat → List Nat) (original : List ChunkInfo) (files : List String) (roi : List Roi) (splits : List FloatRatio) :
    Py (List (List ChunkInfo × List Roi)) :=
  if splits.any (fun s => !s.isFloat) then .error .valueError
  else if ¬ splits.all (fun s => (!s.negative || decide (s.size = 0)) && decide (s.size ≤ Dbl.one)) then .error .valueError
  else if floatSum (splits.map (·.size)) > Dbl.one then .error .valueError
  else match shuffleTogether perm (original.filter fun c => files.contains c.filename) roi with
    | .error e => .error e
    | .ok (chunks, roi') => splitLoop (splits.map fun s => Dbl.scale (roi.map roiSize).sum s.size) chunks roi'

end LitData
