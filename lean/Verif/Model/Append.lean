import Verif.Model.Merge

/-!
`optimize(mode="append")`: where the workers start to number their chunks.
Models `src/litdata/processing/utilities.py:244-259` and `src/litdata/processing/functions.py:475-490`.
-/

namespace LitData

/-- `s.split(c)`. -/
def splitChar (c : Char) : List Char → List (List Char)
  | [] => [[]]
  | d :: r => if d = c then [] :: splitChar c r else
    match splitChar c r with
    | [] => [[d]]
    | p :: ps => (d :: p) :: ps

/-- `int(s)`, for a text of digits; signs, spaces and underscores are refused here. -/
def parseInt (s : List Char) : Py Nat :=
  if s ≠ [] ∧ s.all Char.isDigit then .ok (Nat.ofDigitChars 10 s 0) else .error .valueError

/-- `extract_rank_and_index_from_filename` (`processing/utilities.py:244-259`). -/
def extractRankIndex (filename : String) : Py (Nat × Nat) :=
  let cs := filename.toList
  match splitChar '-' ((cs.take (cs.length - 4)).drop 6) with
  | [a, b] => do
    let rank ← parseInt a
    let index ← parseInt ((splitChar '.' b).headD [])
    .ok (rank, index)
  | _ => .error .assertion

/-- The loop over the existing chunks (`processing/functions.py:483-487`); entry `r` of the list is
`state_dict[r]`. -/
def appendStarts : List Nat → List String → Py (List Nat)
  | starts, [] => .ok starts
  | starts, f :: fs => (extractRankIndex f).bind fun p =>
    appendStarts (if p.1 < starts.length ∧ starts.getD p.1 0 ≤ p.2 then starts.set p.1 (p.2 + 1) else starts) fs

/-- `state_dict` (`processing/functions.py:474-487`): the first chunk number of each worker of the node. -/
def startingChunks (numWorkers : Nat) (existing : List String) : Py (List Nat) :=
  appendStarts (List.replicate numWorkers 0) existing

/-- The rank that a worker uses in the names of its chunks (`data_processor.py:600-603`,
`streaming/writer.py:136-145`). -/
def globalRank (nodeRank numWorkers worker : Nat) : Nat := nodeRank * numWorkers + worker

end LitData
