import Verif.Spec.Samples

/-! Specification of what one worker must deliver, independent of the iteration state. -/

namespace LitData.Spec

/-- The samples of one piece in the order `perm` puts its positions. -/
def pieceStream (perm : List Nat → List Nat) (p : Piece) : List (Nat × Nat) :=
  (perm (List.range' p.interval.roiStart (p.interval.roiEnd - p.interval.roiStart))).map fun i => (p.chunk, i)

/-- The samples of the pieces `ps`, the `k`-th piece being ordered by `perm k` (numbered from `k`). -/
def stream (perm : Nat → List Nat → List Nat) : Nat → List Piece → List (Nat × Nat)
  | _, [] => []
  | k, p :: ps => pieceStream (perm k) p ++ stream perm (k + 1) ps

end LitData.Spec
