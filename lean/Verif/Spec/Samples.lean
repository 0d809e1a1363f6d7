import Verif.Model.Assign

/-!
Specification vocabulary: what a sample is, and what a list of chunk regions contains.
A sample is identified by the chunk it lives in and its global position.
-/

namespace LitData.Spec

/-- The samples in the region `[a, b)` of chunk `c`, in order. -/
def region (c a b : Nat) : List (Nat × Nat) := (List.range' a (b - a)).map fun j => (c, j)

/-- The samples of a list of pieces, in order. -/
def samples (ps : List Piece) : List (Nat × Nat) :=
  ps.flatMap fun p => region p.chunk p.interval.roiStart p.interval.roiEnd

/-- The samples of a dataset given as chunk indexes and their regions of interest, in order. -/
def datasetSamples (idx : List Nat) (ivs : List Interval) : List (Nat × Nat) :=
  (idx.zip ivs).flatMap fun x => region x.1 x.2.roiStart x.2.roiEnd

/-- Cut a list into consecutive parts of the given sizes (the last ones may be short). -/
def cut {α : Type} : List Nat → List α → List (List α)
  | [], _ => []
  | n :: ns, xs => xs.take n :: cut ns (xs.drop n)

end LitData.Spec

namespace LitData.Spec

/-- The workers of rank `r` in a list of global workers, `nw` per rank. -/
def rankWorkers {α : Type} (ws : List α) (r nw : Nat) : List α := (ws.drop (r * nw)).take nw

/-- What rank `r` receives, worker by worker. -/
def rankSamples (ws : List (List Piece)) (r nw : Nat) : List (Nat × Nat) :=
  (rankWorkers ws r nw).flatMap samples

end LitData.Spec
