/-! The samples of a list of chunks with regions of interest. -/

namespace LitData

/-- The samples of chunks with regions of interest, in order: chunk and position. -/
def regionSamples {α : Type} (chunks : List α) (roi : List (Nat × Nat)) : List (α × Nat) :=
  (chunks.zip roi).flatMap fun x => (List.range' x.2.1 (x.2.2 - x.2.1)).map fun j => (x.1, j)

/-- No region is reversed. -/
def RoiWF (roi : List (Nat × Nat)) : Prop := ∀ r ∈ roi, r.1 ≤ r.2

end LitData
