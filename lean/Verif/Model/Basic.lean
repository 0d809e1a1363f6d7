/-!
Shared vocabulary of the model: Python exceptions as values, and chunk intervals.
-/

namespace LitData

/-- The Python exceptions that the modelled functions raise. The payload (message) is dropped. -/
inductive Err where
  | valueError
  | indexError
  | zeroDivision
  | keyError
  | typeError
  | assertion
  | runtimeError
  | notImplemented
  | fileNotFound
  | exception
  | stopIteration
  | attributeError
  | overflow
  deriving DecidableEq, Repr

/-- A Python computation that may raise. -/
abbrev Py (α : Type) := Except Err α

deriving instance DecidableEq for Except

/-- Insertion into a sorted list. -/
def insertSorted (a : Nat) : List Nat → List Nat
  | [] => [a]
  | b :: l => if a ≤ b then a :: b :: l else b :: insertSorted a l

/-- Python's `sorted` on integers. Only the result matters: equal integers are indistinguishable. -/
def pySorted : List Nat → List Nat
  | [] => []
  | a :: l => insertSorted a (pySorted l)

/-- `Interval` of `src/litdata/streaming/item_loader.py:40`: `chunk_start`, `roi_start_idx`,
`roi_end_idx`, `chunk_end`. Python ints are modelled by `Nat`: the code only ever builds these from
counts of items. -/
structure Interval where
  chunkStart : Nat
  roiStart : Nat
  roiEnd : Nat
  chunkEnd : Nat
  deriving DecidableEq, Repr

namespace Interval

/-- `interval[2] - interval[1]`. On `Nat` this truncates; it agrees with Python whenever
`roiStart ≤ roiEnd`, which `WF` states. -/
def size (iv : Interval) : Nat := iv.roiEnd - iv.roiStart

/-- The region of interest is not reversed. -/
def WF (iv : Interval) : Prop := iv.roiStart ≤ iv.roiEnd

instance (iv : Interval) : Decidable iv.WF := inferInstanceAs (Decidable (_ ≤ _))

end Interval

end LitData
