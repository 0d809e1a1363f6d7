/-!
Specification of the order in which a multi-worker loader delivers batches (this is PyTorch's
documented behaviour for iterable datasets, not code of the repository): workers are visited in
rotation, each visit takes the worker's next batch, a worker with nothing left is passed over.
-/

namespace LitData.Spec

/-- The `t`-th batch of a stream, if there is one. -/
def batchAt {α : Type} (bs : Nat) (xs : List α) (t : Nat) : Option (List α) :=
  let b := (xs.drop (t * bs)).take bs
  if b.isEmpty then none else some b

/-- What the `p`-th visit delivers, when the first worker visited is `start`. -/
def visit {α : Type} (bs : Nat) (streams : List (List α)) (start p : Nat) : Option (List α) :=
  (streams[(start + p) % streams.length]?).bind fun xs => batchAt bs xs (p / streams.length)

/-- The batches delivered by the first `m` visits. -/
def delivered {α : Type} (bs : Nat) (streams : List (List α)) (start m : Nat) : List (List α) :=
  (List.range m).filterMap (visit bs streams start)

/-- How many of the first `k` visits (starting with worker 0) were to worker `i` of `nw`. -/
def visits (k nw i : Nat) : Nat := ((List.range k).filter fun j => j % nw = i).length

end LitData.Spec
