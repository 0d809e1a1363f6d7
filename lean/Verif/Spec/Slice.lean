/-!
What a Python slice of a sequence of `n` elements selects, position by position: no counting and no stepping, only which of the
positions are in. A bound that is negative counts from the end; a bound outside is the end of the sequence on that side.
-/

namespace LitData.Spec

/-- A bound as a distance from the beginning. -/
def fromStart (n : Nat) (b : Int) : Int := if b < 0 then b + n else b

/-- The first position upwards. -/
def firstUp (n : Nat) : Option Int → Nat
  | none => 0
  | some b => (fromStart n b).toNat

/-- The first position downwards; `-1` if there is none. -/
def firstDown (n : Nat) : Option Int → Int
  | none => (n : Int) - 1
  | some b => min (fromStart n b) ((n : Int) - 1)

/-- Position `i` is before the bound. -/
def isBefore (n i : Nat) : Option Int → Bool
  | none => true
  | some b => (i : Int) < fromStart n b

/-- Position `i` is after the bound. -/
def isAfter (n i : Nat) : Option Int → Bool
  | none => true
  | some b => fromStart n b < (i : Int)

/-- Position `i` of a sequence of `n` is selected by `start:stop:step`, for `step > 0`. -/
def selectedUp (n : Nat) (start stop : Option Int) (step : Nat) (i : Nat) : Bool :=
  firstUp n start ≤ i && isBefore n i stop && (i - firstUp n start) % step == 0

/-- The same for `start:stop:-step`, which goes down from `start`. -/
def selectedDown (n : Nat) (start stop : Option Int) (step : Nat) (i : Nat) : Bool :=
  (i : Int) ≤ firstDown n start && isAfter n i stop && ((firstDown n start).toNat - i) % step == 0

/-- `xs[start:stop:step]`; `none` for step zero, which Python refuses. -/
def pySlice {α : Type} (xs : List α) (start stop : Option Int) (step : Int) : Option (List α) :=
  if 0 < step then
    some (((List.range xs.length).filter (selectedUp xs.length start stop step.toNat)).filterMap fun i => xs[i]?)
  else if step < 0 then
    some (((List.range xs.length).filter (selectedDown xs.length start stop (-step).toNat)).reverse.filterMap fun i => xs[i]?)
  else none

end LitData.Spec
