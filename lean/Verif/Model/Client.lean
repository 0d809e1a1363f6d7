import Verif.Model.Basic

/-!
When the client for S3 is made anew. Models `src/litdata/streaming/client.py` lines 29-33 and 61-72 (`S3Client.client`); how a client is made (35-59) only by how long it takes.

Moments are natural numbers of a clock that nobody sets; `wall` is what `time()` reads at a moment.
-/

namespace LitData

/-- `S3Client` (`client.py:29-33`): the moment at which the making of its client began, if it has one, and `_last_time`. -/
structure S3ClientSt where
  client : Option Nat
  last : Option Int

/-- A new object (`client.py:30-31`). -/
def S3ClientSt.new : S3ClientSt := ⟨none, none⟩

/-- The moments of one access of `client` (`client.py:62-72`): its beginning, the first reading of the clock (after a client was made), the one in the condition, and the last. -/
structure ClientAccess where
  start : Nat
  made : Nat
  check : Nat
  remade : Nat
  made_after : start ≤ made
  check_after : made ≤ check
  remade_after : check ≤ remade

/-- The property `client` (`client.py:61-72`). -/
def S3ClientSt.access (interval : Nat) (wall : Nat → Int) (s : S3ClientSt) (a : ClientAccess) : S3ClientSt :=
  let s : S3ClientSt := match s.client with
    | none => ⟨some a.start, some (wall a.made)⟩
    | some _ => s
  match s.last with
  | none => ⟨some a.check, some (wall a.remade)⟩
  | some l => if wall a.check - l > interval then ⟨some a.check, some (wall a.remade)⟩ else s

/-- Accesses one after the other. -/
def S3ClientSt.accesses (interval : Nat) (wall : Nat → Int) (s : S3ClientSt) (l : List ClientAccess) : S3ClientSt := l.foldl (S3ClientSt.access interval wall) s

end LitData
