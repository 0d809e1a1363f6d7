import Verif.Model.Basic

/-!
The disk space that the copies of the inputs take while `map` or `optimize` runs.
Models `_wait_for_disk_usage_higher_than_threshold` and its use in `_download_data_target` (`src/litdata/processing/data_processor.py` lines 108-116, 124-180), the
removal of the copies (`_remove_target`, lines 185-205; `_loop`, lines 558-592) and the order in which the downloaders of all workers of a machine take their inputs (lines 711-715).
-/

namespace LitData

/-- Where an input is: its downloader has not taken it yet, is downloading it, has told the worker that it is there, the worker has used it, or its copy was removed. -/
inductive InputAt where
  | waiting
  | fetching
  | ready
  | used
  | gone
  deriving DecidableEq, Repr

/-- What does not change during a run. `n` inputs, numbered so that each downloader takes its own in this order (`processing/data_processor.py:711-712`); the `nd` downloaders are those of
all workers of the machine, and input `i` is for downloader `by_ i`. `size i` is what its copy takes on the disk, and `out i` what the worker leaves on it for good when it has used the input
(nothing if the output is uploaded; simplified: chunks that wait for their upload are left out). `room` is the free space on the disk of the cache before the run, and
`root` that of `/` if the cache is on another disk. `paced` says whether there is an `input_dir.url` (150), `remove` whether copies are removed (591). -/
structure SpaceCfg where
  n : Nat
  nd : Nat
  by_ : Nat → Nat
  size : Nat → Nat
  out : Nat → Nat
  threshold : Nat
  room : Nat
  root : Option Nat
  paced : Bool
  remove : Bool

/-- Where each input is, and for each downloader the input that it is downloading with the number of bytes written so far. -/
structure SpaceState where
  at_ : Nat → InputAt
  busy : Nat → Option (Nat × Nat)

/-- The beginning of the run (`processing/data_processor.py:691-715`). -/
def SpaceState.start : SpaceState := ⟨fun _ => .waiting, fun _ => none⟩

/-- The sum of the first numbers. -/
def sumTo (n : Nat) (f : Nat → Nat) : Nat :=
  match n with
  | 0 => 0
  | n + 1 => sumTo n f + f n

/-- The bytes that the copy of an input takes once it is downloaded. -/
def copyBytes (cfg : SpaceCfg) (s : SpaceState) (i : Nat) : Nat :=
  match s.at_ i with
  | .ready => cfg.size i
  | .used => cfg.size i
  | _ => 0

/-- What the worker has left on the disk for an input. -/
def outBytes (cfg : SpaceCfg) (s : SpaceState) (i : Nat) : Nat :=
  match s.at_ i with
  | .used => cfg.out i
  | .gone => cfg.out i
  | _ => 0

/-- The bytes that a downloader has written of its present input. -/
def partBytes (s : SpaceState) (d : Nat) : Nat :=
  match s.busy d with
  | some (_, k) => k
  | none => 0

/-- The bytes that the run takes on the disk of the cache. -/
def spaceUsed (cfg : SpaceCfg) (s : SpaceState) : Nat :=
  sumTo cfg.n (copyBytes cfg s) + sumTo cfg.n (outBytes cfg s) + sumTo cfg.nd (partBytes s)

/-- The loop of `_wait_for_disk_usage_higher_than_threshold("/", 25)` ends (`processing/data_processor.py:108-116`, 150-152): more than the threshold is free. It looks at `/`, wherever the
cache is. Simplified: exact numbers, in the code three divisions of floats by 1000. -/
def spaceEnough (cfg : SpaceCfg) (s : SpaceState) : Prop :=
  cfg.paced = false ∨
    match cfg.root with
    | none => cfg.threshold + spaceUsed cfg s < cfg.room
    | some free => cfg.threshold < free

/-- One step of a downloader, a worker or a remover. -/
inductive SpaceStep (cfg : SpaceCfg) : SpaceState → SpaceState → Prop
  /-- A downloader has taken its next input, and its wait is over (`processing/data_processor.py:133`, 150-152). That no copies are left from before is a simplification (144-148). -/
  | begin (s : SpaceState) (i : Nat) : i < cfg.n → s.at_ i = .waiting → s.busy (cfg.by_ i) = none → (∀ j, j < i → cfg.by_ j = cfg.by_ i → s.at_ j ≠ .waiting) → spaceEnough cfg s →
      SpaceStep cfg s ⟨fun j => if j = i then .fetching else s.at_ j, fun d => if d = cfg.by_ i then some (i, 0) else s.busy d⟩
  /-- It writes some bytes (`processing/data_processor.py:155-173`). -/
  | write (s : SpaceState) (d i k m : Nat) : s.busy d = some (i, k) → 0 < m → k + m ≤ cfg.size i →
      SpaceStep cfg s ⟨s.at_, fun e => if e = d then some (i, k + m) else s.busy e⟩
  /-- It has written all and tells the worker (`processing/data_processor.py:179`). -/
  | finish (s : SpaceState) (d i : Nat) : s.busy d = some (i, cfg.size i) →
      SpaceStep cfg s ⟨fun j => if j = i then .ready else s.at_ j, fun e => if e = d then none else s.busy e⟩
  /-- The worker uses it (`processing/data_processor.py:549`, 578-583). -/
  | use (s : SpaceState) (i : Nat) : i < cfg.n → s.at_ i = .ready → SpaceStep cfg s ⟨fun j => if j = i then .used else s.at_ j, s.busy⟩
  /-- The remover deletes the copy (`processing/data_processor.py:591-592`, 185-205). -/
  | remove (s : SpaceState) (i : Nat) : cfg.remove = true → i < cfg.n → s.at_ i = .used → SpaceStep cfg s ⟨fun j => if j = i then .gone else s.at_ j, s.busy⟩

/-- `m` steps. -/
inductive SpaceSteps (cfg : SpaceCfg) : Nat → SpaceState → SpaceState → Prop
  | refl (s : SpaceState) : SpaceSteps cfg 0 s s
  | tail {m : Nat} {s t u : SpaceState} : SpaceSteps cfg m s t → SpaceStep cfg t u → SpaceSteps cfg (m + 1) s u

end LitData
