import Verif.Model.Streaming

/-!
The wait of an item loader for the file of a chunk.
Models `load_item_from_chunk` of `PyTreeLoader`, `TokensLoader` and `ParquetLoader` (`src/litdata/streaming/item_loader.py` lines 182-198, 475-490, 663-669) up to
the point where the file is opened, with the limits of `src/litdata/constants.py` lines 51-52.
-/

namespace LitData

/-- One iteration of the loop (`streaming/item_loader.py:187-198`): whether the file is there with its size after the sleep, and the time since the beginning
of the wait when it is compared with the limit for a forced download and with the limit for the wait. The unit of time does not matter. -/
structure Poll where
  there : Bool
  forceTime : Nat
  maxTime : Nat

/-- `os.path.exists(chunk_filepath) and os.stat(chunk_filepath).st_size >= filesize_bytes` (`streaming/item_loader.py:184`). -/
def fileThere (fs : String → Option Bytes) (path : String) (filesize : Nat) : Bool := match fs path with
  | some file => decide (file.length ≥ filesize)
  | none => false

/-- The first test of `TokensLoader` asks for more than the size (`streaming/item_loader.py:476`). -/
def fileMore (fs : String → Option Bytes) (path : String) (filesize : Nat) : Bool := match fs path with
  | some file => decide (file.length > filesize)
  | none => false

/-- How the loop ends, or that the polls so far did not end it. -/
inductive WaitEnd where
  | found
  | raised
  | waiting
  deriving DecidableEq, Repr

/-- What came of a wait: its end, how many polls were made and how many forced downloads were asked for. -/
structure Waited where
  stop : WaitEnd
  polls : Nat
  forces : Nat
  deriving DecidableEq, Repr

/-- `while not exists` (`streaming/item_loader.py:187-198`, 482-493); `limits` are `_FORCE_DOWNLOAD_TIME` and `_MAX_WAIT_TIME`. `ParquetLoader` has none
(`streaming/item_loader.py:667-669`). -/
def waitLoop (limits : Option (Nat × Nat)) : (there requested : Bool) → (polls forces : Nat) → List Poll → Waited
  | true, _, n, k, _ => ⟨.found, n, k⟩
  | false, _, n, k, [] => ⟨.waiting, n, k⟩
  | false, requested, n, k, p :: ps => match limits with
    | none => waitLoop limits p.there requested (n + 1) k ps
    | some (force, max) =>
      let ask := !requested && decide (p.forceTime > force)
      let k := if ask then k + 1 else k
      if p.maxTime > max then ⟨.raised, n + 1, k⟩
      else waitLoop limits p.there (requested || ask) (n + 1) k ps

/-- The wait of a loader whose first test gave `first` (`streaming/item_loader.py:183-198`, 476-493, 664-669). -/
def waitFile (limits : Option (Nat × Nat)) (first : Bool) (ps : List Poll) : Waited := waitLoop limits first false 0 0 ps

end LitData
