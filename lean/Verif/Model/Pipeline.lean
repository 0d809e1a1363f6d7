import Verif.Model.Merge

/-!
A whole run of several writers, put together from the models of its parts
(`src/litdata/streaming/writer.py:321-443`).
-/

namespace LitData

/-- What `add_item` stores for the samples of one worker (`streaming/writer.py:321-342`): sample `i` is
encrypted with nonce `ns i`. -/
def workerItems (enc : Option Encryption) (ns : Nat → Nat) (items : List (Bytes × Option Nat)) : List WItem :=
  items.mapIdx fun i p => ⟨encryptItem enc (ns i) p.1, p.2⟩

/-- A worker adds its samples under consecutive indices from `first` on and calls `done`. -/
def workerRun (cfg : WriterCfg) (first : Nat) (xs : List WItem) : Py WriterState :=
  (addAll cfg WriterState.init ((List.range' first xs.length).zip xs)).bind (writerDone cfg false)

/-- The files that a worker leaves in the cache directory. `nc j` is the nonce of chunk `j`. -/
def workerDir {C : Type} (cfg : WriterCfg) (enc : Option Encryption) (config : C) (first : Nat) (ns nc : Nat → Nat) (rank : Nat)
    (items : List (Bytes × Option Nat)) : Py (CacheDir C) :=
  (workerRun cfg first (workerItems enc ns items)).map fun s => workerFiles config rank (workerChunks none enc nc rank 0 s.chunks)

/-- The chunk files of a cache directory, as the reader sees them. -/
def dirBytes {C : Type} (d : CacheDir C) (f : String) : Option Bytes :=
  match dirGet d f with
  | some (.data b) => some b
  | _ => none

end LitData
