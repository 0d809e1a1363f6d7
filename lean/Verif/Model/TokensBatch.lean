import Verif.Model.TokensThreads

/-!
Batches of blocks of tokens from a remote folder, under every interleaving of the lines of the reader and of its thread.
A block is a view of the memory map of its chunk (`torch.frombuffer`, `np.frombuffer`, `src/litdata/streaming/item_loader.py` lines 508-513); its bytes are copied
only when the batch is complete and PyTorch's fetcher calls the collate function. `_mmap.close()` (lines 535 and 557) unmaps the memory although there are views of it: NumPy
gives the buffer of the map back as soon as the array is made, so that nothing keeps it from being closed.
-/

namespace LitData

/-- A worker that makes batches: the threads, the blocks of the batch so far (number of the memory map, number of the block in it), and the batches;
`none`: memory was read that is not mapped any more. -/
structure TokBatcher where
  s : TokThreads
  held : List (Nat × Nat)
  out : List (Option (List (List Bytes)))

/-- Before the pass. -/
def TokBatcher.init : TokBatcher := ⟨.init, [], []⟩

/-- The view that a line of the reader returns (`streaming/item_loader.py:498-518`). -/
def newView (cfg : TokPass) (s s' : TokThreads) : List (Nat × Nat) :=
  match s.rpc, cfg.items[s.done]? with
  | .view m, some (_, j) => if s'.done = s.done then [] else [(m, j)]
  | _, _ => []

/-- The bytes of a view are read. -/
def readView (cfg : TokPass) (s : TokThreads) (v : Nat × Nat) : Option (List Bytes) :=
  match s.maps[v.1]? with
  | some (_, some b) => some (groups cfg.sz cfg.blockSize (b.drop (cfg.sz * v.2 * cfg.blockSize)))
  | _ => none

/-- The batch is complete: it has `n` blocks, or there are no more (`drop_last=False`). -/
def batchFull (cfg : TokPass) (n : Nat) (b : TokBatcher) : Bool :=
  !b.held.isEmpty && (b.held.length == n || b.s.done == cfg.items.length)

/-- What can happen: what happens to the threads, and the collate function. -/
inductive TokBatchAct where
  | act (a : TokAct)
  | collate
  deriving DecidableEq, Repr

/-- One step (the fetcher of an iterable dataset in `torch/utils/data/_utils/fetch.py`: `next` until the batch is complete, then the collate function; used by
`StreamingDataLoader`, `streaming/dataloader.py:568-643`). The collate function runs in the thread of the reader, once `read` (`streaming/reader.py:347-443`) is back. It is
taken for one step. -/
def tokBatchAct (cfg : TokPass) (n : Nat) (b : TokBatcher) : TokBatchAct → Option TokBatcher
  | .act a =>
    if a = .reader ∧ b.s.rpc = .idle ∧ batchFull cfg n b then none
    else match tokAct cfg b.s a with
      | none => none
      | some s' => some { b with s := s', held := b.held ++ (if a = .reader then newView cfg b.s s' else []) }
  | .collate =>
    if b.s.rpc = .idle ∧ batchFull cfg n b then some { b with held := [], out := b.out ++ [b.held.mapM (readView cfg b.s)] }
    else none

/-- A sequence of steps. -/
def tokBatchActs (cfg : TokPass) (n : Nat) : List TokBatchAct → TokBatcher → Option TokBatcher
  | [], b => some b
  | a :: as, b => (tokBatchAct cfg n b a).bind (tokBatchActs cfg n as)

end LitData
