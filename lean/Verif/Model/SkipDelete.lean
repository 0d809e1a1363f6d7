import Verif.Model.Assign

/-!
Which worker deletes a chunk that several workers read.
Models `src/litdata/utilities/shuffle.py` lines 147-311 and the use in
`src/litdata/streaming/dataset.py` lines 303-325.
-/

namespace LitData

/-- `d[k].append(v)`, with a new empty list if `k` is not in the dictionary. -/
def dictAppend (d : List (Nat × List Nat)) (k v : Nat) : List (Nat × List Nat) :=
  if d.any (fun e => e.1 == k) then d.map fun e => if e.1 == k then (e.1, e.2 ++ [v]) else e
  else d ++ [(k, [v])]

/-- A dictionary of lists filled from pairs, in order. -/
def dictOfPairs (ps : List (Nat × Nat)) : List (Nat × List Nat) := ps.foldl (fun d p => dictAppend d p.1 p.2) []

/-- The `(chunk, worker)` pairs in the order in which `_get_shared_chunks` visits them. -/
def chunkWorkerPairs (wc : List (List Nat)) : List (Nat × Nat) :=
  wc.zipIdx.flatMap fun p => p.1.map fun c => (c, p.2)

/-- `_get_shared_chunks` (`utilities/shuffle.py:271-281`). -/
def sharedChunks (wc : List (List Nat)) : List (Nat × List Nat) :=
  (dictOfPairs (chunkWorkerPairs wc)).filter fun e => decide (1 < e.2.length)

/-- The workers that share one chunk, by rank (`_aggregate_shared_chunks_per_rank`,
`utilities/shuffle.py:284-299`). -/
def sharedPerRank (nw : Nat) (workers : List Nat) : List (Nat × List Nat) :=
  dictOfPairs (workers.map fun w => (w / nw, w))

/-- What a worker has left to read: chunks with the number of samples left in each. The two parallel lists
`workers_chunks` and `workers_intervals` are one list of pairs here; both come from the same assignment. -/
abbrev WorkLeft := List (Nat × Nat)

/-- The state of the loop (`utilities/shuffle.py:178-181`). -/
structure SimState where
  /-- One entry per worker of the rank. -/
  left : List WorkLeft
  /-- `num_shared_workers_for_this_rank` -/
  shared : Nat
  /-- `worker_tracker_idx` -/
  idx : Nat
  /-- `num_of_samples_to_carry_to_next_chunk` -/
  carry : Option Nat
  /-- `counter` -/
  counter : Nat
  deriving DecidableEq

/-- `interval_sizes[0] -= n`, if there is one. -/
def lessHead (n : Nat) : WorkLeft → WorkLeft
  | [] => []
  | (c, s) :: rest => (c, s - n) :: rest

/-- The sizes of the current chunk of the workers that have one. -/
def headSizes (left : List WorkLeft) : List Nat := left.filterMap fun l => l.head?.map (·.2)

/-- Smallest element, for `min` of a non-empty list. -/
def minList : List Nat → Nat
  | [] => 0
  | a :: l => l.foldl min a

/-- Part 1 of an iteration (`utilities/shuffle.py:184-197`): as many batches for every worker as the smallest
current chunk has, but one. `min` of nothing raises `ValueError`. -/
def simPart1 (bs : Nat) (s : SimState) : Py SimState :=
  match s.carry with
  | some _ => .ok s
  | none =>
    if headSizes s.left = [] then .error .valueError
    else if bs = 0 then .error .zeroDivision
    else
      let nb := minList (headSizes s.left) / bs - 1
      .ok { s with
        left := s.left.map (lessHead (nb * bs))
        idx := s.idx + nb * (headSizes s.left).length
        counter := s.counter + nb * bs * (headSizes s.left).length }

/-- The outcome of one iteration: another one, or the `break` with the position and the counter. -/
inductive SimOut where
  | more (s : SimState)
  | done (idx counter : Nat)
  deriving DecidableEq

/-- The carry after a chunk has been used up (`utilities/shuffle.py:243-251`). -/
def carryAfterPop (bs left remover : Nat) (carry : Option Nat) : Option Nat :=
  if remover ≠ bs then none else if left ≠ bs then some (bs - left) else carry

/-- Part 2 of an iteration (`utilities/shuffle.py:199-258`). -/
def simPart2 (nw bs chunk : Nat) (s : SimState) : Py SimOut :=
  if nw = 0 then .error .zeroDivision
  else match s.left[s.idx % nw]? with
    | none => .error .indexError
    | some [] => .ok (.more { s with idx := s.idx + 1 })
    | some ((c, left) :: rest) =>
      let remover := s.carry.getD bs
      if left > remover then
        .ok (.more { s with
          left := s.left.set (s.idx % nw) ((c, left - remover) :: rest)
          counter := s.counter + remover
          carry := none
          idx := s.idx + 1 })
      else
        let shared := if c = chunk then s.shared - 1 else s.shared
        if shared = 0 ∧ c = chunk then .ok (.done s.idx (s.counter + remover))
        else
          let carry := carryAfterPop bs left remover s.carry
          .ok (.more { s with
            left := s.left.set (s.idx % nw) rest
            shared := shared
            counter := s.counter + remover
            carry := carry
            idx := if carry = none then s.idx + 1 else s.idx })

/-- One iteration of the loop (`utilities/shuffle.py:183-258`). -/
def simStep (nw bs chunk : Nat) (s : SimState) : Py SimOut :=
  match simPart1 bs s with
  | .error e => .error e
  | .ok s' => simPart2 nw bs chunk s'

/-- The loop `while True` (`utilities/shuffle.py:183-258`), cut after `fuel` iterations (`none`). -/
def simulate (nw bs chunk : Nat) : Nat → SimState → Option (Py (Nat × Nat))
  | 0, _ => none
  | fuel + 1, s => match simStep nw bs chunk s with
    | .error e => some (.error e)
    | .ok (.done i c) => some (.ok (i, c))
    | .ok (.more s') => simulate nw bs chunk fuel s'

/-- The state before the loop (`utilities/shuffle.py:165-181`). -/
def simInit (nw rank : Nat) (work : List WorkLeft) (workers : List Nat) : SimState :=
  ⟨(work.drop (rank * nw)).take nw, workers.length, 0, none, 0⟩

/-- The loop over the ranks for one chunk, with the entry of `max_trackers` so far
(`utilities/shuffle.py:163-241`). -/
def trackRanks (nw bs fuel : Nat) (work : List WorkLeft) (chunk : Nat) :
    List (Nat × List Nat) → Option (Nat × Nat) → Option (Py (Option (Nat × Nat)))
  | [], best => some (.ok best)
  | (rank, workers) :: rest, best => match simulate nw bs chunk fuel (simInit nw rank work workers) with
    | none => none
    | some (.error e) => some (.error e)
    | some (.ok (i, counter)) =>
      let new := (rank * nw + i % nw, counter)
      trackRanks nw bs fuel work chunk rest (match best with
        | none => some new
        | some b => if b.2 < counter then some new else some b)

/-- The workers that are told to keep one chunk (`utilities/shuffle.py:260-264`); `KeyError` if no worker was
found. -/
def keepers (workers : List Nat) : Option (Nat × Nat) → Py (List Nat)
  | none => .error .keyError
  | some b => .ok (workers.filter fun w => w != b.1)

/-- The loop over the shared chunks (`utilities/shuffle.py:162-264`). The two loops of the code (all
simulations first, then the lists) are one here. -/
def skipLoop (nw bs fuel : Nat) (work : List WorkLeft) :
    List (Nat × List Nat) → Option (Py (List (Nat × List Nat)))
  | [] => some (.ok [])
  | (chunk, workers) :: rest =>
    if nw = 0 then some (.error .zeroDivision)
    else match trackRanks nw bs fuel work chunk (sharedPerRank nw workers) none with
      | none => none
      | some (.error e) => some (.error e)
      | some (.ok best) => match keepers workers best with
        | .error e => some (.error e)
        | .ok ks => match skipLoop nw bs fuel work rest with
          | some (.ok m) => some (.ok ((chunk, ks) :: m))
          | r => r

/-- `_find_chunks_per_workers_on_which_to_skip_deletion` (`utilities/shuffle.py:147-264`). -/
def skipDeletion (nw bs fuel : Nat) (work : List WorkLeft) : Option (Py (List (Nat × List Nat))) :=
  skipLoop nw bs fuel work (sharedChunks (work.map fun l => l.map (·.1)))

/-- `_map_node_worker_rank_to_chunk_indexes_to_not_delete` (`utilities/shuffle.py:302-311`). -/
def chunksToKeep (m : List (Nat × List Nat)) : List (Nat × List Nat) :=
  dictOfPairs (m.flatMap fun e => e.2.map fun w => (w, e.1))

/-- The pieces of a worker as chunks with sizes (`utilities/shuffle.py:168-174`). -/
def workOf (ps : List Piece) : WorkLeft := ps.map fun p => (p.chunk, p.interval.size)

/-- The part of the workers' lists that `StreamingDataset.__iter__` passes on
(`streaming/dataset.py:306-318`): `world_size`, `num_nodes`, `global_rank`, `num_workers`. -/
def nodeSlice {α : Type} (world nodes rank nw : Nat) (ws : List α) : List α :=
  let nodeSize := world / nodes
  let first := rank / nodeSize * nodeSize
  let perNode := nodeSize * nw
  (ws.drop (first * perNode)).take perNode

/-- `skip_chunk_indexes_deletion` of the configuration of a worker once `__iter__` is through (`streaming/dataset.py:299-325`): nothing is computed when
the iteration is resumed, and nothing is set for a worker that is not in the map. The configuration is new in every epoch
(`streaming/dataset.py:278`). With more nodes than processes the code divides by zero. -/
def iterSkipList (resumed : Bool) (world nodes rank nw worker bs fuel : Nat) (ws : List WorkLeft) : Option (Py (Option (List Nat))) :=
  if resumed then some (.ok none)
  else if world / nodes = 0 then some (.error .zeroDivision)
  else match skipDeletion nw bs fuel (nodeSlice world nodes rank nw ws) with
    | none => none
    | some (.error e) => some (.error e)
    | some (.ok m) => some (.ok ((chunksToKeep m).lookup (rank % (world / nodes) * nw + worker)))

/-- `can_delete` (`streaming/config.py:111-114`). -/
def mayDelete (skip : Option (List Nat)) (chunk : Nat) : Bool :=
  match skip with
  | none => true
  | some l => !l.contains chunk

/-- Whether `_apply_delete` removes the chunk (`streaming/reader.py:132-148`): the answer of `can_delete` is only printed. -/
def applyDeletes (_skip : Option (List Nat)) (remainingLocks : Nat) (_chunk : Nat) : Bool := !decide (0 < remainingLocks)

end LitData
