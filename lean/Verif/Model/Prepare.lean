import Verif.Model.Basic

/-!
The thread that fetches and deletes chunks ahead of the reader.
Models `PrepareChunksThread` (`src/litdata/streaming/reader.py` lines 48-247) and the calls to it in `BinaryReader.read`
(`src/litdata/streaming/reader.py` lines 363-445), for one reader and its thread, under every interleaving.

Fetching and deleting a chunk are single events here; they are modelled in `Model/Download.lean` and `Model/Counter.lean`.
-/

namespace LitData

/-- `max_pre_download`, whether `max_cache_size` is set, and `_delete_chunks_when_processed` (`streaming/reader.py:65-82`). `warm` are the
chunks that the reader may find in the cache although its own thread did not fetch them: those of an earlier epoch or run, and those that
other workers fetched. `own` are those of them that no other worker fetches or deletes. -/
structure PrepCfg where
  maxPre : Nat
  cache : Bool
  eager : Bool
  warm : List Nat
  own : List Nat

/-- The chunks that other workers may fetch and delete (`streaming/reader.py:132-152`, `streaming/downloader.py:97-99`). -/
def PrepCfg.others (cfg : PrepCfg) : List Nat := cfg.warm.filter fun c => c ∉ cfg.own

/-- Where the thread is in the loop of `run` (`streaming/reader.py:219-247`): before `_force_download`, before the test of the
counter, before `_maybe_delete_chunks`, before the one of line 231, at the end. -/
inductive PrepPc where
  | force
  | fetch
  | clean
  | last
  | exited
  deriving DecidableEq, Repr

/-- The thread and the reader. `requested`, `downloaded`, `forced`, `deleted` and `consumed` are logs: the chunks passed to
`download`, fetched, fetched by force, given to `_apply_delete`, and passed to `delete`. `queue`, `forceQ` and `toDelete` are the
three queues (`none` is the end token), `pending` is `_chunks_index_to_be_deleted`, `counter` is `_pre_download_counter`; `cur` is the
number of chunks the reader has begun to read. -/
structure PrepState where
  requested : List Nat
  queue : List (Option Nat)
  downloaded : List Nat
  forceQ : List Nat
  forced : List Nat
  counter : Int
  toDelete : List Nat
  pending : List Nat
  deleted : List Nat
  consumed : List Nat
  cur : Nat
  stopped : Bool
  pc : PrepPc
  deriving DecidableEq, Repr

/-- A new thread (`streaming/reader.py:51-83`). -/
def PrepState.init : PrepState := ⟨[], [], [], [], [], 0, [], [], [], [], 0, false, .force⟩

/-- The chunks that the `while` loop of `_maybe_delete_chunks` deletes (`streaming/reader.py:182-184`, 190-196): all or none by the
counter, or else as many as bring the folder below its limit, which depends on what other processes do. -/
def cleans (cfg : PrepCfg) (s : PrepState) (n k : Nat) : Prop :=
  if cfg.eager then k = if s.counter ≥ (cfg.maxPre : Int) - 1 then n else 0 else k ≤ n

/-- The state after `_maybe_delete_chunks` has taken `c` from its queue and deleted `k` chunks (`streaming/reader.py:178-187`). -/
def cleanUp (s : PrepState) (c : Nat) (rest : List Nat) (k : Nat) (pc : PrepPc) : PrepState :=
  { s with toDelete := rest, pending := (s.pending ++ [c]).drop k, deleted := s.deleted ++ (s.pending ++ [c]).take k, counter := s.counter - 1, pc := pc }

/-- The steps of the thread. -/
inductive TStep (cfg : PrepCfg) : PrepState → PrepState → Prop
  /-- `_force_download` with an empty queue (`streaming/reader.py:202-203`). -/
  | forceNone (s : PrepState) : s.pc = .force → s.forceQ = [] → TStep cfg s { s with pc := .fetch }
  /-- `_force_download` (`streaming/reader.py:202-217`). -/
  | forceSome (s : PrepState) (c : Nat) (rest : List Nat) : s.pc = .force → s.forceQ = c :: rest →
      TStep cfg s { s with forceQ := rest, forced := s.forced ++ [c], counter := s.counter + 1, pc := .fetch }
  /-- Enough chunks ahead (`streaming/reader.py:227`). -/
  | full (s : PrepState) : s.pc = .fetch → ¬ s.counter < cfg.maxPre → TStep cfg s { s with pc := .clean }
  /-- Nothing to fetch (`streaming/reader.py:228`). -/
  | fetchNone (s : PrepState) : s.pc = .fetch → s.counter < cfg.maxPre → s.queue = [] → TStep cfg s { s with pc := .clean }
  /-- A chunk is fetched (`streaming/reader.py:235-244`). -/
  | fetchSome (s : PrepState) (c : Nat) (rest : List (Option Nat)) : s.pc = .fetch → s.counter < cfg.maxPre → s.queue = some c :: rest →
      TStep cfg s { s with queue := rest, downloaded := s.downloaded ++ [c], counter := s.counter + 1, pc := .clean }
  /-- The end token (`streaming/reader.py:229-233`). -/
  | fetchEnd (s : PrepState) (rest : List (Option Nat)) : s.pc = .fetch → s.counter < cfg.maxPre → s.queue = none :: rest →
      TStep cfg s { s with queue := rest, pc := if cfg.cache then .last else .exited }
  /-- No limit on the cache: nothing is deleted (`streaming/reader.py:246`). -/
  | noLimit (s : PrepState) : s.pc = .clean → cfg.cache = false → TStep cfg s { s with pc := .force }
  /-- Nothing to delete (`streaming/reader.py:175-176`). -/
  | cleanNone (s : PrepState) : s.pc = .clean → cfg.cache = true → s.toDelete = [] → TStep cfg s { s with pc := .force }
  /-- A chunk was consumed (`streaming/reader.py:178-187`). -/
  | cleanSome (s : PrepState) (c : Nat) (rest : List Nat) (k : Nat) : s.pc = .clean → cfg.cache = true → s.toDelete = c :: rest →
      cleans cfg s (s.pending.length + 1) k → TStep cfg s (cleanUp s c rest k .force)
  /-- The last call (`streaming/reader.py:230-233`). -/
  | lastNone (s : PrepState) : s.pc = .last → s.toDelete = [] → TStep cfg s { s with pc := .exited }
  /-- The last call (`streaming/reader.py:230-233`). -/
  | lastSome (s : PrepState) (c : Nat) (rest : List Nat) (k : Nat) : s.pc = .last → s.toDelete = c :: rest →
      cleans cfg s (s.pending.length + 1) k → TStep cfg s (cleanUp s c rest k .exited)

/-- The steps of the reader. -/
inductive MStep (cfg : PrepCfg) : PrepState → PrepState → Prop
  /-- `download([c])` (`streaming/reader.py:84-87`, 381-391). -/
  | request (s : PrepState) (c : Nat) : s.stopped = false → MStep cfg s { s with requested := s.requested ++ [c], queue := s.queue ++ [some c] }
  /-- The first item of the first chunk is read; the chunk has to be there (`streaming/reader.py:393-394`, 398-407). -/
  | beginFirst (s : PrepState) (c : Nat) : s.stopped = false → s.cur = 0 → s.requested[0]? = some c → (0 < s.downloaded.length ∨ c ∈ s.forced ∨ c ∈ cfg.warm) →
      MStep cfg s { s with cur := 1 }
  /-- The first item of the next chunk is read; then the previous chunk is given up (`streaming/reader.py:398-416`). -/
  | beginNext (s : PrepState) (n c p : Nat) : s.stopped = false → s.cur = n + 1 → s.requested[n + 1]? = some c → s.requested[n]? = some p →
      (n + 1 < s.downloaded.length ∨ c ∈ s.forced ∨ c ∈ cfg.warm) →
      MStep cfg s { s with cur := n + 2, toDelete := s.toDelete ++ [p], consumed := s.consumed ++ [p] }
  /-- The reader has waited long: it asks for the chunk itself (`streaming/item_loader.py:193-195`). -/
  | ask (s : PrepState) (c : Nat) : s.stopped = false → s.requested[s.cur]? = some c → MStep cfg s { s with forceQ := s.forceQ ++ [c] }
  /-- The last item has been read (`streaming/reader.py:426-430`). -/
  | stop (s : PrepState) (c : Nat) : s.stopped = false → s.requested[s.cur - 1]? = some c → 0 < s.cur → s.cur = s.requested.length →
      MStep cfg s { s with toDelete := s.toDelete ++ [c], consumed := s.consumed ++ [c], queue := s.queue ++ [none], stopped := true }

/-- A step of either. -/
def PrepStep (cfg : PrepCfg) (s t : PrepState) : Prop := TStep cfg s t ∨ MStep cfg s t

/-- States that a new thread and its reader get to. -/
inductive PrepReach (cfg : PrepCfg) : PrepState → Prop
  | init : PrepReach cfg .init
  | step {s t : PrepState} : PrepReach cfg s → PrepStep cfg s t → PrepReach cfg t

/-- A number of steps of the thread alone, while the reader waits. -/
inductive TSteps (cfg : PrepCfg) : Nat → PrepState → PrepState → Prop
  | refl (s : PrepState) : TSteps cfg 0 s s
  | tail {n : Nat} {s t u : PrepState} : TSteps cfg n s t → TStep cfg t u → TSteps cfg (n + 1) s u

end LitData
