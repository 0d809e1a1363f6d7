import Verif.Model.Tokens

/-!
Blocks of tokens while another thread works on the same `TokensLoader`.
Models `src/litdata/streaming/item_loader.py` lines 435-558 line by line, for the reader (`src/litdata/streaming/reader.py` lines 393-443, one pass
over a dataset in a remote folder) and its thread (`src/litdata/streaming/reader.py` lines 132-244) under every interleaving of their lines.
`Model/Tokens.lean` interleaves them method by method.

A line that tests and changes one dictionary is one step; so is `counter += 1`. Files that are locked by other processes are left out.
-/

namespace LitData

/-- What is read: the files of the remote folder by number of chunk, their entries in the index, the size of blocks and of tokens, and the blocks
(chunk, number within it) in the order in which they are asked for. -/
structure TokPass where
  files : Nat → Option Bytes
  chunks : List ChunkInfo
  blockSize : Nat
  sz : Nat
  items : List (Nat × Nat)

/-- Where the thread is: outside, in the download of a chunk, back from it; in `pre_load_chunk` and `_load_chunk` (`streaming/item_loader.py:435-456`); in `delete`
(`streaming/item_loader.py:520-538`); or it has ended with an exception. -/
inductive TokTpc where
  | idle
  | fetch (k : Nat)
  | fetched (k : Nat)
  | known (k : Nat)
  | there (k : Nat)
  | count (k : Nat)
  | test (k : Nat)
  | map (k : Nat)
  | setMap (k m : Nat)
  | setBuf (k m : Nat)
  | delThere (k : Nat)
  | delTestBuf (k : Nat)
  | delBuf (k : Nat)
  | delTestMap (k : Nat)
  | delClose (k : Nat)
  | delMap (k : Nat)
  | delCount (k : Nat)
  | delFile (k : Nat)
  | dead (e : Err)
  deriving DecidableEq, Repr

/-- Where the reader is in `close` (`streaming/item_loader.py:549-558`). -/
inductive TokClose where
  | count
  | test
  | testBuf
  | buf
  | testMap
  | unmap
  | map
  deriving DecidableEq, Repr

/-- Where the reader is: between two items; in `load_item_from_chunk` and `_load_chunk` (`streaming/item_loader.py:435-518`); giving up chunks and closing them
(`streaming/reader.py:407-443`); or an exception was raised. -/
inductive TokRpc where
  | idle
  | look
  | wait
  | count
  | test
  | map
  | setMap (m : Nat)
  | setBuf (m : Nat)
  | get
  | view (m : Nat)
  | give (gs : List Nat)
  | close (g : Nat) (l : TokClose) (gs : List Nat)
  | failed (e : Err)
  deriving DecidableEq, Repr

/-- The files in the cache; the memory maps ever made with their chunks, `none` once unmapped; `_mmaps`, `_buffers`, `_counter` and `_chunk_filepaths`
(`streaming/item_loader.py:381-388`); the chunks passed to `delete` of the thread and those deleted; both threads; the number of blocks delivered, `_last_chunk_index`,
and the blocks. -/
structure TokThreads where
  file : Nat → Option Bytes
  maps : List (Nat × Option Bytes)
  mm : Nat → Option Nat
  buf : Nat → Option Nat
  counter : Nat → Int
  known : Nat → Bool
  given : List Nat
  deleted : List Nat
  tpc : TokTpc
  rpc : TokRpc
  done : Nat
  last : Option Nat
  out : List (List Bytes)

/-- Before the pass: an empty cache. -/
def TokThreads.init : TokThreads := ⟨fun _ => none, [], fun _ => none, fun _ => none, fun _ => 0, fun _ => false, [], [], .idle, .idle, 0, none, []⟩

/-- One entry of a dictionary is set. -/
def setKey {α : Type} (f : Nat → α) (k : Nat) (v : α) : Nat → α := fun i => if i = k then v else f i

/-- `np.memmap` behind the header (`streaming/item_loader.py:439-445`). -/
def tokMap (cfg : TokPass) (file : Nat → Option Bytes) (k : Nat) : Py Bytes :=
  match cfg.chunks[k]? with
  | none => .error .indexError
  | some c => match file k with
    | none => .error .fileNotFound
    | some f => if f.length ≤ (1 + c.chunkSize + 1) * 4 then .error .valueError else .ok (f.drop ((1 + c.chunkSize + 1) * 4))

/-- One line of the thread within `pre_load_chunk` (`streaming/item_loader.py:435-456`) or `delete` (`streaming/item_loader.py:520-538`). -/
def tokThreadLine (cfg : TokPass) (s : TokThreads) : Option TokThreads :=
  match s.tpc with
  | .known k => some { s with known := setKey s.known k true, tpc := .there k }
  | .there k => match s.file k with
    | none => some { s with tpc := .idle }
    | some f => some { s with tpc := if f.length > 0 then .count k else .idle }
  | .count k => some { s with counter := setKey s.counter k (s.counter k + 1), tpc := .test k }
  | .test k => some { s with tpc := if (s.mm k).isSome then .idle else .map k }
  | .map k => match tokMap cfg s.file k with
    | .error e => some { s with tpc := .dead e }
    | .ok b => some { s with maps := s.maps ++ [(k, some b)], tpc := .setMap k s.maps.length }
  | .setMap k m => some { s with mm := setKey s.mm k (some m), tpc := .setBuf k m }
  | .setBuf k m => some { s with buf := setKey s.buf k (some m), tpc := .idle }
  | .delThere k => some { s with tpc := if (s.file k).isSome then .delTestBuf k else .idle }
  | .delTestBuf k => some { s with tpc := if (s.buf k).isSome then .delBuf k else .delTestMap k }
  | .delBuf k => match s.buf k with
    | none => some { s with tpc := .dead .keyError }
    | some _ => some { s with buf := setKey s.buf k none, tpc := .delTestMap k }
  | .delTestMap k => some { s with tpc := if (s.mm k).isSome then .delClose k else .delFile k }
  | .delClose k => match s.mm k with
    | none => some { s with tpc := .dead .keyError }
    | some m => some { s with maps := s.maps.set m (k, none), tpc := .delMap k }
  | .delMap k => match s.mm k with
    | none => some { s with tpc := .dead .keyError }
    | some _ => some { s with mm := setKey s.mm k none, tpc := .delCount k }
  | .delCount k => some { s with counter := setKey s.counter k 0, tpc := .delFile k }
  | .delFile k => some { s with file := setKey s.file k none, tpc := .idle }
  | _ => none

/-- One line of the reader (`streaming/reader.py:393-443`, `streaming/item_loader.py:435-518`, 549-558). `none`: it waits for the file, or there is nothing to do. The
time limit of the wait is left out. Reading memory that is not mapped any more is taken for a `ValueError`. -/
def tokReaderLine (cfg : TokPass) (s : TokThreads) : Option TokThreads :=
  match s.rpc with
  | .give [] => some { s with rpc := .idle }
  | .give (g :: gs) => some { s with given := s.given ++ [g], rpc := .close g .count gs }
  | .close g .count gs => some { s with counter := setKey s.counter g (s.counter g - 1), rpc := .close g .test gs }
  | .close g .test gs => some { s with rpc := if s.counter g = 0 then .close g .testBuf gs else .give gs }
  | .close g .testBuf gs => some { s with rpc := if (s.buf g).isSome then .close g .buf gs else .close g .testMap gs }
  | .close g .buf gs => match s.buf g with
    | none => some { s with rpc := .failed .keyError }
    | some _ => some { s with buf := setKey s.buf g none, rpc := .close g .testMap gs }
  | .close g .testMap gs => some { s with rpc := if (s.mm g).isSome then .close g .unmap gs else .give gs }
  | .close g .unmap gs => match s.mm g with
    | none => some { s with rpc := .failed .keyError }
    | some m => some { s with maps := s.maps.set m (g, none), rpc := .close g .map gs }
  | .close g .map gs => match s.mm g with
    | none => some { s with rpc := .failed .keyError }
    | some _ => some { s with mm := setKey s.mm g none, rpc := .give gs }
  | .failed _ => none
  | pc => match cfg.items[s.done]? with
    | none => none
    | some (k, j) => match pc with
      | .idle => some { s with last := if s.last = none then some k else s.last, rpc := .look }
      | .look =>
        if s.known k ∧ (s.file k).isSome then some { s with rpc := .count }
        else some { s with known := setKey s.known k false, rpc := .wait }
      | .wait => match cfg.chunks[k]? with
        | none => some { s with rpc := .failed .indexError }
        | some c => match s.file k with
          | none => none
          | some f => if f.length ≥ c.chunkBytes then some { s with known := setKey s.known k true, rpc := .count } else none
      | .count => some { s with counter := setKey s.counter k (s.counter k + 1), rpc := .test }
      | .test => some { s with rpc := if (s.mm k).isSome then .get else .map }
      | .map => match tokMap cfg s.file k with
        | .error e => some { s with rpc := .failed e }
        | .ok b => some { s with maps := s.maps ++ [(k, some b)], rpc := .setMap s.maps.length }
      | .setMap m => some { s with mm := setKey s.mm k (some m), rpc := .setBuf m }
      | .setBuf m => some { s with buf := setKey s.buf k (some m), rpc := .get }
      | .get => match s.buf k with
        | none => some { s with rpc := .failed .keyError }
        | some m => some { s with rpc := .view m }
      | .view m => match s.maps[m]? with
        | some (_, some b) =>
          if cfg.sz * j * cfg.blockSize + cfg.sz * cfg.blockSize ≤ b.length then
            some { s with
              out := s.out ++ [groups cfg.sz cfg.blockSize (b.drop (cfg.sz * j * cfg.blockSize))], done := s.done + 1, last := some k
              rpc := .give ((if s.last = some k then [] else s.last.toList) ++ (if s.done + 1 = cfg.items.length then [k] else [])) }
          else some { s with rpc := .failed .valueError }
        | _ => some { s with rpc := .failed .valueError }
      | _ => none

/-- What can happen: a line of the reader; the thread begins to fetch a chunk, has part of it, has all of it, loads it ahead or not, begins to delete a chunk
that was given up, or goes on with a line. -/
inductive TokAct where
  | reader
  | fetch (k : Nat)
  | part (n : Nat)
  | arrive
  | preLoad (yes : Bool)
  | delete (k : Nat)
  | line
  deriving DecidableEq, Repr

/-- One step (`streaming/reader.py:132-152`, 175-187, 202-244). Whether a chunk is loaded ahead depends on the counter of the thread; both are allowed. A chunk that is
there is not fetched again (`streaming/config.py:130-137`). -/
def tokAct (cfg : TokPass) (s : TokThreads) : TokAct → Option TokThreads
  | .reader => tokReaderLine cfg s
  | .fetch k => if s.tpc = .idle then some { s with tpc := if (s.file k).isSome then .fetched k else .fetch k } else none
  | .part n => match s.tpc with
    | .fetch k => match cfg.files k with
      | none => none
      | some f => if n < f.length then some { s with file := setKey s.file k (some (f.take n)) } else none
    | _ => none
  | .arrive => match s.tpc with
    | .fetch k => match cfg.files k with
      | none => none
      | some f => some { s with file := setKey s.file k (some f), tpc := .fetched k }
    | _ => none
  | .preLoad yes => match s.tpc with
    | .fetched k => some { s with tpc := if yes then .known k else .idle }
    | _ => none
  | .delete k => if s.tpc = .idle ∧ k ∈ s.given ∧ k ∉ s.deleted then some { s with deleted := s.deleted ++ [k], tpc := .delThere k } else none
  | .line => tokThreadLine cfg s

/-- A sequence of steps. -/
def tokActs (cfg : TokPass) : List TokAct → TokThreads → Option TokThreads
  | [], s => some s
  | a :: as, s => (tokAct cfg s a).bind (tokActs cfg as)

end LitData
