import Verif.Props.TokensThreadsRun

/-! Property C77, continued: the theorems. -/

namespace LitData.Props
open LitData Spec

/-- The blocks that are asked for: block `j` of the tokens of chunk `k`, for each item. -/
def askedBlocks (data : List TokChunk) (bs : Nat) (items : List (Nat × Nat)) : List (List Bytes) :=
  items.map fun x => tokBlock bs ((data[x.1]?.map fun c => c.2.flatten).getD []) x.2

/-- Every item is a block of a chunk. -/
def BlocksOf (data : List TokChunk) (bs : Nat) (items : List (Nat × Nat)) : Prop :=
  ∀ x ∈ items, ∃ c, data[x.1]? = some c ∧ x.2 < c.2.flatten.length / bs

theorem tokPass_ok {data : List TokChunk} {bs sz : Nat} (hd : TokData data sz) (hne : ∀ c ∈ data, c.2.flatten ≠ []) (items : List (Nat × Nat)) :
    TokPassOk (tokPass data bs sz items) := by
  intro k f hf
  simp only [tokPass, Option.map_eq_some_iff] at hf
  obtain ⟨c, hc, rfl⟩ := hf
  have hmem := List.mem_of_getElem? hc
  refine ⟨tokInfo c, by simp [tokPass, hc], rfl, ?_⟩
  rw [tokFile_length]
  have hlen := flatten_length_const c.2.flatten (fun x hx => by
    obtain ⟨t, ht, hxt⟩ := List.mem_flatten.1 hx
    exact hd.size c hmem t ht x hxt)
  have := Nat.mul_pos hd.pos (List.length_pos_iff.2 (hne c hmem))
  omega

/-- What is delivered, and which exceptions there are. -/
structure TTOut (data : List TokChunk) (bs : Nat) (items : List (Nat × Nat)) (s : TokThreads) : Prop where
  out : s.out = (askedBlocks data bs items).take s.done
  reader : ∀ e, s.rpc = .failed e → e = .keyError
  thread : ∀ e, s.tpc = .dead e → e = .keyError

theorem block_bytes {data : List TokChunk} {bs sz : Nat} (hb : 0 < bs) (hd : TokData data sz) {k j : Nat} {c : TokChunk} (hc : data[k]? = some c)
    (hj : j < c.2.flatten.length / bs) :
    sz * j * bs + sz * bs ≤ c.2.flatten.flatten.length ∧ groups sz bs (c.2.flatten.flatten.drop (sz * j * bs)) = tokBlock bs c.2.flatten j := by
  have hmem := List.mem_of_getElem? hc
  have htoks : ∀ x ∈ c.2.flatten, x.length = sz := by
    intro x hx
    obtain ⟨t, ht, hxt⟩ := List.mem_flatten.1 hx
    exact hd.size c hmem t ht x hxt
  have hlen := flatten_length_const c.2.flatten htoks
  have hjb : (j + 1) * bs ≤ c.2.flatten.length := (Nat.le_div_iff_mul_le hb).1 hj
  rw [Nat.succ_mul] at hjb
  have hoff : sz * j * bs = sz * (j * bs) := Nat.mul_assoc _ _ _
  constructor
  · rw [hlen, hoff, ← Nat.mul_add]; exact Nat.mul_le_mul_left _ hjb
  · rw [hoff, flatten_drop_const _ htoks, groups_flatten _ (fun x hx => htoks x (List.mem_of_mem_drop hx)) bs (by rw [List.length_drop]; omega)]
    rfl

theorem ttout_step {data : List TokChunk} {bs sz : Nat} {items : List (Nat × Nat)} (hb : 0 < bs) (hd : TokData data sz) (hne : ∀ c ∈ data, c.2.flatten ≠ [])
    (hbl : BlocksOf data bs items) {s s' : TokThreads} {a : TokAct} (hi : TTInv (tokPass data bs sz items) s)
    (ho : TTOut data bs items s) (h : tokAct (tokPass data bs sz items) s a = some s') : TTOut data bs items s' := by
  have hok := tokPass_ok (bs := bs) hd hne items
  cases a with
  | fetch k => simp only [tokAct] at h; split at h <;> cases h; exact ⟨ho.out, ho.reader, by intro e h; simp only at h; split at h <;> cases h⟩
  | part n =>
    simp only [tokAct] at h
    split at h
    · split at h
      · cases h
      · split at h <;> cases h
        exact ⟨ho.out, ho.reader, ho.thread⟩
    · cases h
  | arrive =>
    simp only [tokAct] at h
    split at h
    · split at h <;> cases h
      exact ⟨ho.out, ho.reader, by intro e h; cases h⟩
    · cases h
  | preLoad yes =>
    simp only [tokAct] at h
    split at h <;> cases h
    exact ⟨ho.out, ho.reader, by intro e h; cases yes <;> cases h⟩
  | delete k =>
    simp only [tokAct] at h
    split at h <;> cases h
    exact ⟨ho.out, ho.reader, by intro e h; cases h⟩
  | line =>
    simp only [tokAct, tokThreadLine] at h
    split at h
    case h_5 k hp =>
      obtain ⟨h0, h1⟩ := hi.loading k (by simp [hp, tokLoading])
      obtain ⟨f, c, hf, hc, hm⟩ := tokMap_whole hok h0 h1
      rw [hm] at h
      cases h
      exact ⟨ho.out, ho.reader, by intro e h; cases h⟩
    all_goals (try split at h)
    all_goals (first | cases h | skip)
    all_goals refine ⟨ho.out, ho.reader, ?_⟩
    all_goals intro e h; (try split at h); all_goals first | (cases h; done) | (cases h; rfl)
  | reader =>
    simp only [tokAct, tokReaderLine] at h
    split at h
    case h_11 =>
      split at h
      · cases h
      · rename_i k j hit
        obtain ⟨c, hc, hj⟩ := hbl (k, j) (List.mem_of_getElem? hit)
        simp only at hc hj
        split at h
        case h_3 hp =>
          split at h
          · rename_i hn
            simp [tokPass, hc] at hn
          · split at h
            · cases h
            · split at h <;> cases h
              exact ⟨ho.out, (by intro e h; cases h), ho.thread⟩
        case h_6 hp =>
          obtain ⟨h0, h1⟩ := hi.ready k j (by simp [hp, tokReady]) hit
          obtain ⟨f, c, hf, hc, hm⟩ := tokMap_whole hok h0 h1
          rw [hm] at h
          cases h
          exact ⟨ho.out, (by intro e h; cases h), ho.thread⟩
        case h_10 m hp =>
          obtain ⟨o, hmo⟩ := hi.rmap m k j (.inr (.inr hp)) hit
          cases o with
          | none => exact absurd (hi.unmapped m k hmo) (tt_current hi hit)
          | some b =>
            obtain ⟨f, i, hf, hi', hbb⟩ := hi.mapped m k b hmo
            simp only [tokPass, hc, Option.map_some, Option.some.injEq, List.getElem?_map] at hf hi'
            subst hf hi'
            rw [tokFile_drop] at hbb
            subst hbb
            obtain ⟨hfit, hblk⟩ := block_bytes hb hd hc hj
            rw [hmo] at h
            simp only at h
            rw [if_pos (by exact hfit)] at h
            cases h
            refine ⟨?_, (by intro e h; cases h), ho.thread⟩
            simp only
            have hb2 : (askedBlocks data bs items)[s.done]? = some (tokBlock bs c.2.flatten j) := by
              have hit' : items[s.done]? = some (k, j) := hit
              simp [askedBlocks, hit', hc]
            rw [ho.out]
            show _ ++ [groups sz bs (c.2.flatten.flatten.drop (sz * j * bs))] = _
            rw [hblk]
            obtain ⟨hlt, he⟩ := List.getElem?_eq_some_iff.1 hb2
            rw [List.take_succ_eq_append_getElem hlt, he]
        all_goals (try split at h)
        all_goals (first | cases h | skip)
        all_goals refine ⟨ho.out, ?_, ho.thread⟩
        all_goals intro e h; (try split at h); all_goals first | (cases h; done) | (cases h; rfl)
    all_goals (try split at h)
    all_goals (first | cases h | skip)
    all_goals refine ⟨ho.out, ?_, ho.thread⟩
    all_goals intro e h; (try split at h); all_goals first | (cases h; done) | (cases h; rfl)

theorem tt_all {data : List TokChunk} {bs sz : Nat} {items : List (Nat × Nat)} (hb : 0 < bs) (hd : TokData data sz) (hne : ∀ c ∈ data, c.2.flatten ≠ [])
    (hbl : BlocksOf data bs items) (hcc : ChunkByChunk items) (as : List TokAct) {s s' : TokThreads} (hi : TTInv (tokPass data bs sz items) s)
    (ho : TTOut data bs items s) (h : tokActs (tokPass data bs sz items) as s = some s') : TTInv (tokPass data bs sz items) s' ∧ TTOut data bs items s' := by
  induction as generalizing s with
  | nil => cases h; exact ⟨hi, ho⟩
  | cons a as ih =>
    simp only [tokActs, Option.bind_eq_some_iff] at h
    obtain ⟨t, h1, h2⟩ := h
    exact ih (tt_step (tokPass_ok hd hne items) hcc hi h1) (ttout_step hb hd hne hbl hi ho h1) h2

/-- **C77.** Tokens are stored in a remote folder and blocks are asked for chunk after chunk. Whatever lines the thread executes between the lines of the reader
(fetching chunks piece by piece, loading them ahead, deleting those given up), the blocks delivered are those asked for, in order, and nothing but a
`KeyError` ends the reader or the thread. -/
theorem c77_blocks_partial (data : List TokChunk) (bs sz : Nat) (items : List (Nat × Nat)) (hb : 0 < bs) (hd : TokData data sz) (hne : ∀ c ∈ data, c.2.flatten ≠ [])
    (hbl : BlocksOf data bs items) (hcc : ChunkByChunk items) (as : List TokAct) (s : TokThreads)
    (h : tokActs (tokPass data bs sz items) as .init = some s) :
    s.out = (askedBlocks data bs items).take s.done ∧ s.done ≤ items.length ∧ (∀ e, s.rpc = .failed e → e = .keyError) ∧ ∀ e, s.tpc = .dead e → e = .keyError := by
  have h0 : TTOut data bs items .init := ⟨by simp [TokThreads.init], (by intro e h; cases h), by intro e h; cases h⟩
  obtain ⟨hi, ho⟩ := tt_all hb hd hne hbl hcc as (tt_init _) h0 h
  exact ⟨ho.out, hi.le, ho.reader, ho.thread⟩

/-- **C77.** When the reader asks for the buffer of its chunk and there is none, the thread is just between the two lines
`self._mmaps[chunk_index] = mmap` and `self._buffers[chunk_index] = memoryview(mmap)` for that chunk. -/
theorem c77_window (data : List TokChunk) (bs sz : Nat) (items : List (Nat × Nat)) (hd : TokData data sz) (hne : ∀ c ∈ data, c.2.flatten ≠ [])
    (hcc : ChunkByChunk items) (as : List TokAct) (s : TokThreads) (h : tokActs (tokPass data bs sz items) as .init = some s)
    (k j : Nat) (hit : items[s.done]? = some (k, j)) (hg : s.rpc = .get) (hn : s.buf k = none) : ∃ m, s.tpc = .setBuf k m := by
  have hi := tt_run (tokPass_ok (bs := bs) hd hne items) hcc as (tt_init _) h
  have hm := hi.got k j (.inl hg) hit
  rcases hi.bothSet k (tt_current hi hit) hm with h | h | ⟨m, j', h, _⟩
  · exact absurd hn h
  · exact h
  · rw [hg] at h; cases h

/-- Two chunks of two tokens each. -/
def demoTwo : List TokChunk := [("a", [[[1, 0], [2, 0]]]), ("b", [[[3, 0], [4, 0]]])]

/-- The reader executes `n` lines. -/
def readerLines (n : Nat) : List TokAct := List.replicate n .reader

/-- The thread executes `n` lines. -/
def threadLines (n : Nat) : List TokAct := List.replicate n .line

/-- **C77.** Chunk 1 is being loaded ahead when the reader comes to it: it finds the map but no buffer, and iterating over the dataset ends in a `KeyError`. -/
theorem c77_key_error_while_loading :
    (tokActs (tokPass demoTwo 2 2 [(0, 0), (1, 0)])
      ([.fetch 0, .part 5, .arrive, .preLoad false] ++ readerLines 11 ++ [.fetch 1, .arrive, .preLoad true] ++ threadLines 6 ++ readerLines 5) .init).map
      (fun s => (s.out, s.rpc)) = some ([[[1, 0], [2, 0]]], .failed .keyError) := by decide +kernel

/-- **C77.** The reader gives up chunk 0 and closes it while the thread deletes it: the thread finds the buffer, the reader removes it, and the thread ends with
a `KeyError`. No chunk is fetched any more. -/
theorem c77_thread_dies :
    (tokActs (tokPass demoTwo 2 2 [(0, 0), (1, 0)])
      ([.fetch 0, .arrive, .preLoad false] ++ readerLines 11 ++ [.fetch 1, .arrive, .preLoad false] ++ readerLines 12 ++ [.delete 0] ++ threadLines 2 ++
        readerLines 3 ++ threadLines 1) .init).map
      (fun s => (s.out, s.tpc)) = some ([[[1, 0], [2, 0]], [[3, 0], [4, 0]]], .dead .keyError) := by decide +kernel

/-- **C77.** The same the other way round: the reader finds the buffer, the thread removes it, and the reader raises a `KeyError`, after it had all blocks of the chunk. -/
theorem c77_key_error_while_closing :
    (tokActs (tokPass demoTwo 2 2 [(0, 0), (1, 0)])
      ([.fetch 0, .arrive, .preLoad false] ++ readerLines 11 ++ [.fetch 1, .arrive, .preLoad false] ++ readerLines 14 ++ [.delete 0] ++ threadLines 3 ++
        readerLines 1) .init).map
      (fun s => (s.tpc, s.rpc)) = some (.delTestMap 0, .failed .keyError) := by decide +kernel

end LitData.Props
