import Verif.Model.Append
import Verif.Props.Merge

/-! Property C26: append mode. -/

namespace LitData.Props
open LitData

theorem splitChar_append (c : Char) (a b : List Char) (h : c ∉ a) : splitChar c (a ++ c :: b) = a :: splitChar c b := by
  induction a with
  | nil => simp [splitChar]
  | cons d a ih =>
    have h1 : d ≠ c := by intro e; apply h; rw [e]; exact List.mem_cons_self
    simp only [List.cons_append, splitChar, if_neg h1]
    rw [ih (fun hm => h (List.mem_cons_of_mem _ hm))]

theorem splitChar_none (c : Char) (a : List Char) (h : c ∉ a) : splitChar c a = [a] := by
  induction a with
  | nil => rfl
  | cons d a ih =>
    have h1 : d ≠ c := by intro e; apply h; rw [e]; exact List.mem_cons_self
    simp only [splitChar, if_neg h1]
    rw [ih (fun hm => h (List.mem_cons_of_mem _ hm))]

theorem parseInt_toDigits (n : Nat) : parseInt (Nat.toDigits 10 n) = .ok n := by
  unfold parseInt
  rw [if_pos ⟨Nat.toDigits_ne_nil, List.all_eq_true.2 (fun c hc => toDigits_isDigit n c hc)⟩, Nat.ofDigitChars_ten_toDigits]

/-- The text between the number of a chunk and `.bin`. -/
def compPart : Option String → List Char
  | some c => '.' :: c.toList
  | none => []

theorem chunkSuffix_eq (comp : Option String) : chunkSuffix comp = compPart comp ++ ".bin".toList := by
  cases comp <;> rfl

/-- The rank and the number are read back from the name of a chunk, compressed or not. -/
theorem c26_extract (comp : Option String) (hc : ∀ c, comp = some c → '-' ∉ c.toList) (rank idx : Nat) :
    extractRankIndex (chunkFilename comp rank idx) = .ok (rank, idx) := by
  have hmid : (((chunkFilename comp rank idx).toList.take ((chunkFilename comp rank idx).toList.length - 4)).drop 6) =
      Nat.toDigits 10 rank ++ '-' :: (Nat.toDigits 10 idx ++ compPart comp) := by
    unfold chunkFilename
    rw [String.toList_ofList, chunkSuffix_eq]
    have e : ("chunk-".toList ++ (Nat.toDigits 10 rank ++ '-' :: (Nat.toDigits 10 idx ++ (compPart comp ++ ".bin".toList)))) =
        ("chunk-".toList ++ (Nat.toDigits 10 rank ++ '-' :: (Nat.toDigits 10 idx ++ compPart comp))) ++ ".bin".toList := by
      simp
    rw [e]
    generalize hX : Nat.toDigits 10 rank ++ '-' :: (Nat.toDigits 10 idx ++ compPart comp) = X
    have hl : (("chunk-".toList ++ X) ++ ".bin".toList).length - 4 = ("chunk-".toList ++ X).length := by
      rw [List.length_append]; rfl
    rw [hl, List.take_left', List.drop_left']
    · rfl
    · rfl
  have hdash : '-' ∉ Nat.toDigits 10 idx ++ compPart comp := by
    intro hm
    rcases List.mem_append.1 hm with hm | hm
    · exact not_mem_toDigits idx '-' (by decide) hm
    · cases comp with
      | none => simp [compPart] at hm
      | some c =>
        simp only [compPart, List.mem_cons] at hm
        rcases hm with hm | hm
        · exact absurd hm (by decide)
        · exact hc c rfl hm
  have hdot : (splitChar '.' (Nat.toDigits 10 idx ++ compPart comp)).headD [] = Nat.toDigits 10 idx := by
    have hd := not_mem_toDigits idx '.' (by decide)
    cases comp with
    | none => simp only [compPart, List.append_nil]; rw [splitChar_none _ _ hd]; rfl
    | some c => simp only [compPart]; rw [splitChar_append _ _ _ hd]; rfl
  unfold extractRankIndex
  simp only
  rw [hmid, splitChar_append _ _ _ (not_mem_toDigits rank '-' (by decide)), splitChar_none _ _ hdash]
  simp only [parseInt_toDigits, hdot, bind, Except.bind]

example : extractRankIndex "chunk-12-345.zstd.bin" = .ok (12, 345) ∧ extractRankIndex "chunk-0-7.bin" = .ok (0, 7) := by decide +kernel

/-- The loop never lowers a start, and raises it above the number of every chunk of its rank. -/
theorem appendStarts_spec (existing : List (Option String × Nat × Nat))
    (hc : ∀ e ∈ existing, ∀ c, e.1 = some c → '-' ∉ c.toList) : ∀ starts : List Nat,
    ∃ out, appendStarts starts (existing.map fun e => chunkFilename e.1 e.2.1 e.2.2) = .ok out ∧ out.length = starts.length ∧
      (∀ r, starts.getD r 0 ≤ out.getD r 0) ∧
      (∀ e ∈ existing, e.2.1 < starts.length → e.2.2 < out.getD e.2.1 0) := by
  induction existing with
  | nil => intro starts; exact ⟨starts, rfl, rfl, fun _ => Nat.le_refl _, by simp⟩
  | cons e es ih =>
    intro starts
    have hx := c26_extract e.1 (hc e List.mem_cons_self) e.2.1 e.2.2
    generalize hn : (if e.2.1 < starts.length ∧ starts.getD e.2.1 0 ≤ e.2.2 then starts.set e.2.1 (e.2.2 + 1) else starts) = next
    obtain ⟨out, h1, h2, h3, h4⟩ := ih (fun x hx => hc x (List.mem_cons_of_mem _ hx)) next
    have hlen : next.length = starts.length := by rw [← hn]; split <;> simp
    have hup : ∀ r, starts.getD r 0 ≤ next.getD r 0 := by
      intro r
      rw [← hn]
      split
      · rename_i h
        simp only [List.getD_eq_getElem?_getD, List.getElem?_set] at h ⊢
        split
        · rename_i hr
          subst hr
          rw [if_pos h.1]
          simp only [Option.getD_some]
          omega
        · exact Nat.le_refl _
      · exact Nat.le_refl _
    have hthis : e.2.1 < starts.length → e.2.2 < next.getD e.2.1 0 := by
      intro hr
      rw [← hn]
      split
      · simp only [List.getD_eq_getElem?_getD, List.getElem?_set, if_true, if_pos hr, Option.getD_some]; omega
      · rename_i h; omega
    refine ⟨out, ?_, by omega, fun r => Nat.le_trans (hup r) (h3 r), ?_⟩
    · simp only [List.map_cons, appendStarts, hx, Except.bind, hn]
      exact h1
    · intro x hxm hr
      rcases List.mem_cons.1 hxm with rfl | hxm
      · exact Nat.lt_of_lt_of_le (hthis hr) (h3 _)
      · exact h4 x hxm (by omega)

/-- **C26 (partial).** On one node: from the names of the existing chunks (of any ranks, with or without compression) every
worker gets a number to start with, and no chunk it writes from there on has the name of an existing chunk.
Full statement: the same for any number of nodes, which fails (`c26_second_node_overwrites`). -/
theorem c26_names_new_partial (numWorkers : Nat) (existing : List (Option String × Nat × Nat))
    (hc : ∀ e ∈ existing, ∀ c, e.1 = some c → '-' ∉ c.toList) :
    ∃ starts, startingChunks numWorkers (existing.map fun e => chunkFilename e.1 e.2.1 e.2.2) = .ok starts ∧
      starts.length = numWorkers ∧
      ∀ (worker first : Nat), starts[worker]? = some first → ∀ (comp : Option String) (j : Nat),
        chunkFilename comp (globalRank 0 numWorkers worker) (first + j) ∉ existing.map fun e => chunkFilename e.1 e.2.1 e.2.2 := by
  obtain ⟨out, h1, h2, _, h4⟩ := appendStarts_spec existing hc (List.replicate numWorkers 0)
  rw [List.length_replicate] at h2 h4
  refine ⟨out, h1, h2, ?_⟩
  intro worker first hw comp j hm
  obtain ⟨e, he, heq⟩ := List.mem_map.1 hm
  obtain ⟨hr, hi⟩ := chunkFilename_inj _ _ _ _ _ _ heq
  have hwl : worker < numWorkers := by rw [← h2]; exact (List.getElem?_eq_some_iff.1 hw).1
  have hrank : e.2.1 = worker := by rw [hr]; simp [globalRank]
  have := h4 e he (by omega)
  rw [hrank, List.getD_eq_getElem?_getD, hw, Option.getD_some] at this
  omega

example : startingChunks 2 ["chunk-0-0.bin", "chunk-1-3.zstd.bin", "chunk-5-9.bin", "chunk-1-2.bin"] = .ok [1, 4] := by decide +kernel

/-- **C26**, the index: the old chunks come first, in their order, then those of the workers. -/
theorem c26_index {C : Type} [DecidableEq C] (c : C) (ws : List (List ChunkInfo)) (d : CacheDir C)
    (h : WorkersDone c ws d) (existing : List ChunkInfo) :
    ∃ (d' : CacheDir C) (new : List ChunkInfo), mergeNoWait none (some ⟨existing, some c⟩) d = (.ok (), d') ∧
      dirGet d' "index.json" = some (.index ⟨existing ++ new, some c⟩) ∧ new.Perm ws.flatten := by
  obtain ⟨d', cfg, rs, h1, h2, h3, h4, _⟩ := c14_merge_keeps_all c ws d h existing (some ⟨existing, some c⟩) (Or.inr rfl)
  rw [h4 (Or.inr (by simp))] at h2
  exact ⟨d', _, h1, h2, (List.perm_append_left_iff existing).1 h3⟩

/-- Appending with another configuration than that of the existing dataset raises, and no index is written. -/
theorem c26_other_config_raises {C : Type} [DecidableEq C] (c c' : C) (hne : c ≠ c') (cs : List ChunkInfo) (existing : List ChunkInfo) (r : Nat) :
    (mergeNoWait none (some ⟨existing, some c⟩) ([(rankIndexName r, .index ⟨cs, some c'⟩)] : CacheDir C)).1 = .error .exception := by
  unfold mergeNoWait
  have hs : sortBy strLe ((([(rankIndexName r, .index ⟨cs, some c'⟩)] : CacheDir C).map (·.1)).filter isIndexName) = [rankIndexName r] := by
    simp [isIndexName_rank, sortBy, insertBy]
  rw [hs]
  simp [mergeLoop, dirGet, hne]

/-- **On several nodes append mode overwrites chunks.** The starts are computed for the workers of one node, but
the names use the rank over all nodes: with two workers per node, the first worker of the second node has rank 2
and starts at the number computed for rank 0, which is the name of an existing chunk. -/
theorem c26_second_node_overwrites : ∃ starts : List Nat,
    startingChunks 2 ["chunk-0-0.bin", "chunk-1-0.bin", "chunk-2-0.bin", "chunk-2-1.bin"] = .ok starts ∧
    chunkFilename none (globalRank 1 2 0) (starts.getD 0 0) = "chunk-2-1.bin" := ⟨[1, 1], by decide +kernel⟩

/-- **On several nodes the old chunks are listed once for every node**: each node puts the existing index in front of
its own, and the last node merges the indices of the nodes. -/
theorem c26_nodes_repeat_old_chunks :
    let old : IndexData Nat := ⟨[⟨"chunk-0-0.bin", 5, 9, none⟩], some 1⟩
    let node0 := (mergeNoWait (some 0) (some old) ([(rankIndexName 0, .index ⟨[⟨"chunk-0-1.bin", 5, 9, none⟩], some 1⟩)] : CacheDir Nat)).2
    let node1 := (mergeNoWait (some 1) (some old) ([(rankIndexName 1, .index ⟨[⟨"chunk-1-0.bin", 5, 9, none⟩], some 1⟩)] : CacheDir Nat)).2
    dirGet (mergeNoWait none none (node0 ++ node1)).2 "index.json" =
      some (.index ⟨[⟨"chunk-0-0.bin", 5, 9, none⟩, ⟨"chunk-0-1.bin", 5, 9, none⟩, ⟨"chunk-0-0.bin", 5, 9, none⟩, ⟨"chunk-1-0.bin", 5, 9, none⟩], some 1⟩) := by
  decide +kernel

/-- A name that does not come from the writer, such as that of a Parquet file, makes append mode fail. -/
theorem c26_other_names_raise : startingChunks 1 ["part-0.parquet"] = .error .assertion ∧
    startingChunks 1 ["shard.00000.mds"] = .error .assertion := by decide +kernel

end LitData.Props
