import Verif.Lemmas.Pipeline
import Verif.Props.Merge
import Verif.Props.Config
import Verif.Props.Writer

/-! From the samples of several workers to `dataset[i]`: writer, chunk files, index files, merge and
random access together (properties C08, C10, C14, C15 and C35 composed). -/

namespace LitData.Props
open LitData

/-- No chunk of this worker reaches 4 GiB. -/
def ChunksFit (cfg : WriterCfg) (first : Nat) (xs : List WItem) : Prop :=
  ∀ s, workerRun cfg first xs = .ok s → ∀ c ∈ s.chunks, 8 + 4 * c.length + (c.map fun x => x.data.length).sum < 2 ^ 32

theorem workerRun_ok (cfg : WriterCfg) (first : Nat) (xs : List WItem) (hpos : (∀ x ∈ xs, x.data ≠ []) ∨ cfg.chunkSize = 0) :
    ∃ s, workerRun cfg first xs = .ok s ∧ s.chunks.flatten = xs := by
  obtain ⟨s, s', h1, h2, h3, _⟩ := c08_writer_stores_all_partial cfg first xs hpos
  refine ⟨s', ?_, h3⟩
  unfold workerRun
  unfold inOrder at h1
  rw [h1]
  exact h2

theorem mem_workerFiles {C : Type} (config : C) (rank : Nat) (T : List Written) (e : String × CacheFile C) :
    e ∈ workerFiles config rank (T.map fun t => (t.info, t.file)) ↔
      (∃ t ∈ T, e = (t.info.filename, .data t.file)) ∨
      (T ≠ [] ∧ e = (rankIndexName rank, .index ⟨T.map (·.info), some config⟩)) := by
  unfold workerFiles
  rw [List.mem_append, List.map_map]
  apply or_congr
  · rw [List.mem_map]
    constructor
    · rintro ⟨t, h1, rfl⟩; exact ⟨t, h1, rfl⟩
    · rintro ⟨t, h1, rfl⟩; exact ⟨t, h1, rfl⟩
  · by_cases h : T = []
    · simp [h]
    · simp [h, Function.comp_def]

theorem workerFiles_names {C : Type} (config : C) (rank : Nat) (T : List Written)
    (hn : T.map (·.info.filename) = (List.range' 0 T.length).map (chunkFilename none rank)) :
    (workerFiles config rank (T.map fun t => (t.info, t.file))).Pairwise (fun a b => a.1 ≠ b.1) := by
  have h1 : (T.map (·.info.filename)).Nodup := by
    rw [hn, List.nodup_iff_pairwise_ne, List.pairwise_map]
    exact (List.nodup_iff_pairwise_ne.1 (List.nodup_range' (s := 0) (n := T.length))).imp
      fun hab he => hab (chunkFilename_inj _ _ _ _ _ _ he).2
  unfold workerFiles
  rw [List.pairwise_append]
  refine ⟨?_, ?_, ?_⟩
  · rw [List.map_map, List.pairwise_map]
    rw [List.nodup_iff_pairwise_ne, List.pairwise_map] at h1
    exact h1
  · split <;> simp
  · intro a ha b hb he
    split at hb
    · simp at hb
    · simp only [List.mem_singleton] at hb
      rw [List.map_map, List.mem_map] at ha
      obtain ⟨t, ht, rfl⟩ := ha
      have : t.info.filename ∈ T.map (·.info.filename) := List.mem_map_of_mem ht
      rw [hn, List.mem_map] at this
      obtain ⟨j, _, hj⟩ := this
      have h2 := isIndexName_chunk none rank j
      rw [hj] at h2
      simp only [Function.comp_apply] at he
      rw [he, hb, isIndexName_rank] at h2
      exact Bool.noConfusion h2

theorem roiItems_whole {X : Type} (items : List (List X)) : roiItems items (items.map fun l => (0, l.length)) = items.flatten := by
  unfold roiItems
  induction items with
  | nil => rfl
  | cons l items ih => simp [ih]

/-- The chunks on disk are served without regions of interest. -/
theorem stored_reads (enc : Option Encryption) (hsound : ∀ e, enc = some e → Encryption.Sound e)
    (fs : String → Option Bytes) (join : String → String) (chunks : List ChunkInfo) (items : List (List Bytes))
    (hs : Stored enc fs join chunks items) :
    ∃ ivs, generateIntervals none 0 0 chunks = .ok ivs ∧ items.flatten.length = (ivs.map Interval.size).sum ∧
      ∀ is : List Nat, (∀ i ∈ is, i < items.flatten.length) →
        datasetGets fs join enc (enc.map Encryption.config) chunks ivs PyTreeState.init is =
          .ok (is.map fun i => items.flatten.getD i []) := by
  have hsl := hs.len
  obtain ⟨ivs, h1, h2, h3⟩ := c15_reads enc hsound fs join chunks items hs (items.map fun l => (0, l.length))
    (by simp [hsl]) (by
      intro k l r h1 h2
      rw [List.getElem?_map, h1, Option.map_some, Option.some.injEq] at h2
      subst h2
      simp)
  rw [roiItems_whole] at h2 h3
  refine ⟨ivs, ?_, h2, h3⟩
  rw [← h1]
  apply generateIntervals_whole
  intro k c hc
  rw [Nat.zero_add]
  have hk : k < items.length := by
    rw [← hsl]; exact (List.getElem?_eq_some_iff.1 hc).1
  obtain ⟨_, _, h4, _⟩ := hs.files k c items[k] hc (List.getElem?_eq_getElem hk)
  rw [List.getElem?_map, List.getElem?_eq_getElem hk, h4]
  rfl

/-- The ranks below `n` in the order in which their index files are merged: sorted by the text of their file names. -/
def rankOrder (n : Nat) : List Nat := sortBy (fun a b => strLe (rankIndexName a) (rankIndexName b)) (List.range n)

theorem rankOrder_perm (n : Nat) : (rankOrder n).Perm (List.range n) := sortBy_perm _ _

/-- Up to ten workers the order is that of the numbers. -/
theorem rankOrder_ten (n : Nat) (h : n ≤ 10) : rankOrder n = List.range n := by
  have : ∀ n, n < 11 → rankOrder n = List.range n := by decide +kernel
  exact this n (by omega)

/-- With eleven, rank 10 comes between 1 and 2. -/
example : rankOrder 12 = [0, 1, 10, 11, 2, 3, 4, 5, 6, 7, 8, 9] := by decide +kernel

/-- The samples of all workers, in the order of the merged index. -/
def inRankOrder {α : Type} (ws : List (List α)) : List α := (rankOrder ws.length).flatMap fun r => ws.getD r []

theorem range_flatMap_list {α : Type} (ws : List (List α)) : (List.range ws.length).flatMap (fun r => ws.getD r []) = ws.flatten := by
  rw [List.flatMap_def]
  congr 1
  apply List.ext_getElem
  · simp
  · intro i h1 h2
    simp only [List.getElem_map, List.getElem_range, List.getD_eq_getElem?_getD]
    rw [List.getElem?_eq_getElem h2, Option.getD_some]

theorem inRankOrder_perm {α : Type} (ws : List (List α)) : (inRankOrder ws).Perm ws.flatten := by
  unfold inRankOrder
  rw [← range_flatMap_list ws]
  exact (rankOrder_perm _).flatMap_right _

theorem inRankOrder_ten {α : Type} (ws : List (List α)) (h : ws.length ≤ 10) : inRankOrder ws = ws.flatten := by
  unfold inRankOrder
  rw [rankOrder_ten _ h, range_flatMap_list]

theorem inRankOrder_map {α β : Type} (f : α → β) (ws : List (List α)) : inRankOrder (ws.map fun l => l.map f) = (inRankOrder ws).map f := by
  unfold inRankOrder
  rw [List.length_map, List.map_flatMap, List.flatMap_def, List.flatMap_def]
  congr 1
  apply List.map_congr_left
  intro r _
  simp only [List.getD_eq_getElem?_getD, List.getElem?_map]
  cases ws[r]? <;> rfl

theorem busy_flatMap (ws : List (List ChunkInfo)) (l : List Nat) :
    (l.filter fun r => ws.getD r [] != []).flatMap (fun r => ws.getD r []) = l.flatMap fun r => ws.getD r [] := by
  induction l with
  | nil => rfl
  | cons a l ih =>
    rw [List.filter_cons]
    split
    · simp only [List.flatMap_cons, ih]
    · rename_i h
      have : ws.getD a [] = [] := by simpa using h
      rw [ih, List.flatMap_cons, this, List.nil_append]

/-- **C14, order in general.** For any number of workers the merged index lists the chunks worker by worker in the order of the text of
the names of their index files. -/
theorem c14_order {C : Type} [DecidableEq C] (c : C) (ws : List (List ChunkInfo))
    (d : CacheDir C) (h : WorkersDone c ws d) (existing : List ChunkInfo) (old : Option (IndexData C))
    (hold : old = none ∧ existing = [] ∨ old = some ⟨existing, some c⟩) :
    ∃ d' cfg, mergeNoWait none old d = (.ok (), d') ∧
      dirGet d' "index.json" = some (.index ⟨existing ++ inRankOrder ws, cfg⟩) ∧
      (ws.flatten ≠ [] ∨ old ≠ none → cfg = some c) ∧
      (∀ f, isIndexName f = false → dirGet d' f = dirGet d f) := by
  have hp : ((rankOrder ws.length).filter fun r => ws.getD r [] != []).Perm (busyRanks ws) := (rankOrder_perm ws.length).filter _
  have hs : sortBy strLe ((d.map (·.1)).filter isIndexName) =
      ((rankOrder ws.length).filter fun r => ws.getD r [] != []).map rankIndexName := by
    apply sortNames_eq _ _ ((workersDone_names h).trans (hp.map _).symm)
    rw [List.pairwise_map]
    apply List.Pairwise.filter
    exact sortBy_pairwise (fun a b => strLe (rankIndexName a) (rankIndexName b))
      (fun a b => lexLe_total (rankIndexName a).toList (rankIndexName b).toList)
      (fun a b c => lexLe_trans (rankIndexName a).toList (rankIndexName b).toList (rankIndexName c).toList) _
  obtain ⟨d', h1, h2, h3, _⟩ := merge_run c ws d h existing old hold _ hs
  rw [busy_flatMap] at h2
  refine ⟨d', _, h1, h2, fun hne => ?_, h3⟩
  rw [if_neg]
  rintro ⟨hb, ho⟩
  rcases hne with hne | hne
  · apply hne
    rw [hb] at hp
    rw [← busyRanks_flatMap ws, ← hp.nil_eq]
    rfl
  · exact hne ho

/-- **The whole way, for any number of workers.** Let workers write serialized samples `ws` (one list for each), plain or
encrypted, and let their files end up in one cache directory, in any order. Then every worker succeeds,
merging succeeds, and the files of the dataset described by the merged index hold the samples of all workers, worker by worker in the
order of the text of their index file names. -/
theorem c13_any_workers {C : Type} [DecidableEq C] (cfg : WriterCfg) (enc : Option Encryption) (config : C) (first : Nat → Nat) (ns nc : Nat → Nat → Nat)
    (ws : List (List (Bytes × Option Nat)))
    (hpos : cfg.chunkSize = 0 ∨ ∀ (r : Nat) (items : List (Bytes × Option Nat)), ws[r]? = some items →
      ∀ x ∈ workerItems enc (ns r) items, x.data ≠ [])
    (hfit : ∀ (r : Nat) (items : List (Bytes × Option Nat)), ws[r]? = some items →
      ChunksFit cfg (first r) (workerItems enc (ns r) items)) :
    ∃ dirs : List (CacheDir C), dirs.length = ws.length ∧
      (∀ (r : Nat) (items : List (Bytes × Option Nat)) (dd : CacheDir C), ws[r]? = some items → dirs[r]? = some dd →
        workerDir cfg enc config (first r) (ns r) (nc r) r items = .ok dd) ∧
      ∀ d : CacheDir C, d.Perm dirs.flatten →
        ∃ d' chunks cfg' items, mergeNoWait none none d = (.ok (), d') ∧
          dirGet d' "index.json" = some (.index ⟨chunks, cfg'⟩) ∧ (ws.flatten ≠ [] → cfg' = some config) ∧
          Stored enc (dirBytes d') id chunks items ∧ items.flatten = (inRankOrder ws).map (·.1) := by
  -- what each worker writes
  obtain ⟨Ts, hTl, hT⟩ := choose_list (fun r (items : List (Bytes × Option Nat)) (T : List Written) =>
      workerDir cfg enc config (first r) (ns r) (nc r) r items =
        .ok (workerFiles config r (T.map fun t => (t.info, t.file))) ∧
      (T.map (·.plain)).flatten = items.map (·.1) ∧ (∀ t ∈ T, t.Good enc) ∧
      T.map (·.info.filename) = (List.range' 0 T.length).map (chunkFilename none r)) ws 0 (by
    intro r items hr
    rw [Nat.zero_add]
    obtain ⟨s, h1, h2⟩ := workerRun_ok cfg (first r) (workerItems enc (ns r) items) (by
      rcases hpos with h | h
      · exact Or.inr h
      · exact Or.inl (h r items hr))
    obtain ⟨T, e1, e2, e3, e4⟩ := worker_written none enc (ns r) (nc r) r s.chunks 0 0 items (by
      rw [h2]
      unfold workerItems
      simp only [Nat.zero_add]) (hfit r items hr s h1)
    refine ⟨T, ?_, e2, e3, ?_⟩
    · have e1' : T.map (fun t => (t.info, t.file)) = workerChunks none enc (nc r) r 0 s.chunks := e1
      unfold workerDir
      rw [h1, e1']
      rfl
    · have := congrArg List.length e4
      simp only [List.length_map, List.length_range'] at this
      rw [e4, this]
      rfl)
  simp only [Nat.zero_add] at hT
  have hTr : ∀ (r : Nat) (T : List Written), Ts[r]? = some T → ∃ items, ws[r]? = some items := by
    intro r T h
    have : r < ws.length := by rw [← hTl]; exact (List.getElem?_eq_some_iff.1 h).1
    exact ⟨_, List.getElem?_eq_getElem this⟩
  have hTs : Ts.map (fun T => (T.map (·.plain)).flatten) = ws.map (fun items => items.map (·.1)) := by
    apply List.ext_getElem
    · simp [hTl]
    · intro i h1 h2
      simp only [List.length_map] at h1 h2
      simp only [List.getElem_map]
      exact (hT i ws[i] Ts[i] (List.getElem?_eq_getElem _) (List.getElem?_eq_getElem _)).2.1
  have hplain : ((inRankOrder Ts).map (·.plain)).flatten = (inRankOrder ws).map (·.1) := by
    rw [← inRankOrder_map (fun x : Bytes × Option Nat => x.1) ws, ← hTs]
    unfold inRankOrder
    rw [List.length_map, List.map_flatMap, List.flatMap_def, List.flatMap_def, List.flatten_flatten, List.map_map]
    congr 1
    apply List.map_congr_left
    intro r _
    simp only [Function.comp_apply, List.getD_eq_getElem?_getD, List.getElem?_map]
    cases Ts[r]? <;> rfl
  refine ⟨Ts.mapIdx fun r T => workerFiles config r (T.map fun t => (t.info, t.file)), by simp [hTl], ?_, ?_⟩
  · intro r items dd h1 h2
    rw [List.getElem?_mapIdx] at h2
    cases h3 : Ts[r]? with
    | none => rw [h3] at h2; simp at h2
    | some T =>
      rw [h3, Option.map_some, Option.some.injEq] at h2
      rw [← h2]
      exact (hT r items T h1 h3).1
  intro d hd
  have hmem : ∀ e, e ∈ d ↔ ∃ (r : Nat) (T : List Written), Ts[r]? = some T ∧ e ∈ workerFiles config r (T.map fun t => (t.info, t.file)) := by
    intro e
    rw [hd.mem_iff, List.mem_flatten]
    constructor
    · rintro ⟨l, h1, h2⟩
      rw [List.mem_mapIdx] at h1
      obtain ⟨r, hr, rfl⟩ := h1
      exact ⟨r, Ts[r], List.getElem?_eq_getElem hr, h2⟩
    · rintro ⟨r, T, h1, h2⟩
      obtain ⟨hr, rfl⟩ := List.getElem?_eq_some_iff.1 h1
      exact ⟨_, List.mem_mapIdx.2 ⟨r, hr, rfl⟩, h2⟩
  have hname : ∀ (r : Nat) (T : List Written), Ts[r]? = some T → ∀ t ∈ T, ∃ j, t.info.filename = chunkFilename none r j := by
    intro r T h t ht
    obtain ⟨items, hi⟩ := hTr r T h
    have := (hT r items T hi h).2.2.2
    have hm : t.info.filename ∈ T.map (·.info.filename) := List.mem_map_of_mem ht
    rw [this, List.mem_map] at hm
    obtain ⟨j, _, hj⟩ := hm
    exact ⟨j, hj.symm⟩
  have hnodup : (d.map (·.1)).Nodup := by
    rw [(hd.map (·.1)).nodup_iff, List.nodup_iff_pairwise_ne, List.pairwise_map, List.pairwise_flatten]
    refine ⟨?_, ?_⟩
    · intro l hl
      rw [List.mem_mapIdx] at hl
      obtain ⟨r, hr, rfl⟩ := hl
      obtain ⟨items, hi⟩ := hTr r Ts[r] (List.getElem?_eq_getElem hr)
      exact workerFiles_names config r Ts[r] (hT r items Ts[r] hi (List.getElem?_eq_getElem hr)).2.2.2
    · rw [List.pairwise_iff_getElem]
      intro i j hi hj hij a ha b hb he
      simp only [List.length_mapIdx] at hi hj
      simp only [List.getElem_mapIdx] at ha hb
      rw [mem_workerFiles] at ha hb
      rcases ha with ⟨t, ht, rfl⟩ | ⟨_, rfl⟩ <;> rcases hb with ⟨u, hu, rfl⟩ | ⟨_, rfl⟩
      · obtain ⟨x, hx⟩ := hname i Ts[i] (List.getElem?_eq_getElem hi) t ht
        obtain ⟨y, hy⟩ := hname j Ts[j] (List.getElem?_eq_getElem hj) u hu
        simp only [hx, hy] at he
        have := (chunkFilename_inj _ _ _ _ _ _ he).1
        omega
      · obtain ⟨x, hx⟩ := hname i Ts[i] (List.getElem?_eq_getElem hi) t ht
        simp only [hx] at he
        have := isIndexName_chunk none i x
        rw [he, isIndexName_rank] at this
        exact Bool.noConfusion this
      · obtain ⟨y, hy⟩ := hname j Ts[j] (List.getElem?_eq_getElem hj) u hu
        simp only [hy] at he
        have := isIndexName_chunk none j y
        rw [← he, isIndexName_rank] at this
        exact Bool.noConfusion this
      · have := rankIndexName_inj _ _ he
        omega
  have hdone : WorkersDone config (Ts.map fun T => T.map (·.info)) d := by
    refine ⟨hnodup, ?_, ?_⟩
    · intro r cs h hne
      rw [List.getElem?_map] at h
      cases h1 : Ts[r]? with
      | none => rw [h1] at h; simp at h
      | some T =>
        rw [h1, Option.map_some, Option.some.injEq] at h
        subst h
        rw [hmem]
        refine ⟨r, T, h1, (mem_workerFiles _ _ _ _).2 (Or.inr ⟨?_, rfl⟩)⟩
        intro e; subst e; exact hne rfl
    · intro e he hi
      rw [hmem] at he
      obtain ⟨r, T, h1, h2⟩ := he
      rw [mem_workerFiles] at h2
      rcases h2 with ⟨t, ht, rfl⟩ | ⟨h2, rfl⟩
      · obtain ⟨j, hj⟩ := hname r T h1 t ht
        simp only [hj, isIndexName_chunk] at hi
        exact absurd hi (by simp)
      · refine ⟨r, T.map (·.info), by rw [List.getElem?_map, h1]; rfl, by simpa using h2, rfl⟩
  obtain ⟨d', cfg', hm1, hm2, hm3, hm4⟩ := c14_order config _ d hdone [] none (Or.inl ⟨rfl, rfl⟩)
  rw [List.nil_append, inRankOrder_map] at hm2
  have hstored : Stored enc (dirBytes d') id ((inRankOrder Ts).map (·.info)) ((inRankOrder Ts).map (·.plain)) := by
    refine ⟨by rw [List.length_map, List.length_map], ?_⟩
    intro k c l hc hl
    rw [List.getElem?_map] at hc hl
    cases hk : (inRankOrder Ts)[k]? with
    | none => rw [hk] at hc; simp at hc
    | some t =>
      rw [hk, Option.map_some, Option.some.injEq] at hc hl
      subst hc hl
      have ht : t ∈ (inRankOrder Ts) := List.mem_of_getElem? hk
      rw [(inRankOrder_perm Ts).mem_iff, List.mem_flatten] at ht
      obtain ⟨T, hTm, ht⟩ := ht
      obtain ⟨r, hr, rfl⟩ := List.getElem_of_mem hTm
      have hrT := List.getElem?_eq_getElem hr
      obtain ⟨items, hi⟩ := hTr r Ts[r] hrT
      obtain ⟨nonce, g1, g2, g3, g4⟩ := (hT r items Ts[r] hi hrT).2.2.1 t ht
      obtain ⟨j, hj⟩ := hname r Ts[r] hrT t ht
      refine ⟨nonce, ?_, g2, by rw [g3, g1]; exact Nat.le_refl _, g4⟩
      unfold dirBytes
      rw [id_eq, hm4 _ (by rw [hj]; exact isIndexName_chunk none r j),
        dirGet_mem d hnodup t.info.filename (.data t.file) ((hmem _).2 ⟨r, Ts[r], hrT, (mem_workerFiles _ _ _ _).2 (Or.inl ⟨t, ht, rfl⟩)⟩), g1]
  refine ⟨d', _, cfg', _, hm1, hm2, ?_, hstored, hplain⟩
  intro hne
  apply hm3
  left
  intro h0
  apply hne
  have hz : inRankOrder Ts = [] := by
    have := (inRankOrder_perm (Ts.map fun T => T.map (·.info))).symm
    rw [h0] at this
    have := this.nil_eq
    rw [inRankOrder_map] at this
    simpa using this.symm
  rw [hz] at hplain
  have := inRankOrder_perm ws
  have hz' : inRankOrder ws = [] := by simpa using hplain.symm
  rw [hz'] at this
  exact this.nil_eq.symm

/-- **The whole way.** Let at most ten workers write serialized samples `ws` (one list for each), plain or
encrypted, and let their files end up in one cache directory, in any order. Then every worker succeeds,
merging succeeds, and the dataset described by the merged index returns, for any sequence of indices, the
samples with these ranks in the concatenation of the workers' samples. -/
theorem c13_workers_to_dataset_partial {C : Type} [DecidableEq C] (cfg : WriterCfg) (enc : Option Encryption)
    (hsound : ∀ e, enc = some e → Encryption.Sound e) (config : C) (first : Nat → Nat) (ns nc : Nat → Nat → Nat)
    (ws : List (List (Bytes × Option Nat))) (hw : ws.length ≤ 10)
    (hpos : cfg.chunkSize = 0 ∨ ∀ (r : Nat) (items : List (Bytes × Option Nat)), ws[r]? = some items →
      ∀ x ∈ workerItems enc (ns r) items, x.data ≠ [])
    (hfit : ∀ (r : Nat) (items : List (Bytes × Option Nat)), ws[r]? = some items →
      ChunksFit cfg (first r) (workerItems enc (ns r) items)) :
    ∃ dirs : List (CacheDir C), dirs.length = ws.length ∧
      (∀ (r : Nat) (items : List (Bytes × Option Nat)) (dd : CacheDir C), ws[r]? = some items → dirs[r]? = some dd →
        workerDir cfg enc config (first r) (ns r) (nc r) r items = .ok dd) ∧
      ∀ d : CacheDir C, d.Perm dirs.flatten →
        ∃ d' chunks cfg' ivs, mergeNoWait none none d = (.ok (), d') ∧
          dirGet d' "index.json" = some (.index ⟨chunks, cfg'⟩) ∧ (ws.flatten ≠ [] → cfg' = some config) ∧
          generateIntervals none 0 0 chunks = .ok ivs ∧ (ivs.map Interval.size).sum = ws.flatten.length ∧
          ∀ is : List Nat, (∀ i ∈ is, i < ws.flatten.length) →
            datasetGets (dirBytes d') id enc (enc.map Encryption.config) chunks ivs PyTreeState.init is =
              .ok (is.map fun i => (ws.flatten.map (·.1)).getD i []) := by
  obtain ⟨dirs, h1, h2, h3⟩ := c13_any_workers cfg enc config first ns nc ws hpos hfit
  refine ⟨dirs, h1, h2, fun d hd => ?_⟩
  obtain ⟨d', chunks, cfg', items, g1, g2, g3, g4, g5⟩ := h3 d hd
  rw [inRankOrder_ten ws hw] at g5
  obtain ⟨ivs, k1, k2, k3⟩ := stored_reads enc hsound _ _ _ _ g4
  rw [g5] at k2 k3
  rw [List.length_map] at k2 k3
  exact ⟨d', chunks, cfg', ivs, g1, g2, g3, k1, k2.symm, k3⟩

end LitData.Props
