import Verif.Props.TokensStream

/-! Property C85: from the inputs of `optimize` with `TokensLoader` to batches of blocks. -/

namespace LitData.Props
open LitData Spec

/-- What `TokensLoader.encode_data` gives for a list of tokens (`streaming/item_loader.py:560-583`): its bytes and its length. -/
def tokItem (t : List Bytes) : WItem := ⟨t.flatten, some t.length⟩

/-- The chunks of a worker with their names, from number `j` on. -/
def tokNamed (rank : Nat) : Nat → List (List (List Bytes)) → List TokChunk
  | _, [] => []
  | j, ts :: tss => (chunkFilename none rank j, ts) :: tokNamed rank (j + 1) tss

theorem tokNamed_items (rank j : Nat) (tss : List (List (List Bytes))) : (tokNamed rank j tss).map (·.2) = tss := by
  induction tss generalizing j with
  | nil => rfl
  | cons ts tss ih => rw [tokNamed, List.map_cons, ih]

theorem tokNamed_get (rank j k : Nat) (tss : List (List (List Bytes))) (c : TokChunk) (h : (tokNamed rank j tss)[k]? = some c) :
    c.1 = chunkFilename none rank (j + k) ∧ tss[k]? = some c.2 := by
  induction tss generalizing j k with
  | nil => simp [tokNamed] at h
  | cons ts tss ih =>
    cases k with
    | zero => simp only [tokNamed, List.getElem?_cons_zero, Option.some.injEq] at h; subst h; exact ⟨rfl, rfl⟩
    | succ k =>
      simp only [tokNamed, List.getElem?_cons_succ] at h
      obtain ⟨h1, h2⟩ := ih (j + 1) k h
      exact ⟨by rw [h1]; congr 1; omega, by simpa using h2⟩

theorem tokNamed_infos (nc : Nat → Nat) (rank j : Nat) (tss : List (List (List Bytes))) :
    (workerChunks none none nc rank j (tss.map fun ts => ts.map tokItem)).map (·.1) = (tokNamed rank j tss).map tokInfo := by
  induction tss generalizing j with
  | nil => rfl
  | cons ts tss ih =>
    rw [List.map_cons, workerChunks, List.map_cons, ih, tokNamed, List.map_cons]
    rfl

theorem split_map {α β : Type} (f : α → β) (cs : List (List β)) (l : List α) (h : cs.flatten = l.map f) :
    ∃ ls : List (List α), ls.flatten = l ∧ cs = ls.map fun x => x.map f := by
  induction cs generalizing l with
  | nil =>
    simp only [List.flatten_nil] at h
    exact ⟨[], by simpa using h, rfl⟩
  | cons c cs ih =>
    rw [List.flatten_cons] at h
    obtain ⟨l1, l2, e, e1, e2⟩ := List.map_eq_append_iff.1 h.symm
    obtain ⟨ls, g1, g2⟩ := ih l2 e2.symm
    exact ⟨l1 :: ls, by rw [List.flatten_cons, g1, e], by rw [List.map_cons, ← g2, e1]⟩

/-- **C85, the dataset.** `optimize` with `TokensLoader` on one machine, under any schedule of its processes: the merged index describes a dataset of tokens whose files
are in the output directory and whose items are the token lists of all inputs. -/
theorem c85_dataset {C : Type} [DecidableEq C] (wcfg : WriterCfg) (config : C) (cfg : PipeCfg (WriterState × Nat) (List WItem))
    (remote0 : FName → Option (List WItem)) (toks : Nat → Nat → List (List Bytes)) (nc : Nat → Nat → Nat) (sz : Nat) (hsz : 0 < sz)
    (hW : 0 < cfg.workers) (hD : 0 < cfg.downloaders) (hU : 0 < cfg.uploaders) (hf : cfg.faulty = false)
    (hj : ∀ w, w < cfg.workers → cfg.job w = writerJob wcfg none w 0 fun i => some ((toks w i).map tokItem))
    (htok : ∀ w i, w < cfg.workers → i < cfg.items w → ∀ t ∈ toks w i, t ≠ [] ∧ ∀ x ∈ t, x.length = sz)
    (hdisj : PathsDisjoint cfg) (s : PWorld (WriterState × Nat) (List WItem)) (h : PReach cfg remote0 s) (hend : Final cfg s) :
    s.main = .indexed ∧ ∃ (orders : List (List Nat)) (infos : List (List ChunkInfo)),
      orders.length = cfg.workers ∧ infos.length = cfg.workers ∧
      (∀ (w : Nat) (o : List Nat) (cs : List ChunkInfo), orders[w]? = some o → infos[w]? = some cs → o.Perm (List.range (cfg.items w)) ∧
        (cfg.inputDir = false ∨ cfg.downloaders = 1 → o = List.range (cfg.items w)) ∧
        workerIndex wcfg none none (nc w) w (o.flatMap fun i => (toks w i).map tokItem) = .ok cs) ∧
      ∀ d : CacheDir C, WorkersDone config infos d → ∃ (d' : CacheDir C) (cfg' : Option C) (data : List TokChunk),
        mergeNoWait none none d = (.ok (), d') ∧ dirGet d' "index.json" = some (.index ⟨data.map tokInfo, cfg'⟩) ∧
        TokData data sz ∧ (∀ c ∈ data, FirstNonempty c) ∧
        (∀ fs, HoldsChunks none none nc cfg.workers s.remote fs (fun p => p) → ∀ c ∈ data, fs c.1 = some (tokFile c)) ∧
        (data.map (·.2)).flatten = inRankOrder (orders.mapIdx fun w o => o.flatMap (toks w)) := by
  have hdata : ∀ w i, w < cfg.workers → i < cfg.items w → ∀ x ∈ (toks w i).map tokItem, x.data ≠ [] := by
    intro w i hw hi x hx
    obtain ⟨t, ht, rfl⟩ := List.mem_map.1 hx
    obtain ⟨h1, h2⟩ := htok w i hw hi t ht
    cases t with
    | nil => exact absurd rfl h1
    | cons a t =>
      have := h2 a (by simp)
      intro e
      simp only [tokItem, List.flatten_cons, List.append_eq_nil_iff] at e
      rw [e.1] at this
      simp at this
      omega
  obtain ⟨hm, hwk, _⟩ := c43_optimize_partial wcfg none (fun w => w) (fun _ => 0) (fun w i => (toks w i).map tokItem) cfg remote0 hW hD hU hf
    (fun _ _ _ _ h => h) hj (.inr hdata) hdisj s h hend
  refine ⟨hm, ?_⟩
  obtain ⟨L, hL, hP⟩ := choose_list (fun (r : Nat) (_ : Nat) (y : List Nat × List (List (List Bytes))) =>
      r < cfg.workers ∧ y.1.Perm (List.range (cfg.items r)) ∧ (cfg.inputDir = false ∨ cfg.downloaders = 1 → y.1 = List.range (cfg.items r)) ∧
        (∃ st, workerRun wcfg 0 (y.1.flatMap fun i => (toks r i).map tokItem) = .ok st ∧ st.chunks = y.2.map fun ts => ts.map tokItem) ∧
        y.2.flatten = y.1.flatMap (toks r) ∧ (∀ ts ∈ y.2, ts ≠ []) ∧
        ∀ (k : Nat) (ts : List (List Bytes)), y.2[k]? = some ts → s.remote (chunkFilename none r k) = some (ts.map tokItem))
    (List.range cfg.workers) 0 (by
    intro r x hr
    obtain ⟨hr, _⟩ := List.getElem?_eq_some_iff.1 hr
    rw [List.length_range] at hr
    rw [Nat.zero_add]
    obtain ⟨order, chunks, h1, h2, ⟨st, h3, h3'⟩, h4, h5, h6⟩ := hwk r hr
    obtain ⟨tss, e1, e2⟩ := split_map tokItem chunks (order.flatMap (toks r)) (by rw [h4, List.map_flatMap])
    refine ⟨(order, tss), hr, h1, h2, ⟨st, h3, by rw [h3', e2]⟩, e1, ?_, ?_⟩
    · intro ts hts e
      refine h5 (ts.map tokItem) (by rw [e2]; exact List.mem_map_of_mem hts) (by rw [e]; rfl)
    · intro k ts hk
      have := h6 k (ts.map tokItem) (by rw [e2, List.getElem?_map, hk]; rfl)
      simpa using this)
  rw [List.length_range] at hL
  have hQ : ∀ (r : Nat) y, L[r]? = some y → _ := fun r y hy => hP r r y (by
    have hlt : r < cfg.workers := hL ▸ (List.getElem?_eq_some_iff.1 hy).1
    rw [List.getElem?_eq_getElem (by simpa using hlt), List.getElem_range]) hy
  simp only [Nat.zero_add] at hQ
  refine ⟨L.map (·.1), L.mapIdx fun r y => (tokNamed r 0 y.2).map tokInfo, by simp [hL], by simp [hL], ?_, ?_⟩
  · intro w o cs ho hcs
    rw [List.getElem?_map] at ho
    rw [List.getElem?_mapIdx] at hcs
    cases hy : L[w]? with
    | none => rw [hy] at ho; simp at ho
    | some y =>
      rw [hy, Option.map_some, Option.some.injEq] at ho hcs
      subst ho hcs
      obtain ⟨_, p1, p2, ⟨st, p3, p4⟩, _⟩ := hQ w y hy
      refine ⟨p1, p2, ?_⟩
      unfold workerIndex
      rw [p3, Except.map, p4, tokNamed_infos]
  intro d hd
  obtain ⟨d', cfg', hm1, hm2, _, _⟩ := c14_order config _ d hd [] none (Or.inl ⟨rfl, rfl⟩)
  have hinf : (L.mapIdx fun r y => (tokNamed r 0 y.2).map tokInfo) = (L.mapIdx fun r y => tokNamed r 0 y.2).map fun T => T.map tokInfo := by
    apply List.ext_getElem <;> simp
  rw [List.nil_append, hinf, inRankOrder_map] at hm2
  have hmem : ∀ c ∈ inRankOrder (L.mapIdx fun r y => tokNamed r 0 y.2), ∃ (r k : Nat) (y : List Nat × List (List (List Bytes))), L[r]? = some y ∧
      c.1 = chunkFilename none r k ∧ y.2[k]? = some c.2 := by
    intro c hc
    rw [(inRankOrder_perm _).mem_iff, List.mem_flatten] at hc
    obtain ⟨T, hTm, hc⟩ := hc
    obtain ⟨r, hr, rfl⟩ := List.getElem_of_mem hTm
    rw [List.length_mapIdx] at hr
    rw [List.getElem_mapIdx] at hc
    obtain ⟨k, hk, hkc⟩ := List.getElem_of_mem hc
    obtain ⟨g1, g2⟩ := tokNamed_get r 0 k _ c (by rw [List.getElem?_eq_getElem hk, hkc])
    rw [Nat.zero_add] at g1
    exact ⟨r, k, L[r], List.getElem?_eq_getElem hr, g1, g2⟩
  -- the token lists of a chunk come from inputs
  have hfrom : ∀ (r k : Nat) (y : List Nat × List (List (List Bytes))) (ts : List (List Bytes)), L[r]? = some y → y.2[k]? = some ts →
      ts ≠ [] ∧ ∀ t ∈ ts, t ≠ [] ∧ ∀ x ∈ t, x.length = sz := by
    intro r k y ts hy hk
    obtain ⟨hr, p1, _, _, p4, p5, _⟩ := hQ r y hy
    refine ⟨p5 ts (List.mem_of_getElem? hk), fun t ht => ?_⟩
    have : t ∈ y.1.flatMap (toks r) := by
      rw [← p4]
      exact List.mem_flatten.2 ⟨ts, List.mem_of_getElem? hk, ht⟩
    obtain ⟨i, hi, hti⟩ := List.mem_flatMap.1 this
    exact htok r i hr (List.mem_range.1 (p1.mem_iff.1 hi)) t hti
  refine ⟨d', cfg', _, hm1, hm2, ⟨?_, ?_, hsz⟩, ?_, ?_, ?_⟩
  · intro c hc e he hce
    obtain ⟨r, k, y, a1, a2, a3⟩ := hmem c hc
    obtain ⟨r', k', y', b1, b2, b3⟩ := hmem e he
    rw [a2, b2] at hce
    obtain ⟨e1, e2⟩ := chunkFilename_inj _ _ _ _ _ _ hce
    subst e1 e2
    rw [a1] at b1
    cases b1
    rw [a3] at b3
    exact Prod.ext (by rw [a2, b2]) (Option.some.inj b3)
  · intro c hc t ht x hx
    obtain ⟨r, k, y, a1, a2, a3⟩ := hmem c hc
    exact ((hfrom r k y c.2 a1 a3).2 t ht).2 x hx
  · intro c hc
    obtain ⟨r, k, y, a1, a2, a3⟩ := hmem c hc
    obtain ⟨h1, h2⟩ := hfrom r k y c.2 a1 a3
    cases hts : c.2 with
    | nil => exact absurd hts h1
    | cons t ts => exact ⟨t, ts, hts, (h2 t (by rw [hts]; simp)).1⟩
  · intro fs hfs c hc
    obtain ⟨r, k, y, a1, a2, a3⟩ := hmem c hc
    obtain ⟨hr, _, _, _, _, _, p6⟩ := hQ r y a1
    rw [a2]
    exact hfs r k _ hr (p6 k c.2 a3)
  · have e1 := inRankOrder_flatten (fun c : TokChunk => c.2) (L.mapIdx fun r y => tokNamed r 0 y.2)
    have e2 : (fun c : TokChunk => c.2) = (·.2) := rfl
    rw [e2] at e1
    rw [e1]
    congr 1
    apply List.ext_getElem
    · simp
    · intro i g1 g2
      simp only [List.length_map, List.length_mapIdx] at g1
      simp only [List.getElem_map, List.getElem_mapIdx, tokNamed_items]
      exact (hQ i L[i] (List.getElem?_eq_getElem g1)).2.2.2.2.1

/-- **C85.** `optimize` with `TokensLoader`, under any schedule of its processes, then any epochs over the output directory as a local dataset, with any number of ranks,
workers and any interleaving of the data loaders. If the batches have one block or no worker is given exactly one block of a chunk in an epoch, the batches of each epoch hold each block of
consecutive tokens of each chunk once; only the last tokens of each chunk, fewer than a block, are missing, and the chunks are the token lists of all inputs. -/
theorem c85_optimize_partial {C : Type} [DecidableEq C] (wcfg : WriterCfg) (config : C) (cfg : PipeCfg (WriterState × Nat) (List WItem))
    (remote0 : FName → Option (List WItem)) (toks : Nat → Nat → List (List Bytes)) (nc : Nat → Nat → Nat) (sz : Nat) (hsz : 0 < sz)
    (hW : 0 < cfg.workers) (hD : 0 < cfg.downloaders) (hU : 0 < cfg.uploaders) (hf : cfg.faulty = false)
    (hj : ∀ w, w < cfg.workers → cfg.job w = writerJob wcfg none w 0 fun i => some ((toks w i).map tokItem))
    (htok : ∀ w i, w < cfg.workers → i < cfg.items w → ∀ t ∈ toks w i, t ≠ [] ∧ ∀ x ∈ t, x.length = sz)
    (hdisj : PathsDisjoint cfg) (s : PWorld (WriterState × Nat) (List WItem)) (h : PReach cfg remote0 s) (hend : Final cfg s) :
    s.main = .indexed ∧ ∃ (orders : List (List Nat)) (infos : List (List ChunkInfo)),
      orders.length = cfg.workers ∧ infos.length = cfg.workers ∧
      (∀ (w : Nat) (o : List Nat) (cs : List ChunkInfo), orders[w]? = some o → infos[w]? = some cs → o.Perm (List.range (cfg.items w)) ∧
        workerIndex wcfg none none (nc w) w (o.flatMap fun i => (toks w i).map tokItem) = .ok cs) ∧
      ∀ (d : CacheDir C) (fs : String → Option Bytes), WorkersDone config infos d → HoldsChunks none none nc cfg.workers s.remote fs (fun p => p) →
        ∃ (d' : CacheDir C) (cfg' : Option C) (data : List TokChunk), mergeNoWait none none d = (.ok (), d') ∧
          dirGet d' "index.json" = some (.index ⟨data.map tokInfo, cfg'⟩) ∧
          (data.map (·.2)).flatten = inRankOrder (orders.mapIdx fun w o => o.flatMap (toks w)) ∧
          ∀ (bs : Nat), 0 < bs →
            (∀ c ∈ data, ∃ rest, ((List.range (c.2.flatten.length / bs)).flatMap (tokBlock bs c.2.flatten)) ++ rest = c.2.flatten ∧ rest.length < bs) ∧
            ∃ ivs, tokIntervals bs none 0 0 (data.map tokInfo) = .ok ivs ∧
              ∀ (W nw batch : Nat) (epochs : List Nat) (perm : Nat → List Nat → List Nat) (sh : Shuffler) (nn : Nat), 0 < W → 0 < nw → 0 < batch →
                (∀ e l, (perm e l).Perm l) → (∀ a n e k, (sh a n e k).Perm a) → (∀ e ∈ epochs, e = 1 ∨ nn = 1) →
                ∃ pieces : Nat → List (List Piece),
                  (∀ e ∈ epochs, fullShuffleAssign perm ivs W nn false nw batch e = .ok (pieces e) ∧ (pieces e).length = W * nw) ∧
                  ((∀ e ∈ epochs, Safe batch (pieces e)) → TokEpochsGive data fs bs sz ivs sh W nw batch epochs pieces
                    (data.flatMap fun c => (List.range (c.2.flatten.length / bs)).map (tokBlock bs c.2.flatten))) := by
  obtain ⟨hm, orders, infos, h1, h2, h3, h4⟩ := c85_dataset wcfg config cfg remote0 toks nc sz hsz hW hD hU hf hj htok hdisj s h hend
  refine ⟨hm, orders, infos, h1, h2, fun w o cs ho hcs => ⟨(h3 w o cs ho hcs).1, (h3 w o cs ho hcs).2.2⟩, ?_⟩
  intro d fs hd hfs
  obtain ⟨d', cfg', data, g1, g2, g3, g4, g5, g6⟩ := h4 d hd
  refine ⟨d', cfg', data, g1, g2, g6, fun bs hb => ⟨fun c _ => ⟨_, (c32_cover bs hb c.2.flatten).1, (c32_cover bs hb c.2.flatten).2.1⟩, ?_⟩⟩
  obtain ⟨ivs, k1, _⟩ := tok_search bs hb data g4 0 0 0
  refine ⟨ivs, k1, ?_⟩
  intro W nw batch epochs perm sh nn hW' hnw hbatch hperm hsh hone
  obtain ⟨ivs', e1, e2, _⟩ := c85_epochs_partial data bs sz hb g3 g4 fs (g5 fs hfs) W nw batch epochs hW' hnw hbatch
  rw [k1] at e1
  cases e1
  exact e2 perm sh nn hperm hsh hone

/-- The token lists of two workers with two inputs each. -/
def tokDemoToks (w i : Nat) : List (List Bytes) := [[[UInt8.ofNat (10 * w + i), 0], [7, 0], [9, 0]]]

/-- The two workers, two uploaders each; nothing to download. At most two token lists in a chunk. -/
def tokDemo : PipeCfg (WriterState × Nat) (List WItem) where
  workers := 2
  downloaders := 1
  uploaders := 2
  inputDir := false
  outPath := true
  cloud := true
  faulty := false
  items := fun _ => 2
  paths := fun _ _ => []
  job := fun w => writerJob ⟨2, 0⟩ none w 0 fun i => some ((tokDemoToks w i).map tokItem)

/-- Two chunks of six tokens, streamed as blocks of one token in batches of one. -/
example : ∃ (data : List TokChunk) (fs : String → Option Bytes) (ivs : List Interval) (pieces : Nat → List (List Piece)),
    tokIntervals 1 none 0 0 (data.map tokInfo) = .ok ivs ∧ (∀ e ∈ [1, 2], fullShuffleAssign (fun _ l => l) ivs 2 1 false 2 1 e = .ok (pieces e)) ∧ data ≠ [] ∧
    TokEpochsGive data fs 1 2 ivs noShuffler 2 2 1 [1, 2] pieces (data.flatMap fun c => (List.range (c.2.flatten.length / 1)).map (tokBlock 1 c.2.flatten)) := by
  obtain ⟨s, h1, h2⟩ := reaches_final (PReach.start (cfg := tokDemo) (remote0 := fun _ => none))
  obtain ⟨_, orders, infos, h3, _, hor, h4⟩ := c85_optimize_partial ⟨2, 0⟩ () tokDemo (fun _ => none) tokDemoToks (fun _ _ => 0) 2 (by decide) (by decide) (by decide) (by decide) rfl
    (fun _ _ => rfl) (by
      intro w i _ _ t ht
      simp only [tokDemoToks, List.mem_singleton] at ht
      subst ht
      refine ⟨by simp, ?_⟩
      intro x hx
      simp only [List.mem_cons, List.not_mem_nil, or_false] at hx
      rcases hx with rfl | rfl | rfl <;> rfl) (fun _ _ _ _ _ _ _ _ _ _ hp => by simp [tokDemo] at hp) s h1 h2
  obtain ⟨d, hd⟩ := workersDone_exists () infos
  obtain ⟨fs, hfs⟩ := holdsChunks_exists none none (fun _ _ => 0) tokDemo.workers s.remote
  obtain ⟨d', cfg', data, _, _, g3, g4⟩ := h4 d fs hd hfs
  obtain ⟨_, ivs, k1, k2⟩ := g4 1 (by decide)
  obtain ⟨pieces, p1, p3⟩ := k2 2 2 1 [1, 2] (fun _ l => l) noShuffler 1 (by decide) (by decide) (by decide) (fun _ _ => List.Perm.refl _) (fun _ _ _ _ => List.Perm.refl _)
    (fun _ _ => .inr rfl)
  refine ⟨data, fs, ivs, pieces, k1, fun e he => (p1 e he).1, ?_, p3 fun _ _ => .inl rfl⟩
  rintro rfl
  -- the inputs have tokens
  have hperm := inRankOrder_perm (orders.mapIdx fun w o => o.flatMap (tokDemoToks w))
  rw [← g3] at hperm
  have hnil := hperm.nil_eq
  rw [eq_comm, List.flatten_eq_nil_iff] at hnil
  have h0 : 0 < orders.length := by rw [h3]; decide
  have hi : 0 < infos.length := by
    have : infos.length = 2 := by assumption
    omega
  have := hnil (orders[0].flatMap (tokDemoToks 0)) (by
    refine List.mem_of_getElem? (i := 0) ?_
    rw [List.getElem?_mapIdx, List.getElem?_eq_getElem h0]
    rfl)
  rw [List.flatMap_eq_nil_iff] at this
  have hp := (hor 0 _ _ (List.getElem?_eq_getElem h0) (List.getElem?_eq_getElem hi)).1
  have := this 0 (hp.mem_iff.2 (by decide))
  simp [tokDemoToks] at this

end LitData.Props
