import Verif.Lemmas.Shuffle
import Verif.Props.Assign

/-! Property C04: shuffling only reorders the samples. -/

namespace LitData.Props
open LitData Spec

theorem pick_perm_samples (ivs : List Interval) (idx : List Nat)
    (h : idx.Perm (List.range ivs.length)) :
    ∃ out, pickIntervals ivs idx = .ok out ∧ idx.length = out.length ∧
      (datasetSamples idx out).Perm (datasetSamples (List.range ivs.length) ivs) := by
  obtain ⟨out, h1, h2, h3⟩ := pickIntervals_ok ivs idx (by
    intro i hi; simpa using (h.mem_iff).1 hi)
  refine ⟨out, h1, h2.symm, ?_⟩
  rw [h3, datasetSamples_range]
  exact List.Perm.flatMap_right _ h

/-- **C04.** On a single node, or in the first epoch, whatever permutation the random generator
draws, the shuffled split without `drop_last` gives every sample of the dataset exactly once. -/
theorem c04_shuffle_is_permutation (perm : Nat → List Nat → List Nat) (hperm : ∀ e l, (perm e l).Perm l)
    (ivs : List Interval) (W nn nw bs epoch : Nat) (hW : 0 < W) (hnw : 0 < nw) (hbs : 0 < bs)
    (hone : epoch = 1 ∨ nn = 1) :
    ∃ ws, fullShuffleAssign perm ivs W nn false nw bs epoch = .ok ws ∧ ws.length = W * nw ∧
      (ws.flatMap samples).Perm (datasetSamples (List.range ivs.length) ivs) := by
  unfold fullShuffleAssign
  obtain ⟨out, h1, h2, h3⟩ := pick_perm_samples ivs _
    (hperm (if nn > 1 then 1 else epoch) (List.range ivs.length))
  obtain ⟨ws, h4, h5, h6⟩ := c01_no_sample_lost_or_repeated W _ out nw bs hW hnw hbs h2
  refine ⟨ws, ?_, h5, h6 ▸ h3⟩
  simp only [h1, h4, bind, Except.bind, if_pos hone]
  rfl

/-- **C04, `drop_last`.** With `drop_last`, the shuffled split of one node gives equal shares of
distinct samples of the dataset: no sample is given twice. -/
theorem c04_shuffle_drop_last (perm : Nat → List Nat → List Nat) (hperm : ∀ e l, (perm e l).Perm l)
    (ivs : List Interval) (W nn nw bs epoch : Nat) (hW : 0 < W) (hnw : 0 < nw) (hbs : 0 < bs)
    (hone : epoch = 1 ∨ nn = 1) :
    ∃ ws, fullShuffleAssign perm ivs W nn true nw bs epoch = .ok ws ∧
      (∀ r < W, (rankSamples ws r nw).length =
        bs * ((datasetSamples (List.range ivs.length) ivs).length / (bs * W))) ∧
      (ws.flatMap samples).Nodup ∧
      ∀ x ∈ ws.flatMap samples, x ∈ datasetSamples (List.range ivs.length) ivs := by
  unfold fullShuffleAssign
  obtain ⟨out, h1, h2, h3⟩ := pick_perm_samples ivs _
    (hperm (if nn > 1 then 1 else epoch) (List.range ivs.length))
  obtain ⟨ws, h4, h5, h6⟩ := c02_drop_last_equal_ranks W _ out nw bs hW hnw hbs h2
  refine ⟨ws, ?_, ?_, ?_, ?_⟩
  · simp only [h1, h4, bind, Except.bind, if_pos hone]
    rfl
  · intro r hr
    rw [(h5 r hr).1, h3.length_eq]
  · rw [h6]
    refine List.Sublist.nodup (List.take_sublist _ _) (datasetSamples_nodup _ _ ?_)
    exact List.Nodup.perm List.nodup_range (hperm _ _).symm
  · intro x hx
    rw [h6] at hx
    exact h3.mem_iff.1 (List.mem_of_mem_take hx)

/-- **C04 on several nodes (partial).** From the second epoch on, the chunks of each node are
shuffled again. The samples are still all given exactly once, *provided* that the first split gave
no chunk to two workers. Without that hypothesis the claim is false of this code: see
`c04_multi_node_repeats`. -/
theorem c04_multi_node_partial (perm : Nat → List Nat → List Nat) (hperm : ∀ e l, (perm e l).Perm l)
    (ivs : List Interval) (W nn nw bs epoch per : Nat) (hper : 0 < per) (hnn : 1 < nn) (hWn : W = per * nn)
    (hnw : 0 < nw) (hbs : 0 < bs) (hep : epoch ≠ 1)
    (hshared : ∀ ws, fullShuffleAssign perm ivs W nn false nw bs 1 = .ok ws →
      (ws.flatMap fun ps => ps.map (·.chunk)).Nodup) :
    ∃ ws, fullShuffleAssign perm ivs W nn false nw bs epoch = .ok ws ∧
      (ws.flatMap samples).Perm (datasetSamples (List.range ivs.length) ivs) := by
  have hW : 0 < W := by rw [hWn]; exact Nat.mul_pos hper (by omega)
  have hfirst := c04_shuffle_is_permutation perm hperm ivs W nn nw bs 1 hW hnw hbs (Or.inl rfl)
  unfold fullShuffleAssign at hshared hfirst ⊢
  simp only [if_pos hnn] at *
  obtain ⟨out, h1, h2, h3⟩ := pick_perm_samples ivs _ (hperm 1 (List.range ivs.length))
  obtain ⟨ws, h4, h5, h6⟩ := c01_no_sample_lost_or_repeated W _ out nw bs hW hnw hbs h2
  have hnd := hshared ws (by simp only [h1, h4, bind, Except.bind]; rfl)
  have hperm1 : (ws.flatMap samples).Perm (datasetSamples (List.range ivs.length) ivs) := h6 ▸ h3
  have hfrom := associate_from h4
  obtain ⟨nodes, g1, _, g2⟩ := groupChunks_spec (ws.map fun ps => ps.map (·.chunk)) W nn nw per hper
    (by omega) hWn hnw (by simp [h5])
  have hflat : (nodes.map (perm epoch)).flatten.Perm (ws.flatMap fun ps => ps.map (·.chunk)) := by
    rw [List.flatMap_def]
    exact (flatten_map_perm _ (hperm epoch) nodes).trans g2
  -- every chunk that was given out is a chunk of the dataset
  have hlt : ∀ i ∈ (nodes.map (perm epoch)).flatten, i < ivs.length := by
    intro i hi
    have := hflat.mem_iff.1 hi
    simp only [List.mem_flatMap, List.mem_map] at this
    obtain ⟨ps, hps, p, hp, rfl⟩ := this
    obtain ⟨iv, hz, _⟩ := hfrom ps hps p hp
    have := (hperm 1 _).mem_iff.1 (List.of_mem_zip hz).1
    simpa using this
  obtain ⟨out2, k1, k2, k3⟩ := pickIntervals_ok ivs _ hlt
  obtain ⟨ws2, l1, l2, l3⟩ := c01_no_sample_lost_or_repeated W _ out2 nw bs hW hnw hbs k2.symm
  refine ⟨ws2, ?_, ?_⟩
  · simp only [h1, h4, bind, Except.bind]
    rw [if_neg (by omega)]
    simp only [intraNodeChunkShuffle, g1, bind, Except.bind, pure, Except.pure, k1]
    exact l1
  · rw [l3]
    rw [List.perm_ext_iff_of_nodup (datasetSamples_nodup _ _ (List.Nodup.perm hnd hflat.symm))
      (datasetSamples_nodup _ _ List.nodup_range)]
    intro x
    rw [k3, datasetSamples_range]
    simp only [List.mem_flatMap]
    constructor
    · rintro ⟨i, hi, hx⟩
      exact ⟨i, by simpa using hlt i hi, hx⟩
    · rintro ⟨i, hi, hx⟩
      refine ⟨i, ?_, hx⟩
      have hx' : x ∈ ws.flatMap samples := by
        rw [hperm1.mem_iff, datasetSamples_range]
        exact List.mem_flatMap.2 ⟨i, hi, hx⟩
      have hxi : x.1 = i := ((mem_chunkRegion ivs i x).1 hx).1
      rw [hflat.mem_iff]
      simp only [List.mem_flatMap, List.mem_map] at hx' ⊢
      obtain ⟨ps, hps, hx'⟩ := hx'
      refine ⟨ps, hps, ?_⟩
      simp only [samples, List.mem_flatMap] at hx'
      obtain ⟨p, hp, hx'⟩ := hx'
      refine ⟨p, hp, ?_⟩
      simp only [region, List.mem_map] at hx'
      obtain ⟨_, _, rfl⟩ := hx'
      exact hxi

/-- How often a sample is in a list of whole chunks: as often as its chunk. -/
theorem count_chunkRegions (ivs : List Interval) (x : Nat × Nat) (idx : List Nat) :
    (idx.flatMap (chunkRegion ivs)).count x = if x ∈ chunkRegion ivs x.1 then idx.count x.1 else 0 := by
  induction idx with
  | nil => simp
  | cons i idx ih =>
    rw [List.flatMap_cons, List.count_append, ih, List.count_cons]
    by_cases hi : i = x.1
    · subst hi
      split
      · rename_i hx
        have hnd : (chunkRegion ivs x.1).Nodup := by
          have := datasetSamples_nodup [x.1] (match ivs[x.1]? with | some iv => [iv] | none => []) (by simp)
          unfold chunkRegion
          cases h : ivs[x.1]? with
          | none => simp
          | some iv => simpa [datasetSamples, h] using this
        have := hnd.count (a := x)
        rw [if_pos hx] at this
        simp [this]; omega
      · rename_i hx
        simp [List.count_eq_zero.2 hx]
    · have : x ∉ chunkRegion ivs i := fun hx => hi ((mem_chunkRegion ivs i x).1 hx).1.symm
      rw [List.count_eq_zero.2 this]
      split <;> simp [hi]

/-- The split of a later epoch over several nodes takes, as whole chunks, the chunks that the first
split listed, as often as it listed them. -/
theorem multi_node_second_split (perm : Nat → List Nat → List Nat) (hperm : ∀ e l, (perm e l).Perm l)
    (ivs : List Interval) (W nn nw bs epoch per : Nat) (dl : Bool) (hper : 0 < per) (hnn : 1 < nn) (hWn : W = per * nn)
    (hnw : 0 < nw) (hbs : 0 < bs) (hep : epoch ≠ 1) :
    ∃ first idx out, fullShuffleAssign perm ivs W nn dl nw bs 1 = .ok first ∧
      idx.Perm (first.flatMap fun ps => ps.map (·.chunk)) ∧ (∀ i ∈ idx, i < ivs.length) ∧
      idx.length = out.length ∧ datasetSamples idx out = idx.flatMap (chunkRegion ivs) ∧
      fullShuffleAssign perm ivs W nn dl nw bs epoch = associate W idx out dl nw bs := by
  have hW : 0 < W := by rw [hWn]; exact Nat.mul_pos hper (by omega)
  unfold fullShuffleAssign
  simp only [if_pos hnn] at *
  obtain ⟨out, h1, h2, h3⟩ := pick_perm_samples ivs _ (hperm 1 (List.range ivs.length))
  obtain ⟨ws, h4, h5, _⟩ := associate_spec W (perm 1 (List.range ivs.length)) out dl nw bs hW hnw hbs
  have hfrom := associate_from h4
  obtain ⟨nodes, g1, _, g2⟩ := groupChunks_spec (ws.map fun ps => ps.map (·.chunk)) W nn nw per hper
    (by omega) hWn hnw (by simp [h5])
  have hflat : (nodes.map (perm epoch)).flatten.Perm (ws.flatMap fun ps => ps.map (·.chunk)) := by
    rw [List.flatMap_def]
    exact (flatten_map_perm _ (hperm epoch) nodes).trans g2
  have hlt : ∀ i ∈ (nodes.map (perm epoch)).flatten, i < ivs.length := by
    intro i hi
    have := hflat.mem_iff.1 hi
    simp only [List.mem_flatMap, List.mem_map] at this
    obtain ⟨ps, hps, p, hp, rfl⟩ := this
    obtain ⟨iv, hz, _⟩ := hfrom ps hps p hp
    have := (hperm 1 _).mem_iff.1 (List.of_mem_zip hz).1
    simpa using this
  obtain ⟨out2, k1, k2, k3⟩ := pickIntervals_ok ivs _ hlt
  refine ⟨ws, _, out2, ?_, hflat, hlt, k2.symm, k3, ?_⟩
  · simp only [h1, h4, bind, Except.bind]; rfl
  · simp only [h1, h4, bind, Except.bind]
    rw [if_neg (by omega)]
    simp only [intraNodeChunkShuffle, g1, bind, Except.bind, pure, Except.pure, k1]

/-- **C04 on several nodes, exactly.** In every epoch but the first, each sample of the dataset is given as
often as the first split lists its chunk, that is, once for each worker that had a part of the chunk. -/
theorem c04_multi_node_counts (perm : Nat → List Nat → List Nat) (hperm : ∀ e l, (perm e l).Perm l)
    (ivs : List Interval) (W nn nw bs epoch per : Nat) (hper : 0 < per) (hnn : 1 < nn) (hWn : W = per * nn)
    (hnw : 0 < nw) (hbs : 0 < bs) (hep : epoch ≠ 1) :
    ∃ first ws, fullShuffleAssign perm ivs W nn false nw bs 1 = .ok first ∧
      fullShuffleAssign perm ivs W nn false nw bs epoch = .ok ws ∧
      ∀ x, (ws.flatMap samples).count x =
        if x ∈ datasetSamples (List.range ivs.length) ivs then (first.flatMap fun ps => ps.map (·.chunk)).count x.1
        else 0 := by
  have hW : 0 < W := by rw [hWn]; exact Nat.mul_pos hper (by omega)
  obtain ⟨first, idx, out, h1, h2, h3, h4, h5, h6⟩ :=
    multi_node_second_split perm hperm ivs W nn nw bs epoch per false hper hnn hWn hnw hbs hep
  obtain ⟨ws, l1, _, l3⟩ := c01_no_sample_lost_or_repeated W idx out nw bs hW hnw hbs h4
  refine ⟨first, ws, h1, h6.trans l1, fun x => ?_⟩
  rw [l3, h5, count_chunkRegions, h2.count_eq]
  have : x ∈ datasetSamples (List.range ivs.length) ivs ↔ x ∈ chunkRegion ivs x.1 := by
    rw [datasetSamples_range]
    constructor
    · intro hx
      obtain ⟨i, _, hx⟩ := List.mem_flatMap.1 hx
      have hxi : x.1 = i := ((mem_chunkRegion ivs i x).1 hx).1
      rw [hxi]; exact hx
    · intro hx
      obtain ⟨_, iv, hiv, _⟩ := (mem_chunkRegion ivs _ x).1 hx
      exact List.mem_flatMap.2 ⟨x.1, by simpa using (List.getElem?_eq_some_iff.1 hiv).1, hx⟩
  simp only [this]

/-- **C04 on several nodes, when it holds.** From the second epoch on, the shuffled split gives every sample
exactly once if *and only if* no chunk was divided between two workers in the first split. -/
theorem c04_multi_node_iff (perm : Nat → List Nat → List Nat) (hperm : ∀ e l, (perm e l).Perm l)
    (ivs : List Interval) (W nn nw bs epoch per : Nat) (hper : 0 < per) (hnn : 1 < nn) (hWn : W = per * nn)
    (hnw : 0 < nw) (hbs : 0 < bs) (hep : epoch ≠ 1) :
    ∃ first ws, fullShuffleAssign perm ivs W nn false nw bs 1 = .ok first ∧
      fullShuffleAssign perm ivs W nn false nw bs epoch = .ok ws ∧
      ((ws.flatMap samples).Perm (datasetSamples (List.range ivs.length) ivs) ↔
        (first.flatMap fun ps => ps.map (·.chunk)).Nodup) := by
  obtain ⟨first, ws, h1, h2, h3⟩ := c04_multi_node_counts perm hperm ivs W nn nw bs epoch per hper hnn hWn hnw hbs hep
  refine ⟨first, ws, h1, h2, ?_, ?_⟩
  · intro hp
    rw [List.nodup_iff_count]
    intro c
    by_cases hc : c ∈ first.flatMap fun ps => ps.map (·.chunk)
    · -- a chunk that is listed has a sample
      have hfst := h1
      unfold fullShuffleAssign at hfst
      simp only [if_pos hnn] at hfst
      obtain ⟨out, k1, k2, k3⟩ := pick_perm_samples ivs _ (hperm 1 (List.range ivs.length))
      simp only [k1, bind, Except.bind] at hfst
      obtain ⟨f0, hf0⟩ : ∃ f0, associate W (perm 1 (List.range ivs.length)) out false nw bs = .ok f0 := by
        cases h : associate W (perm 1 (List.range ivs.length)) out false nw bs with
        | ok f0 => exact ⟨f0, rfl⟩
        | error e => rw [h] at hfst; simp at hfst
      rw [hf0] at hfst
      simp only [true_or, if_true, pure, Except.pure, Except.ok.injEq] at hfst
      subst hfst
      simp only [List.mem_flatMap, List.mem_map] at hc
      obtain ⟨ps, hps, p, hq, rfl⟩ := hc
      obtain ⟨iv, hz, _, _, a1, a2, a3⟩ := associate_from hf0 ps hps p hq
      have hx : (p.chunk, p.interval.roiStart) ∈ datasetSamples (List.range ivs.length) ivs := by
        rw [← k3.mem_iff]
        unfold datasetSamples
        refine List.mem_flatMap.2 ⟨_, hz, ?_⟩
        simp only [region, List.mem_map, List.mem_range'_1]
        exact ⟨_, ⟨a1, by omega⟩, rfl⟩
      have := h3 (p.chunk, p.interval.roiStart)
      rw [if_pos hx, hp.count_eq] at this
      rw [← this]
      exact List.nodup_iff_count.1 (datasetSamples_nodup _ _ List.nodup_range) _
    · rw [List.count_eq_zero.2 hc]; omega
  · intro hnd
    obtain ⟨ws', g1, g2⟩ := c04_multi_node_partial perm hperm ivs W nn nw bs epoch per hper hnn hWn hnw hbs hep (by
      intro f hf; rw [h1] at hf; cases hf; exact hnd)
    rw [h2] at g1; cases g1; exact g2

/-- **C04 on several nodes with `drop_last`.** Each rank receives the same number of samples, the number that
the listed chunks make up; nothing but samples of the dataset is given, and no sample more often than the
first split lists its chunk. -/
theorem c04_multi_node_drop_last (perm : Nat → List Nat → List Nat) (hperm : ∀ e l, (perm e l).Perm l)
    (ivs : List Interval) (W nn nw bs epoch per : Nat) (hper : 0 < per) (hnn : 1 < nn) (hWn : W = per * nn)
    (hnw : 0 < nw) (hbs : 0 < bs) (hep : epoch ≠ 1) :
    ∃ first ws, fullShuffleAssign perm ivs W nn true nw bs 1 = .ok first ∧
      fullShuffleAssign perm ivs W nn true nw bs epoch = .ok ws ∧
      (∀ r < W, (rankSamples ws r nw).length =
        bs * (((first.flatMap fun ps => ps.map (·.chunk)).map fun i => (chunkRegion ivs i).length).sum / (bs * W))) ∧
      (∀ x ∈ ws.flatMap samples, x ∈ datasetSamples (List.range ivs.length) ivs) ∧
      ∀ x, (ws.flatMap samples).count x ≤ (first.flatMap fun ps => ps.map (·.chunk)).count x.1 := by
  have hW : 0 < W := by rw [hWn]; exact Nat.mul_pos hper (by omega)
  obtain ⟨first, idx, out, h1, h2, h3, h4, h5, h6⟩ :=
    multi_node_second_split perm hperm ivs W nn nw bs epoch per true hper hnn hWn hnw hbs hep
  obtain ⟨ws, l1, l2, l3⟩ := c02_drop_last_equal_ranks W idx out nw bs hW hnw hbs h4
  refine ⟨first, ws, h1, h6.trans l1, ?_, ?_, ?_⟩
  · intro r hr
    rw [(l2 r hr).1, h5, List.length_flatMap]
    rw [(h2.map _).sum_nat]
  · intro x hx
    rw [l3, h5] at hx
    obtain ⟨i, hi, hx⟩ := List.mem_flatMap.1 (List.mem_of_mem_take hx)
    rw [datasetSamples_range]
    exact List.mem_flatMap.2 ⟨i, by simpa using h3 i hi, hx⟩
  · intro x
    rw [l3]
    refine Nat.le_trans (List.Sublist.count_le _ (List.take_sublist _ _)) ?_
    rw [h5, count_chunkRegions, h2.count_eq]
    split <;> omega

/-- **C04 fails on several nodes.** Two nodes of one rank each share a chunk in the first split; in the
second epoch that chunk is listed twice, so each of its samples is given twice. The
generator here is the identity permutation. -/
theorem c04_multi_node_repeats :
    ∃ ws, fullShuffleAssign (fun _ l => l) [⟨0,0,2,2⟩, ⟨2,2,6,6⟩, ⟨6,6,8,8⟩] 2 2 false 1 1 2 = .ok ws ∧
      ¬ (ws.flatMap samples).Nodup ∧
      (1, 2) ∈ ws.flatMap samples ∧ (2, 6) ∈ ws.flatMap samples ∧
      (ws.flatMap samples).count (1, 2) = 2 := by
  refine ⟨_, rfl, ?_⟩
  decide

/-- When the world size is not a multiple of the number of nodes, the second epoch raises. -/
theorem c04_uneven_nodes_raise :
    fullShuffleAssign (fun _ l => l) [⟨0,0,2,2⟩, ⟨2,2,6,6⟩] 3 2 false 1 1 2 = .error .indexError :=
  rfl

/-! The hypotheses can be met: reversal is a permutation for every list. -/

example : ∃ ws, fullShuffleAssign (fun _ l => l.reverse) demoIntervals 2 1 false 2 3 5 = .ok ws ∧
    ws.length = 4 ∧ (ws.flatMap samples).length = 15 := by
  refine ⟨_, rfl, ?_⟩; decide

/-- Two nodes, chunks aligned with the workers: the hypothesis of `c04_multi_node_partial` holds. -/
example : ∃ ws, fullShuffleAssign (fun _ l => l.reverse) [⟨0,0,2,2⟩, ⟨2,2,4,4⟩] 2 2 false 1 1 1 = .ok ws ∧
    (ws.flatMap fun ps => ps.map (·.chunk)).Nodup := by
  refine ⟨_, rfl, ?_⟩; decide

/-- Two nodes, three chunks of which the middle one is divided: in the second epoch the counts are those of the
first split, and with `drop_last` a sample is given twice while each rank has the same number. -/
example : ∃ first ws, fullShuffleAssign (fun _ l => l.reverse) [⟨0,0,2,2⟩, ⟨2,2,6,6⟩, ⟨6,6,9,9⟩] (1 * 2) 2 true 1 1 1 = .ok first ∧
    fullShuffleAssign (fun _ l => l.reverse) [⟨0,0,2,2⟩, ⟨2,2,6,6⟩, ⟨6,6,9,9⟩] (1 * 2) 2 true 1 1 2 = .ok ws ∧
    (first.flatMap fun ps => ps.map (·.chunk)) = [2, 1, 1, 0] ∧ (rankSamples ws 0 1).length = 6 ∧ (rankSamples ws 1 1).length = 6 ∧
    (ws.flatMap samples).count (1, 3) = 2 := by
  refine ⟨_, _, rfl, rfl, ?_⟩; decide

end LitData.Props
