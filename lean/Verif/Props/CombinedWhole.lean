import Verif.Props.TokensStream
import Verif.Props.LoaderSettings
import Verif.Lemmas.CombinedZero

/-! Property C86: an epoch over a combined dataset, over all ranks and workers. -/

namespace LitData.Props
open LitData LitData.Spec

/-- The combined iterator of a worker with these weights and datasets gives `out` and stops, however often it is asked and however many turns it takes. -/
def WorkerGives {α : Type} (cfg : CombinedConfig) (weights : List Nat) (streams : List (List α)) (out : List (Nat × α)) (e : Err) : Prop :=
  ∃ st bound, combinedInit cfg weights streams none = .ok st ∧
    ∀ fuel m, bound ≤ fuel → (streams.map List.length).sum < m → ∃ st', takeAll cfg fuel m st = some (out, some e, st')

theorem worker_gives {α : Type} (cfg : CombinedConfig) (hf : FairRng cfg.rng) (hb : cfg.batching ≠ .other) (weights : List Nat)
    (streams : List (List α)) (hne : streams ≠ []) (hl : weights.length = streams.length) (hw : ∀ w ∈ weights, 0 < w) :
    ∃ out, WorkerGives cfg weights streams out .stopIteration ∧ (∀ x ∈ out, x.1 < streams.length) ∧
      ∀ (d : Nat) (s : List α), streams[d]? = some s → fromDataset d out = s := by
  obtain ⟨st, bound, h1, h2⟩ := c18_all_once_partial cfg hf hb weights streams hne hl hw
  obtain ⟨out, st', g1, _, g3, g4⟩ := h2 bound (Nat.le_refl _) _ (Nat.lt_succ_self _)
  exact ⟨out, ⟨st, bound, h1, fun fuel m hfu hm => ⟨st', takeAll_more cfg _ _ _ _ _ _ g1 fuel m hfu hm⟩⟩, g3, g4⟩

/-- Samples sorted by their dataset. -/
theorem by_dataset {α : Type} (out : List (Nat × α)) : ∀ n, ((List.range n).flatMap fun d => (fromDataset d out).map fun x => (d, x)).Perm
    (out.filter fun x => decide (x.1 < n)) := by
  intro n
  induction n with
  | zero => simp
  | succ n ih =>
    rw [List.range_succ, List.flatMap_append]
    have e : ([n].flatMap fun d => (fromDataset d out).map fun x => (d, x)) = out.filter fun x => x.1 == n := by
      simp only [List.flatMap_cons, List.flatMap_nil, List.append_nil, fromDataset, List.map_map]
      rw [List.map_congr_left (g := id)]
      · simp
      · intro x hx
        have := (List.mem_filter.1 hx).2
        simp at this
        simp [← this]
    rw [e]
    refine (ih.append_right _).trans ?_
    have h := List.filter_append_perm (fun x : Nat × α => decide (x.1 < n)) (out.filter fun x => decide (x.1 < n + 1))
    rw [List.filter_filter, List.filter_filter] at h
    refine List.Perm.trans (List.Perm.of_eq ?_) h
    congr 1
    · apply List.filter_congr
      intro x _
      rw [Bool.eq_iff_iff]
      simp
      omega
    · apply List.filter_congr
      intro x _
      rw [Bool.eq_iff_iff]
      simp
      omega

theorem fromDataset_flatMap {α β : Type} (d : Nat) (l : List β) (f : β → List (Nat × α)) : fromDataset d (l.flatMap f) = l.flatMap fun k => fromDataset d (f k) := by
  induction l with
  | nil => rfl
  | cons a l ih =>
    rw [List.flatMap_cons, List.flatMap_cons, ← ih]
    simp [fromDataset]

/-- What the workers give, put together, has of every dataset what its streams have. -/
theorem combined_outs {α : Type} (n K : Nat) (ys : Nat → List α) (contrib : Nat → Nat → List α) (hp : ∀ d, d < n → ((List.range K).flatMap (contrib d)).Perm (ys d))
    (outs : Nat → List (Nat × α)) (ht : ∀ k, k < K → ∀ x ∈ outs k, x.1 < n) (hc : ∀ k, k < K → ∀ d, d < n → fromDataset d (outs k) = contrib d k) :
    ((List.range K).flatMap outs).Perm ((List.range n).flatMap fun d => (ys d).map fun x => (d, x)) := by
  have h := by_dataset ((List.range K).flatMap outs) n
  rw [List.filter_eq_self.2 (by
    intro x hx
    obtain ⟨k, hk, hx⟩ := List.mem_flatMap.1 hx
    simpa using ht k (List.mem_range.1 hk) x hx)] at h
  refine h.symm.trans (flatMap_perm_pointwise _ _ _ fun d hd => ?_)
  have hd := List.mem_range.1 hd
  rw [fromDataset_flatMap]
  refine List.Perm.map _ (List.Perm.trans (List.Perm.of_eq ?_) (hp d hd))
  rw [List.flatMap_def, List.flatMap_def]
  congr 1
  exact List.map_congr_left fun k hk => hc k (List.mem_range.1 hk) d hd

/-- The data loaders collect what the workers give. -/
theorem loaders_collect {α : Type} (W nw bs : Nat) (hnw : 0 < nw) (hbs : 0 < bs) (streams : Nat → List α) (ys : List α) (h : ((List.range (W * nw)).flatMap streams).Perm ys) :
    LoadersGive W nw bs streams ys := by
  intro prefetch es hpf
  refine ⟨fun r _ b hb => rankLoader_sizes nw bs prefetch hnw hbs hpf _ r (es r) b hb, fun hdone => ?_⟩
  refine List.Perm.trans ?_ h
  rw [← ranks_workers_flatMap]
  exact flatMap_perm_pointwise _ _ _ fun r hr' => rankLoader_all nw bs prefetch hnw hbs hpf _ r (es r) (hdone r (List.mem_range.1 hr'))

theorem loaders_collected {α : Type} (W nw bs : Nat) (hnw : 0 < nw) (hbs : 0 < bs) (streams : Nat → List α) (ys : List α)
    (h : ∀ (prefetch : Nat) (es : Nat → List LoaderEvent), 0 < prefetch → (∀ r, r < W → (rankLoader nw bs prefetch streams r (es r)).finished = true) →
      ((List.range W).flatMap fun r => (rankLoader nw bs prefetch streams r (es r)).out.flatten).Perm ys) :
    ((List.range (W * nw)).flatMap streams).Perm ys := by
  have hex := fun r => rankLoader_ends nw bs 1 hnw Nat.one_pos streams r
  have := h 1 (fun r => (hex r).choose) Nat.one_pos (fun r _ => (hex r).choose_spec)
  refine List.Perm.trans ?_ this
  rw [← ranks_workers_flatMap]
  exact flatMap_perm_pointwise _ _ _ fun r hr' => (rankLoader_all nw bs 1 hnw hbs Nat.one_pos _ r _ (hex r).choose_spec).symm

/-- **C86, any datasets that are streamed completely.** -/
theorem c86_epoch_partial {V α : Type} (n : Nat) (hn : 0 < n) (o : Nat → Opened V) (files : Nat → String → Option Bytes) (join : Nat → String → String)
    (enc : Nat → Option Encryption) (read : Nat → Bytes → Py α) (sh : Nat → Shuffler) (W nw bs epoch : Nat) (hnw : 0 < nw) (hbs : 0 < bs)
    (pieces : Nat → List (List Piece)) (ys : Nat → List α)
    (hg : ∀ d, d < n → EpochGives (o d) (files d) (join d) (enc d) (read d) (sh d) W nw bs epoch (pieces d) (ys d))
    (prep : Nat → Nat → PrepCfg) (fin : Nat → Nat → FineState) (hq : ∀ d, d < n → (enc d = none ∧ (o d).compressor = none) ∨ ∀ k, (prep d k).others = [])
    (hfin : ∀ d, d < n → ∀ k ps, (pieces d)[k]? = some ps → WorkerEnded (o d) (files d) (join d) (enc d) (prep d k) (sh d) epoch ps (fin d k))
    (cfg : CombinedConfig) (hf : FairRng cfg.rng) (hb : cfg.batching ≠ .other)
    (weights : Nat → List Nat) (hl : ∀ r, r < W → (weights r).length = n) (hpos : ∀ r, r < W → ∀ l ∈ weights r, 0 < l) :
    ∃ (streams : Nat → Nat → List α) (outs : Nat → List (Nat × α)),
      (∀ d, d < n → ∀ k, k < W * nw → (fin d k).s.out.map (read d) = (streams d k).map .ok) ∧
      (∀ k, k < W * nw → WorkerGives cfg (weights (k / nw)) ((List.range n).map fun d => streams d k) (outs k) .stopIteration) ∧
      LoadersGive W nw bs outs ((List.range n).flatMap fun d => (ys d).map fun x => (d, x)) := by
  have h1 := fun d (hd : d < n) => hg d hd (prep d) (fin d) (hq d hd) (hfin d hd)
  let streams : Nat → Nat → List α := fun d => if hd : d < n then (h1 d hd).choose else fun _ => []
  have hs : ∀ d (hd : d < n), streams d = (h1 d hd).choose := fun d hd => dif_pos hd
  have h2 : ∀ d, d < n → ((List.range (W * nw)).flatMap (streams d)).Perm (ys d) := by
    intro d hd
    rw [hs d hd]
    exact loaders_collected W nw bs hnw hbs _ _ fun prefetch es hpf hdone => ((h1 d hd).choose_spec.2 prefetch es hpf).2 hdone
  have hr : ∀ k, k < W * nw → k / nw < W := fun k hk => (Nat.div_lt_iff_lt_mul hnw).2 hk
  have h3 := fun k (hk : k < W * nw) => worker_gives cfg hf hb (weights (k / nw)) ((List.range n).map fun d => streams d k)
    (by intro e; have := congrArg List.length e; simp at this; omega) (by rw [hl _ (hr k hk)]; simp) (hpos _ (hr k hk))
  let outs : Nat → List (Nat × α) := fun k => if hk : k < W * nw then (h3 k hk).choose else []
  have ho : ∀ k (hk : k < W * nw), outs k = (h3 k hk).choose := fun k hk => dif_pos hk
  refine ⟨streams, outs, ?_, ?_, ?_⟩
  · intro d hd k hk
    rw [hs d hd]
    exact (h1 d hd).choose_spec.1 k hk
  · intro k hk
    rw [ho k hk]
    exact (h3 k hk).choose_spec.1
  · refine loaders_collect W nw bs hnw hbs outs _ (combined_outs n (W * nw) ys streams h2 outs ?_ ?_)
    · intro k hk
      rw [ho k hk]
      simpa using (h3 k hk).choose_spec.2.1
    · intro k hk d hd
      rw [ho k hk]
      exact (h3 k hk).choose_spec.2.2 d _ (by simp [hd])

/-- The length of a new dataset at rank `r`, which `CombinedStreamingDataset` takes for its weight. -/
theorem new_length (src : DsSource) (hperm : ∀ e l, (src.perm e l).Perm l) (hr : src.rank < src.worldSize) (shuffle dl : Bool) :
    ∃ s', dsLen src { shuffle := shuffle, dropLast := dl } = .ok
      (let N := (datasetSamples (List.range src.ivs.length) src.ivs).length
       if dl = false ∧ src.rank + 1 = src.worldSize then N - src.rank * (N / src.worldSize) else N / src.worldSize, s') := by
  obtain ⟨idx, out, hl, hp, heq⟩ := epochAssign_eq (if shuffle then some src.perm else none)
    (by intro p hp e l; split at hp <;> simp at hp; subst hp; exact hperm e l) src.ivs 1
  obtain ⟨ws, h1, h2⟩ := c41_len_closed_form src.worldSize idx out dl 1 1 (by omega) Nat.one_pos Nat.one_pos hl
  refine ⟨{ shuffle := shuffle, dropLast := dl, shuffler := some (shuffle, dl) }, ?_⟩
  have e : epochAssign (if shuffle then some src.perm else none) src.ivs src.worldSize src.numNodes dl 1 1 1 = .ok ws := by
    rw [heq src.worldSize src.numNodes dl 1 1 (.inl rfl), h1]
  have e2 := h2 src.rank hr
  rw [hp.length_eq, Nat.one_mul, Nat.one_mul] at e2
  unfold dsLen dsGetLen
  simp only [setBatchSize, setNumWorkers, createShuffler, Option.getD_none, Nat.one_ne_zero, if_false, shufflerLen, e, e2]

/-- **C86, lengths.** A new dataset has a positive length at a rank iff it has as many samples as there are ranks; without `drop_last`, also at the last rank if it has any. -/
theorem c86_length_positive (src : DsSource) (hperm : ∀ e l, (src.perm e l).Perm l) (hr : src.rank < src.worldSize) (shuffle dl : Bool) :
    ∃ len s', dsLen src { shuffle := shuffle, dropLast := dl } = .ok (len, s') ∧
      (0 < len ↔ src.worldSize ≤ (datasetSamples (List.range src.ivs.length) src.ivs).length ∨
        dl = false ∧ src.rank + 1 = src.worldSize ∧ 0 < (datasetSamples (List.range src.ivs.length) src.ivs).length) := by
  obtain ⟨s', h⟩ := new_length src hperm hr shuffle dl
  refine ⟨_, s', h, ?_⟩
  simp only
  generalize (datasetSamples (List.range src.ivs.length) src.ivs).length = N
  have hW : 0 < src.worldSize := by omega
  generalize src.worldSize = W at *
  have hdiv : 0 < N / W ↔ W ≤ N := by rw [Nat.div_pos_iff]; omega
  split
  · rename_i hd
    have hle : src.rank * (N / W) ≤ N - N / W := by
      have : W * (N / W) ≤ N := Nat.mul_div_le N W
      rw [← hd.2, Nat.add_mul, Nat.one_mul] at this
      rw [hd.2] at this
      omega
    have hq : N / W ≤ N := Nat.div_le_self N W
    constructor
    · intro h0; exact .inr ⟨hd.1, hd.2, by omega⟩
    · intro h0
      have hN : 0 < N := by omega
      by_cases hge : W ≤ N
      · have := hdiv.2 hge
        omega
      · have : N / W = 0 := Nat.div_eq_of_lt (by omega)
        rw [this, Nat.mul_zero]
        omega
  · rename_i hd
    rw [hdiv]
    constructor
    · exact .inl
    · rintro (h0 | ⟨h1, h2, _⟩)
      · exact h0
      · exact absurd ⟨h1, h2⟩ hd

/-- **C86.** Stored datasets with at least as many samples as there are ranks, shuffled (in the first epoch or on one node) or not, are combined with `iterate_over_all`.
The workers of every rank stream them from their folders, every dataset with its own thread, and choose at random which one gives the next sample, with the lengths
that the datasets had at this rank when they were combined as weights. Then the data loaders of all ranks get every sample of every dataset exactly once. -/
theorem c86_stored_partial {V α : Type} (n : Nat) (hn : 0 < n) (o : Nat → Opened V) (enc : Nat → Option Encryption) (hsound : ∀ d, d < n → ∀ e, enc d = some e → Encryption.Sound e)
    (files : Nat → String → Option Bytes) (join : Nat → String → String) (items : Nat → List (List Bytes))
    (hs : ∀ d, d < n → Stored (enc d) (files d) (join d) (o d).chunks (items d)) (hd : ∀ d, d < n → DistinctFiles (join d) (o d).chunks)
    (hex : ∀ d, d < n → ∀ info ∈ (o d).chunks, ∀ file, files d (join d info.filename) = some file → file.length = info.chunkBytes)
    (hivs : ∀ d, d < n → generateIntervals none 0 0 (o d).chunks = .ok (o d).intervals) (henc : ∀ d, d < n → (o d).encryption = (enc d).map Encryption.config)
    (read : Nat → Bytes → Py α) (ys : Nat → List α) (hr : ∀ d, d < n → (items d).flatten.map (read d) = (ys d).map .ok)
    (W nn nw bs epoch : Nat) (hW : 0 < W) (hnw : 0 < nw) (hbs : 0 < bs) (hone : epoch = 1 ∨ nn = 1) (hmany : ∀ d, d < n → W ≤ (ys d).length)
    (perm : Nat → Nat → List Nat → List Nat) (hperm : ∀ d e l, (perm d e l).Perm l) (sh : Nat → Shuffler) (hsh : ∀ d a n e k, (sh d a n e k).Perm a)
    (shuffled : Nat → Bool) (cfg : CombinedConfig) (hf : FairRng cfg.rng) (hb : cfg.batching ≠ .other) :
    ∃ (pieces : Nat → List (List Piece)) (lens : Nat → List Nat),
      (∀ d, d < n → epochAssign (if shuffled d then some (perm d) else none) (o d).intervals W nn false nw bs epoch = .ok (pieces d) ∧ (pieces d).length = W * nw) ∧
      (∀ r, r < W → (lens r).length = n ∧ ∀ d, d < n → ∃ l s', (lens r)[d]? = some l ∧
        dsLen ⟨perm d, (o d).intervals, W, nn, r⟩ { shuffle := shuffled d, dropLast := false } = .ok (l, s')) ∧
      (∀ r, r < W → combinedWeights (lens r) none true = .ok (lens r)) ∧
      ∀ (prep : Nat → Nat → PrepCfg) (fin : Nat → Nat → FineState), (∀ d, d < n → (enc d = none ∧ (o d).compressor = none) ∨ ∀ k, (prep d k).others = []) →
        (∀ d, d < n → ∀ k ps, (pieces d)[k]? = some ps →
          WorkerEnded (o d) (files d) (join d) (enc d) (prep d k) (if shuffled d then sh d else noShuffler) epoch ps (fin d k)) →
        ∃ (streams : Nat → Nat → List α) (outs : Nat → List (Nat × α)),
          (∀ d, d < n → ∀ k, k < W * nw → (fin d k).s.out.map (read d) = (streams d k).map .ok) ∧
          (∀ k, k < W * nw → WorkerGives cfg (lens (k / nw)) ((List.range n).map fun d => streams d k) (outs k) .stopIteration) ∧
          LoadersGive W nw bs outs ((List.range n).flatMap fun d => (ys d).map fun x => (d, x)) := by
  have h1 : ∀ d, d < n → ∃ ps, epochAssign (if shuffled d then some (perm d) else none) (o d).intervals W nn false nw bs epoch = .ok ps ∧ ps.length = W * nw ∧
      EpochGives (o d) (files d) (join d) (enc d) (read d) (if shuffled d then sh d else noShuffler) W nw bs epoch ps (ys d) := by
    intro d hdn
    obtain ⟨b1, b2⟩ := c81_batches (o d) (enc d) (hsound d hdn) (files d) (join d) (items d) (hs d hdn) (hd d hdn) (hex d hdn) (hivs d hdn) (henc d hdn) (read d) (ys d)
      (hr d hdn) W nw bs epoch hW hnw hbs
    cases hsd : shuffled d with
    | true => exact b1 (perm d) (sh d) nn (hperm d) (hsh d) hone
    | false =>
      obtain ⟨ps, p1, p2, p3⟩ := b2 false
      rw [if_neg (by simp), List.take_length] at p3
      exact ⟨ps, p1, p2, p3⟩
  have hN : ∀ d, d < n → (datasetSamples (List.range (o d).intervals.length) (o d).intervals).length = (ys d).length := by
    intro d hdn
    obtain ⟨ivs, g1, value, g2, _⟩ := located_values (enc d) (hsound d hdn) (files d) (join d) (o d).chunks (items d) (hs d hdn)
    rw [hivs d hdn] at g1
    cases g1
    have e1 := congrArg List.length g2
    have e2 := congrArg List.length (hr d hdn)
    simp only [List.length_map] at e1 e2
    omega
  have h2 := fun r (hrw : r < W) d => c86_length_positive ⟨perm d, (o d).intervals, W, nn, r⟩ (hperm d) hrw (shuffled d) false
  let len : Nat → Nat → Nat := fun r d => if hrw : r < W then (h2 r hrw d).choose else 1
  have hlen : ∀ r (hrw : r < W) d, len r d = (h2 r hrw d).choose := fun r hrw d => dif_pos hrw
  have hposd : ∀ r, r < W → ∀ d, d < n → 0 < len r d := by
    intro r hrw d hdn
    rw [hlen r hrw d]
    obtain ⟨s', g1, g2⟩ := (h2 r hrw d).choose_spec
    refine g2.2 (.inl ?_)
    rw [hN d hdn]
    exact hmany d hdn
  let pieces : Nat → List (List Piece) := fun d => if hdn : d < n then (h1 d hdn).choose else []
  have hp : ∀ d (hdn : d < n), pieces d = (h1 d hdn).choose := fun d hdn => dif_pos hdn
  have hpos : ∀ r, r < W → ∀ l ∈ (List.range n).map (len r), 0 < l := by
    intro r hrw l hl
    obtain ⟨d, hdn, rfl⟩ := List.mem_map.1 hl
    exact hposd r hrw d (List.mem_range.1 hdn)
  refine ⟨pieces, fun r => (List.range n).map (len r), ?_, ?_, ?_, ?_⟩
  · intro d hdn
    rw [hp d hdn]
    exact ⟨(h1 d hdn).choose_spec.1, (h1 d hdn).choose_spec.2.1⟩
  · intro r hrw
    refine ⟨by simp, fun d hdn => ?_⟩
    obtain ⟨s', g1, _⟩ := (h2 r hrw d).choose_spec
    exact ⟨len r d, s', by simp [hdn], by rw [hlen r hrw d]; exact g1⟩
  · intro r hrw
    unfold combinedWeights
    simp only
    rw [if_neg]
    have := sum_pos_of_pos ((List.range n).map (len r)) (by intro e; have := congrArg List.length e; simp at this; omega) (hpos r hrw)
    omega
  · intro prep fin hq hfin
    exact c86_epoch_partial n hn o files join enc read (fun d => if shuffled d then sh d else noShuffler) W nw bs epoch hnw hbs pieces ys
      (fun d hdn => by rw [hp d hdn]; exact (h1 d hdn).choose_spec.2.2) prep fin hq hfin cfg hf hb _ (fun r _ => by simp) hpos

/-- **C86, without `iterate_over_all`.** With any weights the data loaders get no sample of a dataset twice: together with the samples that are left over, what they
get is every sample of every dataset once. -/
theorem c86_first_partial {α : Type} (n W nw bs : Nat) (hnw : 0 < nw) (hbs : 0 < bs) (ys : Nat → List α) (streams : Nat → Nat → List α)
    (hp : ∀ d, d < n → ((List.range (W * nw)).flatMap (streams d)).Perm (ys d))
    (cfg : CombinedConfig) (hf : FairRng cfg.rng) (hb : cfg.batching ≠ .other)
    (weights : Nat → List Nat) (hl : ∀ r, r < W → (weights r).length = n) (hpos : ∀ r, r < W → 0 < (weights r).sum) :
    ∃ (outs : Nat → List (Nat × α)) (left : List (Nat × α)) (zs : List (Nat × α)),
      (∀ k, k < W * nw → ∃ st, combinedInit cfg (weights (k / nw)) ((List.range n).map fun d => streams d k) none = .ok st ∧
        ∀ m, (((List.range n).map fun d => streams d k).map List.length).sum < m → ∃ st', takeFirst cfg m st = (outs k, some .stopIteration, st')) ∧
      LoadersGive W nw bs outs zs ∧ (zs ++ left).Perm ((List.range n).flatMap fun d => (ys d).map fun x => (d, x)) := by
  have hr : ∀ k, k < W * nw → k / nw < W := fun k hk => (Nat.div_lt_iff_lt_mul hnw).2 hk
  have more : ∀ (m : Nat) (st : CombinedState α) out e st', takeFirst cfg m st = (out, some e, st') → ∀ m', m ≤ m' → takeFirst cfg m' st = (out, some e, st') := by
    intro m
    induction m with
    | zero => intro st out e st' h; simp [takeFirst] at h
    | succ m ih =>
      intro st out e st' h m' hm
      obtain ⟨j, rfl⟩ : ∃ j, m' = j + 1 := ⟨m' - 1, by omega⟩
      unfold takeFirst at h ⊢
      cases hx : nextFirst cfg st with
      | error e2 => rw [hx] at h; exact h
      | ok r =>
        obtain ⟨x, st1⟩ := r
        rw [hx] at h
        simp only at h ⊢
        generalize hy : takeFirst cfg m st1 = y at h
        obtain ⟨xs, e2, st2⟩ := y
        simp only [Prod.mk.injEq] at h
        obtain ⟨h3, rfl, rfl⟩ := h
        rw [ih st1 xs e st2 hy j (by omega), ← h3]
  have h1 : ∀ k, k < W * nw → ∃ out rest : List (Nat × α), (∃ st, combinedInit cfg (weights (k / nw)) ((List.range n).map fun d => streams d k) none = .ok st ∧
        ∀ m, (((List.range n).map fun d => streams d k).map List.length).sum < m → ∃ st', takeFirst cfg m st = (out, some .stopIteration, st')) ∧
        (∀ x ∈ out, x.1 < n) ∧ (∀ x ∈ rest, x.1 < n) ∧ ∀ d, d < n → fromDataset d (out ++ rest) = streams d k := by
    intro k hk
    generalize hm : (((List.range n).map fun d => streams d k).map List.length).sum + 1 = m
    let st0 : CombinedState α := ⟨(List.range n).map fun d => streams d k, (List.range ((List.range n).map fun d => streams d k).length).map some, (weights (k / nw)).map some,
      List.replicate ((List.range n).map fun d => streams d k).length 0, 0, 0, none⟩
    have hlk := hl _ (hr k hk)
    obtain ⟨out, e, st', g1, g2, g3, g4, g5, _⟩ := takeFirst_ok cfg hf hb (weights (k / nw)) m st0
      ⟨by simp [st0, hlk], rfl, by simp [st0, hlk], by simp [st0, hlk], by simp [st0], hpos _ (hr k hk)⟩
    have he : e = some .stopIteration := by
      rcases g4 with ⟨_, h⟩ | ⟨h, _⟩
      · exfalso
        have : out.length ≤ (((List.range n).map fun d => streams d k).map List.length).sum := g5
        omega
      · exact h
    subst he
    refine ⟨out, (List.range n).flatMap fun d => ((st'.streams.getD d []).map fun x => (d, x)), ⟨st0, rfl, fun m' hm' => ⟨st', more m _ _ _ _ g1 m' (by omega)⟩⟩, ?_, ?_, ?_⟩
    · simpa [st0] using g2.tags
    · intro x hx
      obtain ⟨d, hd, hx⟩ := List.mem_flatMap.1 hx
      obtain ⟨y, _, rfl⟩ := List.mem_map.1 hx
      exact List.mem_range.1 hd
    · intro d hd
      obtain ⟨s', k1, k2⟩ := g2.contrib d (streams d k) (by simp [st0, hd])
      have e1 : fromDataset d ((List.range n).flatMap fun d => ((st'.streams.getD d []).map fun x => (d, x))) = s' := by
        rw [fromDataset_flatMap]
        have : ∀ N, ((List.range N).flatMap fun j => fromDataset d ((st'.streams.getD j []).map fun x => (j, x))) = if d < N then s' else [] := by
          intro N
          induction N with
          | zero => simp
          | succ N ih =>
            rw [List.range_succ, List.flatMap_append, ih]
            simp only [List.flatMap_cons, List.flatMap_nil, List.append_nil]
            by_cases e : d = N
            · subst e
              rw [if_neg (by omega), if_pos (by omega), List.getD_eq_getElem?_getD, k1]
              simp [fromDataset, List.filter_map, Function.comp_def]
            · have : fromDataset d ((st'.streams.getD N []).map fun x => (N, x)) = [] := by
                simp [fromDataset, List.filter_map, Function.comp_def, Ne.symm e]
              rw [this, List.append_nil]
              by_cases hlt : d < N
              · rw [if_pos hlt, if_pos (by omega)]
              · rw [if_neg hlt, if_neg (by omega)]
        rw [this, if_pos hd]
      have e2 : fromDataset d (out ++ (List.range n).flatMap fun d => ((st'.streams.getD d []).map fun x => (d, x))) =
          fromDataset d out ++ fromDataset d ((List.range n).flatMap fun d => ((st'.streams.getD d []).map fun x => (d, x))) := by simp [fromDataset]
      rw [e2, e1, ← k2]
  let outs : Nat → List (Nat × α) := fun k => if hk : k < W * nw then (h1 k hk).choose else []
  let rests : Nat → List (Nat × α) := fun k => if hk : k < W * nw then (h1 k hk).choose_spec.choose else []
  have ho : ∀ k (hk : k < W * nw), outs k = (h1 k hk).choose := fun k hk => dif_pos hk
  have hre : ∀ k (hk : k < W * nw), rests k = (h1 k hk).choose_spec.choose := fun k hk => dif_pos hk
  have hall := combined_outs n (W * nw) ys streams hp (fun k => outs k ++ rests k)
    (by
      intro k hk x hx
      rw [ho k hk, hre k hk] at hx
      rcases List.mem_append.1 hx with hx | hx
      · exact (h1 k hk).choose_spec.choose_spec.2.1 x hx
      · exact (h1 k hk).choose_spec.choose_spec.2.2.1 x hx)
    (by
      intro k hk d hd
      rw [ho k hk, hre k hk]
      exact (h1 k hk).choose_spec.choose_spec.2.2.2 d hd)
  refine ⟨outs, (List.range (W * nw)).flatMap rests, (List.range (W * nw)).flatMap outs, ?_, loaders_collect W nw bs hnw hbs outs _ (List.Perm.refl _), ?_⟩
  · intro k hk
    rw [ho k hk]
    exact (h1 k hk).choose_spec.choose_spec.1
  · refine List.Perm.trans ?_ hall
    have : ∀ l : List Nat, (l.flatMap outs ++ l.flatMap rests).Perm (l.flatMap fun k => outs k ++ rests k) := by
      intro l
      induction l with
      | nil => exact List.Perm.refl _
      | cons a l ih =>
        simp only [List.flatMap_cons]
        refine List.Perm.trans ?_ ((List.Perm.refl (outs a ++ rests a)).append ih)
        simp only [List.append_assoc]
        refine (List.Perm.refl _).append ?_
        rw [← List.append_assoc, ← List.append_assoc]
        exact List.perm_append_comm.append (List.Perm.refl _)
    exact this _

/-- **C86 fails: a dataset of weight 0.** Whatever is chosen, a worker that has a dataset with the weight 0 beside one with a positive weight gives every sample of the
datasets with positive weights, none of the others, and then ends with `ZeroDivisionError` instead of stopping. -/
theorem c86_zero_weight_fails {α : Type} (cfg : CombinedConfig) (hf : FairRng cfg.rng) (hb : cfg.batching ≠ .other) (weights : List Nat) (streams : List (List α))
    (hl : weights.length = streams.length) (hz : 0 ∈ weights) (hpos : 0 < weights.sum) :
    combinedWeights weights none true = .ok weights ∧
    ∃ out, WorkerGives cfg weights streams out .zeroDivision ∧
      ∀ (d : Nat) (s : List α), streams[d]? = some s → fromDataset d out = if weights[d]? = some 0 then [] else s := by
  constructor
  · unfold combinedWeights
    simp only
    rw [if_neg (by omega)]
  have hp : ∀ l : List Nat, present (l.map some) = l := by intro l; simp [present, List.filterMap_map]
  obtain ⟨z, hz⟩ := List.getElem?_of_mem hz
  let st0 : CombinedState α := ⟨streams, (List.range streams.length).map some, weights.map some, List.replicate streams.length 0, 0, 0, none⟩
  have hinv : ZeroInv weights st0 := by
    refine ⟨?_, by simp [st0], ?_, ?_, ?_, ?_, ?_, ⟨z, hz⟩⟩
    · simp only [st0, List.map_map]
      apply List.ext_getElem
      · simp [hl]
      · intro i h1 h2; simp
    · intro i x h
      simp only [st0, List.getElem?_map, Option.map_eq_some_iff, Option.some.injEq, exists_eq_right] at h
      obtain ⟨_, h⟩ := List.getElem?_eq_some_iff.1 h
      simpa using h.symm
    · intro i h
      simp [st0] at h
    · intro i
      simp [st0]
    · intro c h
      simp [st0] at h
    · show 0 < (present (weights.map some)).sum
      rw [hp]
      exact hpos
  obtain ⟨out, e, st', g1, g2, g3, g4, g5⟩ := takeAll_zero cfg hf hb (streams.length * (cfg.batchSize + 2) + cfg.batchSize + 1) ((streams.map List.length).sum + 1) st0 hinv
    (Nat.lt_succ_self _)
  rcases g5 with ⟨_, h⟩ | ⟨rfl, _, h⟩
  · exfalso
    have : out.length ≤ (streams.map List.length).sum := g4
    omega
  · refine ⟨out, ⟨st0, _, rfl, fun fuel m hfu hm => ⟨st', takeAll_more cfg _ _ _ _ _ _ g1 fuel m hfu hm⟩⟩, fun d s hs => ?_⟩
    obtain ⟨s', k1, k2⟩ := g2.contrib d s hs
    split
    · rename_i hw
      unfold fromDataset
      rw [List.filter_eq_nil_iff.2]
      · rfl
      · intro x hx he
        have : x.1 = d := by simpa using he
        exact g3 x hx (by rw [this]; exact hw)
    · rename_i hw
      rw [k2, h d s' k1 hw, List.append_nil]

/-- **C86 fails: fewer samples than ranks.** A dataset with fewer samples than ranks has the length 0 at every rank but the last, and with `drop_last` also there. Combined
with `iterate_over_all` with one that has as many samples as ranks, every worker of these ranks ends its epoch with `ZeroDivisionError`. -/
theorem c86_small_dataset_fails {α : Type} (cfg : CombinedConfig) (hf : FairRng cfg.rng) (hb : cfg.batching ≠ .other) (datasets : List (DsSource × Bool × Bool))
    (W r : Nat) (hr : r < W) (hd : ∀ d ∈ datasets, d.1.worldSize = W ∧ d.1.rank = r ∧ ∀ e l, (d.1.perm e l).Perm l)
    (small : DsSource × Bool × Bool) (hsm : small ∈ datasets) (hs1 : (datasetSamples (List.range small.1.ivs.length) small.1.ivs).length < W)
    (hs2 : small.2.2 = true ∨ r + 1 < W)
    (big : DsSource × Bool × Bool) (hbm : big ∈ datasets) (hb1 : W ≤ (datasetSamples (List.range big.1.ivs.length) big.1.ivs).length)
    (streams : List (List α)) (hl : streams.length = datasets.length) :
    ∃ lens : List Nat, lens.length = datasets.length ∧
      (∀ (j : Nat) d l, datasets[j]? = some d → lens[j]? = some l → ∃ s', dsLen d.1 { shuffle := d.2.1, dropLast := d.2.2 } = .ok (l, s')) ∧
      combinedWeights lens none true = .ok lens ∧ ∃ out, WorkerGives cfg lens streams out .zeroDivision := by
  have h1 : ∀ d, ∃ l, d ∈ datasets → ∃ s', dsLen d.1 { shuffle := d.2.1, dropLast := d.2.2 } = .ok (l, s') ∧
      (0 < l ↔ d.1.worldSize ≤ (datasetSamples (List.range d.1.ivs.length) d.1.ivs).length ∨
        d.2.2 = false ∧ d.1.rank + 1 = d.1.worldSize ∧ 0 < (datasetSamples (List.range d.1.ivs.length) d.1.ivs).length) := by
    intro d
    by_cases hm : d ∈ datasets
    · obtain ⟨a, b, c⟩ := hd d hm
      obtain ⟨l, s', g1, g2⟩ := c86_length_positive d.1 c (by omega) d.2.1 d.2.2
      exact ⟨l, fun _ => ⟨s', g1, g2⟩⟩
    · exact ⟨0, fun h => absurd h hm⟩
  let len := fun d => (h1 d).choose
  have hlen : ∀ d ∈ datasets, ∃ s', dsLen d.1 { shuffle := d.2.1, dropLast := d.2.2 } = .ok (len d, s') ∧
      (0 < len d ↔ W ≤ (datasetSamples (List.range d.1.ivs.length) d.1.ivs).length ∨
        d.2.2 = false ∧ r + 1 = W ∧ 0 < (datasetSamples (List.range d.1.ivs.length) d.1.ivs).length) := by
    intro d hm
    obtain ⟨s', g1, g2⟩ := (h1 d).choose_spec hm
    obtain ⟨a, b, _⟩ := hd d hm
    refine ⟨s', g1, g2.trans ?_⟩
    rw [a, b]
  have hz : 0 ∈ datasets.map len := by
    refine List.mem_map.2 ⟨small, hsm, ?_⟩
    obtain ⟨_, _, g⟩ := hlen small hsm
    apply Nat.eq_zero_of_not_pos
    rw [g]
    rintro (h | ⟨h2, h3, _⟩)
    · omega
    · rcases hs2 with h | h
      · rw [h] at h2; cases h2
      · omega
  have hp : 0 < (datasets.map len).sum := by
    obtain ⟨_, _, g⟩ := hlen big hbm
    have := g.2 (.inl hb1)
    have hm : len big ∈ datasets.map len := List.mem_map.2 ⟨big, hbm, rfl⟩
    apply Nat.pos_of_ne_zero
    intro e
    have := List.sum_eq_zero_iff_forall_eq_nat.1 e _ hm
    omega
  obtain ⟨a, out, b, _⟩ := c86_zero_weight_fails cfg hf hb (datasets.map len) streams (by simp [hl]) hz hp
  refine ⟨datasets.map len, by simp, ?_, a, out, b⟩
  intro j d l hj hlj
  rw [List.getElem?_map, hj] at hlj
  cases hlj
  obtain ⟨s', g, _⟩ := hlen d (List.mem_of_getElem? hj)
  exact ⟨s', g⟩

/-! Concrete cases. -/

/-- Two datasets with three samples each over two ranks with two workers: every worker of every dataset can come to its end, and then all six samples are given. -/
example : ∃ (pieces : Nat → List (List Piece)) (fin : Nat → Nat → FineState) (streams : Nat → Nat → List Bytes) (outs : Nat → List (Nat × Bytes)),
    (∀ d, d < 2 → ∀ k, k < 2 * 2 → (fin d k).s.out.map (fun b => (.ok b : Py Bytes)) = (streams d k).map .ok) ∧
    (∀ d, d < 2 → epochAssign (if d == 0 then some fun _ l => l.reverse else none) storedOpened.intervals 2 1 false 2 1 1 = .ok (pieces d)) ∧
    LoadersGive 2 2 1 outs [(0, [1, 2]), (0, [3]), (0, [4, 5, 6]), (1, [1, 2]), (1, [3]), (1, [4, 5, 6])] := by
  have hex : ∀ info ∈ storedOpened.chunks, ∀ file, storedFiles (id info.filename) = some file → file.length = info.chunkBytes := by
    intro info hi file hf
    simp only [storedOpened, storedChunks, List.mem_cons, List.not_mem_nil, or_false] at hi
    rcases hi with rfl | rfl <;> cases hf <;> rfl
  obtain ⟨pieces, lens, h1, _, _, h4⟩ := c86_stored_partial 2 (by decide) (fun _ => storedOpened) (fun _ => none) (fun _ _ _ h => by cases h) (fun _ => storedFiles) (fun _ => id)
    (fun _ => storedItems) (fun _ _ => storedExample) (fun _ _ => storedDistinct) (fun _ _ => hex) (fun _ _ => rfl) (fun _ _ => rfl) (fun _ b => .ok b)
    (fun _ => storedItems.flatten) (fun _ _ => rfl) 2 1 2 1 1 (by decide) (by decide) (by decide) (.inl rfl) (fun _ _ => by decide)
    (fun _ _ l => l.reverse) (fun _ _ l => List.reverse_perm l) (fun _ l _ _ _ => l.reverse) (fun _ l _ _ _ => List.reverse_perm l) (fun d => d == 0)
    ⟨roundRng, .stratified, 1⟩ roundRng_fair (by simp)
  let prep : PrepCfg := ⟨2, true, true, [], []⟩
  have hend : ∀ d, d < 2 → ∀ ps ∈ pieces d, ∃ f, WorkerEnded storedOpened storedFiles id none prep (if (d == 0) = true then (fun l _ _ _ => l.reverse) else noShuffler) 1 ps f := by
    intro d hd ps hps
    refine (c81_workers_end storedOpened none (fun _ h => by cases h) storedFiles id storedItems storedExample storedDistinct hex rfl rfl
      (fun _ l => l.reverse) (fun _ l => List.reverse_perm l) _ ?_ 2 1 false 2 1 1 (pieces d) ?_ prep rfl rfl (by decide) ps hps).1
    · intro a n e k
      split
      · exact List.reverse_perm a
      · exact List.Perm.refl _
    · have h := (h1 d hd).1
      by_cases e : d = 0
      · subst e
        exact .inr ⟨h, .inl rfl⟩
      · rw [if_neg (by simpa using e)] at h
        exact .inl h
  have hfin : ∃ fin : Nat → Nat → FineState, ∀ d, d < 2 → ∀ k ps, (pieces d)[k]? = some ps →
      WorkerEnded storedOpened storedFiles id none prep (if (d == 0) = true then (fun l _ _ _ => l.reverse) else noShuffler) 1 ps (fin d k) := by
    refine ⟨fun d k => if h : d < 2 ∧ k < (pieces d).length then (hend d h.1 _ (List.getElem_mem h.2)).choose else ⟨.start fun _ => none, fun _ => false, .idle⟩, ?_⟩
    intro d hd k ps hk
    obtain ⟨hlt, rfl⟩ := List.getElem?_eq_some_iff.1 hk
    simp only [hd, hlt, dif_pos, and_self]
    exact (hend d hd _ (List.getElem_mem hlt)).choose_spec
  obtain ⟨fin, hfin⟩ := hfin
  obtain ⟨streams, outs, s1, _, s3⟩ := h4 (fun _ _ => prep) fin (fun _ _ => .inr fun _ => rfl) hfin
  exact ⟨pieces, fin, streams, outs, s1, fun d hd => (h1 d hd).1, s3⟩

-- two workers, the first of which has no sample of the second dataset
example := c86_first_partial 2 1 2 2 (by decide) (by decide) (fun d => if d = 0 then [10, 11, 12] else [20])
  (fun d k => if d = 0 then (if k = 0 then [10, 11] else [12]) else if k = 0 then [] else [20])
  (by intro d hd; rcases (by omega : d = 0 ∨ d = 1) with rfl | rfl <;> exact List.Perm.refl _)
  ⟨roundRng, .perStream, 2⟩ roundRng_fair (by simp) (fun _ => [3, 1]) (fun _ _ => rfl) (fun _ _ => by decide)

/-- Two ranks and a dataset with one sample beside one with four: the first rank fails. -/
example := c86_small_dataset_fails ⟨roundRng, .stratified, 1⟩ roundRng_fair (by simp)
  [(⟨fun _ l => l, [⟨0, 0, 4, 4⟩], 2, 1, 0⟩, false, false), (⟨fun _ l => l, [⟨0, 0, 1, 1⟩], 2, 1, 0⟩, false, false)] 2 0 (by decide)
  (by intro d hd; simp only [List.mem_cons, List.not_mem_nil, or_false] at hd; rcases hd with rfl | rfl <;> exact ⟨rfl, rfl, fun _ _ => List.Perm.refl _⟩)
  (⟨fun _ l => l, [⟨0, 0, 1, 1⟩], 2, 1, 0⟩, false, false) (by simp) (by decide) (.inr (by decide))
  (⟨fun _ l => l, [⟨0, 0, 4, 4⟩], 2, 1, 0⟩, false, false) (by simp) (by decide) [[0, 1], []] rfl

end LitData.Props
