import Verif.Lemmas.AssignRank

/-! Properties C01, C02, C03 and C41: how samples are split between ranks and workers. -/

namespace LitData.Props
open LitData Spec

/-- **C01.** Without `drop_last`, reading the workers rank by rank gives exactly the samples of the
dataset, in order: nothing is lost, nothing is repeated. -/
theorem c01_no_sample_lost_or_repeated (W : Nat) (idx : List Nat) (ivs : List Interval) (nw bs : Nat)
    (hW : 0 < W) (hnw : 0 < nw) (hbs : 0 < bs) (hlen : idx.length = ivs.length) :
    ∃ ws, associate W idx ivs false nw bs = .ok ws ∧ ws.length = W * nw ∧
      ws.flatMap samples = datasetSamples idx ivs := by
  obtain ⟨ws, h1, h2, h3⟩ := associate_spec W idx ivs false nw bs hW hnw hbs
  refine ⟨ws, h1, h2, ?_⟩
  rw [List.flatMap_def, h3, cut_flatten]
  apply List.take_of_length_le
  rw [datasetSamples_length _ _ hlen]
  generalize (ivs.map Interval.size).sum = N
  obtain ⟨m, rfl⟩ : ∃ m, W = m + 1 := ⟨W - 1, by omega⟩
  rw [List.range_succ, List.flatMap_append, List.sum_append, sum_flatMap_range _ (bs * (N / (bs * (m+1))))]
  · simp only [List.flatMap_cons, List.flatMap_nil, List.append_nil, quota_rank_sum _ _ _ _ _ _ hnw]
    have := (left_lt N bs (m+1) hW hbs).1
    simp only [and_self, if_true]
    rw [Nat.mul_add] at this ⊢
    grind
  · intro i hi
    rw [quota_rank_sum _ _ _ _ _ _ hnw, if_neg (by omega)]
    rfl

/-- **C01, uniqueness.** If the chunk list has no repeated chunk, no sample is given twice. -/
theorem c01_nodup (W : Nat) (idx : List Nat) (ivs : List Interval) (nw bs : Nat)
    (hW : 0 < W) (hnw : 0 < nw) (hbs : 0 < bs) (hlen : idx.length = ivs.length) (hnd : idx.Nodup) :
    ∃ ws, associate W idx ivs false nw bs = .ok ws ∧ (ws.flatMap samples).Nodup := by
  obtain ⟨ws, h1, _, h3⟩ := c01_no_sample_lost_or_repeated W idx ivs nw bs hW hnw hbs hlen
  exact ⟨ws, h1, h3 ▸ datasetSamples_nodup idx ivs hnd⟩

/-- **C01, provenance.** Every piece given to a worker is a non-empty sub-region of the region of
interest of its chunk, and keeps the bounds of that chunk. -/
theorem c01_pieces_from_chunks (W : Nat) (idx : List Nat) (ivs : List Interval) (dl : Bool) (nw bs : Nat)
    (ws : List (List Piece)) (h : associate W idx ivs dl nw bs = .ok ws) :
    ∀ ps ∈ ws, ∀ p ∈ ps, ∃ iv, (p.chunk, iv) ∈ idx.zip ivs ∧
      p.interval.chunkStart = iv.chunkStart ∧ p.interval.chunkEnd = iv.chunkEnd ∧
      iv.roiStart ≤ p.interval.roiStart ∧ p.interval.roiStart < p.interval.roiEnd ∧
      p.interval.roiEnd ≤ iv.roiEnd :=
  associate_from h

/-- The split raises exactly when it divides by zero. -/
theorem c01_raises_iff (W : Nat) (idx : List Nat) (ivs : List Interval) (dl : Bool) (nw bs : Nat) :
    (∃ e, associate W idx ivs dl nw bs = .error e) ↔ bs = 0 ∨ (W ≠ 0 ∧ nw = 0) := by
  unfold associate
  split
  · simp_all
  split
  · simp_all
  · simp_all

/-- **C02.** With `drop_last`, every rank receives the same number of samples, and they are
consecutive samples of the dataset: rank `r` receives samples `r*q .. (r+1)*q`. -/
theorem c02_drop_last_equal_ranks (W : Nat) (idx : List Nat) (ivs : List Interval) (nw bs : Nat)
    (hW : 0 < W) (hnw : 0 < nw) (hbs : 0 < bs) (hlen : idx.length = ivs.length) :
    ∃ ws, associate W idx ivs true nw bs = .ok ws ∧
      let q := bs * ((datasetSamples idx ivs).length / (bs * W))
      (∀ r < W, (rankSamples ws r nw).length = q ∧
        rankSamples ws r nw = ((datasetSamples idx ivs).drop (r * q)).take q) ∧
      ws.flatMap samples = (datasetSamples idx ivs).take (W * q) := by
  obtain ⟨ws, h1, h2, h3⟩ := associate_spec W idx ivs true nw bs hW hnw hbs
  refine ⟨ws, h1, ?_⟩
  have hN := datasetSamples_length idx ivs hlen
  rw [hN]
  intro q
  have hleft := (left_lt (ivs.map Interval.size).sum bs W hW hbs).1
  constructor
  · intro r hr
    have e := rank_samples_eq W idx ivs true nw bs hnw r hr ws h3
    simp only [Bool.true_eq_false, false_and, if_false, Nat.add_zero] at e
    have hq : bs * ((ivs.map Interval.size).sum / (bs * W)) = q := rfl
    rw [hq] at e
    refine ⟨?_, e⟩
    rw [e, List.length_take, List.length_drop, hN]
    have : (r + 1) * q ≤ q * W := by
      rw [Nat.mul_comm q W]; exact Nat.mul_le_mul_right _ hr
    rw [Nat.add_mul] at this
    show min q _ = q
    have : q * W ≤ (ivs.map Interval.size).sum := hleft
    omega
  · rw [List.flatMap_def, h3, cut_flatten, sum_flatMap_range _ q]
    intro i _
    rw [quota_rank_sum _ _ _ _ _ _ hnw]
    simp [q]

/-- **C02, without `drop_last`.** Every rank but the last receives the same number `q` of samples;
the last one receives `q` plus fewer than `batch_size * world_size` left-over samples. -/
theorem c02_no_drop_last_ranks (W : Nat) (idx : List Nat) (ivs : List Interval) (nw bs : Nat)
    (hW : 0 < W) (hnw : 0 < nw) (hbs : 0 < bs) (hlen : idx.length = ivs.length) :
    ∃ ws, associate W idx ivs false nw bs = .ok ws ∧
      let q := bs * ((datasetSamples idx ivs).length / (bs * W))
      (∀ r, r + 1 < W → (rankSamples ws r nw).length = q) ∧
      q ≤ (rankSamples ws (W - 1) nw).length ∧
      (rankSamples ws (W - 1) nw).length < q + bs * W := by
  obtain ⟨ws, h1, h2, h3⟩ := associate_spec W idx ivs false nw bs hW hnw hbs
  refine ⟨ws, h1, ?_⟩
  have hN := datasetSamples_length idx ivs hlen
  rw [hN]
  intro q
  obtain ⟨hl1, hl2⟩ := left_lt (ivs.map Interval.size).sum bs W hW hbs
  have hmono : ∀ r, r < W → r * q + q ≤ q * W := by
    intro r hr
    have : (r + 1) * q ≤ W * q := Nat.mul_le_mul_right _ hr
    rw [Nat.add_mul, Nat.mul_comm W q] at this
    omega
  have hqW : q * W ≤ (ivs.map Interval.size).sum := hl1
  constructor
  · intro r hr
    have e := rank_samples_eq W idx ivs false nw bs hnw r (by omega) ws h3
    rw [if_neg (by omega), Nat.add_zero] at e
    have hq : bs * ((ivs.map Interval.size).sum / (bs * W)) = q := rfl
    rw [hq] at e
    rw [e, List.length_take, List.length_drop, hN]
    have := hmono r (by omega)
    show min q _ = q
    omega
  · have e := rank_samples_eq W idx ivs false nw bs hnw (W-1) (by omega) ws h3
    rw [if_pos ⟨rfl, by omega⟩] at e
    rw [e, List.length_take, List.length_drop, hN]
    have := hmono (W-1) (by omega)
    have e2 : (W - 1) * q + q = q * W := by
      obtain ⟨m, rfl⟩ : ∃ m, W = m + 1 := ⟨W - 1, by omega⟩
      simp [Nat.mul_comm]; grind
    have hl2' : (ivs.map Interval.size).sum - q * W < bs * W := hl2
    have hq : bs * ((ivs.map Interval.size).sum / (bs * W)) = q := rfl
    rw [hq]
    omega

/-- **C03.** Each worker receives a whole number of batches; two workers of a rank differ by at most
one batch, except that one worker of the last rank (the one after the workers that got one more
batch) also takes the left-over samples when `drop_last` is off. -/
theorem c03_balanced (W : Nat) (idx : List Nat) (ivs : List Interval) (dl : Bool) (nw bs : Nat)
    (hW : 0 < W) (hnw : 0 < nw) (hbs : 0 < bs) (hlen : idx.length = ivs.length) :
    ∃ ws, associate W idx ivs dl nw bs = .ok ws ∧
      let nb := (datasetSamples idx ivs).length / (bs * W)
      ∀ r < W, ∀ i < nw, ∃ ps, ws[r * nw + i]? = some ps ∧
        (samples ps).length =
          bs * (nb / nw) + (if i < nb % nw then bs else 0) +
          (if dl = false ∧ r + 1 = W ∧ i = nb % nw then
            (datasetSamples idx ivs).length - bs * nb * W else 0) := by
  obtain ⟨ws, h1, h2, h3⟩ := associate_spec W idx ivs dl nw bs hW hnw hbs
  refine ⟨ws, h1, ?_⟩
  have hN := datasetSamples_length idx ivs hlen
  rw [hN]
  intro nb r hr i hi
  have hidx : r * nw + i < ws.length := by
    rw [h2]
    have : (r + 1) * nw ≤ W * nw := Nat.mul_le_mul_right _ hr
    rw [Nat.add_mul] at this
    omega
  refine ⟨ws[r * nw + i], by simp [hidx], ?_⟩
  -- the worker is the i-th of its rank
  have hw : (rankWorkers ws r nw).map samples = cut ((List.range nw).map fun i =>
      quota (ivs.map Interval.size).sum W nw bs dl r i)
      ((datasetSamples idx ivs).drop (r * (bs * nb))) := by
    unfold rankWorkers
    rw [List.map_take, List.map_drop, h3, cut_rank _ nw W r (by simp) hr]
    congr 2
    apply sum_flatMap_range
    intro j hj
    rw [quota_rank_sum _ _ _ _ _ _ hnw, if_neg (by omega)]
    rfl
  have hget : ((rankWorkers ws r nw).map samples)[i]? = some (samples ws[r * nw + i]) := by
    unfold rankWorkers
    rw [List.getElem?_map, List.getElem?_take, if_pos hi, List.getElem?_drop]
    simp [hidx]
  rw [hw, cut_getElem? _ _ i (by simpa using hi)] at hget
  simp only [Option.some.injEq] at hget
  rw [← hget, List.length_take, List.length_drop, List.length_drop, hN]
  simp only [List.getElem_map, List.getElem_range]
  have hq : quota (ivs.map Interval.size).sum W nw bs dl r i = bs * (nb / nw) +
      (if i < nb % nw then bs else 0) +
          (if dl = false ∧ r + 1 = W ∧ i = nb % nw then
            (ivs.map Interval.size).sum - bs * nb * W else 0) := by
    unfold quota
    simp only [nb, Nat.mul_add]
    congr 2
    split <;> simp
  rw [hq]
  apply Nat.min_eq_left
  rw [← hq]
  -- the quotas up to and including this worker do not exceed the dataset
  have hsum : (((List.range nw).map fun i => quota (ivs.map Interval.size).sum W nw bs dl r i).take i).sum +
      quota (ivs.map Interval.size).sum W nw bs dl r i ≤
      ((List.range nw).map fun i => quota (ivs.map Interval.size).sum W nw bs dl r i).sum := by
    exact sum_take_add_le _ nw i hi
  rw [quota_rank_sum _ _ _ _ _ _ hnw] at hsum
  obtain ⟨hl1, hl2⟩ := left_lt (ivs.map Interval.size).sum bs W hW hbs
  have hmono : r * (bs * nb) + bs * nb ≤ bs * nb * W := by
    have : (r + 1) * (bs * nb) ≤ W * (bs * nb) := Nat.mul_le_mul_right _ hr
    rw [Nat.add_mul, Nat.mul_comm W] at this
    omega
  have hlast : r + 1 = W → r * (bs * nb) + bs * nb = bs * nb * W := by
    rintro rfl
    grind
  have : bs * ((ivs.map Interval.size).sum / (bs * W)) = bs * nb := rfl
  rw [this] at hsum hl1 hl2
  split at hsum
  · rename_i h
    have := hlast h.2
    omega
  · omega

/-- **C41.** The length reported for a rank is the number of samples its workers receive. -/
theorem c41_len_is_delivered (ws : List (List Piece)) (r nw : Nat) :
    shuffleLen ws r nw = (rankSamples ws r nw).length := shuffleLen_eq ws r nw

/-- **C41, closed form.** `len` for each rank, in terms of the dataset only. -/
theorem c41_len_closed_form (W : Nat) (idx : List Nat) (ivs : List Interval) (dl : Bool) (nw bs : Nat)
    (hW : 0 < W) (hnw : 0 < nw) (hbs : 0 < bs) (hlen : idx.length = ivs.length) :
    ∃ ws, associate W idx ivs dl nw bs = .ok ws ∧
      let n := (datasetSamples idx ivs).length
      let q := bs * (n / (bs * W))
      ∀ r < W, shuffleLen ws r nw = if dl = false ∧ r + 1 = W then n - r * q else q := by
  cases dl with
  | true =>
    obtain ⟨ws, h1, h2, _⟩ := c02_drop_last_equal_ranks W idx ivs nw bs hW hnw hbs hlen
    refine ⟨ws, h1, ?_⟩
    intro n q r hr
    rw [shuffleLen_eq, (h2 r hr).1]
    simp [q, n]
  | false =>
    obtain ⟨ws, h1, h2, h3⟩ := associate_spec W idx ivs false nw bs hW hnw hbs
    refine ⟨ws, h1, ?_⟩
    intro n q r hr
    have hN := datasetSamples_length idx ivs hlen
    have hq : bs * ((ivs.map Interval.size).sum / (bs * W)) = q := by simp [q, n, hN]
    have e := rank_samples_eq W idx ivs false nw bs hnw r hr ws h3
    rw [shuffleLen_eq, e, List.length_take, List.length_drop, hq, ← hN]
    obtain ⟨hl1, hl2⟩ := left_lt (ivs.map Interval.size).sum bs W hW hbs
    rw [hq, ← hN] at hl1 hl2
    have hmono : r * q + q ≤ q * W := by
      have : (r + 1) * q ≤ W * q := Nat.mul_le_mul_right _ hr
      rw [Nat.add_mul, Nat.mul_comm W q] at this
      omega
    have hlast : r + 1 = W → r * q + q = q * W := by rintro rfl; grind
    show min _ (n - r * q) = _
    have : n = (datasetSamples idx ivs).length := rfl
    split
    · rename_i h
      have := hlast h.2
      omega
    · omega

/-! ### The hypotheses can be met: 3 chunks of 5, 4 and 7 samples, 2 ranks, 2 workers, batches of 3. -/

def demoIntervals : List Interval := [⟨0,0,5,5⟩, ⟨5,6,9,10⟩, ⟨10,10,17,17⟩]

example : ∃ ws, associate 2 [0,1,2] demoIntervals false 2 3 = .ok ws ∧
    ws.flatMap samples = datasetSamples [0,1,2] demoIntervals ∧ (datasetSamples [0,1,2] demoIntervals).length = 15 := by
  refine ⟨_, rfl, ?_, ?_⟩ <;> decide

example : (associate 2 [0,1,2] demoIntervals true 2 3).toOption.map (fun ws => ws.map (fun ps => (samples ps).length))
    = some [3, 3, 3, 3] := by decide

example : (associate 2 [0,1,2] demoIntervals false 2 3).toOption.map (fun ws => ws.map (fun ps => (samples ps).length))
    = some [3, 3, 6, 3] := by decide

end LitData.Props
