import Verif.Lemmas.CombinedLoader

/-! C66: a loader over a combined dataset goes on with the samples that each worker has left. -/

namespace LitData.Props

open LitData

/-- How often the first `m` choices fall on dataset `d`. -/
def timesChosen (cfg : CombinedConfig) (weights : List Nat) (m d : Nat) : Nat :=
  ((List.range m).filter fun j => cfg.rng j (List.range weights.length) weights == d).length

/-- A worker that has taken `m` samples: its iterator, and what it has taken of each dataset. -/
theorem stopped_spec {α : Type} (cfg : CombinedConfig) (hf : FairRng cfg.rng) (hb : cfg.batching = .stratified) (weights : List Nat) (hw : 0 < weights.sum)
    (streams : List (List α)) (hl : weights.length = streams.length) (st st' : CombinedState α) (m : Nat) (out : List (Nat × α))
    (hi : combinedInit cfg weights streams none = .ok st) (ht : takeFirst cfg m st = (out, none, st')) :
    FirstInv weights st' ∧ st'.calls = st'.yielded.sum ∧ st'.cur = none ∧ st'.inBatch = 0 ∧ out.length = m ∧
      (∀ (d : Nat) (s : List α), streams[d]? = some s → st'.streams[d]? = some (s.drop (st'.yielded.getD d 0)) ∧ st'.yielded.getD d 0 ≤ s.length) ∧
      (∀ d, d < weights.length → st'.yielded.getD d 0 = timesChosen cfg weights m d) := by
  have hst : (⟨streams, (List.range streams.length).map some, weights.map some, List.replicate streams.length 0, 0, 0, none⟩ : CombinedState α) = st := by
    have := hi; unfold combinedInit at this; injection this
  have hinv : FirstInv weights st := by rw [← hst]; exact ⟨by rw [hl], rfl, hl.symm, by simp [hl], by simp, hw⟩
  obtain ⟨out', e, st2, g1, g2, g3, g4, g5, g6, g7⟩ := takeFirst_ok cfg hf (by rw [hb]; simp) weights m st hinv
  rw [ht] at g1
  injection g1 with e1 g1
  injection g1 with e2 e3
  subst e1 e2 e3
  obtain ⟨k1, k2, k3⟩ := g7 hb
  have hlen : out.length = m := by
    rcases g4 with ⟨_, h⟩ | ⟨h, _⟩
    · exact h
    · simp at h
  have hcount : ∀ d, d < weights.length → st'.yielded.getD d 0 = (fromDataset d out).length := by
    intro d hd
    have := g2.counts d 0 (by rw [← hst]; simp [← hl, hd])
    rw [List.getD_eq_getElem?_getD, this, Nat.zero_add]
    rfl
  refine ⟨g3, ?_, by rw [k2, ← hst], by rw [k3, ← hst], hlen, ?_, ?_⟩
  · rw [k1, g2.sum_yielded hinv.lenY' g3.lenY' hinv.lenS, ← hst]
    simp
  · intro d s hs
    have hd : d < weights.length := by
      rw [hl]
      exact (List.getElem?_eq_some_iff.1 hs).1
    obtain ⟨s', h1, h2⟩ := g2.contrib d s (by rw [← hst]; exact hs)
    rw [hcount d hd, h1, h2, List.drop_left]
    exact ⟨rfl, by simp⟩
  · intro d hd
    have hc := g6 hb
    rw [hlen, show st.calls = 0 by rw [← hst], ← List.range_eq_range'] at hc
    have : (fromDataset d out).length = ((out.map (·.1)).filter fun j => j == d).length := by
      unfold fromDataset
      rw [List.filter_map, List.length_map, List.length_map]
      rfl
    rw [hcount d hd, this, hc, List.filter_map, List.length_map]
    rfl

theorem lookup_range {α : Type} (f : Nat → α) (i n : Nat) : ((List.range n).map fun j => (j, f j)).lookup i = if i < n then some (f i) else none := by
  have aux : ∀ l : List Nat, (l.map fun j => (j, f j)).lookup i = if i ∈ l then some (f i) else none := by
    intro l
    induction l with
    | nil => simp
    | cons a l ih =>
      rw [List.map_cons, List.lookup_cons]
      by_cases h : i = a
      · subst h; simp
      · have : (i == a) = false := by simpa using h
        rw [this, ih]
        simp [h]
  rw [aux]
  simp

/-- What all workers of a process together have delivered of dataset `d`. -/
def deliveredOf {α : Type} (nw : Nat) (stopped : Nat → CombinedState α) (d : Nat) : Nat :=
  ((List.range nw).map fun j => (stopped j).yielded.getD d 0).sum

/-- The streams of the datasets in worker `i` after it has gone on from a state, by the positions that `_replay_sampling` gives it. -/
def replayedStreams (sh : Shuffler) (epoch r nw bs i : Nat) (splits : List (List (List Piece))) (total : Nat → Nat) : List (List (Nat × Nat)) :=
  splits.mapIdx fun d ws => (ownStream sh epoch r nw i ws).drop (replayed (total d) bs nw i)

/-- The settings of a run: stratified choices that stop at the first finished dataset, over datasets that are split over `nw` workers. -/
structure CombinedRun where
  cfg : CombinedConfig
  weights : List Nat
  sh : Shuffler
  splits : List (List (List Piece))
  nw : Nat
  bs : Nat
  r : Nat
  fair : FairRng cfg.rng
  stratified : cfg.batching = .stratified
  weightsPos : 0 < weights.sum
  weightsLen : weights.length = splits.length
  shuffles : ∀ a n e k, (sh a n e k).Perm a
  workers : 0 < nw
  batch : 0 < bs
  split : ∀ ws ∈ splits, SplitFor nw bs r ws

/-- The loader `s` starts an epoch, and `k` batches are delivered by the workers in turn. Worker `i` starts with `start i` and has come to `stopped i`;
`counts i m` are its counters after its batch `m`; `saved` is the state of the loader. -/
structure StoppedRun (R : CombinedRun) (s : LoaderState) (k : Nat) (start stopped : Nat → CombinedState (Nat × Nat)) (out : Nat → List (Nat × (Nat × Nat)))
    (saved : LoaderDict) : Prop where
  fresh : s.restore = false
  init : ∀ i, i < R.nw → combinedIter R.cfg R.weights (R.splits.map (ownStream R.sh (s.epoch + 1) R.r R.nw i)) ⟨none⟩ i = .ok (start i)
  run : ∀ i, i < R.nw → takeFirst R.cfg (R.bs * Spec.visits k R.nw i) (start i) = (out i, none, stopped i)
  state : saved = loaderDict (((List.range k).map fun p => (takeFirst R.cfg (R.bs * (p / R.nw + 1)) (start (p % R.nw))).2.2.yielded).foldl
    (fun s c => loaderBatchCombined R.nw c s) (loaderBegin s))

theorem visits_zero_of_le (k nw i : Nat) (hi : i < nw) (h : k ≤ i) : Spec.visits k nw i = 0 := by
  rw [visits_eq k nw i (by omega) hi, Nat.div_eq_of_lt (by omega), Nat.mod_eq_of_lt (by omega), if_neg (by omega)]

theorem stopped_state (R : CombinedRun) {s : LoaderState} {k : Nat} {start stopped : Nat → CombinedState (Nat × Nat)} {out : Nat → List (Nat × (Nat × Nat))}
    {saved : LoaderDict} (h : StoppedRun R s k start stopped out saved) :
    saved.epoch = s.epoch + 1 ∧ saved.yieldedCombined = (List.range (min k R.nw)).map fun i => (i, (stopped i).yielded) := by
  refine ⟨by rw [h.state]; exact saved_epoch _ _ _ h.fresh, ?_⟩
  rw [h.state, saved_counts R.nw R.workers (fun i m => (takeFirst R.cfg (R.bs * m) (start i)).2.2.yielded) s h.fresh k]
  apply List.map_congr_left
  intro i hi
  have := List.mem_range.1 hi
  simp only [h.run i (by omega)]

theorem stopped_worker (R : CombinedRun) {s : LoaderState} {k : Nat} {start stopped : Nat → CombinedState (Nat × Nat)} {out : Nat → List (Nat × (Nat × Nat))}
    {saved : LoaderDict} (h : StoppedRun R s k start stopped out saved) (i : Nat) (hi : i < R.nw) :
    FirstInv R.weights (stopped i) ∧ (stopped i).calls = (stopped i).yielded.sum ∧ (stopped i).cur = none ∧ (stopped i).inBatch = 0 ∧
      (out i).length = R.bs * Spec.visits k R.nw i ∧
      (∀ (d : Nat) (xs : List (Nat × Nat)), (R.splits.map (ownStream R.sh (s.epoch + 1) R.r R.nw i))[d]? = some xs →
        (stopped i).streams[d]? = some (xs.drop ((stopped i).yielded.getD d 0)) ∧ (stopped i).yielded.getD d 0 ≤ xs.length) ∧
      (∀ d, d < R.weights.length → (stopped i).yielded.getD d 0 = timesChosen R.cfg R.weights (R.bs * Spec.visits k R.nw i) d) :=
  stopped_spec R.cfg R.fair R.stratified R.weights R.weightsPos (R.splits.map (ownStream R.sh (s.epoch + 1) R.r R.nw i)) (by rw [R.weightsLen, List.length_map])
    (start i) (stopped i) (R.bs * Spec.visits k R.nw i) (out i) ((combinedIter_eq _ _ _ _ _ R.weightsPos).symm.trans (h.init i hi)) (h.run i hi)

theorem stopped_total (R : CombinedRun) {s : LoaderState} {k : Nat} {start stopped : Nat → CombinedState (Nat × Nat)} {out : Nat → List (Nat × (Nat × Nat))}
    {saved : LoaderDict} (h : StoppedRun R s k start stopped out saved) :
    combinedTotals R.splits.length saved.yieldedCombined = (List.range R.splits.length).map (deliveredOf R.nw stopped) := by
  rw [combinedTotals_eq, (stopped_state R h).2]
  apply List.map_congr_left
  intro d hd
  have hd' := List.mem_range.1 hd
  rw [List.map_map]
  unfold deliveredOf
  have aux : ∀ n, min k R.nw ≤ n → n ≤ R.nw →
      ((List.range n).map fun j => (stopped j).yielded.getD d 0).sum = ((List.range (min k R.nw)).map fun j => (stopped j).yielded.getD d 0).sum := by
    intro n
    induction n with
    | zero => intro h1 _; rw [Nat.le_zero.1 h1]
    | succ n ih =>
      intro h1 h2
      by_cases e : min k R.nw = n + 1
      · rw [e]
      · rw [List.range_succ, List.map_append, List.sum_append, ih (by omega) (by omega)]
        have hz := (stopped_worker R h n (by omega)).2.2.2.2.2.2 d (by rw [R.weightsLen]; exact hd')
        rw [visits_zero_of_le k R.nw n (by omega) (by omega), Nat.mul_zero] at hz
        simp only [List.map_cons, List.map_nil, hz]
        simp [timesChosen]
  exact (aux R.nw (by omega) (Nat.le_refl _)).symm

/-- **C66, what happens.** After any number of batches, the iterator of worker `i` in a loader that goes on from the state has the counters and random
choices of the stopped one, but each dataset goes on where `_replay_sampling` puts this worker for the total over all workers. If it puts the worker
at or behind the end of a dataset, `IndexError` is raised. -/
theorem c66_resumed (R : CombinedRun) (s : LoaderState) (k : Nat) (start stopped : Nat → CombinedState (Nat × Nat)) (out : Nat → List (Nat × (Nat × Nat)))
    (saved : LoaderDict) (h : StoppedRun R s k start stopped out saved) (i : Nat) (hi : i < R.nw) :
    (AllLeft R.sh (s.epoch + 1) R.r R.nw R.bs i R.splits (deliveredOf R.nw stopped) →
      combinedResumed R.cfg R.weights R.sh R.splits R.r R.nw R.bs saved i =
        .ok { stopped i with streams := replayedStreams R.sh (s.epoch + 1) R.r R.nw R.bs i R.splits (deliveredOf R.nw stopped) }) ∧
    (¬ AllLeft R.sh (s.epoch + 1) R.r R.nw R.bs i R.splits (deliveredOf R.nw stopped) →
      combinedResumed R.cfg R.weights R.sh R.splits R.r R.nw R.bs saved i = .error .indexError) := by
  obtain ⟨e1, e2⟩ := stopped_state R h
  obtain ⟨g1, g2⟩ := resumedStreams_eq R.sh R.shuffles (s.epoch + 1) R.r R.nw R.bs i hi R.batch R.splits (deliveredOf R.nw stopped) R.split
  unfold combinedResumed
  rw [stopped_total R h, e1]
  refine ⟨fun hleft => ?_, fun hleft => by rw [g2 hleft]⟩
  rw [g1 hleft]
  show combinedIter _ _ (replayedStreams R.sh (s.epoch + 1) R.r R.nw R.bs i R.splits (deliveredOf R.nw stopped)) _ _ = _
  have hX : (replayedStreams R.sh (s.epoch + 1) R.r R.nw R.bs i R.splits (deliveredOf R.nw stopped)).length = R.weights.length := by
    rw [R.weightsLen]; simp [replayedStreams]
  generalize replayedStreams R.sh (s.epoch + 1) R.r R.nw R.bs i R.splits (deliveredOf R.nw stopped) = X at *
  obtain ⟨w1, w2, w3, w4, w5, w6, w7⟩ := stopped_worker R h i hi
  rw [combinedIter_eq _ _ _ _ _ R.weightsPos, e2]
  simp only [lookup_range]
  by_cases hik : i < min k R.nw
  · rw [if_pos hik]
    exact combinedInit_resume R.cfg R.weights { stopped i with streams := X } ⟨w1.idx, w1.wts, hX, w1.lenY', w1.curOk', w1.pos⟩ w2 w3 w4
  · rw [if_neg hik]
    have hr := h.run i hi
    have hin := h.init i hi
    rw [visits_zero_of_le k R.nw i hi (by omega), Nat.mul_zero] at hr
    unfold takeFirst at hr
    injection hr with _ hr
    injection hr with _ hr
    rw [combinedIter_eq _ _ _ _ _ R.weightsPos] at hin
    unfold combinedInit at hin
    injection hin with hin
    rw [← hr, ← hin]
    unfold combinedInit
    simp only [hX, List.length_map, R.weightsLen]

/-- **C66, when it is right.** A worker goes on with exactly the iterator it had iff for every dataset the position found by `_replay_sampling` is the
number of samples the worker itself has taken of it. -/
theorem c66_right_iff (R : CombinedRun) (s : LoaderState) (k : Nat) (start stopped : Nat → CombinedState (Nat × Nat)) (out : Nat → List (Nat × (Nat × Nat)))
    (saved : LoaderDict) (h : StoppedRun R s k start stopped out saved) (i : Nat) (hi : i < R.nw)
    (hleft : AllLeft R.sh (s.epoch + 1) R.r R.nw R.bs i R.splits (deliveredOf R.nw stopped)) :
    combinedResumed R.cfg R.weights R.sh R.splits R.r R.nw R.bs saved i = .ok (stopped i) ↔
      ∀ d, d < R.splits.length → replayed (deliveredOf R.nw stopped d) R.bs R.nw i = (stopped i).yielded.getD d 0 := by
  rw [(c66_resumed R s k start stopped out saved h i hi).1 hleft]
  obtain ⟨w1, w2, w3, w4, w5, w6, w7⟩ := stopped_worker R h i hi
  have hget : ∀ d (hd : d < R.splits.length), (stopped i).streams[d]? =
      some ((ownStream R.sh (s.epoch + 1) R.r R.nw i R.splits[d]).drop ((stopped i).yielded.getD d 0)) ∧
      (stopped i).yielded.getD d 0 ≤ (ownStream R.sh (s.epoch + 1) R.r R.nw i R.splits[d]).length := by
    intro d hd
    exact w6 d _ (by rw [List.getElem?_map, List.getElem?_eq_getElem hd]; rfl)
  constructor
  · intro e d hd
    injection e with e
    have e := congrArg (fun st => CombinedState.streams st) e
    simp only at e
    have ed := congrArg (fun l => l[d]?) e
    simp only [replayedStreams, List.getElem?_mapIdx, List.getElem?_eq_getElem hd, Option.map_some, (hget d hd).1] at ed
    injection ed with ed
    have ed := congrArg List.length ed
    rw [List.length_drop, List.length_drop] at ed
    have := hleft d _ (List.getElem?_eq_getElem hd)
    have := (hget d hd).2
    omega
  · intro hall
    have : replayedStreams R.sh (s.epoch + 1) R.r R.nw R.bs i R.splits (deliveredOf R.nw stopped) = (stopped i).streams := by
      apply List.ext_getElem?
      intro d
      by_cases hd : d < R.splits.length
      · rw [(hget d hd).1, ← hall d hd]
        simp [replayedStreams, List.getElem?_eq_getElem hd]
      · rw [List.getElem?_eq_none (by simp [replayedStreams]; omega), List.getElem?_eq_none (by rw [w1.lenS, R.weightsLen]; omega)]
    rw [this]

theorem exists_lt_of_sum {n : Nat} (f g : Nat → Nat) (h : ((List.range n).map f).sum = ((List.range n).map g).sum) (i : Nat) (hi : i < n) (hne : f i < g i) :
    ∃ j, j < n ∧ g j < f j := by
  have aux : ∀ m, (∀ j, j < m → f j ≤ g j) → ((List.range m).map f).sum ≤ ((List.range m).map g).sum ∧
      (i < m → ((List.range m).map f).sum < ((List.range m).map g).sum) := by
    intro m
    induction m with
    | zero => intro _; exact ⟨by simp, by omega⟩
    | succ m ih =>
      intro hj
      obtain ⟨h1, h2⟩ := ih fun j hj' => hj j (by omega)
      have := hj m (by omega)
      rw [List.range_succ, List.map_append, List.sum_append, List.map_append, List.sum_append]
      simp only [List.map_cons, List.map_nil, List.sum_cons, List.sum_nil]
      refine ⟨by omega, fun him => ?_⟩
      by_cases e : i = m
      · subst e; omega
      · have := h2 (by omega); omega
  apply Classical.byContradiction
  intro hno
  have := (aux n fun j hj => Nat.le_of_not_lt fun hlt => hno ⟨j, hj, hlt⟩).2 hi
  omega

/-- **C66, what goes wrong.** If for some worker and dataset the position is not the right one, then some worker delivers again a sample of this dataset
that it has delivered before, and some worker leaves out one that it has not delivered. -/
theorem c66_lost_and_repeated (R : CombinedRun) (s : LoaderState) (k : Nat) (start stopped : Nat → CombinedState (Nat × Nat))
    (out : Nat → List (Nat × (Nat × Nat))) (saved : LoaderDict) (_h : StoppedRun R s k start stopped out saved) (d i : Nat) (hi : i < R.nw)
    (hne : replayed (deliveredOf R.nw stopped d) R.bs R.nw i ≠ (stopped i).yielded.getD d 0) :
    (∃ j, j < R.nw ∧ replayed (deliveredOf R.nw stopped d) R.bs R.nw j < (stopped j).yielded.getD d 0) ∧
      (∃ j, j < R.nw ∧ (stopped j).yielded.getD d 0 < replayed (deliveredOf R.nw stopped d) R.bs R.nw j) := by
  have ht : ((List.range R.nw).map fun j => replayed (deliveredOf R.nw stopped d) R.bs R.nw j).sum =
      ((List.range R.nw).map fun j => (stopped j).yielded.getD d 0).sum := replayed_total _ _ _ R.workers
  rcases Nat.lt_or_gt_of_ne hne with h | h
  · exact ⟨⟨i, hi, h⟩, exists_lt_of_sum _ _ ht i hi h⟩
  · exact ⟨exists_lt_of_sum _ _ ht.symm i hi h, ⟨i, hi, h⟩⟩

theorem sum_visits (k nw : Nat) (hnw : 0 < nw) (f : Nat → Nat) :
    ((List.range nw).map fun j => f (Spec.visits k nw j)).sum = (k % nw) * f (k / nw + 1) + (nw - k % nw) * f (k / nw) := by
  have aux : ∀ m, m ≤ nw → ((List.range m).map fun j => f (Spec.visits k nw j)).sum =
      min m (k % nw) * f (k / nw + 1) + (m - k % nw) * f (k / nw) := by
    intro m
    induction m with
    | zero => intro _; simp
    | succ m ih =>
      intro hm
      rw [List.range_succ, List.map_append, List.sum_append, ih (by omega)]
      simp only [List.map_cons, List.map_nil, List.sum_cons, List.sum_nil, Nat.add_zero]
      rw [visits_eq k nw m hnw (by omega)]
      by_cases h : m < k % nw
      · rw [if_pos h, show min (m + 1) (k % nw) = min m (k % nw) + 1 by omega, show m + 1 - k % nw = m - k % nw by omega, Nat.succ_mul]
        omega
      · rw [if_neg h, show min (m + 1) (k % nw) = min m (k % nw) by omega, show m + 1 - k % nw = m - k % nw + 1 by omega, Nat.succ_mul]
        simp only [Nat.add_zero]
        omega
  rw [aux nw (Nat.le_refl _), show min nw (k % nw) = k % nw from Nat.min_eq_right (Nat.le_of_lt (Nat.mod_lt k hnw))]

theorem stopped_delivered (R : CombinedRun) {s : LoaderState} {k : Nat} {start stopped : Nat → CombinedState (Nat × Nat)} {out : Nat → List (Nat × (Nat × Nat))}
    {saved : LoaderDict} (h : StoppedRun R s k start stopped out saved) (d : Nat) (hd : d < R.splits.length) :
    deliveredOf R.nw stopped d = (k % R.nw) * timesChosen R.cfg R.weights (R.bs * (k / R.nw + 1)) d +
      (R.nw - k % R.nw) * timesChosen R.cfg R.weights (R.bs * (k / R.nw)) d := by
  rw [← sum_visits k R.nw R.workers (fun m => timesChosen R.cfg R.weights (R.bs * m) d)]
  unfold deliveredOf
  congr 1
  apply List.map_congr_left
  intro j hj
  exact (stopped_worker R h j (List.mem_range.1 hj)).2.2.2.2.2.2 d (by rw [R.weightsLen]; exact hd)

theorem right_left (R : CombinedRun) {s : LoaderState} {k : Nat} {start stopped : Nat → CombinedState (Nat × Nat)} {out : Nat → List (Nat × (Nat × Nat))}
    {saved : LoaderDict} (h : StoppedRun R s k start stopped out saved) (i : Nat) (hi : i < R.nw) (hleft : ∀ xs ∈ (stopped i).streams, xs ≠ [])
    (hr : ∀ d, d < R.splits.length → replayed (deliveredOf R.nw stopped d) R.bs R.nw i = (stopped i).yielded.getD d 0) :
    combinedResumed R.cfg R.weights R.sh R.splits R.r R.nw R.bs saved i = .ok (stopped i) := by
  refine (c66_right_iff R s k start stopped out saved h i hi ?_).2 hr
  intro d ws hd
  have hd' : d < R.splits.length := (List.getElem?_eq_some_iff.1 hd).1
  rw [hr d hd']
  obtain ⟨w1, w2⟩ := (stopped_worker R h i hi).2.2.2.2.2.1 d _ (by rw [List.getElem?_map, hd]; rfl)
  have := hleft _ (List.mem_of_getElem? w1)
  rw [← List.length_pos_iff, List.length_drop] at this
  omega

/-- **C66, one worker.** With one worker, any batch size and any number of datasets, a loader goes on exactly where it stopped, as long as every dataset has
samples left. -/
theorem c66_one_worker (R : CombinedRun) (h1 : R.nw = 1) (s : LoaderState) (k : Nat) (start stopped : Nat → CombinedState (Nat × Nat))
    (out : Nat → List (Nat × (Nat × Nat))) (saved : LoaderDict) (h : StoppedRun R s k start stopped out saved)
    (hleft : ∀ xs ∈ (stopped 0).streams, xs ≠ []) :
    combinedResumed R.cfg R.weights R.sh R.splits R.r R.nw R.bs saved 0 = .ok (stopped 0) := by
  refine right_left R h 0 R.workers hleft fun d hd => ?_
  have e : ∀ n, replayed n R.bs 1 0 = n := by
    intro n
    unfold replayed
    rw [visits_eq _ _ _ (by omega) (by omega)]
    simp only [Nat.div_one, Nat.mod_one, Nat.lt_irrefl, if_false, Nat.add_zero, if_true]
    exact Nat.div_add_mod n R.bs
  rw [h1, e]
  simp [deliveredOf]

theorem timesChosen_succ (cfg : CombinedConfig) (weights : List Nat) (m d : Nat) :
    timesChosen cfg weights (m + 1) d = timesChosen cfg weights m d ∨ timesChosen cfg weights (m + 1) d = timesChosen cfg weights m d + 1 := by
  unfold timesChosen
  rw [List.range_succ, List.filter_append, List.length_append]
  by_cases h : cfg.rng m (List.range weights.length) weights = d <;> simp [h]

/-- **C66, batches of one sample.** With batches of one sample, any number of workers and any number of datasets, every worker goes on exactly where it
stopped, as long as every dataset has samples left in it. -/
theorem c66_batch_one (R : CombinedRun) (h1 : R.bs = 1) (s : LoaderState) (k : Nat) (start stopped : Nat → CombinedState (Nat × Nat))
    (out : Nat → List (Nat × (Nat × Nat))) (saved : LoaderDict) (h : StoppedRun R s k start stopped out saved) (i : Nat) (hi : i < R.nw)
    (hleft : ∀ xs ∈ (stopped i).streams, xs ≠ []) :
    combinedResumed R.cfg R.weights R.sh R.splits R.r R.nw R.bs saved i = .ok (stopped i) := by
  refine right_left R h i hi hleft fun d hd => ?_
  rw [(stopped_worker R h i hi).2.2.2.2.2.2 d (by rw [R.weightsLen]; exact hd), stopped_delivered R h d hd, h1]
  unfold replayed
  simp only [Nat.div_one, Nat.mod_one, Nat.one_mul, ite_self, Nat.add_zero]
  have hm := Nat.mod_lt k R.workers
  rw [visits_eq _ _ _ R.workers hi, visits_eq k _ _ R.workers hi]
  generalize k / R.nw = q
  generalize k % R.nw = t at *
  generalize hnw : R.nw = nw at *
  have hsub : ∀ a, t * a + (nw - t) * a = nw * a := by intro a; rw [← Nat.add_mul]; congr 1; omega
  rcases timesChosen_succ R.cfg R.weights q d with e | e
  · rw [e, hsub, Nat.mul_comm nw, Nat.mul_div_cancel _ (by omega), Nat.mul_mod_left]
    rw [if_neg (Nat.not_lt_zero _)]
    split
    · rw [e]; rfl
    · rfl
  · rw [e, Nat.mul_add, Nat.mul_one, Nat.add_right_comm, hsub, Nat.mul_add_div (by omega), Nat.mul_add_mod, Nat.div_eq_of_lt hm, Nat.mod_eq_of_lt hm]
    split
    · first | rw [e] | simp
    · simp

/-- **C66, after full rounds.** When every worker has delivered the same number of batches, all workers go on where they stopped iff there is one worker or
each of them has taken a multiple of the batch size from every dataset. -/
theorem c66_rounds_iff (R : CombinedRun) (s : LoaderState) (q : Nat) (start stopped : Nat → CombinedState (Nat × Nat)) (out : Nat → List (Nat × (Nat × Nat)))
    (saved : LoaderDict) (h : StoppedRun R s (q * R.nw) start stopped out saved)
    (hleft : ∀ i, i < R.nw → AllLeft R.sh (s.epoch + 1) R.r R.nw R.bs i R.splits (deliveredOf R.nw stopped)) :
    (∀ i, i < R.nw → combinedResumed R.cfg R.weights R.sh R.splits R.r R.nw R.bs saved i = .ok (stopped i)) ↔
      R.nw = 1 ∨ ∀ d, d < R.splits.length → R.bs ∣ (stopped 0).yielded.getD d 0 := by
  have hown : ∀ d, d < R.splits.length → ∀ i, i < R.nw → (stopped i).yielded.getD d 0 = (stopped 0).yielded.getD d 0 := by
    intro d hd i hi
    rw [(stopped_worker R h i hi).2.2.2.2.2.2 d (by rw [R.weightsLen]; exact hd),
      (stopped_worker R h 0 R.workers).2.2.2.2.2.2 d (by rw [R.weightsLen]; exact hd), visits_eq _ _ _ R.workers hi, visits_eq _ _ _ R.workers R.workers,
      Nat.mul_mod_left]
    simp
  have htot : ∀ d, d < R.splits.length → deliveredOf R.nw stopped d = R.nw * (stopped 0).yielded.getD d 0 := by
    intro d hd
    unfold deliveredOf
    have aux : ∀ n, n ≤ R.nw → ((List.range n).map fun j => (stopped j).yielded.getD d 0).sum = n * (stopped 0).yielded.getD d 0 := by
      intro n
      induction n with
      | zero => intro _; simp
      | succ n ih =>
        intro hn
        rw [List.range_succ, List.map_append, List.sum_append, ih (by omega), Nat.succ_mul]
        simp only [List.map_cons, List.map_nil, List.sum_cons, List.sum_nil, Nat.add_zero]
        rw [hown d hd n (by omega)]
    exact aux R.nw (Nat.le_refl _)
  -- where `_replay_sampling` puts worker `i` when each worker has taken `a`
  have hpos : ∀ a i, i < R.nw → replayed (R.nw * a) R.bs R.nw i = R.bs * (a / R.bs) +
      (if i < R.nw * (a % R.bs) / R.bs then R.bs else if i = R.nw * (a % R.bs) / R.bs then R.nw * (a % R.bs) % R.bs else 0) := by
    intro a i hi
    have ha := Nat.div_add_mod a R.bs
    have hlt := Nat.mod_lt a R.batch
    generalize a / R.bs = m at *
    generalize a % R.bs = t at *
    have hu : R.nw * t / R.bs < R.nw := by
      rw [Nat.div_lt_iff_lt_mul R.batch]
      exact Nat.mul_lt_mul_of_pos_left hlt R.workers
    have e1 : R.nw * a = R.bs * (R.nw * m) + R.nw * t := by
      rw [← ha, Nat.mul_add, Nat.mul_left_comm]
    unfold replayed
    rw [show R.nw * a % R.bs = R.nw * t % R.bs by rw [e1, Nat.mul_add_mod], e1, Nat.mul_add_div R.batch, visits_eq _ _ _ R.workers hi, Nat.mul_add_div R.workers, Nat.mul_add_mod, Nat.div_eq_of_lt hu,
      Nat.mod_eq_of_lt hu, Nat.add_zero, Nat.mul_add]
    generalize R.nw * t / R.bs = u
    (repeat' split) <;> first | omega | (simp only [Nat.mul_zero, Nat.add_zero]; try omega)
  constructor
  · intro hall
    by_cases h1 : R.nw = 1
    · exact Or.inl h1
    · refine Or.inr fun d hd => ?_
      have hr := (c66_right_iff R s _ start stopped out saved h (R.nw - 1) (by have := R.workers; omega) (hleft _ (by have := R.workers; omega))).1
        (hall _ (by have := R.workers; omega)) d hd
      rw [hown d hd _ (by have := R.workers; omega), htot d hd, hpos _ _ (by have := R.workers; omega)] at hr
      generalize (stopped 0).yielded.getD d 0 = a at *
      have ha := Nat.div_add_mod a R.bs
      have hlt := Nat.mod_lt a R.batch
      apply Nat.dvd_of_mod_eq_zero
      generalize R.bs * (a / R.bs) = m at *
      generalize a % R.bs = t at *
      have hw := R.workers
      have hu : R.nw * t / R.bs < R.nw := by
        rw [Nat.div_lt_iff_lt_mul R.batch]
        exact Nat.mul_lt_mul_of_pos_left hlt R.workers
      rw [if_neg (by omega)] at hr
      split at hr
      · next hlast =>
        have hd2 := Nat.div_add_mod (R.nw * t) R.bs
        rw [← hlast] at hd2
        have : R.nw * t % R.bs = t := by omega
        rw [this] at hd2
        obtain ⟨n, hn⟩ : ∃ n, R.nw = n + 2 := ⟨R.nw - 2, by omega⟩
        rw [hn, show n + 2 - 1 = n + 1 by omega, show n + 2 = (n + 1) + 1 by omega, Nat.succ_mul] at hd2
        have := Nat.mul_lt_mul_of_pos_left hlt (show 0 < n + 1 by omega)
        rw [Nat.mul_comm R.bs] at hd2
        omega
      · omega
  · intro hor i hi
    rw [c66_right_iff R s _ start stopped out saved h i hi (hleft i hi)]
    intro d hd
    rw [hown d hd i hi, htot d hd, hpos _ _ hi]
    rcases hor with h1 | hdvd
    · have hi0 : i = 0 := by omega
      subst hi0
      rw [h1, Nat.one_mul, Nat.div_eq_of_lt (Nat.mod_lt _ R.batch), if_neg (by omega), if_pos rfl, Nat.mod_mod, Nat.div_add_mod]
    · have hz := Nat.mod_eq_zero_of_dvd (hdvd d hd)
      have ha := Nat.div_add_mod ((stopped 0).yielded.getD d 0) R.bs
      rw [hz] at ha ⊢
      simp only [Nat.mul_zero, Nat.zero_div, Nat.zero_mod, Nat.not_lt_zero, if_false, ite_self, Nat.add_zero] at *
      exact ha

/-- **C66, the rest of the run.** A worker that goes on with the iterator it had delivers exactly what it would have delivered without the stop, for as long
as one asks, up to the same exception. -/
theorem c66_continues (R : CombinedRun) (s : LoaderState) (k : Nat) (start stopped : Nat → CombinedState (Nat × Nat)) (out : Nat → List (Nat × (Nat × Nat)))
    (saved : LoaderDict) (h : StoppedRun R s k start stopped out saved) (i : Nat) (hi : i < R.nw) (rs : CombinedState (Nat × Nat))
    (_hr : combinedResumed R.cfg R.weights R.sh R.splits R.r R.nw R.bs saved i = .ok rs) (he : rs = stopped i) (m : Nat) :
    takeFirst R.cfg (R.bs * Spec.visits k R.nw i + m) (start i) = (out i ++ (takeFirst R.cfg m rs).1, (takeFirst R.cfg m rs).2) := by
  rw [he]
  exact takeFirst_append R.cfg _ m (start i) (stopped i) (out i) (h.run i hi) (stopped_worker R h i hi).2.2.2.2.1

/-! With `iterate_over_all`. -/

theorem takeAll_keeps_gone {α : Type} (cfg : CombinedConfig) (i fuel m : Nat) : ∀ (st st' : CombinedState α) (out : List (Nat × α)) (e : Option Err),
    takeAll cfg fuel m st = some (out, e, st') → st.indexes[i]? = some none → st'.indexes[i]? = some none := by
  induction m with
  | zero =>
    intro st st' out e h hi
    unfold takeAll at h
    injection h with h; injection h with _ h; injection h with _ h
    subst h
    exact hi
  | succ m ih =>
    intro st st' out e h hi
    unfold takeAll at h
    cases hn : nextAll cfg fuel st with
    | none => rw [hn] at h; simp at h
    | some r =>
      rw [hn] at h
      cases r with
      | error err =>
        simp only at h
        injection h with h; injection h with _ h; injection h with _ h
        subst h
        exact hi
      | ok p =>
        obtain ⟨x, st1⟩ := p
        simp only at h
        cases ht : takeAll cfg fuel m st1 with
        | none => rw [ht] at h; simp at h
        | some q =>
          obtain ⟨xs, e', st2⟩ := q
          rw [ht] at h
          simp only at h
          injection h with h; injection h with _ h; injection h with _ h
          subst h
          exact ih st1 st2 xs e' ht (nextAll_keeps_none cfg i fuel st st1 x hn hi)

theorem nextAll_is_first {α : Type} (cfg : CombinedConfig) (hf : FairRng cfg.rng) (hb : cfg.batching ≠ .other) (w : List Nat) (hw : 2 ≤ w.length)
    (fuel : Nat) (st st' : CombinedState α) (x : Nat × α) (hinv : FirstInv w st) (h : nextAll cfg fuel st = some (.ok (x, st')))
    (hnn : ∀ i : Nat, st'.indexes[i]? ≠ some none) : nextFirst cfg st = .ok (x, st') ∧ FirstInv w st' := by
  cases fuel with
  | zero => simp [nextAll] at h
  | succ fuel =>
    obtain ⟨d, st1, h1, h2, h3, h4, h5, _⟩ := getDatasetIndex_first cfg hf hb w st hinv
    have hleft : (present st.indexes).length = w.length := by rw [hinv.idx, present_map_some, List.length_range]
    unfold nextAll at h
    simp only [hleft, if_pos (show 1 < w.length by omega), h1] at h
    unfold nextFirst
    rw [h1]
    simp only
    have hd : d < st1.streams.length := by rw [h5.lenS]; exact h2
    cases hs : st1.streams[d]? with
    | none => rw [List.getElem?_eq_none_iff] at hs; omega
    | some xs =>
      cases xs with
      | nil =>
        exfalso
        have hg : getSample st1 d = .error .stopIteration := by unfold getSample; rw [hs]
        simp only [hg, if_neg (show ¬ w.length = 1 by omega)] at h
        unfold forgetDataset at h
        simp only at h
        split at h
        · simp at h
        · next heq =>
          split at heq
          · simp at heq
          · injection heq with heq
            refine hnn d (nextAll_keeps_none cfg d fuel _ _ x h ?_)
            rw [← heq]
            simp only
            rw [List.getElem?_set_self (by rw [h5.idx]; simpa using h2)]
      | cons y ys =>
        have hg : getSample st1 d = .ok ((d, y), { st1 with streams := st1.streams.set d ys, yielded := st1.yielded.modify d (· + 1) }) := by
          unfold getSample; rw [hs]
        simp only [hg] at h
        injection h with h
        injection h with h
        rw [hg, h]
        refine ⟨rfl, ?_⟩
        injection h with _ h
        rw [← h]
        exact ⟨h5.idx, h5.wts, by simp [h5.lenS], by simp [h5.lenY'], h5.curOk', h5.pos⟩

/-- As long as no dataset is finished, `iterate_over_all` makes no difference. -/
theorem takeAll_is_first {α : Type} (cfg : CombinedConfig) (hf : FairRng cfg.rng) (hb : cfg.batching ≠ .other) (w : List Nat) (hw : 2 ≤ w.length)
    (fuel m : Nat) : ∀ (st st' : CombinedState α) (out : List (Nat × α)), FirstInv w st → takeAll cfg fuel m st = some (out, none, st') →
    (∀ i : Nat, st'.indexes[i]? ≠ some none) →
    takeFirst cfg m st = (out, none, st') ∧
      ∀ j, j ≤ m → ∃ outj stj, takeAll cfg fuel j st = some (outj, none, stj) ∧ takeFirst cfg j st = (outj, none, stj) := by
  induction m with
  | zero =>
    intro st st' out hinv h hnn
    unfold takeAll at h
    injection h with h; injection h with h1 h; injection h with _ h
    subst h1 h
    refine ⟨rfl, fun j hj => ?_⟩
    rw [Nat.le_zero.1 hj]
    exact ⟨_, _, rfl, rfl⟩
  | succ m ih =>
    intro st st' out hinv h hnn
    unfold takeAll at h
    cases hn : nextAll cfg fuel st with
    | none => rw [hn] at h; simp at h
    | some r =>
      rw [hn] at h
      cases r with
      | error err => simp at h
      | ok p =>
        obtain ⟨x, st1⟩ := p
        simp only at h
        cases ht : takeAll cfg fuel m st1 with
        | none => rw [ht] at h; simp at h
        | some q =>
          obtain ⟨xs, e', st2⟩ := q
          rw [ht] at h
          simp only at h
          injection h with h; injection h with h1 h; injection h with h2 h
          subst h1 h h2
          have hnn1 : ∀ i : Nat, st1.indexes[i]? ≠ some none := fun i hi => hnn i (takeAll_keeps_gone cfg i fuel m st1 st2 xs none ht hi)
          obtain ⟨g1, g2⟩ := nextAll_is_first cfg hf hb w hw fuel st st1 x hinv hn hnn1
          obtain ⟨k1, k2⟩ := ih st1 st2 xs g2 ht hnn
          refine ⟨by unfold takeFirst; rw [g1]; simp only [k1], fun j hj => ?_⟩
          cases j with
          | zero => exact ⟨[], st, rfl, rfl⟩
          | succ j =>
            obtain ⟨oj, sj, j1, j2⟩ := k2 j (by omega)
            exact ⟨x :: oj, sj, by unfold takeAll; rw [hn]; simp only [j1], by unfold takeFirst; rw [g1]; simp only [j2]⟩

/-- As `StoppedRun`, with `iterate_over_all`. -/
structure StoppedAll (R : CombinedRun) (fuel : Nat) (s : LoaderState) (k : Nat) (start stopped : Nat → CombinedState (Nat × Nat))
    (out : Nat → List (Nat × (Nat × Nat))) (saved : LoaderDict) : Prop where
  fresh : s.restore = false
  init : ∀ i, i < R.nw → combinedIter R.cfg R.weights (R.splits.map (ownStream R.sh (s.epoch + 1) R.r R.nw i)) ⟨none⟩ i = .ok (start i)
  run : ∀ i, i < R.nw → takeAll R.cfg fuel (R.bs * Spec.visits k R.nw i) (start i) = some (out i, none, stopped i)
  state : saved = loaderDict (((List.range k).map fun p =>
      ((takeAll R.cfg fuel (R.bs * (p / R.nw + 1)) (start (p % R.nw))).map fun t => t.2.2.yielded).getD []).foldl
    (fun s c => loaderBatchCombined R.nw c s) (loaderBegin s))

theorem stopped_all (R : CombinedRun) (h2 : 2 ≤ R.splits.length) (hw : ∀ w ∈ R.weights, 0 < w) {fuel : Nat}
    (hfuel : R.splits.length * (R.cfg.batchSize + 2) + R.cfg.batchSize < fuel) {s : LoaderState} {k : Nat} {start stopped : Nat → CombinedState (Nat × Nat)}
    {out : Nat → List (Nat × (Nat × Nat))} {saved : LoaderDict} (h : StoppedAll R fuel s k start stopped out saved)
    (hleft : ∀ i, i < R.nw → ∀ xs ∈ (stopped i).streams, xs ≠ []) : StoppedRun R s k start stopped out saved := by
  have hwl : 2 ≤ R.weights.length := by rw [R.weightsLen]; exact h2
  have hfirst : ∀ i, i < R.nw → takeFirst R.cfg (R.bs * Spec.visits k R.nw i) (start i) = (out i, none, stopped i) ∧
      ∀ j, j ≤ R.bs * Spec.visits k R.nw i → ∃ outj stj, takeAll R.cfg fuel j (start i) = some (outj, none, stj) ∧
        takeFirst R.cfg j (start i) = (outj, none, stj) := by
    intro i hi
    have hin := h.init i hi
    rw [combinedIter_eq _ _ _ _ _ R.weightsPos] at hin
    simp only at hin
    have hst : (⟨R.splits.map (ownStream R.sh (s.epoch + 1) R.r R.nw i), (List.range R.splits.length).map some, R.weights.map some,
        List.replicate R.splits.length 0, 0, 0, none⟩ : CombinedState (Nat × Nat)) = start i := by
      have := hin
      unfold combinedInit at this
      injection this with this
      simpa using this
    have hinv : FirstInv R.weights (start i) := by
      rw [← hst]
      exact ⟨by rw [R.weightsLen], rfl, by simp [R.weightsLen], by simp [R.weightsLen], by simp, R.weightsPos⟩
    obtain ⟨st0, i1, i2, i3, i4⟩ := combinedInit_inv R.cfg R.weights (R.splits.map (ownStream R.sh (s.epoch + 1) R.r R.nw i))
      (by intro e; rw [List.map_eq_nil_iff] at e; rw [e] at h2; simp at h2) (by rw [R.weightsLen, List.length_map]) hw
    rw [hin] at i1
    injection i1 with i1
    subst i1
    obtain ⟨out', e, st3, g1, g2, g3, _⟩ := takeAll_ok R.cfg R.fair (by rw [R.stratified]; simp) fuel (R.bs * Spec.visits k R.nw i) (start i) i2
      (by rw [i3, List.length_map]; exact hfuel)
    rw [h.run i hi] at g1
    injection g1 with g1
    injection g1 with e1 g1
    injection g1 with e2 e3
    subst e1 e2 e3
    exact takeAll_is_first R.cfg R.fair (by rw [R.stratified]; simp) R.weights hwl fuel _ (start i) (stopped i) (out i) hinv (h.run i hi)
      fun j hj => hleft i hi [] (List.mem_of_getElem? (g3.gone j hj)) rfl
  refine ⟨h.fresh, h.init, fun i hi => (hfirst i hi).1, ?_⟩
  rw [h.state]
  congr 2
  apply List.map_congr_left
  intro p hp
  have hp' := List.mem_range.1 hp
  have hm := Nat.mod_lt p R.workers
  have hle : p / R.nw + 1 ≤ Spec.visits k R.nw (p % R.nw) := by
    rw [visits_eq k R.nw _ R.workers hm]
    have h1 := Nat.div_add_mod p R.nw
    have h2 := Nat.div_add_mod k R.nw
    have h3 := Nat.div_le_div_right (c := R.nw) (Nat.le_of_lt hp')
    by_cases e : p / R.nw = k / R.nw
    · rw [e] at h1
      rw [if_pos (by omega), e]
      exact Nat.le_refl _
    · omega
  obtain ⟨oj, sj, j1, j2⟩ := (hfirst _ hm).2 (R.bs * (p / R.nw + 1)) (Nat.mul_le_mul_left _ hle)
  rw [j1, j2]
  rfl

/-- **C66, `iterate_over_all`, batches of one sample.** As `c66_batch_one`. Loading the state sets the batch size of the datasets to 1
(`c65_load_resets`), which it was before. -/
theorem c66_all_batch_one (R : CombinedRun) (h1 : R.bs = 1) (h2 : 2 ≤ R.splits.length) (hw : ∀ w ∈ R.weights, 0 < w) (fuel : Nat)
    (hfuel : R.splits.length * (R.cfg.batchSize + 2) + R.cfg.batchSize < fuel) (s : LoaderState) (k : Nat)
    (start stopped : Nat → CombinedState (Nat × Nat)) (out : Nat → List (Nat × (Nat × Nat))) (saved : LoaderDict)
    (h : StoppedAll R fuel s k start stopped out saved) (hleft : ∀ i, i < R.nw → ∀ xs ∈ (stopped i).streams, xs ≠ []) (i : Nat) (hi : i < R.nw) :
    combinedResumed R.cfg R.weights R.sh R.splits R.r R.nw R.bs saved i = .ok (stopped i) :=
  c66_batch_one R h1 s k start stopped out saved (stopped_all R h2 hw hfuel h hleft) i hi (hleft i hi)

/-- On a single process with one worker the split does not depend on the batch size. -/
theorem split_alone (idx : List Nat) (ivs : List Interval) (bs : Nat) (hbs : 0 < bs) : associate 1 idx ivs false 1 bs = associate 1 idx ivs false 1 1 := by
  have hb : ∀ N b, 0 < b → itemsPerWorker N 1 1 b false = [N] := by
    intro N b hb
    have := Nat.div_add_mod N b
    have := Nat.mod_lt N hb
    have e : ∀ x : Nat, N - b * x + x * b = N ∨ N < b * x := by intro x; rw [Nat.mul_comm x]; omega
    have hle : b * (N / b) ≤ N := by omega
    simp only [itemsPerWorker, List.range_one, List.foldl_cons, List.foldl_nil, budgetStep, Nat.div_one, Nat.mod_one, Nat.not_lt_zero, if_false, Nat.add_zero,
      List.map_cons, List.map_nil, List.sum_nil, List.sum_cons, Nat.zero_add, Nat.sub_self, if_true, List.nil_append, Bool.not_false, Bool.true_and]
    by_cases h1 : b > 1
    · simp only [if_pos h1, List.nil_append]
      split
      · simp only [List.modify_zero_cons]
        congr 1
        rw [Nat.mul_comm (N / b)]
        omega
      · next h => simp only [decide_eq_true_eq] at h; congr 1; rw [Nat.mul_comm (N / b)]; omega
    · have : b = 1 := by omega
      subst this
      simp
  unfold associate
  simp only [if_neg (show ¬ bs = 0 by omega), if_neg (show ¬ (1 : Nat) = 0 by omega)]
  rw [hb _ bs hbs, hb _ 1 (by omega)]

/-- **C66, `iterate_over_all`, one worker.** On a single process with one worker and any batch size, a loader over datasets without `drop_last` goes on exactly where it
stopped, as long as every dataset has samples left. The datasets are split again after the batch size was set to 1. -/
theorem c66_all_one_worker (R : CombinedRun) (h1 : R.nw = 1) (h2 : 2 ≤ R.splits.length) (hw : ∀ w ∈ R.weights, 0 < w) (fuel : Nat)
    (chunks : List (List Nat × List Interval)) (hsplit : chunks.mapM (fun c => associate 1 c.1 c.2 false 1 R.bs) = .ok R.splits)
    (again : List (List (List Piece))) (hagain : chunks.mapM (fun c => associate 1 c.1 c.2 false 1 1) = .ok again)
    (hfuel : R.splits.length * (R.cfg.batchSize + 2) + R.cfg.batchSize < fuel) (s : LoaderState) (k : Nat)
    (start stopped : Nat → CombinedState (Nat × Nat)) (out : Nat → List (Nat × (Nat × Nat))) (saved : LoaderDict)
    (h : StoppedAll R fuel s k start stopped out saved) (hleft : ∀ xs ∈ (stopped 0).streams, xs ≠ []) :
    combinedResumed R.cfg R.weights R.sh again R.r R.nw R.bs saved 0 = .ok (stopped 0) := by
  have : again = R.splits := by
    rw [show (fun c : List Nat × List Interval => associate 1 c.1 c.2 false 1 R.bs) = fun c => associate 1 c.1 c.2 false 1 1 from
      funext fun c => split_alone c.1 c.2 R.bs R.batch, hagain] at hsplit
    injection hsplit
  rw [this]
  exact c66_one_worker R h1 s k start stopped out saved (stopped_all R h2 hw hfuel h fun i hi => by
    have : i = 0 := by omega
    subst this; exact hleft) hleft

/-- **C66 fails: a dataset without samples for a worker.** If a dataset is so small that a worker gets none of its samples, this worker cannot go on from any
state. -/
theorem c66_empty_share_raises (R : CombinedRun) (s : LoaderState) (k : Nat) (start stopped : Nat → CombinedState (Nat × Nat))
    (out : Nat → List (Nat × (Nat × Nat))) (saved : LoaderDict) (h : StoppedRun R s k start stopped out saved) (i : Nat) (hi : i < R.nw)
    (ws : List (List Piece)) (hws : ws ∈ R.splits) (hempty : ws.getD (R.r * R.nw + i) [] = []) :
    combinedResumed R.cfg R.weights R.sh R.splits R.r R.nw R.bs saved i = .error .indexError := by
  refine (c66_resumed R s k start stopped out saved h i hi).2 fun hall => ?_
  obtain ⟨d, hd⟩ := List.getElem?_of_mem hws
  have := hall d ws hd
  rw [(ownStream_eq R.sh R.shuffles (s.epoch + 1) R.r R.nw R.bs i hi ws (R.split ws hws)).2, hempty] at this
  simp [LitData.Spec.samples] at this

/-- The split of a dataset of one chunk with eight samples over two workers, for batches of `bs`. -/
def eightSplit (bs : Nat) : List (List Piece) := (associate 1 [0] [⟨0, 0, 8, 8⟩] false 2 bs).toOption.getD []

theorem eight_split (bs : Nat) (hbs : 0 < bs) : SplitFor 2 bs 0 (eightSplit bs) := by
  obtain ⟨ws, h1, _⟩ := associate_spec 1 [0] [⟨0, 0, 8, 8⟩] false 2 bs (by omega) (by omega) hbs
  exact ⟨1, [0], [⟨0, 0, 8, 8⟩], false, by rw [eightSplit, h1]; rfl, by omega⟩

/-- Two datasets of eight samples, chosen in turn, two workers, batches of `bs`. -/
def eightRun (bs : Nat) (hbs : 0 < bs) : CombinedRun where
  cfg := ⟨roundRng, .stratified, bs⟩
  weights := [1, 1]
  sh := noShuffler
  splits := [eightSplit bs, eightSplit bs]
  nw := 2
  bs := bs
  r := 0
  fair := roundRng_fair
  stratified := rfl
  weightsPos := by decide
  weightsLen := rfl
  shuffles := fun _ _ _ _ => List.Perm.refl _
  workers := by decide
  batch := hbs
  split := by
    intro ws hws
    simp only [List.mem_cons, List.not_mem_nil, or_false, or_self] at hws
    rw [hws]
    exact eight_split bs hbs

/-- The iterator of worker `i` at the start of the first epoch. -/
def eightStart (bs : Nat) (i : Nat) : CombinedState (Nat × Nat) :=
  ⟨[eightSplit bs, eightSplit bs].map (ownStream noShuffler 1 0 2 i), [some 0, some 1], [some 1, some 1], [0, 0], 0, 0, none⟩

/-- The iterator of worker `i` after `k` batches of the loader, and what it has delivered. -/
def eightStopped (bs k i : Nat) : CombinedState (Nat × Nat) := (takeFirst ⟨roundRng, .stratified, bs⟩ (bs * Spec.visits k 2 i) (eightStart bs i)).2.2
def eightOut (bs k i : Nat) : List (Nat × (Nat × Nat)) := (takeFirst ⟨roundRng, .stratified, bs⟩ (bs * Spec.visits k 2 i) (eightStart bs i)).1

/-- The state of the loader after `k` batches. -/
def eightSaved (bs k : Nat) : LoaderDict :=
  loaderDict (((List.range k).map fun p => (takeFirst ⟨roundRng, .stratified, bs⟩ (bs * (p / 2 + 1)) (eightStart bs (p % 2))).2.2.yielded).foldl
    (fun s c => loaderBatchCombined 2 c s) (loaderBegin newLoader))

theorem eight_stopped (bs : Nat) (hbs : 0 < bs) (k : Nat)
    (hrun : ∀ i, i < 2 → (takeFirst ⟨roundRng, .stratified, bs⟩ (bs * Spec.visits k 2 i) (eightStart bs i)).2.1 = none) :
    StoppedRun (eightRun bs hbs) newLoader k (eightStart bs) (eightStopped bs k) (eightOut bs k) (eightSaved bs k) := by
  refine ⟨rfl, fun i _ => rfl, fun i hi => ?_, rfl⟩
  show takeFirst ⟨roundRng, .stratified, bs⟩ (bs * Spec.visits k 2 i) (eightStart bs i) = _
  have := hrun i hi
  unfold eightOut eightStopped
  generalize takeFirst ⟨roundRng, .stratified, bs⟩ (bs * Spec.visits k 2 i) (eightStart bs i) = t at *
  rw [← this]

/-- Three batches of one sample: the two workers go on where they stopped. -/
example := c66_batch_one (eightRun 1 (by decide)) rfl newLoader 3 _ _ _ _ (eight_stopped 1 (by decide) 3 (by decide +kernel)) 1 (by decide) (by decide +kernel)

/-- The same with `iterate_over_all`. -/
example := c66_all_batch_one (eightRun 1 (by decide)) rfl (by decide) (by decide) 20 (by decide) newLoader 3 (eightStart 1) (eightStopped 1 3) (eightOut 1 3)
  (eightSaved 1 3) ⟨rfl, fun i _ => rfl, by
    intro i hi
    match i, hi with
    | 0, _ => decide +kernel
    | 1, _ => decide +kernel, by decide +kernel⟩ (by
    intro i hi
    match i, hi with
    | 0, _ => decide +kernel
    | 1, _ => decide +kernel) 0 (by decide)

/-- Four batches of two samples, two of each worker: each worker has taken two samples of each dataset, so that all go on where they stopped. -/
example := (c66_rounds_iff (eightRun 2 (by decide)) newLoader 2 _ _ _ _ (eight_stopped 2 (by decide) 4 (by decide +kernel)) (by
  intro i hi d ws hd
  match d, hd with
  | 0, hd | 1, hd =>
    have : ws = eightSplit 2 := by simpa [eightRun] using hd.symm
    subst this
    match i, hi with
    | 0, _ | 1, _ => decide +kernel)).2 (Or.inr (by
  intro d hd
  match d, hd with
  | 0, _ | 1, _ => exact ⟨1, by decide +kernel⟩))

/-- **C66 fails: several workers and batches of several samples.** Two datasets of eight samples, two workers, batches of two. After one batch of each worker, each has
taken one sample of each dataset: samples 0 and 4. The loader goes on with sample 2 in worker 0, so that sample 1 is lost, and with sample 4 in worker 1, which
is delivered twice. -/
theorem c66_two_workers :
    StoppedRun (eightRun 2 (by decide)) newLoader 2 (eightStart 2) (eightStopped 2 2) (eightOut 2 2) (eightSaved 2 2) ∧
      eightOut 2 2 0 = [(0, (0, 0)), (1, (0, 0))] ∧ eightOut 2 2 1 = [(0, (0, 4)), (1, (0, 4))] ∧
      ((combinedResumed ⟨roundRng, .stratified, 2⟩ [1, 1] noShuffler [eightSplit 2, eightSplit 2] 0 2 2 (eightSaved 2 2) 0).map CombinedState.streams) =
        .ok [[(0, 2), (0, 3)], [(0, 2), (0, 3)]] ∧
      ((combinedResumed ⟨roundRng, .stratified, 2⟩ [1, 1] noShuffler [eightSplit 2, eightSplit 2] 0 2 2 (eightSaved 2 2) 1).map CombinedState.streams) =
        .ok [[(0, 4), (0, 5), (0, 6), (0, 7)], [(0, 4), (0, 5), (0, 6), (0, 7)]] :=
  ⟨eight_stopped 2 (by decide) 2 (by decide +kernel), by decide +kernel, by decide +kernel, by decide +kernel, by decide +kernel⟩

/-- **C66 fails: `iterate_over_all` with batches of several samples.** A dataset of six samples for two workers is split 4 and 2 for batches of two. Loading a state sets
the batch size of the dataset to 1 (`c65_load_resets`), so that it is split 3 and 3 afterwards. After one batch of each worker, 0, 1 and 4, 5, the loader
goes on with 2 and 5: sample 3 is lost and 5 is delivered twice. -/
theorem c66_split_changes :
    ((associate 1 [0] [⟨0, 0, 6, 6⟩] false 2 2).map fun ws => [ownStream noShuffler 1 0 2 0 ws, ownStream noShuffler 1 0 2 1 ws]) =
        .ok [[(0, 0), (0, 1), (0, 2), (0, 3)], [(0, 4), (0, 5)]] ∧
      ((associate 1 [0] [⟨0, 0, 6, 6⟩] false 2 1).toOption.map fun ws =>
        [resumedStream noShuffler ws 0 2 0 4 2 1, resumedStream noShuffler ws 0 2 1 4 2 1]) = some [.ok [(0, 2)], .ok [(0, 5)]] :=
  ⟨by decide +kernel, by decide +kernel⟩

end LitData.Props
