import Verif.Props.LoaderIter
import Verif.Props.Dataset

/-! Property C21: the state of a `StreamingDataLoader`. -/

namespace LitData.Props
open LitData Spec

theorem batches_state (nw bs : Nat) : ∀ (k : Nat) (s : LoaderState), times (loaderBatch nw bs) k s =
    { s with latest := if k = 0 then s.latest else (s.cycle + (k - 1)) % cycleLength nw, cycle := s.cycle + k, yielded := s.yielded + k * bs } := by
  intro k
  induction k with
  | zero => intro s; simp [times]
  | succ k ih =>
    intro s
    unfold times
    rw [ih]
    simp only [loaderBatch, LoaderState.mk.injEq, true_and]
    refine ⟨by rw [Nat.add_mul]; omega, by omega, ?_, trivial⟩
    by_cases hk : k = 0
    · subst hk; simp
    · rw [if_neg hk, if_neg (by omega)]
      congr 1
      omega

theorem cycleLength_eq (nw : Nat) : cycleLength nw = max nw 1 := by unfold cycleLength; split <;> omega

/-- **C21.** Whatever was loaded, once an epoch has run to its end the next one starts afresh: the counters are zero, worker 0 is first,
and the epoch is the next. -/
theorem c21_next_epoch (nw bs k : Nat) (s : LoaderState) :
    loaderBegin (loaderEnd (times (loaderBatch nw bs) k (loaderBegin s))) =
      ⟨(times (loaderBatch nw bs) k (loaderBegin s)).epoch + 1, 0, [], 0, 0, false⟩ := by
  simp [loaderBegin, loaderEnd]

/-- **C21, what is recorded.** After `k` batches of an epoch the state holds the epoch, `k * batch_size` samples and the
worker that comes `k - 1` places after worker 0 in the rotation. -/
theorem c21_recorded (nw bs k : Nat) (s : LoaderState) (h : s.restore = false) :
    loaderDict (times (loaderBatch nw bs) k (loaderBegin s)) =
      ⟨s.epoch + 1, k * bs, [], if k = 0 then 0 else (k - 1) % max nw 1⟩ := by
  rw [← cycleLength_eq]
  unfold loaderBegin
  rw [h, batches_state]
  simp [loaderDict]

theorem visits_total (nw k : Nat) (hnw : 0 < nw) : ((List.range nw).map fun i => Spec.visits k nw i).sum = k := by
  induction k with
  | zero =>
    have : ∀ n, ((List.range n).map fun i => Spec.visits 0 nw i).sum = 0 := by
      intro n
      induction n with
      | zero => rfl
      | succ n ih => rw [List.range_succ, List.map_append, List.sum_append, ih]; simp [Spec.visits]
    exact this nw
  | succ k ih =>
    have hstep : ∀ i, Spec.visits (k + 1) nw i = Spec.visits k nw i + if k % nw = i then 1 else 0 := by
      intro i
      unfold Spec.visits
      rw [List.range_succ, List.filter_append, List.length_append]
      congr 1
      by_cases h : k % nw = i <;> simp [h]
    have hw : k % nw < nw := Nat.mod_lt _ hnw
    have hs := sum_upd nw (fun i => Spec.visits k nw i) (k % nw) (Spec.visits k nw (k % nw) + 1) hw
    have : ((List.range nw).map fun i => Spec.visits (k + 1) nw i) = (List.range nw).map (upd (fun i => Spec.visits k nw i) (k % nw) (Spec.visits k nw (k % nw) + 1)) := by
      apply List.map_congr_left
      intro i _
      rw [hstep]
      unfold upd
      by_cases h : i = k % nw
      · rw [if_pos h.symm, if_pos h, h]
      · rw [if_neg (fun e => h e.symm), if_neg h]; rfl
    rw [this]
    rw [ih] at hs
    omega

/-- When no worker has run out, `k` batches hold fewer samples than the workers have. -/
theorem batches_lt_total {α : Type} (streams : List (List α)) (hn : streams ≠ []) (bs k : Nat)
    (hleft : ∀ (i : Nat) (xs : List α), streams[i]? = some xs → bs * Spec.visits k streams.length i < xs.length) : k * bs < (streams.map List.length).sum := by
  have hnw : 0 < streams.length := List.length_pos_iff.2 hn
  have h1 : ((List.range streams.length).map fun i => bs * Spec.visits k streams.length i + 1).sum ≤ (streams.map List.length).sum := by
    have : streams.map List.length = (List.range streams.length).map fun i => ((streams[i]?).getD []).length := by
      apply List.ext_getElem
      · simp
      · intro i h1 h2
        simp at h1
        simp [h1]
    rw [this]
    have hle : ∀ (l : List Nat) (f g : Nat → Nat), (∀ i ∈ l, f i ≤ g i) → (l.map f).sum ≤ (l.map g).sum := by
      intro l f g
      induction l with
      | nil => intro _; exact Nat.le_refl _
      | cons a l ih =>
        intro h
        simp only [List.map_cons, List.sum_cons]
        have := h a (by simp)
        have := ih fun i hi => h i (by simp [hi])
        omega
    apply hle
    intro i hi
    have hi' := List.mem_range.1 hi
    have hg := List.getElem?_eq_getElem hi'
    have := hleft i _ hg
    rw [hg]
    exact this
  have h2 : ((List.range streams.length).map fun i => bs * Spec.visits k streams.length i + 1).sum = bs * k + streams.length := by
    have : ∀ l : List Nat, (l.map fun i => bs * Spec.visits k streams.length i + 1).sum = bs * (l.map fun i => Spec.visits k streams.length i).sum + l.length := by
      intro l
      induction l with
      | nil => simp
      | cons a l ih =>
        simp only [List.map_cons, List.sum_cons, List.length_cons, ih, Nat.mul_add]
        omega
    rw [this, visits_total _ _ hnw, List.length_range]
  rw [h2, Nat.mul_comm] at h1
  omega

/-- An execution that delivered `k` batches, no worker having run out, has delivered the first `k` visits. -/
theorem delivered_k {α : Type} (bs : Nat) (streams : List (List α)) (start k m : Nat) (hk : (delivered bs streams start k).length = k)
    (hm : (delivered bs streams start m).length = k) : delivered bs streams start m = delivered bs streams start k := by
  have hle : ∀ n, (delivered bs streams start n).length ≤ n := by
    intro n
    unfold delivered
    exact Nat.le_trans (List.length_filterMap_le _ _) (by simp)
  have hkm : k ≤ m := by have := hle m; omega
  obtain ⟨d, rfl⟩ : ∃ d, m = k + d := ⟨m - k, by omega⟩
  unfold delivered at hk hm ⊢
  rw [List.range_add, List.filterMap_append] at hm ⊢
  rw [List.length_append] at hm
  rw [List.eq_nil_of_length_eq_zero (show (((List.range d).map (k + ·)).filterMap (visit bs streams start)).length = 0 by omega), List.append_nil]

/-- **C21, restart.** Stop a loader in any execution after `k > 0` batches, with every worker having a sample left, and
load its state into a new loader. The new loader restores: it keeps the epoch, its first batch comes from the worker
after the one that gave the last batch, and in every execution of it, together with what was delivered before, the
batches are those of the uninterrupted rotation; when it stops nothing is missing. A state saved from the new
loader after a further batch is the one the uninterrupted loader would have saved. Every worker resumes with
the count the loader recorded. -/
theorem c21_restart_partial (sh : Shuffler) (hsh : ∀ a n e k, (sh a n e k).Perm a)
    (W : Nat) (idx : List Nat) (ivs : List Interval) (dl : Bool) (nw bs prefetch : Nat) (hbs : 0 < bs) (hnw : 0 < nw) (hp : 0 < prefetch)
    (ws : List (List Piece)) (h : associate W idx ivs dl nw bs = .ok ws) (r : Nat) (epoch k : Nat) (hk : 0 < k)
    (streams : List (List (Nat × Nat)))
    (hst : streams = (rankWorkers ws r nw).map fun ps => stream (fun j l => sh l ps.length (epoch + 1) j) 0 ps)
    (hlen : streams.length = nw)
    (hleft : ∀ i xs, streams[i]? = some xs → bs * Spec.visits k nw i < xs.length)
    -- the first run
    (s : LoaderState) (hs : s.restore = false) (hse : s.epoch = epoch) (es : List LoaderEvent) (first : LoaderIter (List (Nat × Nat)))
    (hfirst : first = loaderRun nw false (loaderStart nw prefetch (loaderBegin s).latest false (workerBatches bs streams)) es) (hout : first.out.length = k)
    (saved : LoaderDict) (hsaved : saved = loaderDict (times (loaderBatch nw bs) k (loaderBegin s)))
    -- the second loader
    (s2 : LoaderState) (hs2 : s2 = loaderBegin (loaderLoad (streams.map List.length).sum saved newLoader)) :
    s2.restore = true ∧ s2.epoch = epoch + 1 ∧
    ∃ resumed : List (List (Nat × Nat)), resumed.length = nw ∧
      (∀ i xs, resumed[i]? = some xs → ∃ st, resumeState sh ws r nw i saved.yielded bs nw saved.epoch = .ok st ∧
        ∃ ys st', runIter sh (xs.length + 1) st = .ok (ys, true, st') ∧ ys.map (fun c => (c.chunkIndex, c.index)) = xs) ∧
      ∀ (es' : List LoaderEvent) (second : LoaderIter (List (Nat × Nat))),
        second = loaderRun nw s2.restore (loaderStart nw prefetch s2.latest s2.restore (workerBatches bs resumed)) es' →
        (∃ m, first.out ++ second.out = delivered bs streams 0 m ∧ (second.finished = true → ∀ p, m ≤ p → visit bs streams 0 p = none)) ∧
        (second.out ≠ [] → loaderDict (times (loaderBatch nw bs) second.out.length s2) = loaderDict (times (loaderBatch nw bs) (k + second.out.length) (loaderBegin s))) := by
  have hn : streams ≠ [] := by intro e; rw [e] at hlen; simp at hlen; omega
  have hcl : cycleLength nw = nw := by unfold cycleLength; rw [if_pos (by omega)]
  rw [c21_recorded nw bs k s hs, ← cycleLength_eq, if_neg (by omega), hcl, hse] at hsaved
  have htot := batches_lt_total streams hn bs k (by rw [hlen]; exact hleft)
  have hkb : 0 < k * bs := Nat.mul_pos hk hbs
  have hrest : loaderLoad (streams.map List.length).sum saved newLoader = ⟨epoch + 1, k * bs, [], (k - 1) % nw + 1, (k - 1) % nw + 1, true⟩ := by
    rw [hsaved]
    unfold loaderLoad newLoader
    simp only [Bool.false_or, Nat.zero_add, LoaderState.mk.injEq, true_and]
    simp [hkb, htot]
  have hs2' : s2 = ⟨epoch + 1, k * bs, [], (k - 1) % nw + 1, (k - 1) % nw + 1, true⟩ := by
    rw [hs2, hrest]
    rfl
  have hmod : ((k - 1) % nw + 1) % nw = k % nw := by
    rw [Nat.mod_add_mod]
    congr 1
    omega
  obtain ⟨hfull, resumed, hrl, hworkers, hglue⟩ := c06_loader_continues_partial sh hsh W idx ivs dl nw bs hbs hnw ws h r (epoch + 1) k streams hst hlen hleft
  refine ⟨by rw [hs2'], by rw [hs2'], resumed, hrl, ?_, ?_⟩
  · intro i xs hxs
    rw [hsaved]
    exact hworkers i xs hxs
  · intro es' second hsec
    -- the first run
    have hb0 : (loaderBegin s).latest = 0 := by unfold loaderBegin; rw [hs]; rfl
    have hfo : first.out = delivered bs streams 0 k := by
      obtain ⟨m, h1, _⟩ := c39_round_robin streams hn bs prefetch 0 hbs hp false (Nat.zero_le _) (fun _ => rfl) es
      rw [hlen, ← hb0, ← hfirst] at h1
      rw [h1] at hout ⊢
      rw [hb0] at hout ⊢
      exact delivered_k bs streams 0 k m hfull.1 hout
    have hrn : resumed ≠ [] := by intro e; rw [e] at hrl; simp at hrl; omega
    have hlat : s2.latest ≤ resumed.length := by
      rw [hs2', hrl]
      have := Nat.mod_lt (k - 1) hnw
      simp only
      omega
    obtain ⟨m, h1, h2⟩ := c39_round_robin resumed hrn bs prefetch s2.latest hbs hp s2.restore hlat (by rw [hs2']; simp) es'
    rw [hrl, ← hsec] at h1 h2
    have hvis : visit bs resumed s2.latest = visit bs resumed (k % nw) := by
      funext p
      rw [← visit_start_mod bs resumed s2.latest, hs2', hrl]
      simp only
      rw [hmod]
    have hdel : delivered bs resumed s2.latest m = delivered bs resumed (k % nw) m := by unfold delivered; rw [hvis]
    constructor
    · refine ⟨k + m, ?_, ?_⟩
      · rw [hfo, h1, hdel]
        exact hglue m
      · intro hf p hp'
        -- a later visit of the uninterrupted run is a later visit of the resumed one
        obtain ⟨d, rfl⟩ : ∃ d, p = k + (m + d) := ⟨p - k - m, by omega⟩
        have e1 := hglue (m + d)
        have e2 := hglue (m + d + 1)
        have hnil : visit bs resumed (k % nw) (m + d) = none := by rw [← hvis]; exact h2 hf (m + d) (by omega)
        have e3 : delivered bs resumed (k % nw) (m + d + 1) = delivered bs resumed (k % nw) (m + d) := by
          unfold delivered
          rw [List.range_succ, List.filterMap_append]
          simp [hnil]
        rw [e3, e1] at e2
        rw [show k + (m + d + 1) = k + (m + d) + 1 by omega] at e2
        have e4 : delivered bs streams 0 (k + (m + d) + 1) = delivered bs streams 0 (k + (m + d)) ++ (visit bs streams 0 (k + (m + d))).toList := by
          unfold delivered
          rw [List.range_succ, List.filterMap_append]
          cases hv : visit bs streams 0 (k + (m + d)) with
          | none => simp [hv]
          | some b => simp [hv]
        rw [e4] at e2
        have := List.self_eq_append_right.1 e2
        cases hv : visit bs streams 0 (k + (m + d)) with
        | none => rfl
        | some b => rw [hv] at this; simp at this
    · intro hne
      have h0 : ¬ second.out.length = 0 := fun e => hne (List.eq_nil_of_length_eq_zero e)
      rw [c21_recorded nw bs _ s hs, ← cycleLength_eq, batches_state, hs2', hcl]
      unfold loaderDict
      simp only [LoaderDict.mk.injEq, true_and]
      refine ⟨by omega, by rw [Nat.add_mul], ?_⟩
      rw [if_neg (show ¬ k + second.out.length = 0 by omega)]
      rw [if_neg h0, Nat.add_right_comm, show (k - 1) % nw + (second.out.length - 1) + 1 = (k - 1) % nw + second.out.length by omega, Nat.mod_add_mod]
      congr 1
      omega

/-- The hypotheses of `c21_restart_partial` can be met: two workers with 9 and 6 samples, batches of 3, stopped after
three batches. -/
example : ∃ ws, associate 1 [0,1,2] demoIntervals false 2 3 = .ok ws ∧
    let streams := (rankWorkers ws 0 2).map fun ps => stream (fun _ l => l.reverse) 0 ps
    streams.length = 2 ∧ (∀ i xs, streams[i]? = some xs → 3 * Spec.visits 3 2 i < xs.length) ∧
    (loaderRun 2 false (loaderStart 2 2 (loaderBegin newLoader).latest false (workerBatches 3 streams))
      [.work 0, .work 1, .work 0, .main, .main, .main]).out.length = 3 := by
  refine ⟨_, rfl, rfl, ?_, by decide +kernel⟩
  intro i xs hxs
  match i with
  | 0 => injection hxs with hxs; subst hxs; decide
  | 1 => injection hxs with hxs; subst hxs; decide
  | n + 2 => 
    have := (List.getElem?_eq_some_iff.1 hxs).1
    exact absurd (show n + 2 < 2 from this) (by omega)

/-- **C21 fails after a worker has ended.** Workers with one and three samples, batches of one. The third batch comes from
worker 1, the state says worker 0. -/
theorem c21_finished_worker_recorded_wrong :
    (loaderRun 2 false (loaderStart 2 2 0 false (workerBatches 1 [[10], [20, 21, 22]]))
      [.work 0, .work 0, .work 1, .work 1, .main, .main, .main, .main]).out = [[10], [20], [21]] ∧
    (loaderDict (times (loaderBatch 2 1) 3 (loaderBegin newLoader))).latest = 0 := by decide +kernel

/-- **C21 fails near the end of an epoch.** Two workers with three samples each, batches of two. After three batches,
five of the six samples, the loader counts six and a new loader starts the next epoch: a sample is lost. -/
theorem c21_last_batches_lost :
    (loaderRun 2 false (loaderStart 2 2 0 false (workerBatches 2 [[1, 2, 3], [4, 5, 6]]))
      [.work 0, .work 1, .work 0, .main, .main, .main]).out = [[1, 2], [4, 5], [3]] ∧
    (loaderLoad 6 (loaderDict (times (loaderBatch 2 2) 3 (loaderBegin newLoader))) newLoader).restore = false := by decide +kernel

/-- **C21 fails before the first batch.** A state saved in epoch 1 before the first batch makes a new loader start
epoch 2. -/
theorem c21_state_without_batches (len : Nat) (s : LoaderState) (h : s.restore = false) :
    (loaderBegin (loaderLoad len (loaderDict (loaderBegin s)) newLoader)).epoch = (loaderBegin s).epoch + 1 := by
  unfold loaderBegin
  rw [h]
  simp [loaderLoad, loaderDict, newLoader]

/-- **C21 fails for a state saved right after loading.** The worker recorded is one further than the one that was loaded, so
each round of loading and saving moves the restart by one worker. -/
theorem c21_resave_drifts (len : Nat) (d : LoaderDict) : (loaderDict (loaderBegin (loaderLoad len d { newLoader with restore := true }))).latest = d.latest + 1 := by
  simp [loaderBegin, loaderLoad, loaderDict, newLoader]

/-- **C21 fails for a loader that was used before.** The rotation is not reset by `load_state_dict`: the same state
loaded into a loader that has delivered one batch makes it record another worker for the next batch. -/
theorem c21_used_loader_differs :
    (loaderBatch 2 1 (loaderBegin (loaderLoad 10 ⟨1, 2, [], 1⟩ newLoader))).latest = 0 ∧
    (loaderBatch 2 1 (loaderBegin (loaderLoad 10 ⟨1, 2, [], 1⟩ (loaderBatch 2 1 (loaderBegin newLoader))))).latest = 1 := by decide +kernel

/-! Combined datasets. -/

/-- The entry of a dictionary. -/
def dictGet {α : Type} (d : List (Nat × α)) (k : Nat) : Option α := (d.find? fun x => x.1 == k).map (·.2)

theorem dictGet_put {α : Type} (d : List (Nat × α)) (k k' : Nat) (v : α) : dictGet (dictPut d k v) k' = if k' = k then some v else dictGet d k' := by
  induction d with
  | nil =>
    unfold dictPut dictGet
    by_cases h : k' = k
    · subst h; simp
    · rw [if_neg h]
      have : ¬ k = k' := fun e => h e.symm
      simp [this]
  | cons x d ih =>
    unfold dictPut
    split
    · next hx =>
      unfold dictGet
      by_cases h : k' = k
      · subst h; simp
      · have h1 : ¬ k = k' := fun e => h e.symm
        have h2 : ¬ x.1 = k' := by omega
        simp [h, h1, h2]
    · next hx =>
      by_cases hk : x.1 = k'
      · have h : ¬ k' = k := by omega
        unfold dictGet
        simp [hk, h]
      · have h2 : ∀ l : List (Nat × α), dictGet (x :: l) k' = dictGet l k' := by
          intro l
          unfold dictGet
          simp [hk]
        have e : (x.1, x.2) = x := rfl
        rw [e, h2, h2, ih]

theorem snoc_induction {α : Type} {motive : List α → Prop} (nil : motive []) (snoc : ∀ l a, motive l → motive (l ++ [a])) (l : List α) : motive l := by
  have : ∀ r : List α, motive r.reverse := by
    intro r
    induction r with
    | nil => exact nil
    | cons a r ih => rw [List.reverse_cons]; exact snoc _ _ ih
  have := this l.reverse
  rwa [List.reverse_reverse] at this

theorem combined_run (nw : Nat) : ∀ (cs : List (List Nat)) (s : LoaderState) (w : Nat) ,
    dictGet (cs.foldl (fun s c => loaderBatchCombined nw c s) s).yieldedCombined w =
      match ((List.range cs.length).filter fun p => (s.cycle + p) % cycleLength nw == w).getLast? with
      | some p => cs[p]?
      | none => dictGet s.yieldedCombined w := by
  intro cs
  suffices h : ∀ (cs : List (List Nat)) (s : LoaderState), (cs.foldl (fun s c => loaderBatchCombined nw c s) s).cycle = s.cycle + cs.length ∧ ∀ w,
      dictGet (cs.foldl (fun s c => loaderBatchCombined nw c s) s).yieldedCombined w =
      match ((List.range cs.length).filter fun p => (s.cycle + p) % cycleLength nw == w).getLast? with
      | some p => cs[p]?
      | none => dictGet s.yieldedCombined w from fun s w => (h cs s).2 w
  intro cs
  induction cs using snoc_induction with
  | nil => intro s; exact ⟨rfl, fun w => rfl⟩
  | snoc cs c ih =>
    intro s
    rw [List.foldl_append]
    simp only [List.foldl_cons, List.foldl_nil]
    obtain ⟨h1, h2⟩ := ih s
    generalize cs.foldl (fun s c => loaderBatchCombined nw c s) s = s' at h1 h2
    refine ⟨by simp only [loaderBatchCombined, List.length_append, List.length_singleton]; omega, ?_⟩
    intro w
    unfold loaderBatchCombined
    simp only
    rw [dictGet_put, List.length_append, List.length_singleton, List.range_succ, List.filter_append]
    by_cases hw : w = s'.cycle % cycleLength nw
    · rw [if_pos hw]
      have : ((s.cycle + cs.length) % cycleLength nw == w) = true := by rw [← h1, hw]; simp
      simp [this]
    · rw [if_neg hw, h2 w]
      have : ((s.cycle + cs.length) % cycleLength nw == w) = false := by
        rw [← h1]
        simp only [beq_eq_false_iff_ne, ne_eq]
        exact fun e => hw e.symm
      simp only [List.filter_cons, this, Bool.false_eq_true, if_false, List.filter_nil, List.append_nil]
      split
      · next p hp =>
        have hm := List.mem_of_getLast? hp
        have := List.mem_range.1 (List.mem_filter.1 hm).1
        rw [List.getElem?_append_left this]
      · rfl

/-- **C21, combined datasets.** After any number of batches of an epoch, the dictionary holds for each worker the counters
that came with its last batch in the rotation. -/
theorem c21_combined_counters (nw : Nat) (cs : List (List Nat)) (s : LoaderState) (h : s.restore = false) (p : Nat) (hp : p < cs.length)
    (hlast : ∀ p', p < p' → p' < cs.length → p' % max nw 1 ≠ p % max nw 1) :
    dictGet (loaderDict (cs.foldl (fun s c => loaderBatchCombined nw c s) (loaderBegin s))).yieldedCombined (p % max nw 1) = some cs[p] := by
  rw [← cycleLength_eq] at hlast ⊢
  have hb : (loaderBegin s).cycle = 0 := by unfold loaderBegin; rw [h]; rfl
  show dictGet (cs.foldl (fun s c => loaderBatchCombined nw c s) (loaderBegin s)).yieldedCombined (p % cycleLength nw) = _
  rw [combined_run, hb]
  have hlst : ((List.range cs.length).filter fun q => (0 + q) % cycleLength nw == p % cycleLength nw).getLast? = some p := by
    obtain ⟨d, hd⟩ : ∃ d, cs.length = p + 1 + d := ⟨cs.length - p - 1, by omega⟩
    rw [hd, List.range_add, List.filter_append]
    have : ((List.range d).map (p + 1 + ·)).filter (fun q => (0 + q) % cycleLength nw == p % cycleLength nw) = [] := by
      rw [List.filter_eq_nil_iff]
      intro q hq
      obtain ⟨j, hj, rfl⟩ := List.mem_map.1 hq
      have := List.mem_range.1 hj
      have := hlast (p + 1 + j) (by omega) (by omega)
      simpa using this
    rw [this, List.append_nil, List.range_succ, List.filter_append]
    simp
  rw [hlst]
  exact List.getElem?_eq_getElem hp

/-- **C21, combined datasets.** The worker of the last batch is recorded too. -/
theorem c21_combined_latest (nw : Nat) (cs : List (List Nat)) (s : LoaderState) (h : s.restore = false) :
    (loaderDict (cs.foldl (fun s c => loaderBatchCombined nw c s) (loaderBegin s))).latest = if cs = [] then 0 else (cs.length - 1) % max nw 1 := by
  rw [← cycleLength_eq]
  have hb : (loaderBegin s).cycle = 0 ∧ (loaderBegin s).latest = 0 := by unfold loaderBegin; rw [h]; exact ⟨rfl, rfl⟩
  generalize loaderBegin s = s0 at hb
  suffices hs : ∀ cs : List (List Nat), (cs.foldl (fun s c => loaderBatchCombined nw c s) s0).cycle = cs.length ∧
      (cs.foldl (fun s c => loaderBatchCombined nw c s) s0).latest = if cs = [] then 0 else (cs.length - 1) % cycleLength nw from (hs cs).2
  intro cs
  induction cs using snoc_induction with
  | nil => exact ⟨hb.1, by simp [hb.2]⟩
  | snoc l a ih =>
    rw [List.foldl_append]
    generalize l.foldl (fun s c => loaderBatchCombined nw c s) s0 = s1 at ih
    simp only [List.foldl_cons, List.foldl_nil, loaderBatchCombined]
    rw [ih.1]
    simp

example : (loaderDict ([[1, 0], [0, 2], [2, 1]].foldl (fun s c => loaderBatchCombined 2 c s) (loaderBegin newLoader))) = ⟨1, 0, [(0, [2, 1]), (1, [0, 2])], 0⟩ ∧
    combinedTotals 2 [(0, [2, 1]), (1, [0, 2])] = [2, 3] := by decide +kernel

/-- **C21, combined datasets: what a new loader does with a state.** `total` is the number of samples in the state. With
`iterate_over_all` an epoch that has begun and is not over is resumed: same epoch, same counters, and the next batch is put down to the
worker after the last one. An epoch that is over, or has not begun, is followed by the next one, with counters at zero. With weights the
state is always resumed. -/
theorem c21_combined_restart (nw len : Nat) (counts : List Nat) (d : LoaderDict) (total : Nat)
    (ht : total = (d.yieldedCombined.map fun x => x.2.sum).sum) :
    (0 < total → total < len → loaderBegin (loaderLoadCombined true len d newLoader) =
      ⟨d.epoch, 0, d.yieldedCombined, d.latest + 1, d.latest + 1, true⟩) ∧
    (total = 0 ∨ len ≤ total → loaderBegin (loaderLoadCombined true len d newLoader) = ⟨d.epoch + 1, 0, [], 0, 0, false⟩) ∧
    loaderBegin (loaderLoadCombined false len d newLoader) = ⟨d.epoch, 0, d.yieldedCombined, d.latest + 1, d.latest + 1, true⟩ ∧
    ((0 < total ∧ total < len) → (loaderBatchCombined nw counts (loaderBegin (loaderLoadCombined true len d newLoader))).latest =
      (d.latest + 1) % max nw 1) := by
  have h1 : 0 < total → total < len → loaderBegin (loaderLoadCombined true len d newLoader) =
      ⟨d.epoch, 0, d.yieldedCombined, d.latest + 1, d.latest + 1, true⟩ := by
    intro h1 h2
    simp [loaderBegin, loaderLoadCombined, newLoader, ← ht, h1, h2]
  refine ⟨h1, ?_, ?_, ?_⟩
  · intro h
    have : ¬ (0 < total ∧ total < len) := by omega
    simp only [loaderBegin, loaderLoadCombined, newLoader, ← ht]
    have hd : (decide (total > 0) && decide (total < len)) = false := by
      rw [Bool.and_eq_false_iff]
      rcases h with h | h
      · left; simp [h]
      · right; simp; omega
    rw [if_neg (by simp [hd])]
    simp [hd]
  · simp [loaderBegin, loaderLoadCombined, newLoader]
  · intro ⟨h2, h3⟩
    rw [h1 h2 h3, ← cycleLength_eq]
    rfl

/-- One sample was taken by worker 0, of four. -/
example : (loaderBegin (loaderLoadCombined true 4 ⟨1, 0, [(0, [1, 0])], 0⟩ newLoader)) = ⟨1, 0, [(0, [1, 0])], 1, 1, true⟩ :=
  (c21_combined_restart 2 4 [] ⟨1, 0, [(0, [1, 0])], 0⟩ 1 rfl).1 (by decide) (by decide)

/-- **C21 fails for combined datasets with weights.** A state saved after the end of an epoch makes a new loader resume the finished epoch. -/
theorem c21_weights_repeat_epoch (nw len : Nat) (cs : List (List Nat)) (s : LoaderState) (h : s.restore = false) :
    (loaderBegin (loaderLoadCombined false len
      (loaderDict (loaderEnd (cs.foldl (fun s c => loaderBatchCombined nw c s) (loaderBegin s)))) newLoader)).epoch = s.epoch + 1 := by
  have hb : (loaderBegin s).epoch = s.epoch + 1 := by unfold loaderBegin; rw [h]; rfl
  have : ∀ (cs : List (List Nat)) (s : LoaderState), (cs.foldl (fun s c => loaderBatchCombined nw c s) s).epoch = s.epoch := by
    intro cs
    induction cs with
    | nil => intro s; rfl
    | cons c cs ih => intro s; rw [List.foldl_cons, ih]; rfl
  rw [(c21_combined_restart nw len [] _ _ rfl).2.2.1]
  simp only [loaderDict, loaderEnd]
  rw [this, hb]

end LitData.Props
