import Verif.Model.CombinedLoader
import Verif.Model.LoaderInput
import Verif.Props.Dataset
import Verif.Props.Combined
import Verif.Props.Loader

/-! A loader over a combined dataset that goes on from a state: what the state says. -/

namespace LitData.Props

open LitData.Spec (stream samples)

/-- Where `_replay_sampling` puts worker `i` when `n` samples of a dataset have been delivered. -/
def replayed (n bs nw i : Nat) : Nat := bs * Spec.visits (n / bs) nw i + (if i = n / bs % nw then n % bs else 0)

theorem spec_visits_succ (k nw i : Nat) : Spec.visits (k + 1) nw i = Spec.visits k nw i + (if k % nw = i then 1 else 0) := by
  unfold Spec.visits
  rw [List.range_succ, List.filter_append, List.length_append]
  congr 1
  by_cases h : k % nw = i <;> simp [h]

/-- The positions of all workers together are the samples delivered. -/
theorem replayed_total (n bs nw : Nat) (hnw : 0 < nw) : ((List.range nw).map fun i => replayed n bs nw i).sum = n := by
  have h1 := visits_total nw (n / bs) hnw
  have h2 : ∀ m, ((List.range m).map fun i => replayed n bs nw i).sum =
      bs * ((List.range m).map fun i => Spec.visits (n / bs) nw i).sum + (if n / bs % nw < m then n % bs else 0) := by
    intro m
    induction m with
    | zero => simp
    | succ m ih =>
      rw [List.range_succ, List.map_append, List.sum_append, List.map_append, List.sum_append, ih]
      simp only [List.map_cons, List.map_nil, List.sum_cons, List.sum_nil, replayed, Nat.mul_add]
      generalize n / bs % nw = t
      (repeat' split) <;> omega
  have h3 := Nat.mod_lt (n / bs) hnw
  rw [h2, h1, if_pos h3, Nat.div_add_mod]

theorem dictPut_range {α : Type} (f : Nat → α) (v : α) (w n : Nat) (hw : w ≤ n) :
    dictPut ((List.range n).map fun i => (i, f i)) w v = (List.range (max n (w + 1))).map fun i => (i, if i = w then v else f i) := by
  have aux : ∀ (m a : Nat), a ≤ w → w ≤ a + m → dictPut ((List.range' a m).map fun i => (i, f i)) w v =
      (List.range' a (max m (w + 1 - a))).map fun i => (i, if i = w then v else f i) := by
    intro m
    induction m with
    | zero =>
      intro a h1 h2
      have : w = a := by omega
      subst this
      simp [dictPut, List.range']
    | succ m ih =>
      intro a h1 h2
      rw [show max (m + 1) (w + 1 - a) = max m (w - a) + 1 by omega, List.range'_succ, List.range'_succ, List.map_cons]
      unfold dictPut
      by_cases e : a = w
      · rw [if_pos e, List.map_cons, if_pos e, e, show max m (w - w) = m by omega]
        congr 1
        apply List.map_congr_left
        intro i hi
        have := (List.mem_range'_1.1 hi).1
        rw [if_neg (by omega)]
      · rw [if_neg e, List.map_cons, if_neg e, ih (a + 1) (by omega) (by omega), show w + 1 - (a + 1) = w - a by omega]
  have := aux n 0 (by omega) (by omega)
  rw [List.range_eq_range', List.range_eq_range']
  exact this

/-- What the loader has recorded after `k` batches that came from the workers in turn. -/
theorem saved_counts (nw : Nat) (hnw : 0 < nw) (Y : Nat → Nat → List Nat) (s : LoaderState) (h : s.restore = false) (k : Nat) :
    (loaderDict (((List.range k).map fun p => Y (p % nw) (p / nw + 1)).foldl (fun s c => loaderBatchCombined nw c s) (loaderBegin s))).yieldedCombined =
      (List.range (min k nw)).map fun i => (i, Y i (Spec.visits k nw i)) := by
  suffices hs : ∀ k, (((List.range k).map fun p => Y (p % nw) (p / nw + 1)).foldl (fun s c => loaderBatchCombined nw c s) (loaderBegin s)).cycle = k ∧
      (((List.range k).map fun p => Y (p % nw) (p / nw + 1)).foldl (fun s c => loaderBatchCombined nw c s) (loaderBegin s)).yieldedCombined =
      (List.range (min k nw)).map fun i => (i, Y i (Spec.visits k nw i)) from (hs k).2
  intro k
  induction k with
  | zero => unfold loaderBegin; rw [h]; simp
  | succ k ih =>
    rw [List.range_succ, List.map_append, List.foldl_append]
    simp only [List.map_cons, List.map_nil, List.foldl_cons, List.foldl_nil]
    generalize ((List.range k).map fun p => Y (p % nw) (p / nw + 1)).foldl (fun s c => loaderBatchCombined nw c s) (loaderBegin s) = s1 at ih
    obtain ⟨h1, h2⟩ := ih
    have hc : cycleLength nw = nw := by unfold cycleLength; rw [if_pos hnw]
    have hlt := Nat.mod_lt k hnw
    have hmod : k < nw → k % nw = k := Nat.mod_eq_of_lt
    refine ⟨by simp only [loaderBatchCombined, h1], ?_⟩
    simp only [loaderBatchCombined, h1, h2, hc]
    rw [dictPut_range _ _ _ _ (by omega), show max (min k nw) (k % nw + 1) = min (k + 1) nw by omega]
    apply List.map_congr_left
    intro i hi
    have := List.mem_range.1 hi
    rw [spec_visits_succ]
    by_cases e : i = k % nw
    · rw [if_pos e, if_pos e.symm, e, visits_eq k nw (k % nw) hnw hlt, if_neg (Nat.lt_irrefl _)]
    · rw [if_neg e, if_neg (fun h => e h.symm), Nat.add_zero]

theorem saved_epoch (nw : Nat) (cs : List (List Nat)) (s : LoaderState) (h : s.restore = false) :
    (loaderDict (cs.foldl (fun s c => loaderBatchCombined nw c s) (loaderBegin s))).epoch = s.epoch + 1 := by
  have hb : (loaderBegin s).epoch = s.epoch + 1 := by unfold loaderBegin; rw [h]; rfl
  have : ∀ (cs : List (List Nat)) (s : LoaderState), (cs.foldl (fun s c => loaderBatchCombined nw c s) s).epoch = s.epoch := by
    intro cs
    induction cs with
    | nil => intro s; rfl
    | cons c cs ih => intro s; rw [List.foldl_cons, ih]; rfl
  simp only [loaderDict]
  rw [this, hb]

theorem combinedTotals_eq (n : Nat) (l : List (Nat × List Nat)) :
    combinedTotals n l = (List.range n).map fun d => (l.map fun x => x.2.getD d 0).sum := by
  have aux : ∀ (l : List (Nat × List Nat)) (acc : List Nat), l.foldl (fun acc x => acc.mapIdx fun i a => a + (x.2[i]?).getD 0) acc =
      acc.mapIdx fun d a => a + (l.map fun x => x.2.getD d 0).sum := by
    intro l
    induction l with
    | nil => intro acc; apply List.ext_getElem? ; intro i; simp
    | cons x l ih =>
      intro acc
      rw [List.foldl_cons, ih]
      apply List.ext_getElem?
      intro i
      simp only [List.getElem?_mapIdx, List.map_cons, List.sum_cons, Option.map_map, List.getD_eq_getElem?_getD]
      congr 1
      funext a
      simp only [Function.comp]
      omega
  unfold combinedTotals
  rw [aux]
  apply List.ext_getElem?
  intro i
  simp only [List.getElem?_mapIdx, List.getElem?_map, List.getElem?_replicate]
  by_cases h : i < n
  · simp [h]
  · simp [h]

/-- The samples of a dataset that worker `i` of the process `r` delivers in an epoch. -/
def ownStream (sh : Shuffler) (epoch r nw i : Nat) (ws : List (List Piece)) : List (Nat × Nat) := epochStream sh epoch (ws.getD (r * nw + i) [])

/-- `ws` is a split of a dataset over processes with `nw` workers, `r` one of the processes. -/
def SplitFor (nw bs r : Nat) (ws : List (List Piece)) : Prop := ∃ W idx ivs dl, associate W idx ivs dl nw bs = .ok ws ∧ r < W

theorem split_get {nw bs r : Nat} {ws : List (List Piece)} (h : SplitFor nw bs r ws) (i : Nat) (hi : i < nw) :
    ws[r * nw + i]? = some (ws.getD (r * nw + i) []) := by
  obtain ⟨W, idx, ivs, dl, h1, h2⟩ := h
  have h3 : ws.length = W * nw := by
    have hbs : 0 < bs := by
      rcases Nat.eq_zero_or_pos bs with e | e
      · rw [e] at h1; simp [associate] at h1
      · exact e
    obtain ⟨ws', g1, g2, _⟩ := associate_spec W idx ivs dl nw bs (by omega) (by omega) hbs
    rw [h1] at g1
    injection g1 with g1
    rw [g1, g2]
  have : r * nw + i < ws.length := by
    rw [h3]
    have := Nat.mul_le_mul_right nw (Nat.succ_le_of_lt h2)
    rw [Nat.succ_mul] at this
    omega
  rw [List.getD_eq_getElem?_getD, List.getElem?_eq_getElem this]
  rfl

theorem ownStream_eq (sh : Shuffler) (hsh : ∀ a n e k, (sh a n e k).Perm a) (epoch r nw bs i : Nat) (hi : i < nw) (ws : List (List Piece))
    (h : SplitFor nw bs r ws) :
    ownStream sh epoch r nw i ws = stream (fun k l => sh l (ws.getD (r * nw + i) []).length epoch k) 0 (ws.getD (r * nw + i) []) ∧
      (ownStream sh epoch r nw i ws).length = (samples (ws.getD (r * nw + i) [])).length := by
  have hg := split_get h i hi
  obtain ⟨W, idx, ivs, dl, h1, h2⟩ := h
  obtain ⟨xs, s', k1, k2, k3, _⟩ := c05_one_pass sh hsh W idx ivs dl nw bs ws h1 _ (List.mem_of_getElem? hg) epoch
  have e : ownStream sh epoch r nw i ws = xs.map fun c => (c.chunkIndex, c.index) := by
    unfold ownStream epochStream
    rw [k1 _ (by rw [samples_length]; exact Nat.lt_succ_self _)]
  exact ⟨by rw [e, k2], by rw [e]; exact k3.length_eq⟩

theorem resumedStream_eq (sh : Shuffler) (hsh : ∀ a n e k, (sh a n e k).Perm a) (epoch r nw bs i n : Nat) (hi : i < nw) (hbs : 0 < bs) (ws : List (List Piece))
    (h : SplitFor nw bs r ws) :
    resumedStream sh ws r nw i n bs epoch =
      if replayed n bs nw i < (ownStream sh epoch r nw i ws).length then .ok ((ownStream sh epoch r nw i ws).drop (replayed n bs nw i)) else .error .indexError := by
  have hg := split_get h i hi
  obtain ⟨e1, e2⟩ := ownStream_eq sh hsh epoch r nw bs i hi ws h
  obtain ⟨W, idx, ivs, dl, h1, h2⟩ := h
  unfold resumedStream
  by_cases hlt : replayed n bs nw i < (ownStream sh epoch r nw i ws).length
  · rw [if_pos hlt]
    have hne := assigned_nonEmpty h1 _ (List.mem_of_getElem? hg)
    rw [e2, samples_length] at hlt
    obtain ⟨s, g1, g2, g3, g4, g5⟩ := resumeState_spec sh hsh ws r nw i n bs epoch hbs hi _ hg hne hlt
    rw [g1]
    obtain ⟨xs, s', k1, k2, _⟩ := runIter_spec sh hsh _ s g2 g5 (s.stopLength + 1) (by have := g2.budget; rw [g5] at this; omega)
    simp only [k1]
    rw [e1]
    exact congrArg Except.ok k2
  · rw [if_neg hlt]
    rw [e2] at hlt
    rw [c06_resume_finished_worker_raises sh ws r nw i n bs epoch hbs hi _ hg (by unfold replayed at hlt; omega)]

/-- Every dataset has samples left where the state puts worker `i`. -/
def AllLeft (sh : Shuffler) (epoch r nw bs i : Nat) (splits : List (List (List Piece))) (total : Nat → Nat) : Prop :=
  ∀ (d : Nat) (ws : List (List Piece)), splits[d]? = some ws → replayed (total d) bs nw i < (ownStream sh epoch r nw i ws).length

theorem resumedStreams_eq (sh : Shuffler) (hsh : ∀ a n e k, (sh a n e k).Perm a) (epoch r nw bs i : Nat) (hi : i < nw) (hbs : 0 < bs) :
    ∀ (splits : List (List (List Piece))) (total : Nat → Nat), (∀ ws ∈ splits, SplitFor nw bs r ws) →
    (AllLeft sh epoch r nw bs i splits total → resumedStreams sh r nw i bs epoch splits ((List.range splits.length).map total) =
        .ok (splits.mapIdx fun d ws => (ownStream sh epoch r nw i ws).drop (replayed (total d) bs nw i))) ∧
      (¬ AllLeft sh epoch r nw bs i splits total → resumedStreams sh r nw i bs epoch splits ((List.range splits.length).map total) = .error .indexError) := by
  intro splits
  induction splits with
  | nil => intro total _; exact ⟨fun _ => rfl, fun h => absurd (fun d ws hd => by simp at hd) h⟩
  | cons ws splits ih =>
    intro total hs
    unfold resumedStreams
    rw [show (List.range (ws :: splits).length).map total = total 0 :: (List.range splits.length).map (fun d => total (d + 1)) by
      rw [List.length_cons, List.range_succ_eq_map, List.map_cons, List.map_map]; rfl]
    simp only [List.headD_cons, List.tail_cons]
    obtain ⟨ih1, ih2⟩ := ih (fun d => total (d + 1)) (fun w hw => hs w (by simp [hw]))
    have hcons : AllLeft sh epoch r nw bs i (ws :: splits) total ↔
        replayed (total 0) bs nw i < (ownStream sh epoch r nw i ws).length ∧ AllLeft sh epoch r nw bs i splits (fun d => total (d + 1)) := by
      constructor
      · exact fun h => ⟨h 0 ws rfl, fun d w hd => h (d + 1) w (by simpa using hd)⟩
      · intro ⟨h0, h1⟩ d w hd
        cases d with
        | zero => simp at hd; subst hd; exact h0
        | succ d => exact h1 d w (by simpa using hd)
    rw [resumedStream_eq sh hsh epoch r nw bs i (total 0) hi hbs ws (hs ws (by simp)), hcons]
    by_cases h0 : replayed (total 0) bs nw i < (ownStream sh epoch r nw i ws).length
    · rw [if_pos h0]
      simp only [h0, true_and]
      refine ⟨fun h => ?_, fun h => ?_⟩
      · rw [ih1 h]; simp [List.mapIdx_cons]
      · rw [ih2 h]
    · rw [if_neg h0]
      exact ⟨fun h => absurd h.1 h0, fun _ => rfl⟩

end LitData.Props
