import Verif.Lemmas.Sampler
import Verif.Spec.Samples

/-! Property C22: the batch sampler of a cache. -/

namespace LitData.Props
open LitData Spec

/-- The number of workers used: `num_workers or 1`. -/
def effectiveWorkers (numWorkers : Nat) : Nat := if numWorkers = 0 then 1 else numWorkers

theorem effectiveWorkers_pos (n : Nat) : 0 < effectiveWorkers n := by unfold effectiveWorkers; split <;> omega

/-- A slice of consecutive numbers is consecutive. -/
theorem slice_range (n stop start : Nat) : ((List.range n).take stop).drop start = List.range' start (min stop n - start) := by
  apply List.ext_getElem
  · simp
  · intro i h1 h2
    simp

theorem range_append_range' (a n : Nat) : List.range a ++ List.range' a n = List.range (a + n) := by
  rw [List.range_eq_range', List.range_eq_range']
  have := List.range'_append_1 (s := 0) (m := a) (n := n)
  rwa [Nat.zero_add] at this

theorem take_drop_range' (a n stop start : Nat) : ((List.range' a n).take stop).drop start = List.range' (a + start) (min stop n - start) := by
  apply List.ext_getElem
  · simp
  · intro i h1 h2
    simp
    omega

/-- The indices of a replica (`r * (size / replicas)` on, the last one to the end). -/
theorem replica_indices (size replicas r nw bs : Nat) (hR : 0 < replicas) (hr : r < replicas) (hs : replicas ≤ size) :
    ∃ a n ws, ws = size / (replicas * effectiveWorkers nw) ∧ 0 < n ∧ (effectiveWorkers nw) * ws ≤ n ∧ a = r * (size / replicas) ∧
      a + n = (if r = replicas - 1 then size else (r + 1) * (size / replicas)) ∧
      samplerFill size replicas r nw bs = batchWorkers (effectiveWorkers nw) bs (splitWorkers (effectiveWorkers nw) ws (List.range' a n)) := by
  have hnw := effectiveWorkers_pos nw
  have hrs : 0 < size / replicas := Nat.div_pos hs hR
  have hmul : replicas * (size / replicas) ≤ size := Nat.mul_div_le size replicas
  by_cases h1 : replicas = 1
  · have hr0 : r = 0 := by omega
    subst h1 hr0
    refine ⟨0, size, size / effectiveWorkers nw, by rw [Nat.one_mul], by omega, Nat.mul_div_le _ _, by omega, by simp, ?_⟩
    unfold samplerFill
    simp only [if_true]
    rw [← List.range_eq_range']
    have := congrArg List.length (splitWorkers_flatten (effectiveWorkers nw) (size / effectiveWorkers nw) hnw (List.range size)
      (by rw [List.length_range]; exact Nat.mul_div_le _ _))
    rw [List.length_flatten, List.length_range] at this
    have e : effectiveWorkers nw = if nw = 0 then 1 else nw := rfl
    rw [e] at this ⊢
    rw [if_neg (by rw [this]; simp)]
  · have hstop : r * (size / replicas) + (size / replicas) ≤ (if r = replicas - 1 then size else (r + 1) * (size / replicas)) := by
      split
      · have : (r + 1) * (size / replicas) ≤ replicas * (size / replicas) := Nat.mul_le_mul_right _ (by omega)
        rw [Nat.add_mul, Nat.one_mul] at this
        omega
      · rw [Nat.add_mul, Nat.one_mul]; omega
    have hle : (if r = replicas - 1 then size else (r + 1) * (size / replicas)) ≤ size := by
      split
      · omega
      · have : (r + 1) * (size / replicas) ≤ replicas * (size / replicas) := Nat.mul_le_mul_right _ (by omega)
        omega
    generalize hst : (if r = replicas - 1 then size else (r + 1) * (size / replicas)) = stop at *
    have hws : effectiveWorkers nw * (size / (replicas * effectiveWorkers nw)) ≤ size / replicas := by
      rw [← Nat.div_div_eq_div_mul]
      exact Nat.mul_div_le _ _
    refine ⟨r * (size / replicas), stop - r * (size / replicas), size / (replicas * effectiveWorkers nw), rfl, by omega, by omega, rfl, by omega, ?_⟩
    unfold samplerFill
    simp only [if_neg h1, hst]
    rw [slice_range, Nat.min_eq_left hle]
    have := congrArg List.length (splitWorkers_flatten (effectiveWorkers nw) (size / (replicas * effectiveWorkers nw)) hnw
      (List.range' (r * (size / replicas)) (stop - r * (size / replicas))) (by rw [List.length_range']; omega))
    rw [List.length_flatten] at this
    have e : effectiveWorkers nw = if nw = 0 then 1 else nw := rfl
    rw [e] at this ⊢
    rw [if_neg (by rw [this]; simp)]

/-- What `samplerFill` hands to each worker of one replica. -/
theorem samplerFill_worker (size replicas r nw bs : Nat) (hb : 0 < bs) (hR : 0 < replicas) (hr : r < replicas) (hs : replicas ≤ size) :
    ∃ batches a n, samplerFill size replicas r nw bs = .ok batches ∧ a = r * (size / replicas) ∧
      a + n = (if r = replicas - 1 then size else (r + 1) * (size / replicas)) ∧ 0 < n ∧
      ((List.range (effectiveWorkers nw)).flatMap fun w => (everyNth (effectiveWorkers nw) w batches).flatten) = List.range' a n ∧
      (∀ w, w < effectiveWorkers nw → (everyNth (effectiveWorkers nw) w batches).flatten =
        List.range' (a + w * (size / (replicas * effectiveWorkers nw)))
          (if w = effectiveWorkers nw - 1 then n - w * (size / (replicas * effectiveWorkers nw)) else size / (replicas * effectiveWorkers nw))) ∧
      effectiveWorkers nw * (size / (replicas * effectiveWorkers nw)) ≤ n ∧
      (∀ b ∈ batches, b.length ≤ bs) := by
  obtain ⟨a, n, ws, hws, h1, h2, h3, h4, h5⟩ := replica_indices size replicas r nw bs hR hr hs
  have hnw := effectiveWorkers_pos nw
  have hfl := splitWorkers_flatten (effectiveWorkers nw) ws hnw (List.range' a n) (by simpa using h2)
  obtain ⟨batches, g1, g2, g3⟩ := batchWorkers_ok (effectiveWorkers nw) bs hnw hb (splitWorkers (effectiveWorkers nw) ws (List.range' a n))
    (by simp [splitWorkers]) (by
      apply Classical.byContradiction
      intro hall
      have he : (splitWorkers (effectiveWorkers nw) ws (List.range' a n)).flatten = [] := by
        rw [List.flatten_eq_nil_iff]
        intro l hl
        apply Classical.byContradiction
        intro hne
        exact hall ⟨l, hl, hne⟩
      rw [hfl] at he
      have := congrArg List.length he
      simp at this
      omega)
  have hw : ∀ w, w < effectiveWorkers nw → (everyNth (effectiveWorkers nw) w batches).flatten =
      ((List.range' a n).take (if w = effectiveWorkers nw - 1 then (List.range' a n).length else (w + 1) * ws)).drop (w * ws) := by
    intro w hw
    apply g2
    unfold splitWorkers
    rw [List.getElem?_map, List.getElem?_range hw]
    rfl
  refine ⟨batches, a, n, by rw [h5, g1], h3, h4, h1, ?_, ?_, hws ▸ h2, g3⟩
  · rw [← hfl]
    rw [List.flatMap]
    congr 1
    unfold splitWorkers
    apply List.map_congr_left
    intro w hw'
    exact hw w (by simpa using hw')
  · intro w hw'
    rw [hw w hw', take_drop_range', ← hws]
    congr 1
    have hle : (w + 1) * ws ≤ effectiveWorkers nw * ws := Nat.mul_le_mul_right _ (by omega)
    rw [Nat.add_mul, Nat.one_mul] at hle
    split
    · rw [List.length_range', Nat.min_self]
    · rw [Nat.add_mul, Nat.one_mul]; omega

/-- **C22, filling the cache.** For at least as many samples as replicas, all batches of all replicas and
workers together have every index exactly once and in order; each worker sees consecutive indices in
batches of at most the batch size. Batch `k` of a replica goes to worker `k mod num_workers`. -/
theorem c22_partition_partial (size replicas nw bs : Nat) (hb : 0 < bs) (hR : 0 < replicas) (hs : replicas ≤ size) :
    ∃ B : Nat → List (List Nat), (∀ r, r < replicas → samplerFill size replicas r nw bs = .ok (B r)) ∧
      ((List.range replicas).flatMap fun r => (List.range (effectiveWorkers nw)).flatMap fun w =>
        (everyNth (effectiveWorkers nw) w (B r)).flatten) = List.range size ∧
      ∀ r, r < replicas → (∀ w, w < effectiveWorkers nw → ∃ a n, (everyNth (effectiveWorkers nw) w (B r)).flatten = List.range' a n) ∧
        ∀ b ∈ B r, b.length ≤ bs := by
  let B : Nat → List (List Nat) := fun r => match samplerFill size replicas r nw bs with
    | .ok b => b
    | .error _ => []
  have hB : ∀ r, r < replicas → ∃ a n, samplerFill size replicas r nw bs = .ok (B r) ∧ a = r * (size / replicas) ∧
      a + n = (if r = replicas - 1 then size else (r + 1) * (size / replicas)) ∧
      ((List.range (effectiveWorkers nw)).flatMap fun w => (everyNth (effectiveWorkers nw) w (B r)).flatten) = List.range' a n ∧
      (∀ w, w < effectiveWorkers nw → ∃ c m, (everyNth (effectiveWorkers nw) w (B r)).flatten = List.range' c m) ∧
      (∀ b ∈ B r, b.length ≤ bs) := by
    intro r hr
    obtain ⟨batches, a, n, h1, h2, h3, h4, h5, h6, _, h7⟩ := samplerFill_worker size replicas r nw bs hb hR hr hs
    have : B r = batches := by show (match samplerFill size replicas r nw bs with | .ok b => b | .error _ => []) = batches; rw [h1]
    rw [this]
    exact ⟨a, n, h1, h2, h3, h5, fun w hw => ⟨_, _, h6 w hw⟩, h7⟩
  refine ⟨B, fun r hr => by obtain ⟨a, n, h, _⟩ := hB r hr; exact h, ?_, fun r hr => by obtain ⟨a, n, _, _, _, _, h6, h7⟩ := hB r hr; exact ⟨h6, h7⟩⟩
  have hpre : ∀ m, m < replicas → ((List.range m).flatMap fun r => (List.range (effectiveWorkers nw)).flatMap fun w =>
      (everyNth (effectiveWorkers nw) w (B r)).flatten) = List.range (m * (size / replicas)) := by
    intro m
    induction m with
    | zero => intro _; simp
    | succ m ih =>
      intro hm
      obtain ⟨a, n, _, h2, h3, h4, _⟩ := hB m (by omega)
      rw [List.range_succ, List.flatMap_append, ih (by omega)]
      simp only [List.flatMap_cons, List.flatMap_nil, List.append_nil]
      rw [h4, h2]
      rw [if_neg (by omega), h2, Nat.add_mul, Nat.one_mul] at h3
      rw [Nat.add_mul, Nat.one_mul, show n = size / replicas by omega, range_append_range']
  obtain ⟨m, rfl⟩ : ∃ m, replicas = m + 1 := ⟨replicas - 1, by omega⟩
  obtain ⟨a, n, _, h2, h3, h4, _⟩ := hB m (by omega)
  rw [List.range_succ, List.flatMap_append, hpre m (by omega)]
  simp only [List.flatMap_cons, List.flatMap_nil, List.append_nil]
  rw [if_pos (by omega)] at h3
  rw [h2] at h3
  rw [h4, h2, range_append_range', h3]

theorem diffSum_range' (n a : Nat) : diffSum (List.range' a n) = 0 := by
  induction n generalizing a with
  | zero => rfl
  | succ n ih =>
    cases n with
    | zero => rfl
    | succ n =>
      have := ih (a + 1)
      rw [List.range'_succ] at this ⊢
      rw [List.range'_succ]
      unfold diffSum
      rw [this]
      omega

/-- The check made at construction never fires. -/
theorem c22_validate (size replicas r nw bs : Nat) (hb : 0 < bs) (hr : r < replicas) (hs : replicas ≤ size) :
    samplerValidate size replicas r nw bs = .ok () := by
  obtain ⟨batches, a, n, h1, h2, h3, h4, h5, h6, _, h7⟩ := samplerFill_worker size replicas r nw bs hb (by omega) hr hs
  have hval : samplerValidate size replicas r nw bs = if effectiveWorkers nw ≤ 1 then .ok () else
      if (List.range (effectiveWorkers nw)).any fun w => decide (diffSum (everyNth (effectiveWorkers nw) w batches).flatten ≠ 0) then .error .runtimeError else .ok () := by
    unfold samplerValidate
    rw [h1]
    rfl
  rw [hval]
  by_cases hle : effectiveWorkers nw ≤ 1
  · rw [if_pos hle]
  · rw [if_neg hle, if_neg]
    simp only [List.any_eq_true, List.mem_range, decide_eq_true_eq, not_exists, not_and]
    intro w hw hne
    have hc := h6 w hw
    rw [hc, diffSum_range'] at hne
    exact hne rfl

example : samplerFill 11 2 1 2 2 = .ok [[5, 6], [7, 8], [], [9, 10]] := by decide +kernel
example : (List.range 2).map (fun w => (everyNth 2 w [[5, 6], [7, 8], [], [9, 10]]).flatten) = [[5, 6], [7, 8, 9, 10]] := by decide +kernel

/-- **C22, the share of a worker.** Worker `w` of replica `r` fills the cache with the consecutive indices from
`r * (size / replicas) + w * q` on, where `q` is `size / (replicas * workers)`: `q` of them, and all that are left of the replica if it is the
last worker. -/
theorem c22_share (size replicas r nw bs w : Nat) (hb : 0 < bs) (hr : r < replicas) (hs : replicas ≤ size) (hw : w < effectiveWorkers nw)
    (batches : List (List Nat)) (h : samplerFill size replicas r nw bs = .ok batches) :
    ∃ m, (everyNth (effectiveWorkers nw) w batches).flatten =
        List.range' (r * (size / replicas) + w * (size / (replicas * effectiveWorkers nw))) m ∧
      (w ≠ effectiveWorkers nw - 1 → m = size / (replicas * effectiveWorkers nw)) ∧
      (w = effectiveWorkers nw - 1 → size / (replicas * effectiveWorkers nw) ≤ m ∧
        r * (size / replicas) + w * (size / (replicas * effectiveWorkers nw)) + m =
          if r = replicas - 1 then size else (r + 1) * (size / replicas)) := by
  obtain ⟨batches', a, n, h1, h2, h3, h4, h5, h6, h7, h8⟩ := samplerFill_worker size replicas r nw bs hb (by omega) hr hs
  rw [h] at h1
  injection h1 with h1
  subst h1
  have hle : (w + 1) * (size / (replicas * effectiveWorkers nw)) ≤ effectiveWorkers nw * (size / (replicas * effectiveWorkers nw)) :=
    Nat.mul_le_mul_right _ (by omega)
  rw [Nat.add_mul, Nat.one_mul] at hle
  refine ⟨_, by rw [h6 w hw, h2], fun hl => by rw [if_neg hl], fun hl => ?_⟩
  rw [if_pos hl, ← h3, ← h2]
  generalize size / (replicas * effectiveWorkers nw) = q at *
  exact ⟨by omega, by omega⟩

/-- **C22, fewer samples than replicas.** A replica without an index raises `IndexError`. -/
theorem c22_idle_replica_raises (size replicas r nw bs : Nat) (hb : 0 < bs) (hR : 1 < replicas) (hr : r < replicas - 1) (hs : size < replicas) :
    samplerFill size replicas r nw bs = .error .indexError := by
  have h0 : size / replicas = 0 := Nat.div_eq_of_lt hs
  have e : ∀ k, splitWorkers k (size / (replicas * k)) [] = List.replicate k [] := by
    intro k
    unfold splitWorkers
    apply List.ext_getElem
    · simp
    · intro i h1 h2; simp
  unfold samplerFill
  simp only [if_neg (show ¬ replicas = 1 by omega), h0, if_neg (show ¬ r = replicas - 1 by omega), Nat.mul_zero, List.take_zero, List.drop_nil, e]
  rw [if_neg (by simp)]
  unfold batchWorkers
  have : ∀ k, (List.replicate k ([] : List Nat)).mapM (fun l => chunkList l bs) = (.ok (List.replicate k []) : Py (List (List (List Nat)))) := by
    intro k
    induction k with
    | zero => rfl
    | succ k ih =>
      rw [List.replicate_succ, List.mapM_cons, ih]
      simp only [bind, Except.bind, pure, Except.pure, chunkList, if_neg (show ¬ bs = 0 by omega), List.length_nil, chunkListFrom]
      rfl
  rw [this]
  unfold rotateBatches
  simp only [List.map_replicate, List.length_nil, List.sum_replicate_nat, Nat.mul_zero, Nat.zero_mul, rotate, List.reverse_nil, dropEmpty]

/-- The samples an index of the filled cache stands for. -/
def indexSample (c : ChunkedIndex) : Nat × Nat := (c.chunkIndex, c.index)

theorem chunkIndices_samples (permute : Nat → List Nat → List Nat) (nw : Nat) (chunks : List (Nat × Interval)) (w : Nat) :
    (chunkIndices permute nw chunks w).map indexSample = (everyNth nw w (chunks.mapIdx fun i c => (i, c))).flatMap fun x =>
      (permute x.1 (List.range' x.2.2.roiStart (x.2.2.roiEnd - x.2.2.roiStart))).map fun j => (x.2.1, j) := by
  have key : ((everyNth nw w (chunks.mapIdx fun i c => (i, c))).flatMap fun x =>
      (permute x.1 (List.range' x.2.2.roiStart (x.2.2.roiEnd - x.2.2.roiStart))).map fun j => (⟨j, x.2.1, none, false⟩ : ChunkedIndex)).map indexSample =
      (everyNth nw w (chunks.mapIdx fun i c => (i, c))).flatMap fun x =>
      (permute x.1 (List.range' x.2.2.roiStart (x.2.2.roiEnd - x.2.2.roiStart))).map fun j => (x.2.1, j) := by
    rw [List.map_flatMap]
    congr 1
    funext x
    rw [List.map_map]
    rfl
  rw [← key]
  unfold chunkIndices
  simp only
  split
  · next h => rw [h]
  · next c l h => rw [h]; simp [indexSample]

theorem everyNth_perm_flatten {α : Type} (n : Nat) (hn : 0 < n) (l : List (List α)) :
    ((List.range n).flatMap fun w => (everyNth n w l).flatten).Perm l.flatten := by
  have := (everyNth_perm n hn l).flatten
  rw [List.flatMap, List.flatten_flatten, List.map_map] at this
  exact this

/-- All chunk indices of the workers of a replica are the samples of its chunks. -/
theorem chunkIndices_all (permute : Nat → List Nat → List Nat) (hp : ∀ k l, (permute k l).Perm l) (nw : Nat) (hnw : 0 < nw) (chunks : List (Nat × Interval)) :
    ((List.range nw).flatMap fun w => (chunkIndices permute nw chunks w).map indexSample).Perm
      (chunks.flatMap fun x => region x.1 x.2.roiStart x.2.roiEnd) := by
  simp only [chunkIndices_samples]
  rw [← List.flatMap_assoc]
  have h1 := (everyNth_perm nw hnw (chunks.mapIdx fun i c => (i, c))).flatMap_right fun x =>
      (permute x.1 (List.range' x.2.2.roiStart (x.2.2.roiEnd - x.2.2.roiStart))).map fun j => (x.2.1, j)
  refine h1.trans ?_
  have h2 : chunks = (chunks.mapIdx fun i c => (i, c)).map (·.2) := by
    apply List.ext_getElem
    · simp
    · intro i _ _; simp
  conv => rhs; rw [h2]
  rw [List.flatMap_map]
  generalize (chunks.mapIdx fun i c => (i, c)) = l
  induction l with
  | nil => exact List.Perm.refl _
  | cons x l ih =>
    rw [List.flatMap_cons, List.flatMap_cons]
    exact ((hp x.1 _).map _).append ih

/-- The chunks a worker's first index announces are those of all its indices. -/
theorem chunkIndices_announce (permute : Nat → List Nat → List Nat) (nw : Nat) (chunks : List (Nat × Interval)) (w : Nat) :
    ∀ c l, chunkIndices permute nw chunks w = c :: l → ∃ (announced : List Nat), c.chunkIndexes = some announced ∧
      (∀ d ∈ c :: l, d.chunkIndex ∈ announced) ∧ ∀ d ∈ l, d.chunkIndexes = none := by
  intro c l h
  have hs := chunkIndices_samples permute nw chunks w
  unfold chunkIndices at h
  simp only at h
  split at h
  · exact absurd h (by simp)
  · next c' l' h' =>
    injection h with h1 h2
    subst h1 h2
    refine ⟨_, rfl, ?_, ?_⟩
    · have hmem : ∀ d ∈ c' :: l', d.chunkIndex ∈ everyNth nw w (chunks.map (·.1)) := by
        intro d hd
        rw [← h'] at hd
        obtain ⟨x, hx, hd⟩ := List.mem_flatMap.1 hd
        obtain ⟨j, _, rfl⟩ := List.mem_map.1 hd
        unfold everyNth at hx ⊢
        obtain ⟨k, hk, hx⟩ := List.mem_filterMap.1 hx
        refine List.mem_filterMap.2 ⟨k, by simpa using hk, ?_⟩
        rw [List.getElem?_mapIdx] at hx
        rw [List.getElem?_map]
        cases hc : chunks[k]? with
        | none => simp [hc] at hx
        | some y =>
          rw [hc] at hx
          simp only [Option.map_some, Option.some.injEq] at hx ⊢
          rw [← hx]
      intro d hd
      rcases List.mem_cons.1 hd with rfl | hd
      · exact hmem c' (by simp)
      · exact hmem d (by simp [hd])
    · intro d hd
      have : d ∈ c' :: l' := by simp [hd]
      rw [← h'] at this
      obtain ⟨x, hx, hd⟩ := List.mem_flatMap.1 this
      obtain ⟨j, _, rfl⟩ := List.mem_map.1 hd
      rfl

/-- **C22, reading the filled cache.** When every replica draws the same permutation of the chunks, all
batches of all replicas hold every sample of the cache exactly once, for every permutation of the chunks and
of the samples inside them. The first index of every worker announces every chunk the worker needs. -/
theorem c22_read_partial (permChunks : List Nat → List Nat) (permute : Nat → Nat → List Nat → List Nat) (ivs : List Interval) (replicas nw bs : Nat)
    (hpc : (permChunks (List.range ivs.length)).Perm (List.range ivs.length)) (hp : ∀ r k l, (permute r k l).Perm l)
    (hb : 0 < bs) (hR : 0 < replicas) (hlen : replicas ≤ ivs.length) (hne : ∀ iv ∈ ivs, iv.roiStart < iv.roiEnd) :
    ∃ B : Nat → List (List ChunkedIndex),
      (∀ r, r < replicas → samplerRead permChunks (permute r) ivs replicas r nw bs = .ok (B r)) ∧
      ((List.range replicas).flatMap fun r => (B r).flatten.map fun c => (c.chunkIndex, c.index)).Perm (datasetSamples (List.range ivs.length) ivs) ∧
      ∀ r, r < replicas → (∀ b ∈ B r, b.length ≤ bs) ∧ ∀ w, w < effectiveWorkers nw → ∀ c l, (everyNth (effectiveWorkers nw) w (B r)).flatten = c :: l →
        ∃ (announced : List Nat), c.chunkIndexes = some announced ∧ (∀ d ∈ c :: l, d.chunkIndex ∈ announced) := by
  have hnw := effectiveWorkers_pos nw
  generalize horder : permChunks (List.range ivs.length) = order at hpc
  have hshuf : order.zip (pick ivs order) = pick ((List.range ivs.length).zip ivs) order := by
    have h1 : pick (List.range ivs.length) order = order := by
      unfold pick
      rw [filterMap_congr_mem (g := some)]
      · simp
      · intro i hi
        have : i < ivs.length := by simpa using hpc.subset hi
        rw [List.getElem?_range this]
    rw [← pick_zip (List.range ivs.length) ivs order (by simp), h1]
  have hperm : (order.zip (pick ivs order)).Perm ((List.range ivs.length).zip ivs) := by
    rw [hshuf]
    apply pick_perm
    simpa using hpc
  have hsl : (order.zip (pick ivs order)).length = ivs.length := by simpa using hperm.length_eq
  generalize hsh : order.zip (pick ivs order) = shuffled at hperm hsl
  let mine : Nat → List (Nat × Interval) := fun r => if replicas = 1 then shuffled else everyNth replicas r shuffled
  have hmem : ∀ r x, x ∈ mine r → x.2.roiStart < x.2.roiEnd := by
    intro r x hx
    have : x ∈ shuffled := by
      by_cases h1 : replicas = 1
      · simpa [mine, h1] using hx
      · simp only [mine, if_neg h1, everyNth] at hx
        obtain ⟨k, _, hk⟩ := List.mem_filterMap.1 hx
        exact List.mem_of_getElem? hk
    exact hne _ (List.of_mem_zip (hperm.subset this)).2
  have hmine : ∀ r, r < replicas → mine r ≠ [] := by
    intro r hr
    by_cases h1 : replicas = 1
    · simp only [mine, if_pos h1]
      intro h; rw [h] at hsl; simp at hsl; omega
    · simp only [mine, if_neg h1, everyNth]
      intro h
      have hk : r ∈ (List.range shuffled.length).filter fun k => k % replicas == r := by
        simp only [List.mem_filter, List.mem_range, beq_iff_eq]
        exact ⟨by omega, Nat.mod_eq_of_lt hr⟩
      have : shuffled[r]'(by omega) ∈ ((List.range shuffled.length).filter fun k => k % replicas == r).filterMap fun k => shuffled[k]? :=
        List.mem_filterMap.2 ⟨r, hk, List.getElem?_eq_getElem (by omega)⟩
      rw [h] at this
      exact absurd this (by simp)
  have hall : ((List.range replicas).flatMap mine).Perm shuffled := by
    by_cases h1 : replicas = 1
    · subst h1
      simp [mine]
    · have e : mine = fun r => everyNth replicas r shuffled := by funext r; simp [mine, if_neg h1]
      rw [e]
      exact everyNth_perm replicas hR shuffled
  have hB : ∀ r, r < replicas → ∃ batches, samplerRead permChunks (permute r) ivs replicas r nw bs = .ok batches ∧
      (∀ w, w < effectiveWorkers nw → (everyNth (effectiveWorkers nw) w batches).flatten = chunkIndices (permute r) (effectiveWorkers nw) (mine r) w) ∧
      ∀ b ∈ batches, b.length ≤ bs := by
    intro r hr
    obtain ⟨batches, g1, g2, g3⟩ := batchWorkers_ok (effectiveWorkers nw) bs hnw hb
      ((List.range (effectiveWorkers nw)).map (chunkIndices (permute r) (effectiveWorkers nw) (mine r))) (by simp) (by
        apply Classical.byContradiction
        intro hno
        have hnil : ∀ w, w < effectiveWorkers nw → chunkIndices (permute r) (effectiveWorkers nw) (mine r) w = [] := by
          intro w hw
          apply Classical.byContradiction
          intro h
          exact hno ⟨_, List.mem_map.2 ⟨w, by simpa using hw, rfl⟩, h⟩
        have hp1 := chunkIndices_all (permute r) (hp r) (effectiveWorkers nw) hnw (mine r)
        have : ((List.range (effectiveWorkers nw)).flatMap fun w => (chunkIndices (permute r) (effectiveWorkers nw) (mine r) w).map indexSample) = [] := by
          rw [List.flatMap_eq_nil_iff]
          intro w hw
          rw [hnil w (by simpa using hw)]
          rfl
        rw [this] at hp1
        have hz := hp1.symm.eq_nil
        obtain ⟨x, l, hx⟩ := List.exists_cons_of_ne_nil (hmine r hr)
        have hlt := hmem r x (by rw [hx]; simp)
        rw [hx, List.flatMap_cons] at hz
        have := congrArg List.length (List.append_eq_nil_iff.1 hz).1
        simp [region] at this
        omega)
    refine ⟨batches, ?_, ?_, g3⟩
    · rw [← g1]
      unfold samplerRead
      simp only [horder, hsh]
      rfl
    · intro w hw
      apply g2
      rw [List.getElem?_map, List.getElem?_range hw]
      rfl
  let B : Nat → List (List ChunkedIndex) := fun r => match samplerRead permChunks (permute r) ivs replicas r nw bs with
    | .ok b => b
    | .error _ => []
  have hBr : ∀ r, r < replicas → samplerRead permChunks (permute r) ivs replicas r nw bs = .ok (B r) ∧
      (∀ w, w < effectiveWorkers nw → (everyNth (effectiveWorkers nw) w (B r)).flatten = chunkIndices (permute r) (effectiveWorkers nw) (mine r) w) ∧
      ∀ b ∈ B r, b.length ≤ bs := by
    intro r hr
    obtain ⟨b, h1, h2, h3⟩ := hB r hr
    have : B r = b := by show (match samplerRead permChunks (permute r) ivs replicas r nw bs with | .ok b => b | .error _ => []) = b; rw [h1]
    rw [this]
    exact ⟨h1, h2, h3⟩
  refine ⟨B, fun r hr => (hBr r hr).1, ?_, ?_⟩
  · have hone : ∀ r, r < replicas → ((B r).flatten.map fun c => (c.chunkIndex, c.index)).Perm ((mine r).flatMap fun x => region x.1 x.2.roiStart x.2.roiEnd) := by
      intro r hr
      have h1 := (everyNth_perm_flatten (effectiveWorkers nw) hnw (B r)).symm.map indexSample
      refine h1.trans ?_
      rw [List.map_flatMap]
      have : (List.range (effectiveWorkers nw)).flatMap (fun w => (everyNth (effectiveWorkers nw) w (B r)).flatten.map indexSample) =
          (List.range (effectiveWorkers nw)).flatMap fun w => (chunkIndices (permute r) (effectiveWorkers nw) (mine r) w).map indexSample := by
        rw [List.flatMap, List.flatMap]
        congr 1
        apply List.map_congr_left
        intro w hw
        rw [(hBr r hr).2.1 w (by simpa using hw)]
      rw [this]
      exact chunkIndices_all (permute r) (hp r) (effectiveWorkers nw) hnw (mine r)
    have hcat : ∀ (rs : List Nat), (∀ r ∈ rs, r < replicas) →
        (rs.flatMap fun r => (B r).flatten.map fun c => (c.chunkIndex, c.index)).Perm (rs.flatMap fun r => (mine r).flatMap fun x => region x.1 x.2.roiStart x.2.roiEnd) := by
      intro rs hrs
      induction rs with
      | nil => exact List.Perm.refl _
      | cons r rs ih =>
        rw [List.flatMap_cons, List.flatMap_cons]
        exact (hone r (hrs r (by simp))).append (ih fun r hr => hrs r (by simp [hr]))
    refine (hcat (List.range replicas) (by simp)).trans ?_
    rw [← List.flatMap_assoc]
    exact (hall.trans hperm).flatMap_right _
  · intro r hr
    obtain ⟨_, h2, h3⟩ := hBr r hr
    refine ⟨h3, fun w hw c l hc => ?_⟩
    rw [h2 w hw] at hc
    obtain ⟨an, g1, g2, _⟩ := chunkIndices_announce (permute r) (effectiveWorkers nw) (mine r) w c l hc
    exact ⟨an, g1, g2⟩

/-- Three chunks read by two replicas of two workers, chunks and samples reversed. -/
example : samplerRead List.reverse (fun _ => List.reverse) [⟨0, 0, 2, 2⟩, ⟨2, 2, 4, 4⟩, ⟨4, 4, 6, 6⟩] 2 0 2 2 =
    .ok [[⟨5, 2, some [2], false⟩, ⟨4, 2, none, false⟩], [⟨1, 0, some [0], false⟩, ⟨0, 0, none, false⟩]] := by decide +kernel

/-- **C22, every replica draws its own permutation.** The replicas call `np.random.permutation` in separate
processes. When the draws differ, a sample is read by both replicas and another by none. -/
theorem c22_own_permutations_repeat :
    samplerRead id (fun _ => id) [⟨0, 0, 1, 1⟩, ⟨1, 1, 2, 2⟩] 2 0 1 1 = .ok [[⟨0, 0, some [0], false⟩]] ∧
    samplerRead List.reverse (fun _ => id) [⟨0, 0, 1, 1⟩, ⟨1, 1, 2, 2⟩] 2 1 1 1 = .ok [[⟨0, 0, some [0], false⟩]] := by decide +kernel

end LitData.Props
