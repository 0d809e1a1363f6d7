import Verif.Lemmas.LoaderIter
import Verif.Model.Loader
import Verif.Spec.RoundRobin

/-! Property C39: the order in which a multi-worker loader delivers batches. -/

namespace LitData.Props
open LitData Spec

theorem fetchBatches_get {α : Type} (bs : Nat) (hbs : 0 < bs) : ∀ (fuel : Nat) (xs : List α) (t : Nat), xs.length ≤ fuel →
    (fetchBatches bs fuel xs)[t]? = batchAt bs xs t := by
  intro fuel
  induction fuel with
  | zero =>
    intro xs t h
    have : xs = [] := List.eq_nil_of_length_eq_zero (by omega)
    subst this
    simp [fetchBatches, batchAt]
  | succ fuel ih =>
    intro xs t h
    unfold fetchBatches
    by_cases hx : xs = []
    · subst hx
      simp [batchAt]
    · have hpos : 0 < xs.length := List.length_pos_iff.2 hx
      have hne : ¬ (xs.take bs).isEmpty = true := by
        rw [List.isEmpty_iff]
        intro he
        have := congrArg List.length he
        rw [List.length_take, List.length_nil] at this
        omega
      rw [if_neg hne]
      cases t with
      | zero =>
        unfold batchAt
        simp only [List.getElem?_cons_zero, Nat.zero_mul, List.drop_zero]
        rw [if_neg hne]
      | succ t =>
        rw [List.getElem?_cons_succ, ih _ _ (by rw [List.length_drop]; omega)]
        unfold batchAt
        rw [List.drop_drop, show bs + t * bs = (t + 1) * bs by rw [Nat.add_mul]; omega]

theorem workerBatches_get {α : Type} (bs : Nat) (hbs : 0 < bs) (streams : List (List α)) (w t : Nat) :
    (workerBatches bs streams w)[t]? = (streams[w]?).bind fun xs => batchAt bs xs t := by
  unfold workerBatches
  cases h : streams[w]? with
  | none => rfl
  | some xs => exact fetchBatches_get bs hbs _ xs t (Nat.le_refl _)

theorem visitBatch_eq {α : Type} (bs : Nat) (hbs : 0 < bs) (streams : List (List α)) (start p : Nat) :
    visitBatch streams.length start (workerBatches bs streams) p = visit bs streams start p := by
  unfold visitBatch visit visitWorker
  rw [workerBatches_get bs hbs]

theorem visit_start_mod {α : Type} (bs : Nat) (streams : List (List α)) (start p : Nat) :
    visit bs streams (start % streams.length) p = visit bs streams start p := by
  unfold visit
  rw [Nat.mod_add_mod]

/-- **C39.** In every execution, in whatever order workers and main process run, the batches delivered so far are
those of the first visits in the rotation over workers that starts with worker `latest mod num_workers`; a worker is
passed over once it has nothing left. When the loader stops, no later visit would bring anything. -/
theorem c39_round_robin {α : Type} (streams : List (List α)) (hn : streams ≠ []) (bs prefetch latest : Nat) (hbs : 0 < bs) (hp : 0 < prefetch)
    (restore : Bool) (hl : latest ≤ streams.length) (hr : restore = false → latest = 0) (es : List LoaderEvent) :
    ∃ m, (loaderRun streams.length restore (loaderStart streams.length prefetch latest restore (workerBatches bs streams)) es).out = delivered bs streams latest m ∧
      ((loaderRun streams.length restore (loaderStart streams.length prefetch latest restore (workerBatches bs streams)) es).finished = true →
        ∀ p, m ≤ p → visit bs streams latest p = none) := by
  have hnw : 0 < streams.length := List.length_pos_iff.2 hn
  have hinv := loaderRun_inv (restore := restore) es (loaderStart_inv hnw prefetch latest hp restore hl hr (workerBatches bs streams))
  obtain ⟨g, h, _⟩ := hinv
  obtain ⟨m, h1, h2⟩ := h.delivered
  have e : visitBatch streams.length (latest % streams.length) (workerBatches bs streams) = visit bs streams latest := by
    funext p
    rw [visitBatch_eq bs hbs, visit_start_mod]
  rw [e] at h1 h2
  exact ⟨m, h1, h2⟩

/-- **C39, the loader stops.** In every infinite execution in which no process stays idle for ever, the loader
comes to its end: it waits for no worker that has nothing to say. -/
theorem c39_terminates {α : Type} (streams : List (List α)) (hn : streams ≠ []) (bs prefetch latest : Nat) (hp : 0 < prefetch)
    (restore : Bool) (hl : latest ≤ streams.length) (hr : restore = false → latest = 0) (σ : Nat → LoaderEvent)
    (hmain : ∀ n, ∃ n', n ≤ n' ∧ σ n' = .main) (hwork : ∀ w, w < streams.length → ∀ n, ∃ n', n ≤ n' ∧ σ n' = .work w)
    (run : Nat → LoaderIter (List α)) (h0 : run 0 = loaderStart streams.length prefetch latest restore (workerBatches bs streams))
    (hrun : ∀ n, run (n + 1) = loaderStep streams.length restore (run n) (σ n)) : ∃ n, (run n).finished = true := by
  have hnw : 0 < streams.length := List.length_pos_iff.2 hn
  apply fair_finishes (nw := streams.length) (s0 := latest % streams.length) (S := workerBatches bs streams) (restore := restore)
    (((List.range streams.length).map fun w => (workerBatches bs streams w).length).sum)
    (fun w hw => le_sum_mem (List.mem_map.2 ⟨w, List.mem_range.2 hw, rfl⟩)) σ hmain hwork run hrun
  rw [h0]
  exact loaderStart_inv hnw prefetch latest hp restore hl hr (workerBatches bs streams)

/-! Nothing is lost or repeated. -/

theorem flatMap_append_perm {α β : Type} (l : List α) (f g : α → List β) : (l.flatMap fun x => f x ++ g x).Perm (l.flatMap f ++ l.flatMap g) := by
  induction l with
  | nil => exact List.Perm.refl _
  | cons a l ih =>
    simp only [List.flatMap_cons]
    have h1 : (f a ++ g a ++ l.flatMap fun x => f x ++ g x).Perm (f a ++ g a ++ (l.flatMap f ++ l.flatMap g)) := ih.append_left _
    refine h1.trans ?_
    rw [List.append_assoc, List.append_assoc]
    apply List.Perm.append_left
    rw [← List.append_assoc, ← List.append_assoc]
    exact List.perm_append_comm.append_right _

theorem flatMap_swap {β : Type} (m n : Nat) (f : Nat → Nat → List β) :
    ((List.range m).flatMap fun i => (List.range n).flatMap fun j => f i j).Perm ((List.range n).flatMap fun j => (List.range m).flatMap fun i => f i j) := by
  induction m with
  | zero => simp
  | succ m ih =>
    simp only [List.range_succ, List.flatMap_append, List.flatMap_cons, List.flatMap_nil, List.append_nil]
    exact (ih.append_right _).trans (flatMap_append_perm _ _ _).symm

/-- The first `K` batches of a list that is no longer than that. -/
theorem batches_all {α : Type} (bs : Nat) (xs : List α) : ∀ K, ((List.range K).flatMap fun r => ((batchAt bs xs r).toList).flatten) = xs.take (K * bs) := by
  intro K
  induction K with
  | zero => simp
  | succ K ih =>
    rw [List.range_succ, List.flatMap_append, ih]
    simp only [List.flatMap_cons, List.flatMap_nil, List.append_nil]
    have hb : ((batchAt bs xs K).toList).flatten = (xs.drop (K * bs)).take bs := by
      unfold batchAt
      simp only
      split
      · next h => simpa using h.symm
      · simp
    rw [hb, Nat.add_mul, Nat.one_mul, List.take_add]

theorem rangeMul {γ : Type} (n : Nat) (f : Nat → List γ) : ∀ K, (List.range (K * n)).flatMap f = (List.range K).flatMap fun r => (List.range n).flatMap fun j => f (r * n + j) := by
  intro K
  induction K with
  | zero => simp
  | succ K ih =>
    rw [List.range_succ, List.flatMap_append, ← ih, Nat.add_mul, Nat.one_mul]
    simp only [List.flatMap_cons, List.flatMap_nil, List.append_nil]
    have : List.range (K * n + n) = List.range (K * n) ++ (List.range n).map (K * n + ·) := by
      rw [List.range_add]
    rw [this, List.flatMap_append, List.flatMap_map]

theorem rotation_perm (n s : Nat) (hn : 0 < n) : ((List.range n).map fun j => (s + j) % n).Perm (List.range n) := by
  have hs : s % n < n := Nat.mod_lt _ hn
  have heq : ∀ j, j < n → (s + j) % n = if s % n + j < n then s % n + j else s % n + j - n := by
    intro j hj
    rw [← add_mod_cases hs hj, Nat.mod_add_mod]
  rw [List.perm_ext_iff_of_nodup]
  · intro w
    simp only [List.mem_map, List.mem_range]
    constructor
    · rintro ⟨j, hj, rfl⟩; exact Nat.mod_lt _ hn
    · intro hw
      refine ⟨slot n (s % n) w, slot_lt hs hw, ?_⟩
      rw [heq _ (slot_lt hs hw)]
      unfold slot
      (repeat' split) <;> omega
  · rw [List.nodup_iff_pairwise_ne, List.pairwise_map]
    apply List.Pairwise.imp_of_mem (R := fun a b => a < b)
    · intro a b ha hb hab
      rw [heq a (List.mem_range.1 ha), heq b (List.mem_range.1 hb)]
      have := List.mem_range.1 hb
      (repeat' split) <;> omega
    · exact List.pairwise_lt_range
  · exact List.nodup_range

/-- **C39, completeness.** When the loader stops, every sample of every worker has been delivered exactly once, and the
batches of each worker came in its own order (they are its visits `r * num_workers + slot` for `r = 0, 1, ...`). -/
theorem c39_complete {α : Type} (streams : List (List α)) (hn : streams ≠ []) (bs prefetch latest : Nat) (hbs : 0 < bs) (hp : 0 < prefetch)
    (restore : Bool) (hl : latest ≤ streams.length) (hr : restore = false → latest = 0) (es : List LoaderEvent)
    (hfin : (loaderRun streams.length restore (loaderStart streams.length prefetch latest restore (workerBatches bs streams)) es).finished = true) :
    ((loaderRun streams.length restore (loaderStart streams.length prefetch latest restore (workerBatches bs streams)) es).out.flatten).Perm streams.flatten := by
  have hnw : 0 < streams.length := List.length_pos_iff.2 hn
  obtain ⟨m, h1, h2⟩ := c39_round_robin streams hn bs prefetch latest hbs hp restore hl hr es
  rw [h1]
  have hnone := h2 hfin
  -- take a number of rounds that covers everything
  let K := m + (streams.map List.length).sum
  have hKm : m ≤ K * streams.length := Nat.le_trans (Nat.le_add_right _ _) (Nat.le_mul_of_pos_right _ hnw)
  have hext : delivered bs streams latest m = delivered bs streams latest (K * streams.length) := by
    unfold delivered
    obtain ⟨d, hd⟩ : ∃ d, K * streams.length = m + d := ⟨K * streams.length - m, by omega⟩
    rw [hd, List.range_add, List.filterMap_append]
    have : ((List.range d).map (m + ·)).filterMap (visit bs streams latest) = [] := by
      rw [List.filterMap_eq_nil_iff]
      intro p hp
      obtain ⟨j, _, rfl⟩ := List.mem_map.1 hp
      exact hnone _ (by omega)
    rw [this, List.append_nil]
  rw [hext]
  have hflat : ∀ n, (delivered bs streams latest n).flatten = (List.range n).flatMap fun p => ((visit bs streams latest p).toList).flatten := by
    intro n
    unfold delivered
    induction n with
    | zero => rfl
    | succ n ih =>
      rw [List.range_succ, List.filterMap_append, List.flatten_append, ih, List.flatMap_append]
      congr 1
      simp only [List.flatMap_cons, List.flatMap_nil, List.append_nil]
      cases hv : visit bs streams latest n with
      | none => simp [hv]
      | some b => simp [hv]
  rw [hflat, rangeMul]
  refine (flatMap_swap _ _ _).trans ?_
  have hcol : ((List.range streams.length).flatMap fun j => (List.range K).flatMap fun r => ((visit bs streams latest (r * streams.length + j)).toList).flatten) =
      ((List.range streams.length).map fun j => (latest + j) % streams.length).flatMap fun w => (streams[w]?).getD [] := by
    rw [List.flatMap_map]
    rw [List.flatMap, List.flatMap]
    congr 1
    apply List.map_congr_left
    intro j hj
    have hj' := List.mem_range.1 hj
    have hlt : (latest + j) % streams.length < streams.length := Nat.mod_lt _ hnw
    have : ((List.range K).flatMap fun r => ((visit bs streams latest (r * streams.length + j)).toList).flatten) =
        (List.range K).flatMap fun r => ((batchAt bs streams[(latest + j) % streams.length] r).toList).flatten := by
      rw [List.flatMap, List.flatMap]
      congr 1
      apply List.map_congr_left
      intro r _
      unfold visit
      rw [show latest + (r * streams.length + j) = latest + j + r * streams.length by omega, Nat.add_mul_mod_self_right,
        show r * streams.length + j = j + r * streams.length by omega, Nat.add_mul_div_right _ _ hnw, Nat.div_eq_of_lt hj', Nat.zero_add,
        List.getElem?_eq_getElem hlt]
      rfl
    rw [this, batches_all, List.getElem?_eq_getElem hlt, Option.getD_some]
    apply List.take_of_length_le
    have h3 : (streams[(latest + j) % streams.length]).length ≤ (streams.map List.length).sum :=
      le_sum_mem (List.mem_map.2 ⟨_, List.getElem_mem hlt, rfl⟩)
    exact Nat.le_trans h3 (Nat.le_trans (Nat.le_add_left _ _) (Nat.le_mul_of_pos_right _ hbs))
  rw [hcol]
  refine ((rotation_perm streams.length latest hnw).flatMap_right _).trans ?_
  have : ((List.range streams.length).flatMap fun w => (streams[w]?).getD []) = streams.flatten := by
    rw [List.flatMap]
    congr 1
    apply List.ext_getElem
    · simp
    · intro i h1 h2
      simp at h1 h2
      simp [h1]
  rw [this]

/-- Three workers, one of them empty, one with a short last batch; the main process always runs too early. -/
example : (loaderRun 3 false (loaderStart 3 2 0 false (workerBatches 2 [[1, 2, 3], [], [4, 5, 6, 7, 8]]))
    ((List.replicate 40 [LoaderEvent.main, .work 2, .work 1, .main, .work 0]).flatten)).out = [[1, 2], [4, 5], [3], [6, 7], [8]] := by decide +kernel

/-- The same after a restart with worker 2: another rotation, the same samples. -/
example : (loaderRun 3 true (loaderStart 3 2 2 true (workerBatches 2 [[1, 2, 3], [], [4, 5, 6, 7, 8]]))
    ((List.replicate 40 [LoaderEvent.work 0, .work 0, .work 2, .main, .work 1]).flatten)).out = [[4, 5], [1, 2], [6, 7], [3], [8]] := by decide +kernel

/-- A fair schedule exists: take the events in turn. -/
example : (∀ n, ∃ n', n ≤ n' ∧ (if n' % 4 = 3 then LoaderEvent.main else .work (n' % 4)) = .main) ∧
    ∀ w, w < 3 → ∀ n, ∃ n', n ≤ n' ∧ (if n' % 4 = 3 then LoaderEvent.main else .work (n' % 4)) = .work w := by
  constructor
  · intro n
    exact ⟨4 * n + 3, by omega, by rw [if_pos (by omega)]⟩
  · intro w hw n
    refine ⟨4 * n + w, by omega, ?_⟩
    rw [if_neg (by omega), show (4 * n + w) % 4 = w by omega]

end LitData.Props
