import Verif.Model.Collate

/-! Property C66, the counters: whatever collates the samples, the loader writes down the counters of the last sample of a batch. -/

namespace LitData.Props
open LitData

theorem mapM_samples {α : Type} (items : List (α × List Nat)) : (items.map fun p => CombinedItem.counted p.1 p.2).mapM CombinedItem.sample = .ok (items.map (·.1)) := by
  induction items with
  | nil => rfl
  | cons p ps ih => simp only [List.map_cons, List.mapM_cons, ih]; rfl

theorem mapM_counts {α : Type} (items : List (α × List Nat)) : (items.map fun p => CombinedItem.counted p.1 p.2).mapM CombinedItem.counts = .ok (items.map (·.2)) := by
  induction items with
  | nil => rfl
  | cons p ps ih => simp only [List.map_cons, List.mapM_cons, ih]; rfl

theorem mapM_columns (bs : Nat) (cols : List (List Nat)) (f : List Nat → Nat) (h : ∀ c ∈ cols, columnItem bs c = .ok (f c)) : cols.mapM (columnItem bs) = .ok (cols.map f) := by
  induction cols with
  | nil => rfl
  | cons c cs ih =>
    rw [List.mapM_cons, h c List.mem_cons_self, ih (fun c' h' => h c' (List.mem_cons_of_mem _ h'))]
    rfl

/-- **C66, the counters in a batch.** A batch of a combined dataset of `n` datasets with at most `batch_size` samples, each with the counters of its time, is collated by
the collate function of the user or by that of PyTorch. The user gets what the function makes of the samples, and the loader writes down, for the worker whose turn it
is, the counters of the last sample. -/
theorem c66_collate {α β : Type} (collate : List α → β) (plain : List (CombinedItem α) → Py β) (n nw bs : Nat) (s : LoaderState) (items : List (α × List Nat)) (last : α × List Nat)
    (hn : ∀ p ∈ items ++ [last], p.2.length = n) (hbs : items.length < bs) :
    (∃ b, userCollate collate plain ((items ++ [last]).map fun p => .counted p.1 p.2) = .ok b ∧
      loaderTake nw bs s b = .ok (loaderBatchCombined nw last.2 s, collate ((items ++ [last]).map (·.1)))) ∧
    ∃ b, defaultCollate collate plain ((items ++ [last]).map fun p => .counted p.1 p.2) = .ok b ∧
      loaderTake nw bs s b = .ok (loaderBatchCombined nw last.2 s, collate ((items ++ [last]).map (·.1))) := by
  have hsam := mapM_samples (items ++ [last])
  have hcnt := mapM_counts (items ++ [last])
  obtain ⟨p, ps, hp⟩ : ∃ p ps, items ++ [last] = p :: ps := List.exists_cons_of_ne_nil (by simp)
  have hlast : (p :: ps).getLast? = some last := by rw [← hp]; simp
  have hlen : ps.length = items.length := by
    have := congrArg List.length hp
    simpa using this.symm
  have hn' : ∀ q ∈ p :: ps, q.2.length = n := by rw [← hp]; exact hn
  rw [hp] at hsam hcnt ⊢
  simp only [List.map_cons] at hsam hcnt ⊢
  constructor
  · refine ⟨.counted (collate (p.1 :: ps.map (·.1))) (last.2.map fun n => [n]), ?_, ?_⟩
    · have hl : ((ps.map fun p => CombinedItem.counted p.1 p.2).getLastD (.counted p.1 p.2)).counts = .ok last.2 := by
        rw [List.getLastD_eq_getLast?, List.getLast?_map]
        cases hq : ps.getLast? with
        | none =>
          have : ps = [] := by simpa using hq
          subst this
          cases hlast
          rfl
        | some q =>
          rw [List.getLast?_cons, hq] at hlast
          cases hlast
          rfl
      simp only [userCollate, hsam, hl]
      rfl
    · simp only [loaderTake]
      rw [mapM_columns bs _ (fun c => c.headD 0)]
      · simp only [List.map_map]
        have : (last.2.map ((fun c : List Nat => c.headD 0) ∘ fun n => [n])) = last.2 := by
          exact (List.map_congr_left (g := id) fun a _ => rfl).trans (List.map_id _)
        rw [this]
        rfl
      · intro c hc
        rw [List.mem_map] at hc
        obtain ⟨m, _, rfl⟩ := hc
        unfold columnItem
        split <;> rfl
  · have hall : (ps.map (·.2)).all (fun q => q.length == p.2.length) = true := by
      rw [List.all_eq_true]
      intro q hq
      rw [List.mem_map] at hq
      obtain ⟨r, hr, rfl⟩ := hq
      rw [hn' r (List.mem_cons_of_mem _ hr), hn' p List.mem_cons_self]
      simp
    refine ⟨.counted (collate (p.1 :: ps.map (·.1))) ((List.range p.2.length).map fun d => (p.2 :: ps.map (·.2)).map fun q => q.getD d 0), ?_, ?_⟩
    · simp only [defaultCollate, hsam, hcnt, columnsOf]
      show (do let cols ← (if (ps.map (·.2)).all (fun q => q.length == p.2.length) = true then Except.ok _ else Except.error Err.runtimeError); Except.ok (CollatedBatch.counted _ cols) : Py (CollatedBatch β)) = _
      rw [if_pos hall]
      rfl
    · simp only [loaderTake]
      rw [mapM_columns bs _ (fun c => c.getLastD 0)]
      · rw [List.map_map]
        have : ((List.range p.2.length).map ((fun c : List Nat => c.getLastD 0) ∘ fun d => (p.2 :: ps.map (·.2)).map fun q => q.getD d 0)) = last.2 := by
          have hl2 : (p.2 :: ps.map (·.2)).getLast? = some last.2 := by
            have := congrArg (Option.map (·.2)) hlast
            rw [← List.getLast?_map] at this
            simpa using this
          have hpl : p.2.length = last.2.length := by
            rw [hn' p List.mem_cons_self, hn last (by simp)]
          apply List.ext_getElem
          · simp [hpl]
          · intro i h1 h2
            rw [List.getElem_map, List.getElem_range]
            show ((p.2 :: ps.map (·.2)).map fun q => q.getD i 0).getLastD 0 = _
            rw [List.getLastD_eq_getLast?, List.getLast?_map, hl2]
            simp [h2]
        rw [this]
        rfl
      · intro c hc
        rw [List.mem_map] at hc
        obtain ⟨d, _, rfl⟩ := hc
        unfold columnItem
        split
        · rw [List.getLastD_eq_getLast?]
          cases hq : ((p.2 :: ps.map (·.2)).map fun q => q.getD d 0).getLast? with
          | none => simp at hq
          | some m => rfl
        · have : ps = [] := List.length_eq_zero_iff.1 (by omega)
          subst this
          rfl

/-- Three samples of two datasets with the counters after each: `[3, 1]` is written down. -/
example := c66_collate (α := Nat) (fun xs => xs.sum) (fun _ => .ok 0) 2 2 4 newLoader [(10, [2, 0]), (11, [2, 1])] (12, [3, 1]) (by simp) (by decide)

/-- **C66, batches without counters.** Each batch whose items carry no counters goes to the user as it is, and the turn goes to the next worker; nothing is written
down for any worker. -/
theorem c66_plain {β : Type} (nw bs : Nat) (batches : List β) (s : LoaderState) :
    batches.foldlM (fun (p : LoaderState × List β) b => (loaderTake nw bs p.1 (.plain b)).map fun r => (r.1, p.2 ++ [r.2])) (s, []) =
      .ok ({ s with cycle := s.cycle + batches.length, latest := if batches = [] then s.latest else (s.cycle + batches.length - 1) % (if nw > 0 then nw else 1) }, batches) := by
  have main : ∀ (l : List β) (s : LoaderState) (acc : List β),
      l.foldlM (fun (p : LoaderState × List β) b => (loaderTake nw bs p.1 (.plain b)).map fun r => (r.1, p.2 ++ [r.2])) (s, acc) =
        .ok ({ s with cycle := s.cycle + l.length, latest := if l = [] then s.latest else (s.cycle + l.length - 1) % (if nw > 0 then nw else 1) }, acc ++ l) := by
    intro l
    induction l with
    | nil => intro s acc; simp [pure, Except.pure]
    | cons b r ih =>
      intro s acc
      rw [List.foldlM_cons]
      have e := ih { s with latest := s.cycle % cycleLength nw, cycle := s.cycle + 1 } (acc ++ [b])
      simp only [loaderTake, Except.map, bind, Except.bind] at e ⊢
      rw [e]
      cases r with
      | nil => simp [cycleLength]
      | cons b' r' =>
        simp only [List.length_cons, reduceCtorEq, if_false, List.append_assoc, List.cons_append, List.nil_append]
        rw [show s.cycle + 1 + (r'.length + 1) = s.cycle + (r'.length + 1 + 1) by omega]
  exact main batches s []

/-- Five batches of two workers: the next one is of the second worker. -/
example := c66_plain (β := Nat) 2 4 [10, 11, 12, 13, 14] newLoader

end LitData.Props
