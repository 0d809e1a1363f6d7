import Verif.Lemmas.SkipDelete

/-! The whole search over shared chunks and ranks returns. -/

namespace LitData

theorem sum_zipIdx_const {α : Type} (f : α → Nat) (P : Nat → Bool) (b : Bool) (L : List α) (k : Nat)
    (h : ∀ i, k ≤ i → i < k + L.length → P i = b) :
    ((L.zipIdx k).map fun p => if P p.2 then f p.1 else 0).sum = if b then (L.map f).sum else 0 := by
  induction L generalizing k with
  | nil => simp
  | cons a L ih =>
    rw [List.zipIdx_cons, List.map_cons, List.sum_cons, ih (k + 1) fun i h1 h2 => h i (by omega) (by simp only [List.length_cons]; omega)]
    have := h k (Nat.le_refl _) (by simp)
    simp only [this]
    cases b <;> simp

theorem sum_zipIdx_slice {α : Type} (f : α → Nat) (nw rank : Nat) (hnw : 0 < nw) (L : List α) :
    (L.zipIdx.map fun p => if decide (p.2 / nw = rank) then f p.1 else 0).sum
      = (((L.drop (rank * nw)).take nw).map f).sum := by
  have hsplit : L = L.take (rank * nw) ++ ((L.drop (rank * nw)).take nw ++ (L.drop (rank * nw)).drop nw) := by
    rw [List.take_append_drop, List.take_append_drop]
  conv => lhs; rw [hsplit]
  rw [List.zipIdx_append, List.zipIdx_append, List.map_append, List.map_append, List.sum_append, List.sum_append]
  have hl1 : (L.take (rank * nw)).length ≤ rank * nw := by simp; omega
  have hl2 : ((L.drop (rank * nw)).take nw).length ≤ nw := by simp; omega
  by_cases hfull : rank * nw ≤ L.length
  · have hl1' : (L.take (rank * nw)).length = rank * nw := by simp; omega
    rw [sum_zipIdx_const f (fun i => decide (i / nw = rank)) false]
    · rw [sum_zipIdx_const f (fun i => decide (i / nw = rank)) true]
      · by_cases hfull2 : nw ≤ (L.drop (rank * nw)).length
        · have hl2' : ((L.drop (rank * nw)).take nw).length = nw := by simp at hfull2 ⊢; omega
          rw [sum_zipIdx_const f (fun i => decide (i / nw = rank)) false]
          · simp
          · intro i h1 _
            rw [hl1', hl2'] at h1
            have : rank + 1 ≤ i / nw := (Nat.le_div_iff_mul_le hnw).2 (by rw [Nat.succ_mul]; omega)
            simp; omega
        · have : (L.drop (rank * nw)).drop nw = [] := List.drop_of_length_le (by omega)
          rw [this]
          simp
      · intro i h1 h2
        rw [hl1'] at h1 h2
        have h3 : rank ≤ i / nw := (Nat.le_div_iff_mul_le hnw).2 (by omega)
        have h4 : i / nw < rank + 1 := (Nat.div_lt_iff_lt_mul hnw).2 (by rw [Nat.succ_mul]; omega)
        simp; omega
    · intro i _ h2
      rw [hl1'] at h2
      have h4 : i / nw < rank := (Nat.div_lt_iff_lt_mul hnw).2 (by omega)
      simp; omega
  · have hd : L.drop (rank * nw) = [] := List.drop_of_length_le (by omega)
    rw [hd, sum_zipIdx_const f (fun i => decide (i / nw = rank)) false]
    · simp
    · intro i _ h2
      have h4 : i / nw < rank := (Nat.div_lt_iff_lt_mul hnw).2 (by omega)
      simp; omega

/-- The workers of a rank in the entry of a chunk are as many as the occurrences of the chunk at that rank. -/
theorem rank_workers_length (nw rank chunk : Nat) (hnw : 0 < nw) (work : List WorkLeft) :
    (valsOf ((valsOf (chunkWorkerPairs (work.map fun l => l.map (·.1))) chunk).map fun w => (w / nw, w)) rank).length
      = occ chunk ((work.drop (rank * nw)).take nw) := by
  unfold occ
  rw [← sum_zipIdx_slice (occOf chunk) nw rank hnw work]
  have hgen : ∀ k : Nat, (valsOf ((valsOf (((work.map fun l => l.map (·.1)).zipIdx k).flatMap fun p => p.1.map fun c => (c, p.2))
      chunk).map fun w => (w / nw, w)) rank).length
      = ((work.zipIdx k).map fun p => if decide (p.2 / nw = rank) then occOf chunk p.1 else 0).sum := by
    induction work with
    | nil => intro k; rfl
    | cons l work ih =>
      intro k
      rw [List.map_cons, List.zipIdx_cons, List.flatMap_cons, valsOf_append, List.map_append, valsOf_append, List.length_append, ih]
      rw [List.zipIdx_cons, List.map_cons, List.sum_cons]
      congr 1
      simp only
      induction l with
      | nil => simp [valsOf, occOf]
      | cons p l ihl =>
        obtain ⟨c, s⟩ := p
        rw [List.map_cons, List.map_cons, ← List.singleton_append, valsOf_append, List.map_append, valsOf_append,
          List.length_append, ihl]
        by_cases h1 : k / nw = rank <;> by_cases h2 : c = chunk <;>
          simp [valsOf, occOf, h1, h2, Nat.add_comm]
  exact hgen 0

theorem restAll_slice_le (work : List WorkLeft) (a b : Nat) : restAll ((work.drop a).take b) ≤ restAll work := by
  have h : ((work.drop a).take b).Sublist work := (List.take_sublist _ _).trans (List.drop_sublist _ _)
  unfold restAll
  generalize (work.drop a).take b = l at h
  induction h with
  | slnil => exact Nat.le_refl _
  | cons a _ ih => simp only [List.map_cons, List.sum_cons]; omega
  | cons_cons a _ ih => simp only [List.map_cons, List.sum_cons]; omega

/-- Worker `w` reads the chunk. -/
def ReadsChunk (work : List WorkLeft) (w chunk : Nat) : Prop := ∃ l : WorkLeft, work[w]? = some l ∧ chunk ∈ l.map (·.1)

theorem mem_workers {work : List WorkLeft} {w chunk : Nat} :
    w ∈ valsOf (chunkWorkerPairs (work.map fun l => l.map (·.1))) chunk ↔ ReadsChunk work w chunk := by
  rw [mem_valsOf, mem_chunkWorkerPairs]
  constructor
  · rintro ⟨l, h1, h2⟩
    rw [List.getElem?_map, Option.map_eq_some_iff] at h1
    obtain ⟨l', h1, rfl⟩ := h1
    exact ⟨l', h1, h2⟩
  · rintro ⟨l, h1, h2⟩
    exact ⟨l.map (·.1), by rw [List.getElem?_map, h1]; rfl, h2⟩

/-- The state before the loop for a rank that shares the chunk. -/
theorem simInit_ok (nw R rank chunk : Nat) (work : List WorkLeft) (hnw : 0 < nw) (hlen : work.length = R * nw)
    (workers : List Nat)
    (hw : workers = valsOf ((valsOf (chunkWorkerPairs (work.map fun l => l.map (·.1))) chunk).map fun w => (w / nw, w)) rank)
    (hne : workers ≠ []) :
    SimOk nw chunk (((work.drop (rank * nw)).take nw).map fun l => l.map (·.1)) (simInit nw rank work workers) := by
  have hrank : rank < R := by
    cases hws : workers with
    | nil => exact absurd hws hne
    | cons w ws =>
      have hmem : w ∈ workers := by rw [hws]; simp
      rw [hw, mem_valsOf] at hmem
      obtain ⟨w', hw', he⟩ := List.mem_map.1 hmem
      simp only [Prod.mk.injEq] at he
      obtain ⟨he1, rfl⟩ := he
      obtain ⟨l, hl, _⟩ := mem_workers.1 hw'
      have := (List.getElem?_eq_some_iff.1 hl).1
      rw [hlen] at this
      rw [← he1]
      exact (Nat.div_lt_iff_lt_mul hnw).2 this
  refine ⟨?_, ?_, List.length_pos_iff.2 hne, by simp [simInit], ?_⟩
  · have : rank * nw + nw ≤ R * nw := by
      have := Nat.mul_le_mul_right nw hrank
      rw [Nat.succ_mul] at this; exact this
    simp only [simInit, List.length_take, List.length_drop]
    omega
  · simp only [simInit, hw]
    exact (rank_workers_length nw rank chunk hnw work).symm
  · intro w l hl
    simp only [simInit] at hl
    exact ⟨l.map (·.1), by rw [List.getElem?_map, hl]; rfl, fun c hc => hc⟩

/-- Iterations that are always enough. -/
def enoughFuel (nw : Nat) (work : List WorkLeft) : Nat := restAll work * nw + nw + 1

theorem simulate_rank (nw bs R rank chunk : Nat) (work : List WorkLeft) (hnw : 0 < nw) (hbs : 0 < bs)
    (hlen : work.length = R * nw) (workers : List Nat)
    (hw : workers = valsOf ((valsOf (chunkWorkerPairs (work.map fun l => l.map (·.1))) chunk).map fun w => (w / nw, w)) rank)
    (hne : workers ≠ []) (fuel : Nat) (hf : enoughFuel nw work ≤ fuel) :
    ∃ i c, simulate nw bs chunk fuel (simInit nw rank work workers) = some (.ok (i, c)) ∧
      ReadsChunk work (rank * nw + i % nw) chunk := by
  have hok := simInit_ok nw R rank chunk work hnw hlen workers hw hne
  obtain ⟨w, p, rest, hwp⟩ := exists_nonempty (hok.occ ▸ hok.pos)
  have hwlt : w < nw := by
    have := (List.getElem?_eq_some_iff.1 hwp).1
    rw [hok.len] at this; exact this
  have hle : restAll (simInit nw rank work workers).left ≤ restAll work := restAll_slice_le work _ _
  have hmul := Nat.mul_le_mul_right nw hle
  obtain ⟨i, c, l0, h1, h2, h3⟩ := simulate_ends nw bs chunk _ hnw hbs _ _ w hok hwlt
    ⟨p, rest, by simp only [simInit, Nat.zero_add, Nat.mod_eq_of_lt hwlt] at hwp ⊢; exact hwp⟩ (Nat.le_refl _) fuel
    (by unfold enoughFuel at hf; omega)
  refine ⟨i, c, h1, ?_⟩
  rw [List.getElem?_map, Option.map_eq_some_iff] at h2
  obtain ⟨l, h2, rfl⟩ := h2
  refine ⟨l, ?_, h3⟩
  rw [List.getElem?_take, if_pos (Nat.mod_lt _ hnw), List.getElem?_drop] at h2
  exact h2

theorem trackRanks_ok (Q : Nat → Prop) (nw bs R chunk : Nat) (work : List WorkLeft) (hnw : 0 < nw) (hbs : 0 < bs)
    (hlen : work.length = R * nw) (fuel : Nat) (hf : enoughFuel nw work ≤ fuel) (rs : List (Nat × List Nat))
    (hrs : ∀ r ∈ rs, r.2 = valsOf ((valsOf (chunkWorkerPairs (work.map fun l => l.map (·.1))) chunk).map fun w => (w / nw, w)) r.1
      ∧ r.2 ≠ [])
    (hQ : ∀ r ∈ rs, ∀ i c, simulate nw bs chunk fuel (simInit nw r.1 work r.2) = some (.ok (i, c)) → Q (r.1 * nw + i % nw))
    (best : Option (Nat × Nat)) (hbest : ∀ b, best = some b → ReadsChunk work b.1 chunk ∧ Q b.1) :
    ∃ best', trackRanks nw bs fuel work chunk rs best = some (.ok best') ∧
      (∀ b, best' = some b → ReadsChunk work b.1 chunk ∧ Q b.1) ∧ (rs ≠ [] ∨ best ≠ none → best' ≠ none) := by
  induction rs generalizing best with
  | nil => exact ⟨best, rfl, hbest, by simp⟩
  | cons r rs ih =>
    obtain ⟨rank, workers⟩ := r
    obtain ⟨hw, hne⟩ := hrs (rank, workers) (by simp)
    obtain ⟨i, c, h1, h2⟩ := simulate_rank nw bs R rank chunk work hnw hbs hlen workers hw hne fuel hf
    have h2 : ReadsChunk work (rank * nw + i % nw) chunk ∧ Q (rank * nw + i % nw) := ⟨h2, hQ (rank, workers) (by simp) i c h1⟩
    have key : ∀ best : Option (Nat × Nat), (∀ b, best = some b → ReadsChunk work b.1 chunk ∧ Q b.1) → best ≠ none →
        ∃ best', trackRanks nw bs fuel work chunk rs best = some (.ok best') ∧
        (∀ b, best' = some b → ReadsChunk work b.1 chunk ∧ Q b.1) ∧ ((rank, workers) :: rs ≠ [] ∨ True → best' ≠ none) := by
      intro best hb hbn
      obtain ⟨best', g1, g2, g3⟩ := ih (fun r hr => hrs r (by simp [hr])) (fun r hr => hQ r (by simp [hr])) best hb
      exact ⟨best', g1, g2, fun _ => g3 (Or.inr hbn)⟩
    simp only [trackRanks, h1]
    cases best with
    | none =>
      obtain ⟨best', g1, g2, g3⟩ := key (some (rank * nw + i % nw, c)) (by intro b hb; cases hb; exact h2) (by simp)
      exact ⟨best', g1, g2, fun _ => g3 (Or.inr trivial)⟩
    | some b =>
      simp only
      obtain ⟨best', g1, g2, g3⟩ := key (if b.2 < c then some (rank * nw + i % nw, c) else some b)
        (by
          intro b' hb'
          split at hb'
          · cases hb'; exact h2
          · cases hb'; exact hbest b rfl) (by split <;> simp)
      exact ⟨best', g1, g2, fun _ => g3 (Or.inr trivial)⟩

theorem skipLoop_ok (Q : Nat → Nat → Prop) (nw bs R : Nat) (work : List WorkLeft) (hnw : 0 < nw) (hbs : 0 < bs)
    (hlen : work.length = R * nw) (fuel : Nat) (hf : enoughFuel nw work ≤ fuel) (es : List (Nat × List Nat))
    (hes : ∀ e ∈ es, e.2 = valsOf (chunkWorkerPairs (work.map fun l => l.map (·.1))) e.1 ∧ e.2 ≠ [])
    (hQ : ∀ chunk rank workers, workers = valsOf ((valsOf (chunkWorkerPairs (work.map fun l => l.map (·.1))) chunk).map
        fun w => (w / nw, w)) rank → workers ≠ [] → ∀ i c,
      simulate nw bs chunk fuel (simInit nw rank work workers) = some (.ok (i, c)) → Q chunk (rank * nw + i % nw)) :
    ∃ m, skipLoop nw bs fuel work es = some (.ok m) ∧ m.map (·.1) = es.map (·.1) ∧
      ∀ c ks, (c, ks) ∈ m → ∃ w, ReadsChunk work w c ∧ Q c w ∧ ∀ w', w' ∈ ks ↔ ReadsChunk work w' c ∧ w' ≠ w := by
  induction es with
  | nil => exact ⟨[], rfl, rfl, by simp⟩
  | cons e es ih =>
    obtain ⟨chunk, workers⟩ := e
    obtain ⟨hw, hne⟩ := hes (chunk, workers) (by simp)
    obtain ⟨m, h1, h2, h3⟩ := ih fun e he => hes e (by simp [he])
    simp only at hw hne
    have hdict := dictOfPairs_spec (workers.map fun w => (w / nw, w))
    have hrs : ∀ r ∈ sharedPerRank nw workers,
        r.2 = valsOf ((valsOf (chunkWorkerPairs (work.map fun l => l.map (·.1))) chunk).map fun w => (w / nw, w)) r.1
        ∧ r.2 ≠ [] := by
      intro r hr
      obtain ⟨g1, g2⟩ := (hdict.mem r.1 r.2).1 hr
      exact ⟨by rw [← hw]; exact g1, g2⟩
    have hrne : sharedPerRank nw workers ≠ [] := by
      cases hws : workers with
      | nil => exact absurd hws hne
      | cons w ws =>
        intro hc
        have hm : w ∈ valsOf (workers.map fun w => (w / nw, w)) (w / nw) := by
          rw [mem_valsOf, hws]; simp
        have := (hdict.mem (w / nw) _).2 ⟨rfl, by intro hc'; rw [hc'] at hm; cases hm⟩
        rw [show dictOfPairs (workers.map fun w => (w / nw, w)) = [] from by rw [hws]; exact hc] at this
        cases this
    obtain ⟨best, g1, g2, g3⟩ := trackRanks_ok (Q chunk) nw bs R chunk work hnw hbs hlen fuel hf _ hrs
      (fun r hr i c hs => hQ chunk r.1 r.2 (hrs r hr).1 (hrs r hr).2 i c hs) none (by simp)
    have g3 := g3 (Or.inl hrne)
    obtain ⟨b, rfl⟩ : ∃ b, best = some b := by
      cases best with
      | none => exact absurd rfl g3
      | some b => exact ⟨b, rfl⟩
    refine ⟨(chunk, workers.filter fun w => w != b.1) :: m, ?_, by simp [h2], ?_⟩
    · simp only [skipLoop, if_neg (Nat.pos_iff_ne_zero.1 hnw), g1, keepers, h1]
    · intro c ks hm
      rcases List.mem_cons.1 hm with he | hm
      · simp only [Prod.mk.injEq] at he
        obtain ⟨rfl, rfl⟩ := he
        refine ⟨b.1, (g2 b rfl).1, (g2 b rfl).2, fun w' => ?_⟩
        rw [List.mem_filter, hw, mem_workers]
        simp
      · exact h3 c ks hm

end LitData
