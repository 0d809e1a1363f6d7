import Verif.Lemmas.SkipDeleteAll
import Verif.Lemmas.SkipDeleteExact
import Verif.Lemmas.SkipDeleteAssign
import Verif.Props.Assign
import Verif.Spec.RoundRobin

/-! C38: of the workers that share a chunk exactly one deletes it, the last to use it. -/

namespace LitData.Props

open LitData Spec

/-- The search always returns, and of the workers reading a shared chunk all but exactly one are told to keep
it. `R` is the number of ranks. -/
theorem c38_one_deleter (nw bs R : Nat) (work : List WorkLeft) (hnw : 0 < nw) (hbs : 0 < bs)
    (hlen : work.length = R * nw) (fuel : Nat) (hf : enoughFuel nw work ≤ fuel) :
    ∃ m, skipDeletion nw bs fuel work = some (.ok m) ∧ (m.map (·.1)).Nodup ∧
      (∀ c w w', w ≠ w' → ReadsChunk work w c → ReadsChunk work w' c → ∃ ks, (c, ks) ∈ m) ∧
      ∀ c ks, (c, ks) ∈ m → ∃ w, ReadsChunk work w c ∧ ∀ w', w' ∈ ks ↔ ReadsChunk work w' c ∧ w' ≠ w := by
  have hd := dictOfPairs_spec (chunkWorkerPairs (work.map fun l => l.map (·.1)))
  obtain ⟨m, h1, h2, h3⟩ := skipLoop_ok (fun _ _ => True) nw bs R work hnw hbs hlen fuel hf
    (sharedChunks (work.map fun l => l.map (·.1)))
    (fun e he => (hd.mem e.1 e.2).1 (List.mem_filter.1 he).1) (fun _ _ _ _ _ _ _ _ => trivial)
  refine ⟨m, h1, ?_, ?_, fun c ks hm => ?_⟩
  · rw [h2]
    exact (hd.nodup.sublist (List.filter_sublist.map _))
  · intro c w w' hne hw hw'
    have hmw := mem_workers.2 hw
    have hmw' := mem_workers.2 hw'
    have hin : c ∈ (sharedChunks (work.map fun l => l.map (·.1))).map (·.1) := by
      refine List.mem_map.2 ⟨(c, valsOf (chunkWorkerPairs (work.map fun l => l.map (·.1))) c), List.mem_filter.2 ⟨?_, ?_⟩, rfl⟩
      · exact (hd.mem _ _).2 ⟨rfl, List.ne_nil_of_mem hmw⟩
      · generalize valsOf (chunkWorkerPairs (work.map fun l => l.map (·.1))) c = vs at hmw hmw'
        match vs, hmw, hmw' with
        | [a], g1, g2 => simp at g1 g2; omega
        | a :: b :: vs, _, _ => simp
    rw [← h2] at hin
    obtain ⟨e, he, rfl⟩ := List.mem_map.1 hin
    exact ⟨e.2, he⟩
  · obtain ⟨w, g1, _, g2⟩ := h3 c ks hm
    exact ⟨w, g1, g2⟩

/-- What each worker is told to keep: chunk `c` is in the list of worker `w` exactly when `w` is among the
workers that keep `c`. -/
theorem c38_keep_lists (m : List (Nat × List Nat)) (w c : Nat) :
    (∃ cs, (w, cs) ∈ chunksToKeep m ∧ c ∈ cs) ↔ ∃ ks, (c, ks) ∈ m ∧ w ∈ ks := by
  have hd := dictOfPairs_spec (m.flatMap fun e => e.2.map fun w => (w, e.1))
  have key : c ∈ valsOf (m.flatMap fun e => e.2.map fun w => (w, e.1)) w ↔ ∃ ks, (c, ks) ∈ m ∧ w ∈ ks := by
    rw [mem_valsOf, List.mem_flatMap]
    constructor
    · rintro ⟨e, he, hw⟩
      obtain ⟨w', hw', heq⟩ := List.mem_map.1 hw
      simp only [Prod.mk.injEq] at heq
      obtain ⟨rfl, rfl⟩ := heq
      exact ⟨e.2, he, hw'⟩
    · rintro ⟨ks, hm, hw⟩
      exact ⟨(c, ks), hm, List.mem_map.2 ⟨w, hw, rfl⟩⟩
  rw [← key]
  constructor
  · rintro ⟨cs, h1, h2⟩
    rw [((hd.mem w cs).1 h1).1] at h2
    exact h2
  · intro h
    exact ⟨_, (hd.mem w _).2 ⟨rfl, List.ne_nil_of_mem h⟩, h⟩

/-- The workers of one rank. -/
def rankSlice {α : Type} (nw rank : Nat) (ws : List α) : List α := (ws.drop (rank * nw)).take nw

/-- `w` is, among the workers of its rank, the last to read a sample of chunk `c`: no other worker of the rank
reads its last sample of the chunk at a later visit. -/
def LastOfRank (nw bs : Nat) (work : List WorkLeft) (c w : Nat) : Prop :=
  ∃ P k s, work[w]? = some P ∧ P[k]? = some (c, s) ∧
    ∀ w' P' k' s', w' / nw = w / nw → work[w']? = some P' → P'[k']? = some (c, s') →
      finishVisit nw bs (w' % nw) P' k' ≤ finishVisit nw bs (w % nw) P k

/-- The chosen worker is the last of its rank to use the chunk, when every rank reads whole batches, spread
evenly, and no batch takes samples of three chunks. -/
theorem c38_last_partial (nw bs R : Nat) (work : List WorkLeft) (hnw : 0 < nw) (hbs : 0 < bs)
    (hlen : work.length = R * nw) (fuel : Nat) (hf : enoughFuel nw work ≤ fuel)
    (hreg : ∀ r < R, ∃ n, Regular nw bs (rankSlice nw r work) n) :
    ∃ m, skipDeletion nw bs fuel work = some (.ok m) ∧
      (∀ c w w', w ≠ w' → ReadsChunk work w c → ReadsChunk work w' c → ∃ ks, (c, ks) ∈ m) ∧
      ∀ c ks, (c, ks) ∈ m → ∃ w, ReadsChunk work w c ∧ LastOfRank nw bs work c w ∧
        ∀ w', w' ∈ ks ↔ ReadsChunk work w' c ∧ w' ≠ w := by
  have hd := dictOfPairs_spec (chunkWorkerPairs (work.map fun l => l.map (·.1)))
  obtain ⟨m, h1, h2, h3⟩ := skipLoop_ok (LastOfRank nw bs work) nw bs R work hnw hbs hlen fuel hf
    (sharedChunks (work.map fun l => l.map (·.1)))
    (fun e he => (hd.mem e.1 e.2).1 (List.mem_filter.1 he).1) (by
      intro chunk rank workers hw hne i cnt hs
      have hok := simInit_ok nw R rank chunk work hnw hlen workers hw hne
      have hrank : rank < R := by
        have hl := hok.len
        simp only [simInit, List.length_take, List.length_drop, hlen] at hl
        have : rank * nw < R * nw := by omega
        exact Nat.lt_of_mul_lt_mul_right this
      obtain ⟨n, hr⟩ := hreg rank hrank
      have hex : SimExact nw bs chunk (rankSlice nw rank work) (simInit nw rank work workers) 0 0 := by
        refine ⟨by simp [simInit], hnw, ?_, fun c hc => (by cases hc), hok.len, hok.occ⟩
        intro w P hP
        have hz : readBy bs 0 0 (partOf bs (simInit nw rank work workers).carry) w = 0 := by
          simp [readBy, simInit, partOf]
        rw [hz, eat_zero P (hr.pos P (List.mem_of_getElem? hP))]
        exact hP
      obtain ⟨⟨P, k, s, hP, hk, hfin⟩, hall⟩ := simulate_exact hr hnw hbs fuel _ 0 0 i cnt hex hs
      have hmod : (rank * nw + i % nw) % nw = i % nw := by
        rw [Nat.mul_comm, Nat.mul_add_mod, Nat.mod_mod]
      have hdiv : (rank * nw + i % nw) / nw = rank := by
        rw [Nat.mul_comm, Nat.mul_add_div hnw, Nat.div_eq_of_lt (Nat.mod_lt _ hnw), Nat.add_zero]
      have hslice : ∀ j < nw, (rankSlice nw rank work)[j]? = work[rank * nw + j]? := by
        intro j hj
        rw [rankSlice, List.getElem?_take, if_pos hj, List.getElem?_drop]
      refine ⟨P, k, s, by rw [← hslice _ (Nat.mod_lt _ hnw)]; exact hP, hk, ?_⟩
      intro w' P' k' s' hw' hP' hk'
      rw [hmod, hfin]
      rw [hdiv] at hw'
      have hw'' : w' = rank * nw + w' % nw := by
        have := Nat.div_add_mod w' nw
        rw [hw', Nat.mul_comm] at this
        omega
      refine hall (w' % nw) P' k' s' ?_ hk'
      rw [hslice _ (Nat.mod_lt _ hnw), ← hw'']
      exact hP')
  refine ⟨m, h1, ?_, h3⟩
  obtain ⟨m', g1, _, g3, _⟩ := c38_one_deleter nw bs R work hnw hbs hlen fuel hf
  rw [skipDeletion, h1] at g1
  simp only [Option.some.injEq, Except.ok.injEq] at g1
  subst g1
  exact g3

theorem samples_at_end (ps : List Piece) (k : Nat) (p : Piece) (hk : ps[k]? = some p)
    (hp : p.interval.roiStart < p.interval.roiEnd) :
    (samples ps)[endOf (workOf ps) k - 1]? = some (p.chunk, p.interval.roiEnd - 1) := by
  induction ps generalizing k with
  | nil => simp at hk
  | cons q ps ih =>
    have hs : samples (q :: ps) = region q.chunk q.interval.roiStart q.interval.roiEnd ++ samples ps := rfl
    have hl : (region q.chunk q.interval.roiStart q.interval.roiEnd).length = q.interval.size := by
      simp [region, Interval.size]
    cases k with
    | zero =>
      simp only [List.getElem?_cons_zero, Option.some.injEq] at hk
      subst hk
      have he : endOf (workOf (q :: ps)) 0 = q.interval.size := by simp [endOf, workOf]
      have hsz : q.interval.size = q.interval.roiEnd - q.interval.roiStart := rfl
      rw [he, hs, List.getElem?_append_left (by rw [hl, hsz]; omega)]
      simp only [region, List.getElem?_map, hsz]
      rw [List.getElem?_range' (by omega)]
      simp
      omega
    | succ k =>
      simp only [List.getElem?_cons_succ] at hk
      have he : endOf (workOf (q :: ps)) (k + 1) = q.interval.size + endOf (workOf ps) k := by simp [endOf, workOf]
      have hpos : 0 < endOf (workOf ps) k := endOf_pos (p := (p.chunk, p.interval.size))
        (by simp [workOf, hk]) (by simp only [Interval.size]; omega)
      rw [he, hs, List.getElem?_append_right (by rw [hl]; omega), hl]
      rw [show q.interval.size + endOf (workOf ps) k - 1 - q.interval.size = endOf (workOf ps) k - 1 by omega]
      exact ih k hk

/-- `finishVisit` is the visit of the loader that delivers the last sample of the piece. -/
theorem c38_finish_visit (bs : Nat) (hbs : 0 < bs) (ws : List (List Piece)) (w : Nat) (ps : List Piece) (k : Nat) (p : Piece)
    (hw : ws[w]? = some ps) (hk : ps[k]? = some p) (hp : p.interval.roiStart < p.interval.roiEnd) :
    ∃ b, Spec.visit bs (ws.map samples) 0 (finishVisit ws.length bs w (workOf ps) k) = some b ∧
      (p.chunk, p.interval.roiEnd - 1) ∈ b := by
  have hlt := (List.getElem?_eq_some_iff.1 hw).1
  have hpos : 0 < ws.length := by omega
  have hs := samples_at_end ps k p hk hp
  have hdm := Nat.div_add_mod (endOf (workOf ps) k - 1) bs
  have hml := Nat.mod_lt (endOf (workOf ps) k - 1) hbs
  have hmod : (0 + finishVisit ws.length bs w (workOf ps) k) % ws.length = w := by
    rw [Nat.zero_add, finishVisit, Nat.mul_comm, Nat.mul_add_mod, Nat.mod_eq_of_lt hlt]
  have hdiv : finishVisit ws.length bs w (workOf ps) k / ws.length = (endOf (workOf ps) k - 1) / bs := by
    rw [finishVisit, Nat.mul_comm, Nat.mul_add_div hpos, Nat.div_eq_of_lt hlt, Nat.add_zero]
  generalize endOf (workOf ps) k - 1 = e at hs hdm hml hdiv
  have hmem : (p.chunk, p.interval.roiEnd - 1) ∈ ((samples ps).drop (e / bs * bs)).take bs := by
    refine List.mem_of_getElem? (i := e % bs) ?_
    rw [List.getElem?_take, if_pos hml, List.getElem?_drop, Nat.mul_comm, hdm]
    exact hs
  refine ⟨((samples ps).drop (e / bs * bs)).take bs, ?_, hmem⟩
  simp only [visit, List.length_map, hmod, hdiv, List.getElem?_map, hw, Option.map_some, Option.bind_some, batchAt]
  rw [if_neg]
  simp only [List.isEmpty_iff]
  exact List.ne_nil_of_mem hmem

/-- For a dataset divided with `drop_last` whose chunks each hold at least a batch less one sample (or
nothing), the worker that may delete a shared chunk is the last of its rank to use it. -/
theorem c38_assigned (W : Nat) (idx : List Nat) (ivs : List Interval) (nw bs : Nat) (ws : List (List Piece))
    (hW : 0 < W) (hnw : 0 < nw) (hbs : 0 < bs) (hlen : idx.length = ivs.length)
    (h : associate W idx ivs true nw bs = .ok ws)
    (hbig : ∀ iv ∈ ivs, bs ≤ iv.size + 1 ∨ iv.size = 0) (fuel : Nat) (hf : enoughFuel nw (ws.map workOf) ≤ fuel) :
    ∃ m, skipDeletion nw bs fuel (ws.map workOf) = some (.ok m) ∧
      (∀ c w w', w ≠ w' → ReadsChunk (ws.map workOf) w c → ReadsChunk (ws.map workOf) w' c → ∃ ks, (c, ks) ∈ m) ∧
      ∀ c ks, (c, ks) ∈ m → ∃ w, ReadsChunk (ws.map workOf) w c ∧ LastOfRank nw bs (ws.map workOf) c w ∧
        ∀ w', w' ∈ ks ↔ ReadsChunk (ws.map workOf) w' c ∧ w' ≠ w := by
  obtain ⟨ws', h1, h2⟩ := c03_balanced W idx ivs true nw bs hW hnw hbs hlen
  rw [h] at h1
  simp only [Except.ok.injEq] at h1
  subst h1
  obtain ⟨ws', g1, g2, _⟩ := associate_spec W idx ivs true nw bs hW hnw hbs
  rw [h] at g1
  simp only [Except.ok.injEq] at g1
  subst g1
  have hl : ws.length = W * nw := g2
  refine c38_last_partial nw bs W (ws.map workOf) hnw hbs (by simpa using hl) fuel hf ?_
  intro r hr
  simp only at h2
  generalize (datasetSamples idx ivs).length / (bs * W) = nb at h2
  have hsl : ∀ i < nw, (rankSlice nw r (ws.map workOf))[i]? = (ws[r * nw + i]?).map workOf := by
    intro i hi
    rw [rankSlice, List.getElem?_take, if_pos hi, List.getElem?_drop, List.getElem?_map]
  have hmem : ∀ P ∈ rankSlice nw r (ws.map workOf), ∃ ps ∈ ws, P = workOf ps := by
    intro P hP
    have := List.mem_of_mem_drop (List.mem_of_mem_take hP)
    obtain ⟨ps, hps, rfl⟩ := List.mem_map.1 this
    exact ⟨ps, hps, rfl⟩
  have hrl : (rankSlice nw r (ws.map workOf)).length = nw := by
    have := Nat.mul_le_mul_right nw hr
    rw [Nat.succ_mul] at this
    simp only [rankSlice, List.length_take, List.length_drop, List.length_map, hl]
    omega
  refine ⟨fun i => nb / nw + if i < nb % nw then 1 else 0, hrl, ?_, ?_, ?_, ?_⟩
  · intro P hP p hp
    obtain ⟨ps, hps, rfl⟩ := hmem P hP
    obtain ⟨q, hq, rfl⟩ := List.mem_map.1 hp
    obtain ⟨iv, _, _, _, _, g, _⟩ := c01_pieces_from_chunks W idx ivs true nw bs ws h ps hps q hq
    simp only [Interval.size]
    omega
  · intro w P hP
    have hw := (List.getElem?_eq_some_iff.1 hP).1
    rw [hrl] at hw
    rw [hsl w hw] at hP
    obtain ⟨ps, hps, rfl⟩ := Option.map_eq_some_iff.1 hP
    obtain ⟨ps', hps', hsz⟩ := h2 r hr w hw
    rw [hps] at hps'
    simp only [Option.some.injEq] at hps'
    subst hps'
    rw [samples_length] at hsz
    simp only [totalOf, workOf, List.map_map, Function.comp_def, hsz]
    simp only [Bool.true_eq_false, false_and, if_false, Nat.add_zero]
    split <;> simp [Nat.mul_add]
  · intro w w' hlt hlt'
    (repeat' split) <;> omega
  · intro P hP k p hk hk2 hp
    obtain ⟨ps, hps, rfl⟩ := hmem P hP
    simp only [workOf, List.length_map, List.getElem?_map] at hk2 hp
    obtain ⟨q, hq, rfl⟩ := Option.map_eq_some_iff.1 hp
    have := associate_inner (m := bs - 1) h (fun iv hiv => by rcases hbig iv hiv with g | g <;> omega) ps hps k q hk hk2 hq
    omega

/-- When all readers of a chunk are workers of one rank, the last of the rank is the last of all. -/
theorem c38_one_rank (nw bs : Nat) (work : List WorkLeft) (c w : Nat) (h : LastOfRank nw bs work c w)
    (hone : ∀ w', ReadsChunk work w' c → w' / nw = w / nw) :
    ∃ P k s, work[w]? = some P ∧ P[k]? = some (c, s) ∧
      ∀ w' P' k' s', work[w']? = some P' → P'[k']? = some (c, s') →
        finishVisit nw bs (w' % nw) P' k' ≤ finishVisit nw bs (w % nw) P k := by
  obtain ⟨P, k, s, h1, h2, h3⟩ := h
  refine ⟨P, k, s, h1, h2, fun w' P' k' s' g1 g2 => h3 w' P' k' s' (hone w' ?_) g1 g2⟩
  exact ⟨P', g1, List.mem_map.2 ⟨_, List.mem_of_getElem? g2, rfl⟩⟩

/-- Consecutive chunks of the given sizes. -/
def chunksOf : Nat → List Nat → List Interval
  | _, [] => []
  | a, n :: ns => ⟨a, a, a + n, a + n⟩ :: chunksOf (a + n) ns

/-- What the loader is given for chunks of the given sizes, and what it tells the workers. -/
def keepersFor (W nw bs : Nat) (dl : Bool) (sizes : List Nat) : Option (Py (List (Nat × List Nat))) :=
  match associate W (List.range sizes.length) (chunksOf 0 sizes) dl nw bs with
  | .error e => some (.error e)
  | .ok ws => skipDeletion nw bs 1000 (ws.map workOf)

/-- The conditions are met: two workers, chunks of 6, 4 and 6 samples, batches of 2. Chunk 1 is shared; worker 0
reads it last, so worker 1 is told to keep it. -/
example : keepersFor 1 2 2 true [6, 4, 6] = some (.ok [(1, [1])]) ∧
    (associate 1 [0, 1, 2] (chunksOf 0 [6, 4, 6]) true 2 2).map (List.map workOf) =
      .ok [[(0, 6), (1, 2)], [(1, 2), (2, 6)]] ∧
    (∀ iv ∈ chunksOf 0 [6, 4, 6], 2 ≤ iv.size + 1 ∨ iv.size = 0) ∧
    finishVisit 2 2 0 [(0, 6), (1, 2)] 1 = 6 ∧ finishVisit 2 2 1 [(1, 2), (2, 6)] 0 = 1 := by decide +kernel

/-- The worker that is not told to keep chunk `c`. -/
def chosen (work : List WorkLeft) (c : Nat) : Option (Py (List (Nat × List Nat))) → List Nat
  | some (.ok m) => (List.range work.length).filter fun w =>
      ((work[w]?.getD []).map (·.1)).contains c && !(m.any fun e => e.1 == c && e.2.contains w)
  | _ => []

/-- With chunks smaller than a batch the wrong worker is chosen, even on one rank: worker 0 of three may delete
chunk 2 at visit 0, and worker 1 still needs it at visit 1. -/
theorem c38_small_chunks :
    let work : List WorkLeft := [[(0, 1), (1, 1), (2, 1)], [(2, 3)], []]
    (associate 1 [0, 1, 2] (chunksOf 0 [1, 1, 4]) true 3 3).map (List.map workOf) = .ok work ∧
    chosen work 2 (skipDeletion 3 3 (enoughFuel 3 work) work) = [0] ∧
    ¬ LastOfRank 3 3 work 2 0 := by
  refine ⟨by decide +kernel, by decide +kernel, ?_⟩
  rintro ⟨P, k, s, h1, h2, h3⟩
  simp only [List.getElem?_cons_zero, Option.some.injEq] at h1
  subst h1
  have hk : k = 2 := by
    match k, h2 with
    | 0, h => simp at h
    | 1, h => simp at h
    | 2, _ => rfl
    | n + 3, h => simp at h
  subst hk
  have := h3 1 [(2, 3)] 0 3 (by decide) rfl rfl
  revert this
  decide

/-- Across ranks the counters do not compare, since the counter adds too much when a batch takes samples of two
chunks. With two ranks of three workers and batches of 2, worker 2 of rank 0 is chosen for chunk 2 and is done
with it at visit 2; worker 0 of rank 1 needs it until visit 3. -/
theorem c38_cross_rank :
    let work : List WorkLeft := [[(0, 4)], [(0, 1), (1, 1)], [(1, 1), (2, 1)], [(2, 4)], [(3, 2)], [(3, 2)]]
    (associate 2 [0, 1, 2, 3] (chunksOf 0 [5, 2, 5, 4]) true 3 2).map (List.map workOf) = .ok work ∧
    chosen work 2 (skipDeletion 3 2 (enoughFuel 3 work) work) = [2] ∧
    finishVisit 3 2 2 [(1, 1), (2, 1)] 1 = 2 ∧ finishVisit 3 2 0 [(2, 4)] 0 = 3 := by decide +kernel

/-- On the nodes after the first with more than one process per node the lists of the wrong workers are searched:
here rank 2 of 4, on node 1 of 2, with one worker per rank, looks at nothing. -/
theorem c38_second_node :
    nodeSlice 4 2 2 1 ["rank 0", "rank 1", "rank 2", "rank 3"] = [] ∧
    nodeSlice 4 2 0 1 ["rank 0", "rank 1", "rank 2", "rank 3"] = ["rank 0", "rank 1"] := by decide

/-- The right workers are searched on the first node and when a node has one process. -/
theorem c38_node_slice_partial {α : Type} (nodeSize nodes rank nw : Nat) (ws : List α) (hns : 0 < nodeSize) (hn : 0 < nodes)
    (h : nodeSize = 1 ∨ rank < nodeSize) :
    nodeSlice (nodeSize * nodes) nodes rank nw ws
      = (ws.drop (rank / nodeSize * (nodeSize * nw))).take (nodeSize * nw) := by
  unfold nodeSlice
  simp only [Nat.mul_div_cancel _ hn]
  rcases h with rfl | h
  · simp
  · simp [Nat.div_eq_of_lt h]

end LitData.Props
