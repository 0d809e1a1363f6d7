import Verif.Lemmas.Replay
import Verif.Props.Shuffle

/-! Properties C05 (one pass of iteration) and C06 (resuming). -/

namespace LitData.Props
open LitData Spec

theorem assigned_nonEmpty {W : Nat} {idx : List Nat} {ivs : List Interval} {dl : Bool} {nw bs : Nat}
    {ws : List (List Piece)} (h : associate W idx ivs dl nw bs = .ok ws) :
    ∀ ps ∈ ws, NonEmptyPieces ps := by
  intro ps hps p hp
  obtain ⟨_, _, _, _, _, h, _⟩ := c01_pieces_from_chunks W idx ivs dl nw bs ws h ps hps p hp
  exact h

/-- **C05.** A worker that iterates over the pieces it was assigned delivers each of its samples once:
chunk by chunk in assignment order, inside a chunk in the order the shuffler chose; then it stops and
its epoch is one more. The last sample, and only it, is flagged as last; the first one, and only it,
carries the list of all chunks to prefetch. -/
theorem c05_one_pass (sh : Shuffler) (hsh : ∀ a n e k, (sh a n e k).Perm a)
    (W : Nat) (idx : List Nat) (ivs : List Interval) (dl : Bool) (nw bs : Nat)
    (ws : List (List Piece)) (h : associate W idx ivs dl nw bs = .ok ws) (ps : List Piece) (hps : ps ∈ ws)
    (epoch : Nat) :
    ∃ xs s', (∀ fuel, (samples ps).length < fuel → runIter sh fuel (iterStart ps epoch) = .ok (xs, true, s')) ∧
      xs.map (fun c => (c.chunkIndex, c.index)) = stream (fun k l => sh l ps.length epoch k) 0 ps ∧
      (xs.map fun c => (c.chunkIndex, c.index)).Perm (samples ps) ∧
      s'.epoch = epoch + 1 ∧
      xs.map (·.isLastIndex) =
        List.replicate ((samples ps).length - 1) false ++ (if samples ps = [] then [] else [true]) ∧
      (∀ x ∈ xs.head?, x.chunkIndexes = some (ps.map (·.chunk))) ∧
      (∀ x ∈ xs.tail, x.chunkIndexes = none) := by
  obtain ⟨hinv, hrem⟩ := iterStart_inv sh hsh ps (assigned_nonEmpty h ps hps) epoch
  have hperm := stream_perm (fun k l => sh l ps.length epoch k) (fun k l => hsh _ _ _ _) ps 0
  have hlen := hperm.length_eq
  obtain ⟨xs, s', g1, g2, g3, _, g5, _, g7, g8⟩ := runIter_spec sh hsh _ _ hinv hrem _ (Nat.lt_succ_self _)
  refine ⟨xs, s', ?_, g2, by
    show (xs.map ChunkedIndex.sample).Perm _
    rw [g2]; exact hperm, g3, ?_, ?_, g7⟩
  · intro fuel hf
    obtain ⟨xs', s'', k1, k2, _, _, _, _, _, _⟩ := runIter_spec sh hsh _ _ hinv hrem fuel (by omega)
    have mono : ∀ (f : Nat) (s : IterState) (d : Nat) (xs : List ChunkedIndex) (s' : IterState),
        runIter sh f s = .ok (xs, true, s') → runIter sh (f + d) s = .ok (xs, true, s') := by
      intro f
      induction f with
      | zero => intro s d xs s' h; simp [runIter] at h
      | succ f ih =>
        intro s d xs s' h
        rw [show f + 1 + d = (f + d) + 1 by omega]
        simp only [runIter, bind, Except.bind] at h ⊢
        cases hn : nextItem sh s with
        | error e => simp [hn] at h
        | ok r =>
          obtain ⟨r, s1⟩ := r
          simp only [hn] at h ⊢
          cases r with
          | none => exact h
          | some x =>
            simp only at h ⊢
            cases hr : runIter sh f s1 with
            | error e => simp [hr] at h
            | ok t =>
              obtain ⟨ys, b, s2⟩ := t
              simp only [hr, pure, Except.pure, Except.ok.injEq, Prod.mk.injEq] at h
              obtain ⟨rfl, rfl, rfl⟩ := h
              rw [ih s1 d ys s2 hr]
              rfl
    have e1 := mono _ _ (fuel - (stream (fun k l => sh l ps.length epoch k) 0 ps).length.succ) _ _ g1
    rw [show (stream (fun k l => sh l ps.length epoch k) 0 ps).length.succ +
      (fuel - (stream (fun k l => sh l ps.length epoch k) 0 ps).length.succ) = fuel by omega] at e1
    exact e1
  · rw [g5, hlen]
    congr 1
    have : stream (fun k l => sh l ps.length epoch k) 0 ps = [] ↔ samples ps = [] := by
      rw [← List.length_eq_zero_iff, hlen, List.length_eq_zero_iff]
    simp only [this]
  · exact g8 rfl

/-- **C05 without shuffling**: the samples come in dataset order. -/
theorem c05_one_pass_no_shuffle (W : Nat) (idx : List Nat) (ivs : List Interval) (dl : Bool) (nw bs : Nat)
    (ws : List (List Piece)) (h : associate W idx ivs dl nw bs = .ok ws) (ps : List Piece) (hps : ps ∈ ws)
    (epoch : Nat) :
    ∃ xs s', runIter noShuffler ((samples ps).length + 1) (iterStart ps epoch) = .ok (xs, true, s') ∧
      xs.map (fun c => (c.chunkIndex, c.index)) = samples ps ∧ s'.epoch = epoch + 1 := by
  obtain ⟨xs, s', h1, h2, _, h4, _⟩ := c05_one_pass noShuffler (fun _ _ _ _ => List.Perm.refl _)
    W idx ivs dl nw bs ws h ps hps epoch
  exact ⟨xs, s', h1 _ (Nat.lt_succ_self _), by rw [h2, ← stream_id ps 0]; rfl, h4⟩

/-- What a worker delivers when it iterates once over its pieces. -/
def deliveredBy (sh : Shuffler) (ps : List Piece) (epoch : Nat) : List (Nat × Nat) :=
  match runIter sh ((samples ps).length + 1) (iterStart ps epoch) with
  | .ok (xs, _, _) => xs.map fun c => (c.chunkIndex, c.index)
  | .error _ => []

/-- **C01 and C04 end to end.** All the workers of all ranks together deliver every sample of the
dataset exactly once, for every world size, number of workers, batch size, epoch and shuffle
(one node, or first epoch; no `drop_last`). -/
theorem c05_epoch_delivers_dataset (perm : Nat → List Nat → List Nat) (hperm : ∀ e l, (perm e l).Perm l)
    (sh : Shuffler) (hsh : ∀ a n e k, (sh a n e k).Perm a)
    (ivs : List Interval) (W nn nw bs epoch : Nat) (hW : 0 < W) (hnw : 0 < nw) (hbs : 0 < bs)
    (hone : epoch = 1 ∨ nn = 1) :
    ∃ ws, fullShuffleAssign perm ivs W nn false nw bs epoch = .ok ws ∧
      (ws.flatMap fun ps => deliveredBy sh ps epoch).Perm (datasetSamples (List.range ivs.length) ivs) := by
  obtain ⟨ws, h1, h2, h3⟩ := c04_shuffle_is_permutation perm hperm ivs W nn nw bs epoch hW hnw hbs hone
  refine ⟨ws, h1, List.Perm.trans ?_ h3⟩
  have hassoc : ∃ idx out, associate W idx out false nw bs = .ok ws := by
    unfold fullShuffleAssign at h1
    obtain ⟨out, g1, _⟩ := pick_perm_samples ivs _
      (hperm (if nn > 1 then 1 else epoch) (List.range ivs.length))
    simp only [g1, bind, Except.bind, if_pos hone] at h1
    cases ha : associate W (perm (if nn > 1 then 1 else epoch) (List.range ivs.length)) out false nw bs with
    | error e => simp [ha] at h1
    | ok ws' =>
      simp only [ha, pure, Except.pure, Except.ok.injEq] at h1
      exact ⟨_, _, h1 ▸ ha⟩
  obtain ⟨idx, out, ha⟩ := hassoc
  have key : ∀ l : List (List Piece), (∀ ps ∈ l, ps ∈ ws) →
      (l.flatMap fun ps => deliveredBy sh ps epoch).Perm (l.flatMap samples) := by
    intro l
    induction l with
    | nil => intro _; exact List.Perm.refl _
    | cons ps l ih =>
      intro hl
      rw [List.flatMap_cons, List.flatMap_cons]
      refine List.Perm.append ?_ (ih fun q hq => hl q (by simp [hq]))
      obtain ⟨xs, s', k1, _, k3, _⟩ := c05_one_pass sh hsh W idx out false nw bs ws ha ps (hl ps (by simp)) epoch
      unfold deliveredBy
      rw [k1 _ (Nat.lt_succ_self _)]
      exact k3
  exact key ws (fun _ h => h)

/-! ### Resuming -/

/-- **C06, one worker.** Resume worker `i` of a rank from a state saved after `n` samples. If it had
not finished, it delivers exactly what an uninterrupted pass would still have delivered, where the
number of samples it had already contributed is `batch_size` for each of its visits in the rotation
over workers, plus the part of the unfinished batch if it was its turn. -/
theorem c06_worker_continues_partial (sh : Shuffler) (hsh : ∀ a n e k, (sh a n e k).Perm a)
    (W : Nat) (idx : List Nat) (ivs : List Interval) (dl : Bool) (nw bs : Nat) (hbs : 0 < bs)
    (ws : List (List Piece)) (h : associate W idx ivs dl nw bs = .ok ws) (r i : Nat) (hi : i < nw)
    (ps : List Piece) (hps : ws[r * nw + i]? = some ps) (n epoch : Nat)
    (hleft : bs * visits (n / bs) nw i + (if i = n / bs % nw then n % bs else 0) < (samples ps).length) :
    ∃ s, resumeState sh ws r nw i n bs nw epoch = .ok s ∧
      ∃ xs s', runIter sh ((samples ps).length + 1) s = .ok (xs, true, s') ∧ s'.epoch = epoch + 1 ∧
        xs.map (fun c => (c.chunkIndex, c.index)) =
          (stream (fun k l => sh l ps.length epoch k) 0 ps).drop
            (bs * visits (n / bs) nw i + (if i = n / bs % nw then n % bs else 0)) := by
  have hne := assigned_nonEmpty h ps (List.mem_of_getElem? hps)
  rw [samples_length] at hleft ⊢
  obtain ⟨s, h1, h2, h3, h4, h5⟩ := resumeState_spec sh hsh ws r nw i n bs epoch hbs hi ps hps hne hleft
  refine ⟨s, h1, ?_⟩
  obtain ⟨xs, s', g1, g2, g3, _⟩ := runIter_spec sh hsh _ s h2 h5 ((ps.map fun p => p.interval.size).sum + 1)
    (by rw [List.length_drop, stream_length _ (fun k l => hsh _ _ _ _)]; omega)
  exact ⟨xs, s', g1, by rw [g3, h3], g2⟩

/-- **C06, single worker.** With one worker, stopping after any number `n` of samples short of the end
and resuming delivers the rest of the pass. -/
theorem c06_single_worker (sh : Shuffler) (hsh : ∀ a n e k, (sh a n e k).Perm a)
    (W : Nat) (idx : List Nat) (ivs : List Interval) (dl : Bool) (bs : Nat) (hbs : 0 < bs)
    (ws : List (List Piece)) (h : associate W idx ivs dl 1 bs = .ok ws) (r : Nat)
    (ps : List Piece) (hps : ws[r]? = some ps) (n epoch : Nat) (hn : n < (samples ps).length) :
    ∃ s, resumeState sh ws r 1 0 n bs 1 epoch = .ok s ∧
      ∃ xs s', runIter sh ((samples ps).length + 1) s = .ok (xs, true, s') ∧
        xs.map (fun c => (c.chunkIndex, c.index)) =
          (stream (fun k l => sh l ps.length epoch k) 0 ps).drop n := by
  have e : bs * visits (n / bs) 1 0 + (if 0 = n / bs % 1 then n % bs else 0) = n := by
    rw [visits_eq _ _ _ (by omega) (by omega)]
    simp only [Nat.div_one, Nat.mod_one, Nat.lt_irrefl, if_false, Nat.add_zero, if_true]
    exact Nat.div_add_mod n bs
  obtain ⟨s, h1, xs, s', h2, _, h3⟩ := c06_worker_continues_partial sh hsh W idx ivs dl 1 bs hbs ws h r 0
    (by omega) ps (by simpa using hps) n epoch (by rw [e]; exact hn)
  exact ⟨s, h1, xs, s', h2, by rw [h3, e]⟩

/-- **C06, whole loader.** Take a rank whose loader has delivered `k` batches in rotation over its
workers and in which every worker still has a sample left. The saved count is `k * batch_size`; every
worker resumes, and the restarted loader, which first visits worker `k mod num_workers`, goes on with
exactly the batches the uninterrupted loader would have delivered from its visit `k` on. -/
theorem c06_loader_continues_partial (sh : Shuffler) (hsh : ∀ a n e k, (sh a n e k).Perm a)
    (W : Nat) (idx : List Nat) (ivs : List Interval) (dl : Bool) (nw bs : Nat) (hbs : 0 < bs) (hnw : 0 < nw)
    (ws : List (List Piece)) (h : associate W idx ivs dl nw bs = .ok ws) (r : Nat) (epoch k : Nat)
    (streams : List (List (Nat × Nat)))
    (hst : streams = (rankWorkers ws r nw).map fun ps => stream (fun j l => sh l ps.length epoch j) 0 ps)
    (hlen : streams.length = nw)
    (hleft : ∀ i xs, streams[i]? = some xs → bs * visits k nw i < xs.length) :
    -- what was delivered before: k full batches
    ((delivered bs streams 0 k).length = k ∧ ∀ b ∈ delivered bs streams 0 k, b.length = bs) ∧
    ∃ resumed : List (List (Nat × Nat)), resumed.length = nw ∧
      -- each worker, resumed from the saved count, delivers its list of `resumed`
      (∀ i xs, resumed[i]? = some xs →
        ∃ s, resumeState sh ws r nw i (k * bs) bs nw epoch = .ok s ∧
          ∃ ys s', runIter sh (xs.length + 1) s = .ok (ys, true, s') ∧
            ys.map (fun c => (c.chunkIndex, c.index)) = xs) ∧
      -- and the two runs glue together
      ∀ m, delivered bs streams 0 k ++ delivered bs resumed (k % nw) m = delivered bs streams 0 (k + m) := by
  have hkn : k * bs / bs = k := Nat.mul_div_cancel _ hbs
  have hmod : k * bs % bs = 0 := Nat.mul_mod_left _ _
  constructor
  · have full : ∀ p < k, ∃ b, visit bs streams 0 p = some b ∧ b.length = bs := by
      intro p hp
      have hw : p % nw < nw := Nat.mod_lt _ hnw
      obtain ⟨xs, hxs⟩ : ∃ xs, streams[p % nw]? = some xs := ⟨streams[p % nw], by simp [hlen, hw]⟩
      have hv := hleft _ _ hxs
      have hcount : p / nw + 1 ≤ visits k nw (p % nw) := by
        rw [visits_eq _ _ _ hnw hw]
        have a1 := Nat.div_add_mod p nw
        have a2 := Nat.div_add_mod k nw
        rcases Nat.lt_trichotomy (p / nw) (k / nw) with hq | hq | hq
        · omega
        · rw [if_pos (by rw [hq] at a1; omega)]; omega
        · have := Nat.mul_le_mul_left nw hq
          rw [Nat.succ_eq_add_one, Nat.mul_add] at this
          have := Nat.mod_lt k hnw
          omega
      have hb : (p / nw) * bs + bs ≤ xs.length := by
        have := Nat.mul_le_mul_left bs hcount
        rw [Nat.mul_add, Nat.mul_comm bs] at this
        omega
      refine ⟨(xs.drop (p / nw * bs)).take bs, ?_, by rw [List.length_take, List.length_drop]; omega⟩
      unfold visit
      rw [hlen, Nat.zero_add, hxs, Option.bind_some]
      unfold batchAt
      simp only
      rw [if_neg]
      rw [List.isEmpty_iff, ← List.length_eq_zero_iff, List.length_take, List.length_drop]
      omega
    unfold delivered
    clear hleft hkn hmod
    have gen : ∀ m, m ≤ k → ((List.range m).filterMap (visit bs streams 0)).length = m ∧
        ∀ b ∈ (List.range m).filterMap (visit bs streams 0), b.length = bs := by
      intro m
      induction m with
      | zero => intro _; simp
      | succ m ih =>
        intro hm
        obtain ⟨b, hb, hbl⟩ := full m (by omega)
        obtain ⟨i1, i2⟩ := ih (by omega)
        rw [List.range_succ, List.filterMap_append]
        simp only [List.filterMap_cons, hb, List.filterMap_nil]
        constructor
        · simp [i1]
        · intro c hc
          rcases List.mem_append.1 hc with hc | hc
          · exact i2 c hc
          · simp only [List.mem_singleton] at hc; rw [hc, hbl]
    exact gen k (Nat.le_refl _)
  · refine ⟨streams.mapIdx fun i xs => xs.drop (bs * visits k nw i), by simp [hlen], ?_, ?_⟩
    · intro i ys hys
      rw [List.getElem?_mapIdx] at hys
      cases hxs : streams[i]? with
      | none => simp [hxs] at hys
      | some xs =>
        simp only [hxs, Option.map_some, Option.some.injEq] at hys
        subst hys
        have hi : i < nw := by
          rcases Nat.lt_or_ge i nw with h | h
          · exact h
          · rw [List.getElem?_eq_none (by omega)] at hxs; simp at hxs
        have hxs' := hxs
        rw [hst, List.getElem?_map] at hxs'
        unfold rankWorkers at hxs'
        rw [List.getElem?_take, if_pos hi, List.getElem?_drop] at hxs'
        cases hps : ws[r * nw + i]? with
        | none => simp [hps] at hxs'
        | some ps =>
          simp only [hps, Option.map_some, Option.some.injEq] at hxs'
          have hl := hleft _ _ hxs
          rw [← hxs', stream_length _ (fun k l => hsh _ _ _ _)] at hl
          have hne := assigned_nonEmpty h ps (List.mem_of_getElem? hps)
          obtain ⟨s, g1, g2, g3, g4, g5⟩ := resumeState_spec sh hsh ws r nw i (k * bs) bs epoch hbs hi ps hps hne
            (by rw [hkn, hmod]; simpa using hl)
          refine ⟨s, g1, ?_⟩
          rw [hkn, hmod, hxs'] at g5
          simp only [ite_self, Nat.add_zero] at g5
          obtain ⟨zs, s', q1, q2, _⟩ := runIter_spec sh hsh _ s g2 g5 _ (Nat.lt_succ_self _)
          exact ⟨zs, s', q1, q2⟩
    · intro m
      have := delivered_resume bs streams k m (by omega)
      rw [hlen] at this
      exact this

/-- **C06 fails at the end of a worker.** Whenever the state says that a worker has delivered all its
samples (in particular a worker with no samples), resuming that worker raises `IndexError`, even
though other workers may have samples left. -/
theorem c06_resume_finished_worker_raises (sh : Shuffler) (ws : List (List Piece))
    (r nw i n bs epoch : Nat) (hbs : 0 < bs) (hi : i < nw) (ps : List Piece)
    (hps : ws[r * nw + i]? = some ps)
    (hdone : (samples ps).length ≤ bs * visits (n / bs) nw i + (if i = n / bs % nw then n % bs else 0)) :
    resumeState sh ws r nw i n bs nw epoch = .error .indexError := by
  rw [samples_length] at hdone
  exact resumeState_exhausted sh ws r nw i n bs epoch hbs hi ps hps hdone

/-- One rank, two workers, three samples, batches of one: after two of the three samples have been
delivered, resuming fails. -/
theorem c06_resume_fails_witness :
    ∃ ws, associate 1 [0] [⟨0,0,3,3⟩] false 2 1 = .ok ws ∧ (rankSamples ws 0 2).length = 3 ∧
      resumeState noShuffler ws 0 2 1 2 1 2 1 = .error .indexError := by
  refine ⟨_, rfl, by decide, rfl⟩

/-! The hypotheses can be met. -/

example : ∃ ws, associate 2 [0,1,2] demoIntervals false 2 3 = .ok ws ∧
    ∃ ps, ws[1 * 2 + 0]? = some ps ∧
      3 * visits (3 / 3) 2 0 + (if 0 = 3 / 3 % 2 then 3 % 3 else 0) < (samples ps).length := by
  refine ⟨_, rfl, _, rfl, ?_⟩; decide

example : ∃ ws, associate 1 [0,1,2] demoIntervals false 2 3 = .ok ws ∧
    let streams := (rankWorkers ws 0 2).map fun ps => stream (fun _ l => l.reverse) 0 ps
    streams.map List.length = [9, 6] ∧ visits 3 2 0 = 2 ∧ visits 3 2 1 = 1 := by
  refine ⟨_, rfl, ?_⟩; decide

/-- A state without workers, or with a batch size of zero, cannot be resumed; any other can be replayed. `StreamingDataset.state_dict` records
one worker when there are none. -/
theorem c06_replay_total (n bs nw : Nat) : (replaySampling n bs nw = .error .zeroDivision ↔ nw = 0 ∨ bs = 0) ∧
    ((∃ l, replaySampling n bs nw = .ok l) ↔ 0 < nw ∧ 0 < bs) := by
  unfold replaySampling
  by_cases h : nw * bs = 0
  · have := Nat.mul_eq_zero.1 h
    simp only [h, if_true]
    constructor
    · simpa using this
    · simp; omega
  · have h' := fun e => h (Nat.mul_eq_zero.2 e)
    simp only [h, if_false]
    constructor
    · simpa using h'
    · simp
      exact ⟨Nat.pos_of_ne_zero fun e => h' (.inl e), Nat.pos_of_ne_zero fun e => h' (.inr e)⟩

example : ∃ l, replaySampling 7 2 3 = .ok l := (c06_replay_total 7 2 3).2.2 ⟨by decide, by decide⟩

end LitData.Props
