import Verif.Props.Reader
import Verif.Lemmas.Replay

/-! Streaming from a remote folder, for the workers of a dataset (C76). -/

namespace LitData.Props

open LitData LitData.Spec

theorem assignChunk_chunk (c : Nat) (iv : Interval) (bs : List Nat) (u : Nat × Option Piece) (hu : u ∈ assignChunk c iv bs) (p : Piece) (hp : u.2 = some p) :
    p.chunk = c := by
  obtain ⟨iv', h1, _⟩ := assignChunk_from c iv bs u hu p hp
  simp only [List.mem_cons, List.not_mem_nil, or_false, Prod.mk.injEq] at h1
  exact h1.1

/-- A worker gets at most one piece of each chunk, in the order of the chunks. -/
theorem assignLoop_sublist (cs : List (Nat × Interval)) (st : List (Nat × List Piece)) (pre : List Nat)
    (h : ∀ s ∈ st, (s.2.map (·.chunk)).Sublist pre) : ∀ s ∈ assignLoop cs st, (s.2.map (·.chunk)).Sublist (pre ++ cs.map (·.1)) := by
  induction cs generalizing st pre with
  | nil => simpa [assignLoop] using h
  | cons x cs ih =>
    obtain ⟨c, iv⟩ := x
    rw [assignLoop]
    have := ih ((st.zip (assignChunk c iv (st.map (·.1)))).map fun (s, u) => (u.1, appendOpt s.2 u.2)) (pre ++ [c]) ?_
    · intro s hs
      have := this s hs
      rwa [List.append_assoc] at this
    · intro s hs
      obtain ⟨⟨a, u⟩, hau, rfl⟩ := List.mem_map.1 hs
      obtain ⟨h1, h2⟩ := List.of_mem_zip hau
      have ha := h a h1
      simp only
      cases hu : u.2 with
      | none => exact ha.trans (List.sublist_append_left _ _)
      | some p =>
        simp only [appendOpt, List.map_append, List.map_cons, List.map_nil]
        rw [assignChunk_chunk c iv _ u h2 p hu]
        exact List.Sublist.append ha (List.Sublist.refl _)

theorem associate_sublist {W : Nat} {idx : List Nat} {ivs : List Interval} {dl : Bool} {nw bs : Nat} {ws : List (List Piece)}
    (h : associate W idx ivs dl nw bs = .ok ws) (ps : List Piece) (hps : ps ∈ ws) : (ps.map (·.chunk)).Sublist idx := by
  unfold associate at h
  simp only at h
  split at h
  · cases h
  · split at h
    · cases h
    · simp only [Except.ok.injEq] at h
      rw [← h] at hps
      obtain ⟨s, hs, rfl⟩ := List.mem_map.1 hps
      have := assignLoop_sublist _ _ [] (by
        intro s hs
        obtain ⟨b, _, rfl⟩ := List.mem_map.1 hs
        exact List.Sublist.refl _) s hs
      rw [List.nil_append] at this
      refine this.trans ?_
      have hz : ∀ (l : List Nat) (m : List Interval), ((l.zip m).map (·.1)).Sublist l := by
        intro l
        induction l with
        | nil => intro m; simp
        | cons a l ih =>
          intro m
          cases m with
          | nil => simp
          | cons b m => simpa using ih m
      exact hz _ _

theorem pieceStream_chunks (f : List Nat → List Nat) (hf : ∀ l, (f l).Perm l) (p : Piece) :
    (pieceStream f p).map (·.1) = List.replicate p.interval.size p.chunk := by
  rw [List.eq_replicate_iff]
  refine ⟨by rw [List.length_map, pieceStream_length f hf], ?_⟩
  intro c hc
  unfold pieceStream at hc
  rw [List.map_map] at hc
  obtain ⟨i, _, rfl⟩ := List.mem_map.1 hc
  rfl

theorem stream_chunks (f : Nat → List Nat → List Nat) (hf : ∀ k l, (f k l).Perm l) (ps : List Piece) (hne : NonEmptyPieces ps)
    (hnd : (ps.map (·.chunk)).Nodup) (k : Nat) : squeeze ((stream f k ps).map (·.1)) = ps.map (·.chunk) := by
  induction ps generalizing k with
  | nil => rfl
  | cons p ps ih =>
    rw [List.map_cons, List.nodup_cons] at hnd
    have hs := hne p (by simp)
    obtain ⟨n, hn⟩ : ∃ n, p.interval.size = n + 1 := ⟨p.interval.size - 1, by unfold Interval.size; omega⟩
    have ih' := ih (fun q hq => hne q (by simp [hq])) hnd.2 (k + 1)
    rw [stream, List.map_append, pieceStream_chunks _ (hf k), hn, squeeze_replicate_append, ih', List.map_cons]
    intro hh
    have hm : p.chunk ∈ (stream f (k + 1) ps).map (·.1) := List.mem_of_head? hh
    apply hnd.1
    obtain ⟨x, hx, e⟩ := List.mem_map.1 hm
    have := (stream_perm f hf ps (k + 1)).mem_iff.1 hx
    unfold samples at this
    obtain ⟨q, hq, hr⟩ := List.mem_flatMap.1 this
    unfold region at hr
    obtain ⟨j, _, rfl⟩ := List.mem_map.1 hr
    exact List.mem_map.2 ⟨q, hq, e⟩

/-- The items of a pass, fresh or resumed, over pieces of different chunks. -/
theorem runIter_shape (sh : Shuffler) (hsh : ∀ a n e k, (sh a n e k).Perm a) (s : IterState) (hi : IterInv sh s) (hfresh : s.hasTriggeredDownload = false)
    (hup : s.upcoming ≠ [] → 0 < s.nextChunk) (hnd : (s.pieces.map (·.chunk)).Nodup) (fuel : Nat) (hf : (remaining sh s).length < fuel) :
    ∃ xs s', runIter sh fuel s = .ok (xs, true, s') ∧ xs.map (fun c => (c.chunkIndex, c.index)) = remaining sh s ∧
      PassShape xs ((s.pieces.drop (if s.upcoming = [] then s.nextChunk else s.nextChunk - 1)).map (·.chunk)) := by
  obtain ⟨xs, s', g1, g2, g3, _, g5, _, g7, g8⟩ := runIter_spec sh hsh _ s hi rfl fuel hf
  refine ⟨xs, s', g1, g2, g8 hfresh, ?_, ?_, ?_⟩
  · intro j x hx
    have hlen : xs.length = (remaining sh s).length := by rw [← g2, List.length_map]
    have hj : j < xs.length := by apply Nat.lt_of_not_le; intro g; rw [List.getElem?_eq_none g] at hx; cases hx
    have hne : remaining sh s ≠ [] := by intro g; rw [g] at hlen; simp only [List.length_nil] at hlen; omega
    have e : (xs.map (·.isLastIndex))[j]? = some x.isLastIndex := by rw [List.getElem?_map, hx]; rfl
    rw [g5, if_neg hne] at e
    by_cases hl : j + 1 = xs.length
    · rw [List.getElem?_append_right (by simp; omega)] at e
      simp only [List.length_replicate] at e
      rw [show j - ((remaining sh s).length - 1) = 0 by omega] at e
      simp only [List.getElem?_cons_zero, Option.some.injEq] at e
      rw [← e]; simp [hl]
    · rw [List.getElem?_append_left (by simp; omega), List.getElem?_replicate_of_lt (by omega)] at e
      simp only [Option.some.injEq] at e
      rw [← e]; simp [hl]
  · have hm : xs.map (·.chunkIndex) = (remaining sh s).map (·.1) := by
      rw [← g2, List.map_map]; rfl
    rw [hm]
    have hst := stream_chunks (fun k l => sh l s.numChunks s.epoch k) (fun k l => hsh _ _ _ _) (s.pieces.drop s.nextChunk)
      (fun p hp => hi.ne p (List.mem_of_mem_drop hp)) (by rw [List.map_drop]; exact hnd.sublist (List.drop_sublist _ _)) s.nextChunk
    by_cases hu : s.upcoming = []
    · rw [if_pos hu]
      unfold remaining
      rw [hu]
      cases s.pieces[s.nextChunk - 1]? <;> exact hst
    · rw [if_neg hu]
      obtain ⟨p, hp⟩ := hi.cur hu
      have hpos := hup hu
      unfold remaining
      rw [hp]
      simp only [List.map_append, List.map_map]
      have hrep : s.upcoming.map ((fun x : Nat × Nat => x.1) ∘ fun i => (p.chunk, i)) = List.replicate s.upcoming.length p.chunk := by
        rw [List.eq_replicate_iff]
        refine ⟨by simp, ?_⟩
        intro c hc
        obtain ⟨i, _, rfl⟩ := List.mem_map.1 hc
        rfl
      obtain ⟨n, hn⟩ : ∃ n, s.upcoming.length = n + 1 := ⟨s.upcoming.length - 1, by have := List.length_pos_iff.2 hu; omega⟩
      have hlt : s.nextChunk - 1 < s.pieces.length := by
        apply Nat.lt_of_not_le; intro g; rw [List.getElem?_eq_none g] at hp; cases hp
      have hdrop : s.pieces.drop (s.nextChunk - 1) = p :: s.pieces.drop s.nextChunk := by
        rw [List.drop_eq_getElem_cons hlt, show s.nextChunk - 1 + 1 = s.nextChunk by omega]
        rw [List.getElem?_eq_getElem hlt] at hp
        cases hp
        rfl
      rw [hrep, hn, squeeze_replicate_append, hst, hdrop, List.map_cons]
      intro hh
      have hmem := List.mem_of_head? hh
      have hmem' : p.chunk ∈ (s.pieces.drop s.nextChunk).map (·.chunk) := by
        rw [← hst]
        have hsub : ∀ (l : List Nat) (a : Nat), a ∈ l → a ∈ squeeze l := by
          intro l
          induction l with
          | nil => intro a h; cases h
          | cons b l ih =>
            intro a ha
            cases l with
            | nil => exact ha
            | cons c l =>
              rw [squeeze]
              rcases List.mem_cons.1 ha with rfl | g
              · split
                · rename_i e; subst e; exact ih a (by simp)
                · simp
              · split
                · exact ih a g
                · exact List.mem_cons_of_mem _ (ih a g)
        exact hsub _ _ hmem
      have : (s.pieces.drop (s.nextChunk - 1)).map (·.chunk) = p.chunk :: (s.pieces.drop s.nextChunk).map (·.chunk) := by rw [hdrop]; rfl
      have hnd' : ((s.pieces.drop (s.nextChunk - 1)).map (·.chunk)).Nodup := by rw [List.map_drop]; exact hnd.sublist (List.drop_sublist _ _)
      rw [this, List.nodup_cons] at hnd'
      exact hnd'.1 hmem'
  · rw [List.map_drop]; exact hnd.sublist (List.drop_sublist _ _)

/-- The chunks of the index have different files. -/
def DistinctFiles (join : String → String) (chunks : List ChunkInfo) : Prop :=
  ∀ (i j : Nat) (a b : ChunkInfo), chunks[i]? = some a → chunks[j]? = some b → join a.filename = join b.filename → i = j

theorem stored_remoteOk {enc : Option Encryption} {files : String → Option Bytes} {join : String → String} {chunks : List ChunkInfo} {items : List (List Bytes)}
    (hs : Stored enc files join chunks items) (hd : DistinctFiles join chunks) (prep : PrepCfg) (ecfg : Option EncConfig) (ivs : List Interval) :
    RemoteOk ⟨prep, files, join, enc, ecfg, chunks, ivs⟩ := by
  refine ⟨?_, ?_⟩
  · intro c d q hc hd'
    obtain ⟨a, a1, a2⟩ := pathOf_eq hc
    obtain ⟨b, b1, b2⟩ := pathOf_eq hd'
    exact hd c d a b a1 b1 (a2.trans b2.symm)
  · intro c info hc
    have hlt : c < chunks.length := by apply Nat.lt_of_not_le; intro g; simp only at hc; rw [List.getElem?_eq_none g] at hc; cases hc
    obtain ⟨nonce, f1, _, f3, _⟩ := hs.files c info (items[c]'(by rw [← hs.len]; exact hlt)) hc (List.getElem?_eq_getElem _)
    exact ⟨_, f1, f3⟩

/-- What a remote worker does: `want` are the samples that it is to deliver, over the chunks `cs`. -/
def DeliversRemote (prep : PrepCfg) (files : String → Option Bytes) (join : String → String) (enc : Option Encryption) (chunks : List ChunkInfo)
    (ivs : List Interval) (xs : List ChunkedIndex) (cs : List Nat) (want : List Bytes) : Prop :=
  ∀ s, RReach ⟨prep, files, join, enc, enc.map Encryption.config, chunks, ivs⟩ xs s →
    (enc = none ∨ prep.others = [] → s.out = want.take s.done) ∧ PrepReach prep s.p ∧ s.p.requested <+: cs ∧ s.p.consumed <+: cs ∧
    (s.done = want.length → want ≠ [] → s.p.consumed = cs ∧ s.p.stopped = true) ∧
    (prep.others = [] → prep.cache = true → s.p.forced.length + s.p.forceQ.length + 2 ≤ prep.maxPre → s.pc ≠ .failed →
      ∃ t, RSteps ⟨prep, files, join, enc, enc.map Encryption.config, chunks, ivs⟩ xs s t ∧ t.out = want)

theorem delivers_remote {enc : Option Encryption} {files : String → Option Bytes} {join : String → String} {chunks : List ChunkInfo} {items : List (List Bytes)}
    (hs : Stored enc files join chunks items) (hd : DistinctFiles join chunks) (prep : PrepCfg) (ivs : List Interval) {xs : List ChunkedIndex} {cs : List Nat}
    (hsh : PassShape xs cs) {want : List Bytes}
    (hw : readLocated files join enc (enc.map Encryption.config) chunks ivs .init (xs.map fun c => (c.index, c.chunkIndex)) = .ok want)
    (hlen : want.length = xs.length) : DeliversRemote prep files join enc chunks ivs xs cs want := by
  intro s h
  have hok := stored_remoteOk hs hd prep (enc.map Encryption.config) ivs
  obtain ⟨p1, p2, p3, _, p5⟩ := c76_protocol _ hok xs cs hsh want hw s h
  refine ⟨?_, p1, p2, p3, ?_, ?_⟩
  · intro g
    apply c76_same_samples _ hok xs cs hsh want hw ?_ s h
    rcases g with g | g
    · left; simp only [g]; rfl
    · exact .inr g
  · intro g k
    refine p5 (by rw [g, hlen]) ?_
    intro e
    rw [e] at hlen
    exact k (List.length_eq_zero_iff.1 hlen)
  · intro g1 g2 g3 g4
    obtain ⟨t, t1, _, t3⟩ := c76_no_deadlock _ hok xs cs hsh want hw g1 g2 s h g4 g3
    exact ⟨t, t1, t3⟩

/-- The splits that the two shufflers make give each worker at most one piece of each chunk, and only samples of the dataset. -/
theorem split_distinct (perm : Nat → List Nat → List Nat) (hperm : ∀ e l, (perm e l).Perm l) (ivs : List Interval) (W nn : Nat) (dl : Bool) (nw bs epoch : Nat)
    (ws : List (List Piece)) (h : noShuffleAssign ivs W dl nw bs = .ok ws ∨ fullShuffleAssign perm ivs W nn dl nw bs epoch = .ok ws ∧ (epoch = 1 ∨ nn = 1)) :
    ∃ idx out, associate W idx out dl nw bs = .ok ws ∧ ∀ ps ∈ ws, (ps.map (·.chunk)).Nodup ∧ ∀ x ∈ samples ps, x ∈ datasetSamples (List.range ivs.length) ivs := by
  have key : ∃ idx out, associate W idx out dl nw bs = .ok ws ∧ idx.Nodup ∧ ∀ x ∈ datasetSamples idx out, x ∈ datasetSamples (List.range ivs.length) ivs := by
    rcases h with h | ⟨h, hone⟩
    · exact ⟨_, _, h, List.nodup_range, fun _ => id⟩
    · unfold fullShuffleAssign at h
      have hp := hperm (if nn > 1 then 1 else epoch) (List.range ivs.length)
      obtain ⟨out, g1, _, g3⟩ := pick_perm_samples ivs _ hp
      simp only [g1, bind, Except.bind, if_pos hone] at h
      cases ha : associate W (perm (if nn > 1 then 1 else epoch) (List.range ivs.length)) out dl nw bs with
      | error e => simp [ha] at h
      | ok ws' =>
        simp only [ha, pure, Except.pure, Except.ok.injEq] at h
        exact ⟨_, _, h ▸ ha, hp.nodup_iff.2 List.nodup_range, fun x hx => g3.mem_iff.1 hx⟩
  obtain ⟨idx, out, k1, k2, k3⟩ := key
  refine ⟨idx, out, k1, fun ps hps => ⟨k2.sublist (associate_sublist k1 ps hps), fun x hx => k3 x ?_⟩⟩
  unfold samples at hx
  obtain ⟨p, hp, hr⟩ := List.mem_flatMap.1 hx
  obtain ⟨iv, i1, _, _, i4, i5, i6⟩ := c01_pieces_from_chunks W idx out dl nw bs ws k1 ps hps p hp
  unfold datasetSamples
  refine List.mem_flatMap.2 ⟨_, i1, ?_⟩
  unfold region at hr ⊢
  obtain ⟨j, hj, rfl⟩ := List.mem_map.1 hr
  refine List.mem_map.2 ⟨j, ?_, rfl⟩
  rw [List.mem_range'] at hj ⊢
  obtain ⟨t, t1, rfl⟩ := hj
  exact ⟨p.interval.roiStart + 1 * t - iv.roiStart, by show _ < iv.roiEnd - iv.roiStart; omega, by show _ = iv.roiStart + _; omega⟩

/-- **C76, for a dataset.** Each worker of each rank, with or without shuffling, that streams from the remote folder delivers the samples that C53 says,
in that order, whatever its thread and other workers do, and it can always come to the end; it asks for its chunks and gives them up in the order of its split. -/
theorem c76_worker (enc : Option Encryption) (hsound : ∀ e, enc = some e → Encryption.Sound e)
    (files : String → Option Bytes) (join : String → String) (chunks : List ChunkInfo) (items : List (List Bytes))
    (hs : Stored enc files join chunks items) (hd : DistinctFiles join chunks) :
    ∃ ivs, generateIntervals none 0 0 chunks = .ok ivs ∧ ∃ value : Nat × Nat → Bytes, (datasetSamples (List.range ivs.length) ivs).map value = items.flatten ∧
      ∀ (perm : Nat → List Nat → List Nat), (∀ e l, (perm e l).Perm l) → ∀ (sh : Shuffler), (∀ a n e k, (sh a n e k).Perm a) →
      ∀ (W nn : Nat) (dl : Bool) (nw bs epoch : Nat) (ws : List (List Piece)),
        noShuffleAssign ivs W dl nw bs = .ok ws ∨ fullShuffleAssign perm ivs W nn dl nw bs epoch = .ok ws ∧ (epoch = 1 ∨ nn = 1) →
        ∀ ps ∈ ws, ∃ xs s', runIter sh ((samples ps).length + 1) (iterStart ps epoch) = .ok (xs, true, s') ∧
          ∀ prep, DeliversRemote prep files join enc chunks ivs xs (ps.map (·.chunk)) ((deliveredBy sh ps epoch).map value) := by
  obtain ⟨ivs, h1, value, h2, h3⟩ := located_values enc hsound files join chunks items hs
  refine ⟨ivs, h1, value, h2, ?_⟩
  intro perm hperm sh hsh W nn dl nw bs epoch ws hws ps hps
  obtain ⟨idx, out, ha, hsub⟩ := split_distinct perm hperm ivs W nn dl nw bs epoch ws hws
  obtain ⟨hnd, hin⟩ := hsub ps hps
  obtain ⟨hinv, hrem⟩ := iterStart_inv sh hsh ps (assigned_nonEmpty ha ps hps) epoch
  have hperm' := stream_perm (fun k l => sh l ps.length epoch k) (fun k l => hsh _ _ _ _) ps 0
  obtain ⟨xs, s', g1, g2, g3⟩ := runIter_shape sh hsh _ hinv rfl (fun g => absurd rfl g) hnd ((samples ps).length + 1) (by rw [hrem, hperm'.length_eq]; omega)
  refine ⟨xs, s', g1, fun prep => ?_⟩
  have hdel : deliveredBy sh ps epoch = xs.map fun c => (c.chunkIndex, c.index) := by
    unfold deliveredBy
    rw [g1]
  have hrl := h3 (xs.map fun c => (c.chunkIndex, c.index)) (by
    intro p hp
    rw [g2, hrem] at hp
    exact hin p (hperm'.mem_iff.1 hp))
  rw [List.map_map] at hrl
  rw [hdel]
  exact delivers_remote hs hd prep ivs g3 hrl (by simp)

/-- **C76, resuming.** A worker that is resumed and streams from the remote folder delivers the rest of its pass; it only asks for the chunks that it still needs. -/
theorem c76_resumed (enc : Option Encryption) (hsound : ∀ e, enc = some e → Encryption.Sound e)
    (files : String → Option Bytes) (join : String → String) (chunks : List ChunkInfo) (items : List (List Bytes))
    (hs : Stored enc files join chunks items) (hd : DistinctFiles join chunks) :
    ∃ ivs, generateIntervals none 0 0 chunks = .ok ivs ∧ ∃ value : Nat × Nat → Bytes, (datasetSamples (List.range ivs.length) ivs).map value = items.flatten ∧
      ∀ (perm : Nat → List Nat → List Nat), (∀ e l, (perm e l).Perm l) → ∀ (sh : Shuffler), (∀ a n e k, (sh a n e k).Perm a) →
      ∀ (W nn : Nat) (dl : Bool) (nw bs epoch : Nat) (ws : List (List Piece)), 0 < bs →
        noShuffleAssign ivs W dl nw bs = .ok ws ∨ fullShuffleAssign perm ivs W nn dl nw bs epoch = .ok ws ∧ (epoch = 1 ∨ nn = 1) →
        ∀ (r i n : Nat) (ps : List Piece), i < nw → ws[r * nw + i]? = some ps →
          bs * visits (n / bs) nw i + (if i = n / bs % nw then n % bs else 0) < (samples ps).length →
          ∃ st xs s' gone, resumeState sh ws r nw i n bs nw epoch = .ok st ∧ runIter sh ((samples ps).length + 1) st = .ok (xs, true, s') ∧
            (∀ c ∈ (ps.map (·.chunk)).drop gone, ∃ x ∈ xs, x.chunkIndex = c) ∧
            ∀ prep, DeliversRemote prep files join enc chunks ivs xs ((ps.map (·.chunk)).drop gone)
              (((deliveredBy sh ps epoch).map value).drop (bs * visits (n / bs) nw i + (if i = n / bs % nw then n % bs else 0))) := by
  obtain ⟨ivs, h1, value, h2, h3⟩ := located_values enc hsound files join chunks items hs
  refine ⟨ivs, h1, value, h2, ?_⟩
  intro perm hperm sh hsh W nn dl nw bs epoch ws hbs hws r i n ps hi hps hleft
  have hmem := List.mem_of_getElem? hps
  obtain ⟨idx, out, ha, hsub⟩ := split_distinct perm hperm ivs W nn dl nw bs epoch ws hws
  obtain ⟨hnd, hin⟩ := hsub ps hmem
  have hne := assigned_nonEmpty ha ps hmem
  obtain ⟨zs, t', b1, b2, b3, _⟩ := c05_one_pass sh hsh W idx out dl nw bs ws ha ps hmem epoch
  have hdel : deliveredBy sh ps epoch = zs.map fun c => (c.chunkIndex, c.index) := by
    unfold deliveredBy
    rw [b1 _ (Nat.lt_succ_self _)]
  have hleft' := hleft
  rw [samples_length] at hleft'
  obtain ⟨st, a1, a2, a3, a4, a5⟩ := resumeState_spec sh hsh ws r nw i n bs epoch hbs hi ps hps hne hleft'
  have hst : st.hasTriggeredDownload = false ∧ 0 < st.nextChunk := by
    unfold resumeState at a1
    simp only [bind, Except.bind] at a1
    split at a1
    · cases a1
    · split at a1
      · cases a1
      · split at a1
        · split at a1
          · cases a1
          · cases a1; exact ⟨rfl, Nat.succ_pos _⟩
        · cases a1
  obtain ⟨xs, s', g1, g2, g3⟩ := runIter_shape sh hsh st a2 hst.1 (fun _ => hst.2) (by rw [a4]; exact hnd) ((samples ps).length + 1) (by
    rw [a5, List.length_drop, stream_length _ (fun k l => hsh _ _ _ _), samples_length]; omega)
  rw [a4, List.map_drop] at g3
  refine ⟨st, xs, s', (if st.upcoming = [] then st.nextChunk else st.nextChunk - 1), a1, g1, fun c hc => ?_, fun prep => ?_⟩
  · rw [← g3.chunks] at hc
    exact List.mem_map.1 (squeeze_mem _ hc)
  rw [a5, ← b2] at g2
  have hrl := h3 (xs.map fun c => (c.chunkIndex, c.index)) (by
    intro p hp
    rw [g2] at hp
    exact hin p (b3.mem_iff.1 (List.mem_of_mem_drop hp)))
  rw [List.map_map] at hrl
  have hfin := delivers_remote hs hd prep ivs g3 hrl (by simp)
  rw [g2, List.map_drop (f := value), ← hdel] at hfin
  exact hfin

end LitData.Props
