import Verif.Props.EpochsWhole

/-! Property C90 with passes that end anywhere, by a `break` or an exception. -/

namespace LitData.Props
open LitData Spec

/-- Each pass is one of a new worker over a cache that has whole chunks, wherever the earlier ones ended. -/
theorem epochsOff_reach {cfg : RemoteCfg} (hok : RemoteOk cfg) (hex : ExactSizes cfg) {comp : Bool} {before : List (List ChunkedIndex × Nat)} {xs : List ChunkedIndex}
    {f : FineState} (h : EpochsOff cfg comp before xs f) : ∃ w, FReach (cfg.left w) comp xs f := by
  induction h with
  | first xs disk packed hd => exact epoch_start cfg comp xs disk packed hd
  | step _ h2 ih =>
    obtain ⟨w, hw⟩ := ih
    exact ⟨w, hw.step (fstep_left [] w h2)⟩
  | next ys _ hj ih =>
    obtain ⟨w, hw⟩ := ih
    exact epoch_start cfg comp ys _ _ (epoch_end hok hex hw hj)

theorem epochsOff_steps {cfg : RemoteCfg} {comp : Bool} {before : List (List ChunkedIndex × Nat)} {xs : List ChunkedIndex} {f g : FineState}
    (h : EpochsOff cfg comp before xs f) (h2 : FSteps (cfg.left []) comp xs f g) : EpochsOff cfg comp before xs g := by
  induction h2 with
  | refl => exact h
  | tail _ h ih => exact ih.step h

/-- Passes that are read to their ends are a case of this. -/
theorem epochs_off {cfg : RemoteCfg} {comp : Bool} {before : List (List ChunkedIndex)} {xs : List ChunkedIndex} {f : FineState} (h : Epochs cfg comp false before xs f) :
    EpochsOff cfg comp (before.map fun ys => (ys, ys.length)) xs f := by
  induction h with
  | first xs disk packed hd => exact .first xs disk packed hd
  | step _ h2 ih => exact ih.step h2
  | next ys _ hd hj _ ih =>
    have := ih.next ys hj
    rw [hd] at this
    rw [List.map_append]
    exact this

/-- **C90, the same samples after passes that were broken off.** Wherever the earlier passes ended, by their last item, a `break` or an exception, and whatever the
threads and the cache did meanwhile: the samples delivered in this pass are the first ones of those that reading the remote folder itself gives. -/
theorem c90_off_same_samples (cfg : RemoteCfg) (hok : RemoteOk cfg) (hex : ExactSizes cfg) (comp : Bool) (before : List (List ChunkedIndex × Nat)) (xs : List ChunkedIndex)
    (cs : List Nat) (hsh : PassShape xs cs) (raws : List Bytes)
    (hraws : readLocated cfg.files cfg.join cfg.enc cfg.ecfg cfg.chunks cfg.ivs .init (xs.map fun c => (c.index, c.chunkIndex)) = .ok raws)
    (f : FineState) (h : EpochsOff cfg comp before xs f) : f.s.out = raws.take f.s.done := by
  obtain ⟨w, hw⟩ := epochsOff_reach hok hex h
  exact c76_fine_same_samples (cfg.left w) (left_ok hok w) hex comp (fun _ => left_others cfg w) xs cs hsh raws hraws (.inr (left_others cfg w)) f hw

/-- **C90, any pass can be broken off, and each can be brought to its end.** From every state of a pass the thread can come out of its fetch, without more items being
delivered, so that the next pass can begin; and if no exception was raised, all samples can be delivered. This second part needs a limit on the cache and
`max_pre_download` at least two more than the number of chunks asked for by force. -/
theorem c90_off_goes_on (cfg : RemoteCfg) (hok : RemoteOk cfg) (hex : ExactSizes cfg) (comp : Bool) (before : List (List ChunkedIndex × Nat)) (xs : List ChunkedIndex)
    (cs : List Nat) (hsh : PassShape xs cs) (raws : List Bytes)
    (hraws : readLocated cfg.files cfg.join cfg.enc cfg.ecfg cfg.chunks cfg.ivs .init (xs.map fun c => (c.index, c.chunkIndex)) = .ok raws)
    (f : FineState) (h : EpochsOff cfg comp before xs f) :
    (∃ g, FSteps (cfg.left []) comp xs f g ∧ g.s.done = f.s.done ∧ g.s.out = f.s.out ∧ ∀ ys, EpochsOff cfg comp (before ++ [(xs, f.s.done)]) ys (g.again false)) ∧
    (cfg.prep.cache = true → f.s.pc ≠ .failed → f.s.p.forced.length + f.s.p.forceQ.length + 2 ≤ cfg.prep.maxPre →
      ∃ g, FSteps (cfg.left []) comp xs f g ∧ g.s.out = raws ∧ ∀ ys, EpochsOff cfg comp (before ++ [(xs, xs.length)]) ys (g.again false)) := by
  obtain ⟨w, hw⟩ := epochsOff_reach hok hex h
  constructor
  · obtain ⟨g, g1, g2, g3, _⟩ := settle (left_ok hok w) hex (left_others cfg w) hw
    have hs := fsteps_left w [] g1
    have he := epochsOff_steps h hs
    refine ⟨g, hs, g3, ?_, fun ys => ?_⟩
    · rw [c90_off_same_samples cfg hok hex comp before xs cs hsh raws hraws g he, c90_off_same_samples cfg hok hex comp before xs cs hsh raws hraws f h, g3]
    · have := he.next ys g2
      rw [g3] at this
      exact this
  · intro hcache hpc hfew
    obtain ⟨g, g1, g2, g3, _, _⟩ := pass_ends hok hex hsh hraws hcache hw hpc hfew
    have hs := fsteps_left w [] g1
    have he := epochsOff_steps h hs
    have hlen : raws.length = xs.length := by
      have := (readLocated_known _ _ _ hraws).1
      rwa [List.length_map] at this
    refine ⟨g, hs, ?_, fun ys => ?_⟩
    · rw [c90_off_same_samples cfg hok hex comp before xs cs hsh raws hraws g he, g2, ← hlen, List.take_length]
    · have := he.next ys g3
      rw [g2] at this
      exact this

/-- **C90, broken off and resumed.** A worker of any rank streams its epoch from the remote folder, is stopped when it has given as many samples as the saved state says,
and is resumed over the same cache, perhaps much later: after any number of other passes. What it gives before and after is together what an epoch that is not broken off
gives, each sample once, and from any state of the resumed pass in which no exception was raised it can be brought to its end. -/
theorem c90_resumed (enc : Option Encryption) (hsound : ∀ e, enc = some e → Encryption.Sound e)
    (files : String → Option Bytes) (join : String → String) (chunks : List ChunkInfo) (items : List (List Bytes))
    (hs : Stored enc files join chunks items) (hd : DistinctFiles join chunks)
    (hex : ∀ info ∈ chunks, ∀ file, files (join info.filename) = some file → file.length = info.chunkBytes) :
    ∃ ivs, generateIntervals none 0 0 chunks = .ok ivs ∧ ∃ value : Nat × Nat → Bytes, (datasetSamples (List.range ivs.length) ivs).map value = items.flatten ∧
      ∀ (perm : Nat → List Nat → List Nat), (∀ e l, (perm e l).Perm l) → ∀ (sh : Shuffler), (∀ a n e k, (sh a n e k).Perm a) →
      ∀ (W nn : Nat) (dl : Bool) (nw bs epoch : Nat) (ws : List (List Piece)), 0 < bs →
        noShuffleAssign ivs W dl nw bs = .ok ws ∨ fullShuffleAssign perm ivs W nn dl nw bs epoch = .ok ws ∧ (epoch = 1 ∨ nn = 1) →
        ∀ (r i n : Nat) (ps : List Piece), i < nw → ws[r * nw + i]? = some ps →
          bs * Spec.visits (n / bs) nw i + (if i = n / bs % nw then n % bs else 0) < (samples ps).length →
          ∃ xs s1 st ys s2, runIter sh ((samples ps).length + 1) (iterStart ps epoch) = .ok (xs, true, s1) ∧
            resumeState sh ws r nw i n bs nw epoch = .ok st ∧ runIter sh ((samples ps).length + 1) st = .ok (ys, true, s2) ∧
            (bs * Spec.visits (n / bs) nw i + (if i = n / bs % nw then n % bs else 0)) + ys.length = xs.length ∧
            ∀ (prep : PrepCfg) (comp : Bool) (before between : List (List ChunkedIndex × Nat)) (f g : FineState),
              EpochsOff ⟨prep, files, join, enc, enc.map Encryption.config, chunks, ivs⟩ comp before xs f →
              f.s.done = bs * Spec.visits (n / bs) nw i + (if i = n / bs % nw then n % bs else 0) →
              EpochsOff ⟨prep, files, join, enc, enc.map Encryption.config, chunks, ivs⟩ comp (before ++ (xs, f.s.done) :: between) ys g →
              (g.s.done = ys.length → f.s.out ++ g.s.out = (deliveredBy sh ps epoch).map value) ∧
              (prep.cache = true → g.s.pc ≠ .failed → g.s.p.forced.length + g.s.p.forceQ.length + 2 ≤ prep.maxPre →
                ∃ k, FSteps (RemoteCfg.left ⟨prep, files, join, enc, enc.map Encryption.config, chunks, ivs⟩ []) comp ys g k ∧ k.s.done = ys.length) := by
  obtain ⟨ivs, h1, value, h2, h3⟩ := located_values enc hsound files join chunks items hs
  refine ⟨ivs, h1, value, h2, ?_⟩
  intro perm hperm sh hsh W nn dl nw bs epoch ws hbs hws r i n ps hi hps hleft
  have hmem := List.mem_of_getElem? hps
  obtain ⟨idx, out, ha, hsub⟩ := split_distinct perm hperm ivs W nn dl nw bs epoch ws hws
  obtain ⟨hnd, hin⟩ := hsub ps hmem
  have hne := assigned_nonEmpty ha ps hmem
  -- the pass that is broken off
  obtain ⟨hinv, hrem⟩ := iterStart_inv sh hsh ps hne epoch
  have hperm' := stream_perm (fun k l => sh l ps.length epoch k) (fun k l => hsh _ _ _ _) ps 0
  obtain ⟨xs, s1, x1, x2, x3⟩ := runIter_shape sh hsh _ hinv rfl (fun g => absurd rfl g) hnd ((samples ps).length + 1) (by rw [hrem, hperm'.length_eq]; omega)
  have hdel : deliveredBy sh ps epoch = xs.map fun c => (c.chunkIndex, c.index) := by
    unfold deliveredBy
    rw [x1]
  have hrl := h3 (xs.map fun c => (c.chunkIndex, c.index)) (by
    intro p hp
    rw [x2, hrem] at hp
    exact hin p (hperm'.mem_iff.1 hp))
  rw [List.map_map] at hrl
  -- the resumed one
  have hleft' := hleft
  rw [samples_length] at hleft'
  obtain ⟨st, a1, a2, a3, a4, a5⟩ := resumeState_spec sh hsh ws r nw i n bs epoch hbs hi ps hps hne hleft'
  have hst : st.hasTriggeredDownload = false ∧ 0 < st.nextChunk := by
    unfold resumeState at a1
    simp only [bind, Except.bind] at a1
    split at a1
    · cases a1
    · split at a1
      · cases a1
      · split at a1
        · split at a1
          · cases a1
          · cases a1; exact ⟨rfl, Nat.succ_pos _⟩
        · cases a1
  obtain ⟨ys, s2, y1, y2, y3⟩ := runIter_shape sh hsh st a2 hst.1 (fun _ => hst.2) (by rw [a4]; exact hnd) ((samples ps).length + 1) (by
    rw [a5, List.length_drop, stream_length _ (fun k l => hsh _ _ _ _), samples_length]; omega)
  have hys : (ys.map fun c => (c.chunkIndex, c.index)) = (xs.map fun c => (c.chunkIndex, c.index)).drop (bs * Spec.visits (n / bs) nw i + (if i = n / bs % nw then n % bs else 0)) := by
    rw [y2, a5, x2, hrem]
  have hrl2 := h3 (ys.map fun c => (c.chunkIndex, c.index)) (by
    intro p hp
    rw [hys, x2, hrem] at hp
    exact hin p (hperm'.mem_iff.1 (List.mem_of_mem_drop hp)))
  rw [List.map_map] at hrl2
  have hlen : xs.length = (samples ps).length := by
    have := congrArg List.length x2
    rw [List.length_map, hrem, hperm'.length_eq] at this
    exact this
  refine ⟨xs, s1, st, ys, s2, x1, a1, y1, ?_, ?_⟩
  · have := congrArg List.length hys
    rw [List.length_map, List.length_drop, List.length_map] at this
    omega
  intro prep comp before between f g hf hfd hg
  have hok : RemoteOk ⟨prep, files, join, enc, enc.map Encryption.config, chunks, ivs⟩ := stored_remoteOk hs hd prep (enc.map Encryption.config) ivs
  have hex' : ExactSizes ⟨prep, files, join, enc, enc.map Encryption.config, chunks, ivs⟩ := fun c info file hc hf => hex info (List.mem_of_getElem? hc) file hf
  refine ⟨fun hgd => ?_, fun hcache hpc hfew => ?_⟩
  · rw [c90_off_same_samples _ hok hex' comp before xs _ x3 _ hrl f hf, c90_off_same_samples _ hok hex' comp _ ys _ y3 _ hrl2 g hg, hgd, hys, hfd, hdel]
    rw [List.take_of_length_le (l := List.map value (List.drop _ _)) (by
      rw [← hys, List.length_map, List.length_map]; exact Nat.le_refl _), List.map_drop, List.take_append_drop]
  · obtain ⟨w, hw⟩ := epochsOff_reach hok hex' hg
    obtain ⟨k, k1, k2, _⟩ := pass_ends hok hex' y3 hrl2 hcache hw hpc hfew
    exact ⟨k, fsteps_left w [] k1, k2⟩

theorem fstep_done {cfg : RemoteCfg} {comp : Bool} {xs : List ChunkedIndex} {f g : FineState} (h : FStep cfg comp xs f g) : g.s.done = f.s.done ∨ g.s.done = f.s.done + 1 := by
  cases h with
  | reader t h1 _ =>
    cases h1 with
    | read => exact .inr rfl
    | _ => exact .inl rfl
  | _ => exact .inl rfl

/-- Items are delivered one by one. -/
theorem passes_through {cfg : RemoteCfg} {comp : Bool} {xs : List ChunkedIndex} {f g : FineState} (h : FSteps cfg comp xs f g) {n : Nat} (h1 : f.s.done ≤ n)
    (h2 : n ≤ g.s.done) : ∃ k, FSteps cfg comp xs f k ∧ k.s.done = n := by
  induction h with
  | refl => exact ⟨f, .refl f, by omega⟩
  | @tail k m a b ih =>
    by_cases hn : n ≤ k.s.done
    · exact ih hn
    · exact ⟨m, a.tail b, by have := fstep_done b; omega⟩

/-- **C90, an epoch can be broken off at any item**, and what was delivered by then are the first samples. -/
theorem c90_off_anywhere (cfg : RemoteCfg) (hok : RemoteOk cfg) (hex : ExactSizes cfg) (comp : Bool) (before : List (List ChunkedIndex × Nat)) (xs : List ChunkedIndex)
    (cs : List Nat) (hsh : PassShape xs cs) (raws : List Bytes)
    (hraws : readLocated cfg.files cfg.join cfg.enc cfg.ecfg cfg.chunks cfg.ivs .init (xs.map fun c => (c.index, c.chunkIndex)) = .ok raws) (hcache : cfg.prep.cache = true)
    (hpre : 2 ≤ cfg.prep.maxPre) (f : FineState) (h : EpochsOff cfg comp before xs f) (hf : ∃ g : FineState, f = g.again false ∨ f = ⟨.start g.s.disk, g.packed, .idle⟩)
    (n : Nat) (hn : n ≤ xs.length) :
    ∃ g, FSteps (cfg.left []) comp xs f g ∧ g.s.done = n ∧ g.s.out = raws.take n ∧ ∀ ys, EpochsOff cfg comp (before ++ [(xs, n)]) ys (g.again false) := by
  have h0 : f.s.done = 0 ∧ f.s.pc ≠ .failed ∧ f.s.p.forced.length + f.s.p.forceQ.length + 2 ≤ cfg.prep.maxPre := by
    obtain ⟨g, rfl | rfl⟩ := hf
    · exact ⟨rfl, by simp [FineState.again], by simpa [FineState.again, PrepState.init] using hpre⟩
    · exact ⟨rfl, by simp [RemoteState.start], by simpa [RemoteState.start, PrepState.init] using hpre⟩
  obtain ⟨w, hw⟩ := epochsOff_reach hok hex h
  obtain ⟨g, g1, g2, _⟩ := pass_ends hok hex hsh hraws hcache hw h0.2.1 h0.2.2
  obtain ⟨k, k1, k2⟩ := passes_through g1 (n := n) (by omega) (by omega)
  have hs := fsteps_left w [] k1
  have he := epochsOff_steps h hs
  obtain ⟨m, m1, m0, m2, m3⟩ := (c90_off_goes_on cfg hok hex comp before xs cs hsh raws hraws k he).1
  refine ⟨m, fsteps_trans hs m1, m0.trans k2, ?_, fun ys => ?_⟩
  · rw [m2, c90_off_same_samples cfg hok hex comp before xs cs hsh raws hraws k he, k2]
  · rw [← k2]; exact m3 ys

/-- A pass that is broken off after its first item, then one in the other order that is read to its end. -/
example : ∃ f g, EpochsOff backAndForthCfg false [(failPass, 1)] backPass f ∧ FSteps (backAndForthCfg.left []) false backPass f g ∧ g.s.out = [[4, 5, 6], [1, 2], [3]] := by
  have h0 : EpochsOff backAndForthCfg false [] failPass ⟨.start (fun _ => none), fun _ => false, .idle⟩ := .first _ _ _ (by intro q g h; cases h)
  obtain ⟨g, _, _, _, g3⟩ := c90_off_anywhere backAndForthCfg storedOk.1 storedOk.2 false [] failPass _ failPass_shape _ storedRaws rfl (by decide) _ h0
    ⟨⟨.start (fun _ => none), fun _ => false, .idle⟩, .inr rfl⟩ 1 (by decide)
  obtain ⟨k, k1, k2, _⟩ := (c90_off_goes_on backAndForthCfg storedOk.1 storedOk.2 false ([] ++ [(failPass, 1)]) backPass _ backPass_shape [[4, 5, 6], [1, 2], [3]] (by decide +kernel) _
    (g3 backPass)).2 rfl (by simp [FineState.again]) (by show 0 + 0 + 2 ≤ backAndForthCfg.prep.maxPre; decide)
  exact ⟨_, k, g3 backPass, k1, k2⟩

/-- The only worker of the only rank stops after its first sample and is resumed over the same cache. -/
example : ∃ (ys : List ChunkedIndex) (f g : FineState), EpochsOff backAndForthCfg false [] failPass f ∧ f.s.out = [[1, 2]] ∧
    EpochsOff backAndForthCfg false [(failPass, 1)] ys g ∧ f.s.out ++ g.s.out = [[1, 2], [3], [4, 5, 6]] := by
  have hex : ∀ info ∈ storedChunks, ∀ file, storedFiles (id info.filename) = some file → file.length = info.chunkBytes := by
    intro info hi file hf
    simp only [storedChunks, List.mem_cons, List.not_mem_nil, or_false] at hi
    rcases hi with rfl | rfl <;> cases hf <;> rfl
  obtain ⟨ivs, h1, value, h2, h3⟩ := c90_resumed none (fun _ h => by cases h) storedFiles id storedChunks storedItems storedExample storedDistinct hex
  have e : generateIntervals none 0 0 storedChunks = .ok [⟨0, 0, 2, 2⟩, ⟨2, 2, 3, 3⟩] := by rfl
  rw [e] at h1
  cases h1
  obtain ⟨xs, s1, st, ys, s2, x1, _, _, x4, x5⟩ := h3 (fun _ l => l) (fun _ l => List.Perm.refl l) (fun l _ _ _ => l) (fun l _ _ _ => List.Perm.refl l) 1 1 false 1 2 1
    [[⟨0, ⟨0, 0, 2, 2⟩⟩, ⟨1, ⟨2, 2, 3, 3⟩⟩]] (by decide) (.inl (by rfl)) 0 0 1 [⟨0, ⟨0, 0, 2, 2⟩⟩, ⟨1, ⟨2, 2, 3, 3⟩⟩] (by decide) rfl (by decide)
  have hx : xs = failPass := by
    have h : (runIter (fun l _ _ _ => l) ((samples [⟨0, ⟨0, 0, 2, 2⟩⟩, ⟨1, ⟨2, 2, 3, 3⟩⟩]).length + 1) (iterStart [⟨0, ⟨0, 0, 2, 2⟩⟩, ⟨1, ⟨2, 2, 3, 3⟩⟩] 1)).map (·.1) =
        .ok failPass := by with_unfolding_all rfl
    rw [x1] at h
    cases h
    rfl
  subst hx
  have h0 : EpochsOff backAndForthCfg false [] failPass ⟨.start (fun _ => none), fun _ => false, .idle⟩ := .first _ _ _ (by intro q g h; cases h)
  obtain ⟨f, f1, hfd, f2, f3⟩ := c90_off_anywhere backAndForthCfg storedOk.1 storedOk.2 false [] failPass _ failPass_shape _ storedRaws rfl (by decide) _ h0
    ⟨⟨.start (fun _ => none), fun _ => false, .idle⟩, .inr rfl⟩ 1 (by decide)
  have hf := epochsOff_steps h0 f1
  have hf3 := f3 ys
  rw [← hfd] at hf3
  obtain ⟨a, b⟩ := x5 ⟨3, true, true, [], []⟩ false [] [] f (f.again false) hf hfd hf3
  obtain ⟨g, g1, g2⟩ := b rfl (by simp [FineState.again]) (by show 0 + 0 + 2 ≤ 3; decide)
  have hg := epochsOff_steps hf3 g1
  obtain ⟨c, _⟩ := x5 ⟨3, true, true, [], []⟩ false [] [] f g hf hfd hg
  refine ⟨ys, f, g, hf, f2, ?_, ?_⟩
  · rw [← hfd]; exact hg
  · rw [c g2]
    exact h2

end LitData.Props
