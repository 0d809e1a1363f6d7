import Verif.Props.EpochsBroken
import Verif.Props.CombinedWhole
import Verif.Props.Interrupted

/-! Properties C86 and C90 together: every epoch of a training run, plain or over a combined dataset, wherever earlier epochs ended. -/

namespace LitData.Props
open LitData Spec

/-- A worker with the pieces `ps` has read all items of epoch `epoch`; the passes before, over the same cache, ended anywhere. -/
def EpochOffEnded {V : Type} (o : Opened V) (files : String → Option Bytes) (join : String → String) (enc : Option Encryption) (prep : PrepCfg) (sh : Shuffler)
    (epoch : Nat) (before : List (List ChunkedIndex × Nat)) (ps : List Piece) (f : FineState) : Prop :=
  ∃ xs s', runIter sh ((samples ps).length + 1) (iterStart ps epoch) = .ok (xs, true, s') ∧
    EpochsOff (workerCfg o files join enc prep) o.compressor.isSome before xs f ∧ f.s.done = xs.length

theorem epochOffEnded_worker {V : Type} {o : Opened V} {enc : Option Encryption} {files : String → Option Bytes} {join : String → String} {items : List (List Bytes)}
    (hs : Stored enc files join o.chunks items) (hd : DistinctFiles join o.chunks)
    (hex : ∀ info ∈ o.chunks, ∀ file, files (join info.filename) = some file → file.length = info.chunkBytes)
    (henc : o.encryption = enc.map Encryption.config) {prep : PrepCfg} {sh : Shuffler} {epoch : Nat} {before : List (List ChunkedIndex × Nat)} {ps : List Piece} {f : FineState}
    (h : EpochOffEnded o files join enc prep sh epoch before ps f) : ∃ w, WorkerEnded o files join enc { prep with warm := w, own := w } sh epoch ps f := by
  obtain ⟨xs, s', h1, h2, h3⟩ := h
  have hok : RemoteOk (workerCfg o files join enc prep) := by
    unfold workerCfg
    rw [henc]
    exact stored_remoteOk hs hd prep (enc.map Encryption.config) o.intervals
  obtain ⟨w, hw⟩ := epochsOff_reach hok (fun c info file hc hf => hex info (List.mem_of_getElem? hc) file hf) h2
  exact ⟨w, xs, s', h1, hw, h3⟩

/-- The workers of a dataset as in `WorkerEnded`, with one choice of the files that were left for each. -/
theorem epochOff_workers {V : Type} {o : Opened V} {enc : Option Encryption} {files : String → Option Bytes} {join : String → String} {items : List (List Bytes)}
    (hs : Stored enc files join o.chunks items) (hd : DistinctFiles join o.chunks)
    (hex : ∀ info ∈ o.chunks, ∀ file, files (join info.filename) = some file → file.length = info.chunkBytes)
    (henc : o.encryption = enc.map Encryption.config) {prep : Nat → PrepCfg} {sh : Shuffler} {epoch : Nat} {before : Nat → List (List ChunkedIndex × Nat)}
    {pieces : List (List Piece)} {fin : Nat → FineState}
    (h : ∀ k ps, pieces[k]? = some ps → EpochOffEnded o files join enc (prep k) sh epoch (before k) ps (fin k)) :
    ∃ w : Nat → List Nat, ∀ k ps, pieces[k]? = some ps → WorkerEnded o files join enc { prep k with warm := w k, own := w k } sh epoch ps (fin k) := by
  classical
  have hx : ∀ k, ∃ w, ∀ ps, pieces[k]? = some ps → WorkerEnded o files join enc { prep k with warm := w, own := w } sh epoch ps (fin k) := by
    intro k
    cases hk : pieces[k]? with
    | none => exact ⟨[], fun ps e => by cases e⟩
    | some ps =>
      obtain ⟨w, hw⟩ := epochOffEnded_worker hs hd hex henc (h k ps hk)
      exact ⟨w, fun ps' e => by cases e; exact hw⟩
  exact ⟨fun k => (hx k).choose, fun k ps e => (hx k).choose_spec ps e⟩

/-- **C90, the batches of every epoch, wherever the epochs before ended.** The workers have made any passes before, read to their ends or broken off, each over a cache
of its own, and now read the items of epoch `epoch`; the data loaders of the ranks collect batches in any interleaving. Then the batches of all ranks hold the samples
of the dataset, shuffled or not. -/
theorem c90_off_batches {V α : Type} (o : Opened V) (enc : Option Encryption) (hsound : ∀ e, enc = some e → Encryption.Sound e)
    (files : String → Option Bytes) (join : String → String) (items : List (List Bytes)) (hs : Stored enc files join o.chunks items)
    (hd : DistinctFiles join o.chunks) (hex : ∀ info ∈ o.chunks, ∀ file, files (join info.filename) = some file → file.length = info.chunkBytes)
    (hivs : generateIntervals none 0 0 o.chunks = .ok o.intervals) (henc : o.encryption = enc.map Encryption.config)
    (read : Bytes → Py α) (ys : List α) (hr : items.flatten.map read = ys.map .ok) (W nw bs epoch : Nat) (hW : 0 < W) (hnw : 0 < nw) (hbs : 0 < bs)
    (perm : Nat → List Nat → List Nat) (sh : Shuffler) (nn : Nat) (hperm : ∀ e l, (perm e l).Perm l) (hsh : ∀ a n e k, (sh a n e k).Perm a) (hone : epoch = 1 ∨ nn = 1)
    (prep : Nat → PrepCfg) (before : Nat → List (List ChunkedIndex × Nat)) (fin : Nat → FineState) :
    ∃ pieces, fullShuffleAssign perm o.intervals W nn false nw bs epoch = .ok pieces ∧
      ((∀ k ps, pieces[k]? = some ps → EpochOffEnded o files join enc (prep k) sh epoch (before k) ps (fin k)) →
        ∃ streams : Nat → List α, (∀ k, k < W * nw → (fin k).s.out.map read = (streams k).map .ok) ∧
          ∀ (prefetch : Nat) (es : Nat → List LoaderEvent), 0 < prefetch →
            (∀ r, r < W → ∀ b ∈ (rankLoader nw bs prefetch streams r (es r)).out, b ≠ [] ∧ b.length ≤ bs) ∧
            ((∀ r, r < W → (rankLoader nw bs prefetch streams r (es r)).finished = true) →
              ((List.range W).flatMap fun r => (rankLoader nw bs prefetch streams r (es r)).out.flatten).Perm ys)) := by
  obtain ⟨h1, _⟩ := c81_batches o enc hsound files join items hs hd hex hivs henc read ys hr W nw bs epoch hW hnw hbs
  obtain ⟨pieces, p1, _, p3⟩ := h1 perm sh nn hperm hsh hone
  refine ⟨pieces, p1, fun hend => ?_⟩
  obtain ⟨w, hw⟩ := epochOff_workers hs hd hex henc hend
  exact p3 (fun k => { prep k with warm := w k, own := w k }) fin (.inr fun k => left_others (workerCfg o files join enc (prep k)) (w k)) hw

/-- **C86, every epoch.** Stored datasets are combined with `iterate_over_all`, and their workers have made any passes before, each over a cache of its own, read to their ends or broken off (the
loop over a combined dataset without `iterate_over_all` breaks off all but one). In the epoch that is read now, the data loaders of all ranks get every sample of every
dataset exactly once. -/
theorem c86_epochs_partial {V α : Type} (n : Nat) (hn : 0 < n) (o : Nat → Opened V) (enc : Nat → Option Encryption) (hsound : ∀ d, d < n → ∀ e, enc d = some e → Encryption.Sound e)
    (files : Nat → String → Option Bytes) (join : Nat → String → String) (items : Nat → List (List Bytes))
    (hs : ∀ d, d < n → Stored (enc d) (files d) (join d) (o d).chunks (items d)) (hd : ∀ d, d < n → DistinctFiles (join d) (o d).chunks)
    (hex : ∀ d, d < n → ∀ info ∈ (o d).chunks, ∀ file, files d (join d info.filename) = some file → file.length = info.chunkBytes)
    (hivs : ∀ d, d < n → generateIntervals none 0 0 (o d).chunks = .ok (o d).intervals) (henc : ∀ d, d < n → (o d).encryption = (enc d).map Encryption.config)
    (read : Nat → Bytes → Py α) (ys : Nat → List α) (hr : ∀ d, d < n → (items d).flatten.map (read d) = (ys d).map .ok)
    (W nn nw bs epoch : Nat) (hW : 0 < W) (hnw : 0 < nw) (hbs : 0 < bs) (hone : epoch = 1 ∨ nn = 1) (hmany : ∀ d, d < n → W ≤ (ys d).length)
    (perm : Nat → Nat → List Nat → List Nat) (hperm : ∀ d e l, (perm d e l).Perm l) (sh : Nat → Shuffler) (hsh : ∀ d a n e k, (sh d a n e k).Perm a)
    (shuffled : Nat → Bool) (cfg : CombinedConfig) (hf : FairRng cfg.rng) (hb : cfg.batching ≠ .other) :
    ∃ (pieces : Nat → List (List Piece)) (lens : Nat → List Nat),
      (∀ d, d < n → epochAssign (if shuffled d then some (perm d) else none) (o d).intervals W nn false nw bs epoch = .ok (pieces d) ∧ (pieces d).length = W * nw) ∧
      (∀ r, r < W → (lens r).length = n ∧ ∀ d, d < n → ∃ l s', (lens r)[d]? = some l ∧
        dsLen ⟨perm d, (o d).intervals, W, nn, r⟩ { shuffle := shuffled d, dropLast := false } = .ok (l, s')) ∧
      (∀ r, r < W → combinedWeights (lens r) none true = .ok (lens r)) ∧
      ∀ (prep : Nat → Nat → PrepCfg) (before : Nat → Nat → List (List ChunkedIndex × Nat)) (fin : Nat → Nat → FineState),
        (∀ d, d < n → ∀ k ps, (pieces d)[k]? = some ps →
          EpochOffEnded (o d) (files d) (join d) (enc d) (prep d k) (if shuffled d then sh d else noShuffler) epoch (before d k) ps (fin d k)) →
        ∃ (streams : Nat → Nat → List α) (outs : Nat → List (Nat × α)),
          (∀ d, d < n → ∀ k, k < W * nw → (fin d k).s.out.map (read d) = (streams d k).map .ok) ∧
          (∀ k, k < W * nw → WorkerGives cfg (lens (k / nw)) ((List.range n).map fun d => streams d k) (outs k) .stopIteration) ∧
          LoadersGive W nw bs outs ((List.range n).flatMap fun d => (ys d).map fun x => (d, x)) := by
  obtain ⟨pieces, lens, h1, h2, h3, h4⟩ := c86_stored_partial n hn o enc hsound files join items hs hd hex hivs henc read ys hr W nn nw bs epoch hW hnw hbs hone hmany perm hperm sh hsh
    shuffled cfg hf hb
  refine ⟨pieces, lens, h1, h2, h3, fun prep before fin hend => ?_⟩
  have hw := fun d (hdn : d < n) => epochOff_workers (hs d hdn) (hd d hdn) (hex d hdn) (henc d hdn) (hend d hdn)
  let w : Nat → Nat → List Nat := fun d => if hdn : d < n then (hw d hdn).choose else fun _ => []
  have hwd : ∀ d (hdn : d < n), w d = (hw d hdn).choose := fun d hdn => dif_pos hdn
  refine h4 (fun d k => { prep d k with warm := w d k, own := w d k }) fin (fun d _ => .inr fun k => left_others (workerCfg (o d) (files d) (join d) (enc d) (prep d k)) (w d k)) ?_
  intro d hdn k ps hk
  have := (hw d hdn).choose_spec k ps hk
  rw [← hwd d hdn] at this
  exact this

/-- **C90, a worker comes through any epochs, wherever they end.** On one node, with a limit on the cache and `max_pre_download` of at least two: worker `k` makes `n` passes
over the same cache, pass `j` over its items of epoch `ep j` and left after `stop j` of them (or at the end, when it has fewer), and then reads those of epoch `ep n` to
their end. -/
theorem c90_off_workers_end {V : Type} (o : Opened V) (enc : Option Encryption) (hsound : ∀ e, enc = some e → Encryption.Sound e)
    (files : String → Option Bytes) (join : String → String) (items : List (List Bytes)) (hs : Stored enc files join o.chunks items)
    (hd : DistinctFiles join o.chunks) (hex : ∀ info ∈ o.chunks, ∀ file, files (join info.filename) = some file → file.length = info.chunkBytes)
    (hivs : generateIntervals none 0 0 o.chunks = .ok o.intervals) (henc : o.encryption = enc.map Encryption.config)
    (perm : Nat → List Nat → List Nat) (hperm : ∀ e l, (perm e l).Perm l) (sh : Shuffler) (hsh : ∀ a n e k, (sh a n e k).Perm a)
    (W : Nat) (dl : Bool) (nw bs : Nat) (pieces : Nat → List (List Piece))
    (ep stop : Nat → Nat)
    (hp : ∀ j, noShuffleAssign o.intervals W dl nw bs = .ok (pieces j) ∨ fullShuffleAssign perm o.intervals W 1 dl nw bs (ep j) = .ok (pieces j))
    (prep : PrepCfg) (hcache : prep.cache = true) (hpre : 2 ≤ prep.maxPre) (k : Nat) (ps : Nat → List Piece) (hps : ∀ j, (pieces j)[k]? = some (ps j)) (n : Nat) :
    ∃ before f, EpochOffEnded o files join enc prep sh (ep n) before (ps n) f ∧ before.length = n ∧
      ∀ j xs m, before[j]? = some (xs, m) → m = min (stop j) xs.length ∧
        ∃ s', runIter sh ((samples (ps j)).length + 1) (iterStart (ps j) (ep j)) = .ok (xs, true, s') := by
  obtain ⟨ivs, h1, value, h2, h3⟩ := located_values enc hsound files join o.chunks items hs
  rw [hivs] at h1
  cases h1
  have hok : RemoteOk (workerCfg o files join enc prep) := by
    unfold workerCfg
    rw [henc]
    exact stored_remoteOk hs hd prep (enc.map Encryption.config) o.intervals
  have hex' : ExactSizes (workerCfg o files join enc prep) := fun c info file hc hf => hex info (List.mem_of_getElem? hc) file hf
  -- the pass of each epoch
  have hpass : ∀ e, ∃ xs s' cs raws, runIter sh ((samples (ps e)).length + 1) (iterStart (ps e) (ep e)) = .ok (xs, true, s') ∧ PassShape xs cs ∧
      readLocated files join enc o.encryption o.chunks o.intervals .init (xs.map fun c => (c.index, c.chunkIndex)) = .ok raws := by
    intro e
    have hmem : ps e ∈ pieces e := List.mem_of_getElem? (hps e)
    obtain ⟨idx, out, ha, hsub⟩ := split_distinct perm hperm o.intervals W 1 dl nw bs (ep e) (pieces e) ((hp e).imp id fun h => ⟨h, .inr rfl⟩)
    obtain ⟨hnd, hin⟩ := hsub (ps e) hmem
    obtain ⟨hinv, hrem⟩ := iterStart_inv sh hsh (ps e) (assigned_nonEmpty ha (ps e) hmem) (ep e)
    have hperm' := stream_perm (fun k l => sh l (ps e).length (ep e) k) (fun k l => hsh _ _ _ _) (ps e) 0
    obtain ⟨xs, s', g1, g2, g3⟩ := runIter_shape sh hsh _ hinv rfl (fun g => absurd rfl g) hnd ((samples (ps e)).length + 1) (by rw [hrem, hperm'.length_eq]; omega)
    have hrl := h3 (xs.map fun c => (c.chunkIndex, c.index)) (by
      intro p hp
      rw [g2, hrem] at hp
      exact hin p (hperm'.mem_iff.1 hp))
    rw [List.map_map] at hrl
    rw [← henc] at hrl
    exact ⟨xs, s', _, _, g1, g3, hrl⟩
  -- the passes, one after the other
  have hrun : ∀ n, ∃ (before : List (List ChunkedIndex × Nat)) (f : FineState), (∃ g : FineState, f = g.again false ∨ f = ⟨.start g.s.disk, g.packed, .idle⟩) ∧
      before.length = n ∧ (∀ xs, EpochsOff (workerCfg o files join enc prep) o.compressor.isSome before xs f) ∧
      ∀ j xs m, before[j]? = some (xs, m) → m = min (stop j) xs.length ∧
        ∃ s', runIter sh ((samples (ps j)).length + 1) (iterStart (ps j) (ep j)) = .ok (xs, true, s') := by
    intro n
    induction n with
    | zero =>
      exact ⟨[], ⟨.start fun _ => none, fun _ => false, .idle⟩, ⟨⟨.start fun _ => none, fun _ => false, .idle⟩, .inr rfl⟩, rfl,
        fun xs => .first xs _ _ (by intro q g h; cases h), by intro j xs m h; cases h⟩
    | succ n ih =>
      obtain ⟨before, f, a1, a4, a5, a6⟩ := ih
      obtain ⟨xs, s', cs, raws, b1, b2, b3⟩ := hpass n
      obtain ⟨g, _, _, _, g3⟩ := c90_off_anywhere _ hok hex' o.compressor.isSome before xs cs b2 raws b3 hcache hpre f (a5 xs) a1 (min (stop n) xs.length) (Nat.min_le_right _ _)
      refine ⟨before ++ [(xs, min (stop n) xs.length)], g.again false, ⟨g, .inl rfl⟩, by simp [a4], g3, ?_⟩
      intro j zs m he
      by_cases hlt : j < before.length
      · rw [List.getElem?_append_left hlt] at he
        exact a6 j zs m he
      · rw [List.getElem?_append_right (by omega)] at he
        have h0 : j - before.length = 0 := by
          by_cases h0 : j - before.length = 0
          · exact h0
          · rw [List.getElem?_eq_none (by simp; omega)] at he; cases he
        rw [h0] at he
        cases he
        have : j = n := by omega
        subst this
        exact ⟨rfl, s', b1⟩
  obtain ⟨before, f, a1, a4, a5, a6⟩ := hrun n
  obtain ⟨xs, s', cs, raws, b1, b2, b3⟩ := hpass n
  have hlen : raws.length = xs.length := by
    have := (readLocated_known _ _ _ b3).1
    simpa using this
  obtain ⟨g, g1, g2, _⟩ := c90_off_anywhere _ hok hex' o.compressor.isSome before xs cs b2 raws b3 hcache hpre f (a5 xs) a1 xs.length (Nat.le_refl _)
  exact ⟨before, g, ⟨xs, s', b1, epochsOff_steps (a5 xs) g1, g2⟩, a4, a6⟩

/-- Two combined copies of the stored dataset, one of them shuffled, on two ranks with two workers each. All workers left their first pass after one sample; in the
second they deliver all samples. -/
example : ∃ (pieces : Nat → List (List Piece)) (before : Nat → Nat → List (List ChunkedIndex × Nat)) (fin : Nat → Nat → FineState) (streams : Nat → Nat → List Bytes)
    (outs : Nat → List (Nat × Bytes)),
    (∀ d, d < 2 → epochAssign (if d == 0 then some fun _ l => l.reverse else none) storedOpened.intervals 2 1 false 2 1 2 = .ok (pieces d)) ∧
    (∀ d, d < 2 → ∀ k, k < 2 * 2 → (before d k).length = 1 ∧ (fin d k).s.out.map (fun b => (.ok b : Py Bytes)) = (streams d k).map .ok) ∧
    LoadersGive 2 2 1 outs [(0, [1, 2]), (0, [3]), (0, [4, 5, 6]), (1, [1, 2]), (1, [3]), (1, [4, 5, 6])] := by
  have hex : ∀ info ∈ storedOpened.chunks, ∀ file, storedFiles (id info.filename) = some file → file.length = info.chunkBytes := by
    intro info hi file hf
    simp only [storedOpened, storedChunks, List.mem_cons, List.not_mem_nil, or_false] at hi
    rcases hi with rfl | rfl <;> cases hf <;> rfl
  obtain ⟨pieces, lens, h1, _, _, h4⟩ := c86_epochs_partial 2 (by decide) (fun _ => storedOpened) (fun _ => none) (fun _ _ _ h => by cases h) (fun _ => storedFiles) (fun _ => id)
    (fun _ => storedItems) (fun _ _ => storedExample) (fun _ _ => storedDistinct) (fun _ _ => hex) (fun _ _ => rfl) (fun _ _ => rfl) (fun _ b => .ok b)
    (fun _ => storedItems.flatten) (fun _ _ => rfl) 2 1 2 1 2 (by decide) (by decide) (by decide) (.inr rfl) (fun _ _ => by decide)
    (fun _ _ l => l.reverse) (fun _ _ l => List.reverse_perm l) (fun _ l _ _ _ => l.reverse) (fun _ l _ _ _ => List.reverse_perm l) (fun d => d == 0)
    ⟨roundRng, .stratified, 1⟩ roundRng_fair (by simp)
  let prep : PrepCfg := ⟨2, true, true, [], []⟩
  have hend : ∀ d k, ∃ before f, d < 2 → k < 2 * 2 → before.length = 1 ∧ ∀ ps, (pieces d)[k]? = some ps →
      EpochOffEnded storedOpened storedFiles id none prep (if (d == 0) = true then (fun l _ _ _ => l.reverse) else noShuffler) 2 before ps f := by
    intro d k
    by_cases hd : d < 2 ∧ k < 2 * 2
    · obtain ⟨hd, hk⟩ := hd
      have hlt : k < (pieces d).length := by rw [(h1 d hd).2]; exact hk
      have hps : (pieces d)[k]? = some (pieces d)[k] := List.getElem?_eq_getElem hlt
      obtain ⟨before, f, g1, g2, _⟩ := c90_off_workers_end storedOpened none (fun _ h => by cases h) storedFiles id storedItems storedExample storedDistinct hex rfl rfl
        (fun _ l => l.reverse) (fun _ l => List.reverse_perm l) (if (d == 0) = true then (fun l _ _ _ => l.reverse) else noShuffler) (by
          intro a n e k
          split
          · exact List.reverse_perm a
          · exact List.Perm.refl _) 2 false 2 1 (fun _ => pieces d) (fun _ => 2) (fun _ => 1) (by
          intro epoch
          have h := (h1 d hd).1
          by_cases e : d = 0
          · subst e
            exact .inr h
          · have e1 : d = 1 := by omega
            subst e1
            exact .inl h) prep rfl (by decide) k (fun _ => (pieces d)[k]) (fun _ => hps) 1
      refine ⟨before, f, fun _ _ => ⟨g2, fun ps hp => ?_⟩⟩
      rw [hps] at hp
      cases hp
      exact g1
    · exact ⟨[], ⟨.start fun _ => none, fun _ => false, .idle⟩, fun a b => absurd ⟨a, b⟩ hd⟩
  have hlen : ∀ d, d < 2 → ∀ k ps, (pieces d)[k]? = some ps → k < 2 * 2 := by
    intro d hd k ps hk
    rw [← (h1 d hd).2]
    exact (List.getElem?_eq_some_iff.1 hk).1
  obtain ⟨streams, outs, s1, _, s3⟩ := h4 (fun _ _ => prep) (fun d k => (hend d k).choose) (fun d k => (hend d k).choose_spec.choose)
    (fun d hd k ps hk => ((hend d k).choose_spec.choose_spec hd (hlen d hd k ps hk)).2 ps hk)
  exact ⟨pieces, _, _, streams, outs, fun d hd => (h1 d hd).1, fun d hd k hk => ⟨((hend d k).choose_spec.choose_spec hd hk).1, s1 d hd k hk⟩, s3⟩

/-- **C83, over the same cache.** A worker of which `c83_interrupted` says that it reads the values `xs`, at the beginning of an epoch or resumed, also reads them when its
cache has what earlier passes left there, wherever these ended: at any moment it has read the first of them. -/
theorem c83_same_cache {V α : Type} (o : Opened V) (enc : Option Encryption) (files : String → Option Bytes) (join : String → String) (items : List (List Bytes))
    (hs : Stored enc files join o.chunks items) (hd : DistinctFiles join o.chunks)
    (hex : ∀ info ∈ o.chunks, ∀ file, files (join info.filename) = some file → file.length = info.chunkBytes) (henc : o.encryption = enc.map Encryption.config)
    (read : Bytes → Py α) (cs : List ChunkedIndex) (xs : List α) (h : WorkerReads o files join enc read cs xs) (prep : PrepCfg)
    (before : List (List ChunkedIndex × Nat)) (f : FineState) (hf : EpochsOff (workerCfg o files join enc prep) o.compressor.isSome before cs f) :
    f.s.out.map read = (xs.take f.s.done).map .ok := by
  have hok : RemoteOk (workerCfg o files join enc prep) := by
    unfold workerCfg
    rw [henc]
    exact stored_remoteOk hs hd prep (enc.map Encryption.config) o.intervals
  obtain ⟨w, hw⟩ := epochsOff_reach hok (fun c info file hc hf => hex info (List.mem_of_getElem? hc) file hf) hf
  exact h.reads _ f (.inr (left_others (workerCfg o files join enc prep) w)) hw

/-- A worker whose first pass was left after its first sample reads, over the same cache, the first of its three samples again. -/
example : ∃ f, EpochsOff (workerCfg storedOpened storedFiles id none ⟨3, true, true, [], []⟩) false [(failPass, 1)] failPass f ∧ f.s.done = 1 ∧
    f.s.out.map (fun b => (.ok b : Py Bytes)) = [.ok [1, 2]] := by
  have hex : ∀ info ∈ storedOpened.chunks, ∀ file, storedFiles (id info.filename) = some file → file.length = info.chunkBytes := by
    intro info hi file hf
    simp only [storedOpened, storedChunks, List.mem_cons, List.not_mem_nil, or_false] at hi
    rcases hi with rfl | rfl <;> cases hf <;> rfl
  have h0 : EpochsOff backAndForthCfg false [] failPass ⟨.start (fun _ => none), fun _ => false, .idle⟩ := .first _ _ _ (by intro q g h; cases h)
  obtain ⟨g, _, _, _, g3⟩ := c90_off_anywhere backAndForthCfg storedOk.1 storedOk.2 false [] failPass _ failPass_shape _ storedRaws rfl (by decide) _ h0
    ⟨⟨.start (fun _ => none), fun _ => false, .idle⟩, .inr rfl⟩ 1 (by decide)
  obtain ⟨k, k1, k2, _, _⟩ := c90_off_anywhere backAndForthCfg storedOk.1 storedOk.2 false _ failPass _ failPass_shape _ storedRaws rfl (by decide) _ (g3 failPass)
    ⟨g, .inl rfl⟩ 1 (by decide)
  have hk : EpochsOff (workerCfg storedOpened storedFiles id none ⟨3, true, true, [], []⟩) false [(failPass, 1)] failPass k := epochsOff_steps (g3 failPass) k1
  have hw := worker_reads storedOpened none storedFiles id storedItems storedExample storedDistinct hex rfl (fun b => (.ok b : Py Bytes)) failPass _ failPass_shape _ storedRaws rfl [[1, 2], [3], [4, 5, 6]] rfl
  refine ⟨k, hk, k2, ?_⟩
  rw [c83_same_cache storedOpened none storedFiles id storedItems storedExample storedDistinct hex rfl (fun b => .ok b) failPass _ hw _ _ k hk, k2]
  rfl

end LitData.Props
