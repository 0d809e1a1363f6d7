import Verif.Props.Epochs
import Verif.Props.WholeRun

/-! Property C90 for a whole training run: the batches of every epoch, with what the epochs before have left in the caches. -/

namespace LitData.Props
open LitData Spec

/-- What one worker streams from. -/
abbrev workerCfg {V : Type} (o : Opened V) (files : String → Option Bytes) (join : String → String) (enc : Option Encryption) (prep : PrepCfg) : RemoteCfg :=
  ⟨prep, files, join, enc, o.encryption, o.chunks, o.intervals⟩

/-- A worker with the pieces `ps` has read all items of epoch `epoch`, after the passes `before` over the same cache. -/
def EpochEnded {V : Type} (o : Opened V) (files : String → Option Bytes) (join : String → String) (enc : Option Encryption) (prep : PrepCfg) (sh : Shuffler)
    (epoch : Nat) (before : List (List ChunkedIndex)) (ps : List Piece) (f : FineState) : Prop :=
  ∃ xs s', runIter sh ((samples ps).length + 1) (iterStart ps epoch) = .ok (xs, true, s') ∧
    Epochs (workerCfg o files join enc prep) o.compressor.isSome false before xs f ∧ f.s.done = xs.length

theorem epochEnded_worker {V : Type} {o : Opened V} {enc : Option Encryption} {files : String → Option Bytes} {join : String → String} {items : List (List Bytes)}
    (hs : Stored enc files join o.chunks items) (hd : DistinctFiles join o.chunks)
    (hex : ∀ info ∈ o.chunks, ∀ file, files (join info.filename) = some file → file.length = info.chunkBytes)
    (henc : o.encryption = enc.map Encryption.config) {prep : PrepCfg} {sh : Shuffler} {epoch : Nat} {before : List (List ChunkedIndex)} {ps : List Piece} {f : FineState}
    (h : EpochEnded o files join enc prep sh epoch before ps f) : ∃ w, WorkerEnded o files join enc { prep with warm := w, own := w } sh epoch ps f := by
  obtain ⟨xs, s', h1, h2, h3⟩ := h
  have hok : RemoteOk (workerCfg o files join enc prep) := by
    unfold workerCfg
    rw [henc]
    exact stored_remoteOk hs hd prep (enc.map Encryption.config) o.intervals
  obtain ⟨w, hw⟩ := epochs_reach hok (fun c info file hc hf => hex info (List.mem_of_getElem? hc) file hf) h2
  exact ⟨w, xs, s', h1, hw, h3⟩

/-- **C90, the batches of every epoch.** The workers have made any passes before, each over a cache of its own, and now read the items of epoch `epoch`; the data loaders
of the ranks collect batches in any interleaving. Then the batches of all ranks hold the samples of the dataset, shuffled or not. -/
theorem c90_batches {V α : Type} (o : Opened V) (enc : Option Encryption) (hsound : ∀ e, enc = some e → Encryption.Sound e)
    (files : String → Option Bytes) (join : String → String) (items : List (List Bytes)) (hs : Stored enc files join o.chunks items)
    (hd : DistinctFiles join o.chunks) (hex : ∀ info ∈ o.chunks, ∀ file, files (join info.filename) = some file → file.length = info.chunkBytes)
    (hivs : generateIntervals none 0 0 o.chunks = .ok o.intervals) (henc : o.encryption = enc.map Encryption.config)
    (read : Bytes → Py α) (ys : List α) (hr : items.flatten.map read = ys.map .ok) (W nw bs epoch : Nat) (hW : 0 < W) (hnw : 0 < nw) (hbs : 0 < bs)
    (perm : Nat → List Nat → List Nat) (sh : Shuffler) (nn : Nat) (hperm : ∀ e l, (perm e l).Perm l) (hsh : ∀ a n e k, (sh a n e k).Perm a) (hone : epoch = 1 ∨ nn = 1)
    (prep : Nat → PrepCfg) (before : Nat → List (List ChunkedIndex)) (fin : Nat → FineState) :
    ∃ pieces, fullShuffleAssign perm o.intervals W nn false nw bs epoch = .ok pieces ∧
      ((∀ k ps, pieces[k]? = some ps → EpochEnded o files join enc (prep k) sh epoch (before k) ps (fin k)) →
        ∃ streams : Nat → List α, (∀ k, k < W * nw → (fin k).s.out.map read = (streams k).map .ok) ∧
          ∀ (prefetch : Nat) (es : Nat → List LoaderEvent), 0 < prefetch →
            (∀ r, r < W → ∀ b ∈ (rankLoader nw bs prefetch streams r (es r)).out, b ≠ [] ∧ b.length ≤ bs) ∧
            ((∀ r, r < W → (rankLoader nw bs prefetch streams r (es r)).finished = true) →
              ((List.range W).flatMap fun r => (rankLoader nw bs prefetch streams r (es r)).out.flatten).Perm ys)) := by
  obtain ⟨h1, _⟩ := c81_batches o enc hsound files join items hs hd hex hivs henc read ys hr W nw bs epoch hW hnw hbs
  obtain ⟨pieces, p1, _, p3⟩ := h1 perm sh nn hperm hsh hone
  refine ⟨pieces, p1, fun hend => ?_⟩
  classical
  let w : Nat → List Nat := fun k => if h : ∃ w, ∀ ps, pieces[k]? = some ps → WorkerEnded o files join enc { prep k with warm := w, own := w } sh epoch ps (fin k) then h.choose else []
  have hw : ∀ k ps, pieces[k]? = some ps → WorkerEnded o files join enc { prep k with warm := w k, own := w k } sh epoch ps (fin k) := by
    intro k ps hk
    have hx : ∃ w, ∀ ps, pieces[k]? = some ps → WorkerEnded o files join enc { prep k with warm := w, own := w } sh epoch ps (fin k) := by
      obtain ⟨w, h⟩ := epochEnded_worker hs hd hex henc (hend k ps hk)
      refine ⟨w, fun ps' h' => ?_⟩
      rw [hk] at h'
      cases h'
      exact h
    have e : w k = hx.choose := dif_pos hx
    rw [e]
    exact hx.choose_spec ps hk
  exact p3 (fun k => { prep k with warm := w k, own := w k }) fin (.inr fun k => left_others (workerCfg o files join enc (prep k)) (w k)) hw

/-- **C90, a worker comes through any number of epochs.** On one node, with a limit on the cache and `max_pre_download` of at least two: worker `k` reads the items of the
epochs `1 .. n`, each after the one before and over the same cache, and then those of epoch `n + 1` to their end. -/
theorem c90_workers_end {V : Type} (o : Opened V) (enc : Option Encryption) (hsound : ∀ e, enc = some e → Encryption.Sound e)
    (files : String → Option Bytes) (join : String → String) (items : List (List Bytes)) (hs : Stored enc files join o.chunks items)
    (hd : DistinctFiles join o.chunks) (hex : ∀ info ∈ o.chunks, ∀ file, files (join info.filename) = some file → file.length = info.chunkBytes)
    (hivs : generateIntervals none 0 0 o.chunks = .ok o.intervals) (henc : o.encryption = enc.map Encryption.config)
    (perm : Nat → List Nat → List Nat) (hperm : ∀ e l, (perm e l).Perm l) (sh : Shuffler) (hsh : ∀ a n e k, (sh a n e k).Perm a)
    (W : Nat) (dl : Bool) (nw bs : Nat) (pieces : Nat → List (List Piece))
    (hp : ∀ epoch, noShuffleAssign o.intervals W dl nw bs = .ok (pieces epoch) ∨ fullShuffleAssign perm o.intervals W 1 dl nw bs epoch = .ok (pieces epoch))
    (prep : PrepCfg) (hcache : prep.cache = true) (hpre : 2 ≤ prep.maxPre) (k : Nat) (ps : Nat → List Piece) (hps : ∀ epoch, (pieces epoch)[k]? = some (ps epoch)) (n : Nat) :
    ∃ before f, EpochEnded o files join enc prep sh (n + 1) before (ps (n + 1)) f ∧ before.length = n ∧
      ∀ e xs, before[e]? = some xs → ∃ s', runIter sh ((samples (ps (e + 1))).length + 1) (iterStart (ps (e + 1)) (e + 1)) = .ok (xs, true, s') := by
  obtain ⟨ivs, h1, value, h2, h3⟩ := located_values enc hsound files join o.chunks items hs
  rw [hivs] at h1
  cases h1
  have hok : RemoteOk (workerCfg o files join enc prep) := by
    unfold workerCfg
    rw [henc]
    exact stored_remoteOk hs hd prep (enc.map Encryption.config) o.intervals
  have hex' : ExactSizes (workerCfg o files join enc prep) := fun c info file hc hf => hex info (List.mem_of_getElem? hc) file hf
  -- the pass of each epoch
  have hpass : ∀ e, ∃ xs s' cs raws, runIter sh ((samples (ps e)).length + 1) (iterStart (ps e) e) = .ok (xs, true, s') ∧ PassShape xs cs ∧
      readLocated files join enc o.encryption o.chunks o.intervals .init (xs.map fun c => (c.index, c.chunkIndex)) = .ok raws := by
    intro e
    have hmem : ps e ∈ pieces e := List.mem_of_getElem? (hps e)
    obtain ⟨idx, out, ha, hsub⟩ := split_distinct perm hperm o.intervals W 1 dl nw bs e (pieces e) ((hp e).imp id fun h => ⟨h, .inr rfl⟩)
    obtain ⟨hnd, hin⟩ := hsub (ps e) hmem
    obtain ⟨hinv, hrem⟩ := iterStart_inv sh hsh (ps e) (assigned_nonEmpty ha (ps e) hmem) e
    have hperm' := stream_perm (fun k l => sh l (ps e).length e k) (fun k l => hsh _ _ _ _) (ps e) 0
    obtain ⟨xs, s', g1, g2, g3⟩ := runIter_shape sh hsh _ hinv rfl (fun g => absurd rfl g) hnd ((samples (ps e)).length + 1) (by rw [hrem, hperm'.length_eq]; omega)
    have hrl := h3 (xs.map fun c => (c.chunkIndex, c.index)) (by
      intro p hp
      rw [g2, hrem] at hp
      exact hin p (hperm'.mem_iff.1 hp))
    rw [List.map_map] at hrl
    rw [← henc] at hrl
    exact ⟨xs, s', _, _, g1, g3, hrl⟩
  -- the passes, one after the other
  have hrun : ∀ n, ∃ (before : List (List ChunkedIndex)) (f : FineState), f.s.pc ≠ .failed ∧ f.s.p.forced = [] ∧ f.s.p.forceQ = [] ∧ before.length = n ∧
      (∀ xs, Epochs (workerCfg o files join enc prep) o.compressor.isSome false before xs f) ∧
      ∀ e xs, before[e]? = some xs → ∃ s', runIter sh ((samples (ps (e + 1))).length + 1) (iterStart (ps (e + 1)) (e + 1)) = .ok (xs, true, s') := by
    intro n
    induction n with
    | zero =>
      exact ⟨[], ⟨.start fun _ => none, fun _ => false, .idle⟩, by simp [RemoteState.start], rfl, rfl, rfl, fun xs => .first xs _ _ (by intro q g h; cases h),
        by intro e xs h; cases h⟩
    | succ n ih =>
      obtain ⟨before, f, a1, a2, a3, a4, a5, a6⟩ := ih
      obtain ⟨xs, s', cs, raws, b1, b2, b3⟩ := hpass (n + 1)
      obtain ⟨g, _, _, g3⟩ := c90_goes_on _ hok hex' o.compressor.isSome before xs cs b2 raws b3 hcache f (a5 xs) a1 (by rw [a2, a3]; exact hpre)
      refine ⟨before ++ [xs], g.again false, by simp [FineState.again], rfl, rfl, by simp [a4], g3, ?_⟩
      intro e zs he
      by_cases hlt : e < before.length
      · rw [List.getElem?_append_left hlt] at he
        exact a6 e zs he
      · rw [List.getElem?_append_right (by omega)] at he
        have h0 : e - before.length = 0 := by
          by_cases h0 : e - before.length = 0
          · exact h0
          · rw [List.getElem?_eq_none (by simp; omega)] at he; cases he
        rw [h0] at he
        cases he
        have : e = n := by omega
        subst this
        exact ⟨s', b1⟩
  obtain ⟨before, f, a1, a2, a3, a4, a5, a6⟩ := hrun n
  obtain ⟨xs, s', cs, raws, b1, b2, b3⟩ := hpass (n + 1)
  obtain ⟨w, hw⟩ := epochs_reach hok hex' (a5 xs)
  obtain ⟨g, g1, g2, _⟩ := pass_ends hok hex' b2 b3 hcache hw a1 (by rw [a2, a3]; exact hpre)
  exact ⟨before, g, ⟨xs, s', b1, epochs_steps (a5 xs) (fsteps_left w [] g1), g2⟩, a4, a6⟩

/-- Three epochs of one worker over the stored dataset, shuffled anew in each: the batches of the third hold its three samples. -/
example : ∃ (before : List (List ChunkedIndex)) (f : FineState) (ps : List Piece) (streams : Nat → List Bytes) (es : List LoaderEvent), before.length = 2 ∧
    EpochEnded storedOpened storedFiles id none ⟨2, true, true, [], []⟩ (fun l _ _ _ => l.reverse) 3 before ps f ∧
    (rankLoader 1 2 2 streams 0 es).finished = true ∧ (rankLoader 1 2 2 streams 0 es).out.flatten.Perm [[1, 2], [3], [4, 5, 6]] := by
  have hex : ∀ info ∈ storedOpened.chunks, ∀ file, storedFiles (id info.filename) = some file → file.length = info.chunkBytes := by
    intro info hi file hf
    simp only [storedOpened, storedChunks, List.mem_cons, List.not_mem_nil, or_false] at hi
    rcases hi with rfl | rfl <;> cases hf <;> rfl
  let perm : Nat → List Nat → List Nat := fun e l => if e % 2 = 0 then l else l.reverse
  have hperm : ∀ e l, (perm e l).Perm l := by
    intro e l
    simp only [perm]
    split
    · exact List.Perm.refl _
    · exact List.reverse_perm l
  have hall := fun e => c04_shuffle_is_permutation perm hperm storedOpened.intervals 1 1 1 2 e (by decide) (by decide) (by decide) (.inr rfl)
  let pieces : Nat → List (List Piece) := fun e => (hall e).choose
  have hpieces : ∀ e, fullShuffleAssign perm storedOpened.intervals 1 1 false 1 2 e = .ok (pieces e) := fun e => (hall e).choose_spec.1
  have hlen : ∀ e, (pieces e).length = 1 := fun e => (hall e).choose_spec.2.1
  let ps : Nat → List Piece := fun e => (pieces e)[0]'(by rw [hlen]; decide)
  have hps : ∀ e, (pieces e)[0]? = some (ps e) := fun e => List.getElem?_eq_getElem _
  obtain ⟨before, f, h1, h2, _⟩ := c90_workers_end storedOpened none (fun _ h => by cases h) storedFiles id storedItems storedExample storedDistinct hex rfl rfl
    perm hperm (fun l _ _ _ => l.reverse) (fun l _ _ _ => List.reverse_perm l) 1 false 1 2 pieces (fun e => .inr (hpieces e)) ⟨2, true, true, [], []⟩ rfl (by decide) 0 ps hps 2
  obtain ⟨pc, p1, p2⟩ := c90_batches storedOpened none (fun _ h => by cases h) storedFiles id storedItems storedExample storedDistinct hex rfl rfl
    (fun b => .ok b) storedItems.flatten rfl 1 1 2 3 (by decide) (by decide) (by decide) perm (fun l _ _ _ => l.reverse) 1 hperm (fun l _ _ _ => List.reverse_perm l) (.inr rfl)
    (fun _ => ⟨2, true, true, [], []⟩) (fun _ => before) (fun _ => f)
  rw [hpieces 3] at p1
  cases p1
  obtain ⟨streams, s1, s2⟩ := p2 (by
    intro k q hk
    have hlt := (List.getElem?_eq_some_iff.1 hk).1
    rw [hlen] at hlt
    have : k = 0 := by omega
    subst this
    rw [hps] at hk
    cases hk
    exact h1)
  obtain ⟨es, he⟩ := rankLoader_ends 1 2 2 (by decide) (by decide) streams 0
  have := (s2 2 (fun _ => es) (by decide)).2 (by intro r hr; have : r = 0 := by omega
                                                 subst this; exact he)
  simp only [List.range_one, List.flatMap_cons, List.flatMap_nil, List.append_nil] at this
  exact ⟨before, f, ps 3, streams, es, h2, h1, he, this⟩

/-! After a failed download. -/

/-- A thread that has died outside of the writing in place has left whole chunks only, and so it stays. -/
theorem clean_whole {cfg : RemoteCfg} (hok : RemoteOk cfg) (hex : ExactSizes cfg) {comp : Bool} {xs : List ChunkedIndex} {w : List Nat} {f : FineState}
    (hf : FReach (cfg.left w) comp xs f) (hjob : ∀ c n, f.job ≠ .writing c n) {b : FailState} (hb : CutSteps (cfg.left w) comp xs ⟨f, true⟩ b) : WholeChunks cfg b.f.s.disk := by
  intro q g hg
  obtain ⟨c, hc⟩ := only_chunks (dsteps_reach (a := ⟨f, true⟩) hf hb) q g hg
  refine ⟨?_, c, hc⟩
  obtain ⟨info, hi, rfl⟩ := pathOf_eq hc
  rcases c89_clean_failure (cfg.left w) (left_ok hok w) hex comp (fun _ => left_others cfg w) xs f hf hjob b hb c info hi (by rw [left_others]; simp) with e | e
  · exact absurd (hg.symm.trans e) (by simp)
  · exact e.symm.trans hg

/-- **C89, the cache can be used again after a clean failure.** A worker that is alone on its cache has lost its thread while nothing was written in place. However its reader
went on: a new pass over the same cache, over any items, delivers what is stored, and from each of its states it can be brought to its end. -/
theorem c89_recovers (cfg : RemoteCfg) (hok : RemoteOk cfg) (hex : ExactSizes cfg) (comp : Bool) (xs : List ChunkedIndex) (w : List Nat) (f : FineState)
    (hf : FReach (cfg.left w) comp xs f) (hjob : ∀ c n, f.job ≠ .writing c n) (b : FailState) (hb : CutSteps (cfg.left w) comp xs ⟨f, true⟩ b)
    (ys : List ChunkedIndex) (cs : List Nat) (hsh : PassShape ys cs) (raws : List Bytes)
    (hraws : readLocated cfg.files cfg.join cfg.enc cfg.ecfg cfg.chunks cfg.ivs .init (ys.map fun c => (c.index, c.chunkIndex)) = .ok raws)
    (g : FineState) (h : FSteps (cfg.left []) comp ys ⟨.start b.f.s.disk, b.f.packed, .idle⟩ g) :
    g.s.out = raws.take g.s.done ∧
    (cfg.prep.cache = true → g.s.pc ≠ .failed → g.s.p.forced.length + g.s.p.forceQ.length + 2 ≤ cfg.prep.maxPre →
      ∃ k, FSteps (cfg.left []) comp ys g k ∧ k.s.done = ys.length ∧ k.s.out = raws) := by
  have he : Epochs cfg comp false [] ys g := epochs_steps (.first ys _ _ (clean_whole hok hex hf hjob hb)) h
  refine ⟨c90_same_samples cfg hok hex comp [] ys cs hsh raws hraws g he, fun hcache hpc hfew => ?_⟩
  obtain ⟨v, hv⟩ := epochs_reach hok hex he
  obtain ⟨k, k1, k2, _⟩ := pass_ends hok hex hsh hraws hcache hv hpc hfew
  have hs := fsteps_left v [] k1
  refine ⟨k, hs, k2, ?_⟩
  have hlen : raws.length = ys.length := by
    have := (readLocated_known _ _ _ hraws).1
    rwa [List.length_map] at this
  rw [c90_same_samples cfg hok hex comp [] ys cs hsh raws hraws k (epochs_steps he hs), k2, ← hlen, List.take_length]

/-- A download that fails before it begins, and then a pass that reads everything. -/
example : ∃ (f k : FineState) (b : FailState), f.job = .look 0 ∧ CutSteps (RemoteCfg.left backAndForthCfg []) false failPass ⟨f, true⟩ b ∧
    FSteps (RemoteCfg.left backAndForthCfg []) false failPass ⟨.start b.f.s.disk, b.f.packed, .idle⟩ k ∧ k.s.out = [[1, 2], [3], [4, 5, 6]] := by
  obtain ⟨h1, h2⟩ := c89_recovers backAndForthCfg storedOk.1 storedOk.2 false failPass [] _ failPass_begins (by intro c n h; cases h) _ (.refl _) failPass [0, 1] failPass_shape _ storedRaws _ (.refl _)
  obtain ⟨k, k1, _, k3⟩ := h2 rfl (by simp [RemoteState.start]) (by decide)
  exact ⟨_, k, _, rfl, .refl _, k1, k3⟩

end LitData.Props
