import Verif.Props.WholeRun
import Verif.Props.Loader

/-! Property C83: a training loop that is interrupted and resumed, any number of times, while its workers stream from a remote folder. -/

namespace LitData.Props
open LitData Spec

/-- After `n` batches every worker has a sample left. -/
def SamplesLeft {α : Type} (bs : Nat) (streams : List (List α)) (n : Nat) : Prop :=
  ∀ (i : Nat) (xs : List α), streams[i]? = some xs → bs * Spec.visits n streams.length i < xs.length

/-- As long as every worker has a sample left, there was a batch for every visit. -/
theorem delivered_full {α : Type} (bs : Nat) (streams : List (List α)) (hbs : 0 < bs) (hn : streams ≠ []) (k : Nat) (hleft : SamplesLeft bs streams k) :
    (delivered bs streams 0 k).length = k := by
  have hnw : 0 < streams.length := List.length_pos_iff.2 hn
  have full : ∀ p < k, ∃ b, visit bs streams 0 p = some b := by
    intro p hp
    have hw : p % streams.length < streams.length := Nat.mod_lt _ hnw
    obtain ⟨xs, hxs⟩ : ∃ xs, streams[p % streams.length]? = some xs := ⟨streams[p % streams.length], by simp [hw]⟩
    have hv := hleft _ _ hxs
    have hcount : p / streams.length + 1 ≤ Spec.visits k streams.length (p % streams.length) := by
      rw [visits_eq _ _ _ hnw hw]
      have a1 := Nat.div_add_mod p streams.length
      have a2 := Nat.div_add_mod k streams.length
      rcases Nat.lt_trichotomy (p / streams.length) (k / streams.length) with hq | hq | hq
      · omega
      · rw [if_pos (by rw [hq] at a1; omega)]; omega
      · have := Nat.mul_le_mul_left streams.length hq
        rw [Nat.succ_eq_add_one, Nat.mul_add] at this
        have := Nat.mod_lt k hnw
        omega
    have hb : (p / streams.length) * bs + bs ≤ xs.length := by
      have := Nat.mul_le_mul_left bs hcount
      rw [Nat.mul_add, Nat.mul_comm bs] at this
      omega
    refine ⟨(xs.drop (p / streams.length * bs)).take bs, ?_⟩
    unfold visit
    rw [Nat.zero_add, hxs, Option.bind_some]
    unfold batchAt
    simp only
    rw [if_neg]
    rw [List.isEmpty_iff, ← List.length_eq_zero_iff, List.length_take, List.length_drop]
    omega
  have gen : ∀ m, m ≤ k → ((List.range m).filterMap (visit bs streams 0)).length = m := by
    intro m
    induction m with
    | zero => intro _; simp
    | succ m ih =>
      intro hm
      obtain ⟨b, hb⟩ := full m (by omega)
      rw [List.range_succ, List.filterMap_append]
      simp only [List.filterMap_cons, hb, List.filterMap_nil]
      simp [ih (by omega)]
  exact gen k (Nat.le_refl _)

/-- The loader goes on from a state that was saved after `k` batches: with what was delivered before, its batches are those of the uninterrupted rotation, and it
saves what the uninterrupted loader would have saved. -/
theorem loader_goes_on {α : Type} (bs prefetch epoch k : Nat) (hbs : 0 < bs) (hp : 0 < prefetch) (hk : 0 < k) (streams : List (List α)) (hn : streams ≠ [])
    (hleft : SamplesLeft bs streams k) (es : List LoaderEvent) (s2 : LoaderState)
    (hs2 : s2 = loaderBegin (loaderLoad (streams.map List.length).sum ⟨epoch, k * bs, [], (k - 1) % streams.length⟩ newLoader)) (second : LoaderIter (List α))
    (hsec : second = loaderRun streams.length s2.restore (loaderStart streams.length prefetch s2.latest s2.restore
      (workerBatches bs (streams.mapIdx fun i xs => xs.drop (bs * Spec.visits k streams.length i)))) es) :
    (∃ m, delivered bs streams 0 k ++ second.out = delivered bs streams 0 (k + m) ∧ (second.finished = true → ∀ p, k + m ≤ p → visit bs streams 0 p = none)) ∧
    (second.out ≠ [] → loaderDict (times (loaderBatch streams.length bs) second.out.length s2) =
      ⟨epoch, (k + second.out.length) * bs, [], (k + second.out.length - 1) % streams.length⟩) := by
  have hnw : 0 < streams.length := List.length_pos_iff.2 hn
  have hcl : cycleLength streams.length = streams.length := by unfold cycleLength; rw [if_pos (by omega)]
  have htot := batches_lt_total streams hn bs k hleft
  have hkb : 0 < k * bs := Nat.mul_pos hk hbs
  have hs2' : s2 = ⟨epoch, k * bs, [], (k - 1) % streams.length + 1, (k - 1) % streams.length + 1, true⟩ := by
    rw [hs2]
    unfold loaderLoad newLoader loaderBegin
    simp [hkb, htot]
  have hmod : ((k - 1) % streams.length + 1) % streams.length = k % streams.length := by
    rw [Nat.mod_add_mod]
    congr 1
    omega
  let resumed := streams.mapIdx fun i xs => xs.drop (bs * Spec.visits k streams.length i)
  have hrl : resumed.length = streams.length := by simp [resumed]
  have hrn : resumed ≠ [] := by intro e; rw [e] at hrl; simp at hrl; omega
  have hlat : s2.latest ≤ resumed.length := by
    rw [hs2', hrl]
    have := Nat.mod_lt (k - 1) hnw
    simp only
    omega
  obtain ⟨m, h1, h2⟩ := c39_round_robin resumed hrn bs prefetch s2.latest hbs hp s2.restore hlat (by rw [hs2']; simp) es
  rw [hrl, ← hsec] at h1 h2
  have hvis : visit bs resumed s2.latest = visit bs resumed (k % streams.length) := by
    funext p
    rw [← visit_start_mod bs resumed s2.latest, hs2', hrl]
    simp only
    rw [hmod]
  have hdel : delivered bs resumed s2.latest m = delivered bs resumed (k % streams.length) m := by unfold delivered; rw [hvis]
  constructor
  · refine ⟨m, ?_, ?_⟩
    · rw [h1, hdel]
      exact delivered_resume bs streams k m hnw
    · intro hf p hp'
      obtain ⟨d, rfl⟩ : ∃ d, p = k + (m + d) := ⟨p - k - m, by omega⟩
      rw [← visit_resume bs streams k (m + d) hnw]; show visit bs resumed _ _ = _; rw [← hvis]
      exact h2 hf (m + d) (by omega)
  · intro hne
    have h0 : ¬ second.out.length = 0 := fun e => hne (List.eq_nil_of_length_eq_zero e)
    rw [batches_state, hs2', hcl]
    unfold loaderDict
    simp only [LoaderDict.mk.injEq, true_and]
    refine ⟨by rw [Nat.add_mul], ?_⟩
    rw [if_neg h0, Nat.add_right_comm, show (k - 1) % streams.length + (second.out.length - 1) + 1 = (k - 1) % streams.length + second.out.length by omega, Nat.mod_add_mod]
    congr 1
    omega

/-- Runs of the loader of a rank, each but the first resumed from the state that the one before has saved: the last state and all batches so far. Each run has
delivered a batch and was stopped while every worker had a sample left. `resumed d` is what the workers deliver that are resumed from the state `d`. -/
inductive RunsOf {α : Type} (bs prefetch : Nat) (streams : List (List α)) (resumed : LoaderDict → List (List α)) (s0 : LoaderState) :
    LoaderDict → List (List α) → Prop
  | first (es : List LoaderEvent) (run : LoaderIter (List α))
      (hrun : run = loaderRun streams.length false (loaderStart streams.length prefetch (loaderBegin s0).latest false (workerBatches bs streams)) es)
      (hne : run.out ≠ []) (hleft : SamplesLeft bs streams run.out.length) :
      RunsOf bs prefetch streams resumed s0 (loaderDict (times (loaderBatch streams.length bs) run.out.length (loaderBegin s0))) run.out
  | again (d : LoaderDict) (before : List (List α)) (h : RunsOf bs prefetch streams resumed s0 d before) (es : List LoaderEvent) (s2 : LoaderState)
      (hs2 : s2 = loaderBegin (loaderLoad (streams.map List.length).sum d newLoader)) (run : LoaderIter (List α))
      (hrun : run = loaderRun streams.length s2.restore (loaderStart streams.length prefetch s2.latest s2.restore (workerBatches bs (resumed d))) es)
      (hne : run.out ≠ []) (hleft : SamplesLeft bs streams (before.length + run.out.length)) :
      RunsOf bs prefetch streams resumed s0 (loaderDict (times (loaderBatch streams.length bs) run.out.length s2)) (before ++ run.out)

/-- The state and the batches after any number of runs. -/
theorem runsOf_state {α : Type} (bs prefetch : Nat) (hbs : 0 < bs) (hp : 0 < prefetch) (streams : List (List α)) (hn : streams ≠ [])
    (resumed : LoaderDict → List (List α)) (s0 : LoaderState) (h0 : s0.restore = false)
    (hres : ∀ k, 0 < k → SamplesLeft bs streams k →
      resumed ⟨s0.epoch + 1, k * bs, [], (k - 1) % streams.length⟩ = streams.mapIdx fun i xs => xs.drop (bs * Spec.visits k streams.length i))
    (d : LoaderDict) (before : List (List α)) (h : RunsOf bs prefetch streams resumed s0 d before) :
    0 < before.length ∧ SamplesLeft bs streams before.length ∧ before = delivered bs streams 0 before.length ∧
      d = ⟨s0.epoch + 1, before.length * bs, [], (before.length - 1) % streams.length⟩ := by
  have hnw : 0 < streams.length := List.length_pos_iff.2 hn
  induction h with
  | first es run hrun hne hleft =>
    have hlt : 0 < run.out.length := List.length_pos_iff.2 hne
    refine ⟨hlt, hleft, ?_, ?_⟩
    · have hb0 : (loaderBegin s0).latest = 0 := by unfold loaderBegin; rw [h0]; rfl
      obtain ⟨m, h1, _⟩ := c39_round_robin streams hn bs prefetch 0 hbs hp false (Nat.zero_le _) (fun _ => rfl) es
      rw [← hb0, ← hrun, hb0] at h1
      have := delivered_k bs streams 0 run.out.length m (delivered_full bs streams hbs hn _ hleft) (by rw [← h1])
      rw [← this]
      exact h1
    · rw [c21_recorded _ _ _ s0 h0, if_neg (by omega), Nat.max_eq_left hnw]
  | again d before h es s2 hs2 run hrun hne hleft ih =>
    obtain ⟨k0, k1, k2, k3⟩ := ih
    rw [k3] at hs2 hrun
    rw [hres _ k0 k1] at hrun
    obtain ⟨⟨m, g1, _⟩, g2⟩ := loader_goes_on bs prefetch (s0.epoch + 1) before.length hbs hp k0 streams hn k1 es s2 hs2 run hrun
    rw [← k2] at g1
    rw [List.length_append]
    refine ⟨by omega, hleft, ?_, g2 hne⟩
    have := delivered_k bs streams 0 (before.length + run.out.length) (before.length + m) (delivered_full bs streams hbs hn _ hleft) (by rw [← g1, List.length_append])
    rw [← this]
    exact g1

/-- Two loaders that have come to their end have delivered the same. -/
theorem delivered_all {α : Type} (bs : Nat) (streams : List (List α)) (m n : Nat) (hm : ∀ p, m ≤ p → visit bs streams 0 p = none)
    (hn : ∀ p, n ≤ p → visit bs streams 0 p = none) : delivered bs streams 0 m = delivered bs streams 0 n := by
  have key : ∀ a b, a ≤ b → (∀ p, a ≤ p → visit bs streams 0 p = none) → delivered bs streams 0 b = delivered bs streams 0 a := by
    intro a b hab ha
    obtain ⟨d, rfl⟩ : ∃ d, b = a + d := ⟨b - a, by omega⟩
    unfold delivered
    have e : (List.range d).filterMap (visit bs streams 0 ∘ fun x => a + x) = [] := List.filterMap_eq_nil_iff.2 fun p _ => ha _ (Nat.le_add_right a p)
    rw [List.range_add, List.filterMap_append, List.filterMap_map, e, List.append_nil]
  rcases Nat.le_total m n with h | h
  · exact (key m n h hm).symm
  · exact key n m h hn

/-- A worker that is to read the samples `cs` with its thread, file by file and byte by byte: at any moment of any interleaving what it has read are the first of the
values `xs`. If it may run two chunks ahead on an empty cache it can come to its end. -/
structure WorkerReads {V α : Type} (o : Opened V) (files : String → Option Bytes) (join : String → String) (enc : Option Encryption) (read : Bytes → Py α)
    (cs : List ChunkedIndex) (xs : List α) : Prop where
  len : cs.length = xs.length
  reads : ∀ (prep : PrepCfg) (f : FineState), (enc = none ∧ o.compressor = none) ∨ prep.others = [] →
    FReach ⟨prep, files, join, enc, o.encryption, o.chunks, o.intervals⟩ o.compressor.isSome cs f → f.s.out.map read = (xs.take f.s.done).map .ok
  ends : ∀ (prep : PrepCfg), prep.others = [] → prep.cache = true → 2 ≤ prep.maxPre →
    ∃ f, FReach ⟨prep, files, join, enc, o.encryption, o.chunks, o.intervals⟩ o.compressor.isSome cs f ∧ f.s.done = cs.length

theorem worker_reads {V α : Type} (o : Opened V) (enc : Option Encryption)
    (files : String → Option Bytes) (join : String → String) (items : List (List Bytes)) (hs : Stored enc files join o.chunks items)
    (hd : DistinctFiles join o.chunks) (hex : ∀ info ∈ o.chunks, ∀ file, files (join info.filename) = some file → file.length = info.chunkBytes)
    (henc : o.encryption = enc.map Encryption.config) (read : Bytes → Py α) (cs : List ChunkedIndex) (chunkList : List Nat) (hsh : PassShape cs chunkList)
    (want : List Bytes) (hw : readLocated files join enc (enc.map Encryption.config) o.chunks o.intervals .init (cs.map fun c => (c.index, c.chunkIndex)) = .ok want)
    (hlen : want.length = cs.length) (xs : List α) (hx : want.map read = xs.map .ok) : WorkerReads o files join enc read cs xs := by
  have hex' : ∀ (c : Nat) (info : ChunkInfo) (file : Bytes), o.chunks[c]? = some info → files (join info.filename) = some file → file.length = info.chunkBytes :=
    fun c info file hc hf => hex info (List.mem_of_getElem? hc) file hf
  refine ⟨?_, ?_, ?_⟩
  · have := congrArg List.length hx
    simp only [List.length_map] at this
    omega
  · intro prep f hq hf
    rw [henc] at hf
    have hok := stored_remoteOk hs hd prep (enc.map Encryption.config) o.intervals
    obtain ⟨s, r1, r2, r3, _⟩ := c76_fine_refines _ hok hex' o.compressor.isSome (by
      intro hc
      rcases hq with ⟨_, hn⟩ | hq
      · rw [hn] at hc; cases hc
      · exact hq) cs f hf
    have hdr := delivers_remote hs hd prep o.intervals hsh hw hlen
    obtain ⟨d1, _⟩ := hdr s r1
    have := d1 (by
      rcases hq with ⟨hn, _⟩ | hq
      · exact .inl hn
      · exact .inr hq)
    rw [← r2, this, List.map_take, hx, ← List.map_take, r3]
  · intro prep hwarm hcache hpre
    have hok := stored_remoteOk hs hd prep (enc.map Encryption.config) o.intervals
    obtain ⟨disk, h0⟩ := start_reach ⟨prep, files, join, enc, o.encryption, o.chunks, o.intervals⟩ o.compressor.isSome cs
    rw [henc] at h0 ⊢
    obtain ⟨g, k1, k2, _⟩ := c76_fine_no_deadlock _ hok hex' o.compressor.isSome cs _ hsh _ hw hwarm hcache _ h0 (by simp [RemoteState.start])
      (by simpa [RemoteState.start, PrepState.init] using hpre)
    exact ⟨g, fsteps_reach h0 k1, k2⟩

/-- What the workers of a rank deliver that are resumed from the state `d`. -/
def resumedStreams {α : Type} (nw bs : Nat) (streams : Nat → List α) (r : Nat) (d : LoaderDict) : List (List α) :=
  (rankStreams nw streams r).mapIdx fun i xs => xs.drop (bs * Spec.visits (d.yielded / bs) nw i)

/-- **C83.** A dataset is streamed by `W` ranks with `nw` workers each, shuffled or not. There are the values that each worker of the epoch reads, in order, and the
values that it reads when it is resumed, such that: together the workers read the samples of the dataset (all of them, or those that `drop_last` leaves); a worker
that begins the epoch, or is resumed from a state saved after `k` batches while every worker had a sample left, has at any moment of any interleaving with its thread
read the first of these values; and if the loader of a rank is stopped and resumed any number of times, in any interleavings with its workers, and then comes to its
end, its batches are those of a loader that was never stopped, one by one. -/
theorem c83_interrupted {V α : Type} (o : Opened V) (enc : Option Encryption) (hsound : ∀ e, enc = some e → Encryption.Sound e)
    (files : String → Option Bytes) (join : String → String) (items : List (List Bytes)) (hs : Stored enc files join o.chunks items)
    (hd : DistinctFiles join o.chunks) (hex : ∀ info ∈ o.chunks, ∀ file, files (join info.filename) = some file → file.length = info.chunkBytes)
    (hivs : generateIntervals none 0 0 o.chunks = .ok o.intervals) (henc : o.encryption = enc.map Encryption.config)
    (read : Bytes → Py α) (ys : List α) (hr : items.flatten.map read = ys.map .ok)
    (perm : Nat → List Nat → List Nat) (hperm : ∀ e l, (perm e l).Perm l) (sh : Shuffler) (hsh : ∀ a n e k, (sh a n e k).Perm a)
    (W nn : Nat) (dl : Bool) (nw bs epoch : Nat) (hnw : 0 < nw) (hbs : 0 < bs) (pieces : List (List Piece)) (hlen : pieces.length = W * nw)
    (hp : noShuffleAssign o.intervals W dl nw bs = .ok pieces ∨
      fullShuffleAssign perm o.intervals W nn dl nw bs (epoch + 1) = .ok pieces ∧ (epoch + 1 = 1 ∨ nn = 1)) :
    ∃ streams : Nat → List α,
      -- the workers of an uninterrupted epoch
      (∀ k ps, pieces[k]? = some ps → ∃ cs s', runIter sh ((samples ps).length + 1) (iterStart ps (epoch + 1)) = .ok (cs, true, s') ∧
        WorkerReads o files join enc read cs (streams k)) ∧
      (∀ n, (pieces.flatMap samples).Perm ((datasetSamples (List.range o.intervals.length) o.intervals).take n) →
        ((List.range W).flatMap fun r => (rankStreams nw streams r).flatten).Perm (ys.take n)) ∧
      ∀ r, r < W →
        -- the workers that are resumed
        (∀ (d : LoaderDict) (k : Nat), SamplesLeft bs (rankStreams nw streams r) k → d.yielded = k * bs → d.epoch = epoch + 1 →
          ∀ i xs, (resumedStreams nw bs streams r d)[i]? = some xs → ∃ ps st cs s', pieces[r * nw + i]? = some ps ∧
            resumeState sh pieces r nw i d.yielded bs nw d.epoch = .ok st ∧ runIter sh ((samples ps).length + 1) st = .ok (cs, true, s') ∧
            WorkerReads o files join enc read cs xs) ∧
        -- the loader
        ∀ (prefetch : Nat) (s0 : LoaderState), 0 < prefetch → s0.restore = false → s0.epoch = epoch →
          ∀ (d : LoaderDict) (before : List (List α)), RunsOf bs prefetch (rankStreams nw streams r) (resumedStreams nw bs streams r) s0 d before →
            d = loaderDict (times (loaderBatch nw bs) before.length (loaderBegin s0)) ∧ d.yielded = before.length * bs ∧ d.epoch = epoch + 1 ∧
            SamplesLeft bs (rankStreams nw streams r) before.length ∧
            ∀ (es : List LoaderEvent) (s2 : LoaderState) (last : LoaderIter (List α)),
              s2 = loaderBegin (loaderLoad ((rankStreams nw streams r).map List.length).sum d newLoader) →
              last = loaderRun nw s2.restore (loaderStart nw prefetch s2.latest s2.restore (workerBatches bs (resumedStreams nw bs streams r d))) es →
              last.finished = true →
              (∀ prefetch' es', 0 < prefetch' → (rankLoader nw bs prefetch' streams r es').finished = true → before ++ last.out = (rankLoader nw bs prefetch' streams r es').out) ∧
              ((before ++ last.out).flatten).Perm (rankStreams nw streams r).flatten := by
  obtain ⟨ivs, h1, value, h2, h3⟩ := located_values enc hsound files join o.chunks items hs
  rw [hivs] at h1
  cases h1
  obtain ⟨idx, out, ha, hsub⟩ := split_distinct perm hperm o.intervals W nn dl nw bs (epoch + 1) pieces hp
  have hok : ∀ x ∈ datasetSamples (List.range o.intervals.length) o.intervals, ∃ a, read (value x) = .ok a := by
    intro x hx
    have : read (value x) ∈ items.flatten.map read := by
      rw [← h2]
      exact List.mem_map_of_mem (List.mem_map_of_mem hx)
    rw [hr] at this
    obtain ⟨a, _, e⟩ := List.mem_map.1 this
    exact ⟨a, e.symm⟩
  have hpass : ∀ ps ∈ pieces, ∃ cs s', runIter sh ((samples ps).length + 1) (iterStart ps (epoch + 1)) = .ok (cs, true, s') ∧
      cs.map (fun c => (c.chunkIndex, c.index)) = deliveredBy sh ps (epoch + 1) ∧ PassShape cs (ps.map (·.chunk)) ∧
      deliveredBy sh ps (epoch + 1) = stream (fun k l => sh l ps.length (epoch + 1) k) 0 ps ∧ (deliveredBy sh ps (epoch + 1)).Perm (samples ps) := by
    intro ps hps
    obtain ⟨hnd, hin⟩ := hsub ps hps
    obtain ⟨hinv, hrem⟩ := iterStart_inv sh hsh ps (assigned_nonEmpty ha ps hps) (epoch + 1)
    have hperm' := stream_perm (fun k l => sh l ps.length (epoch + 1) k) (fun k l => hsh _ _ _ _) ps 0
    obtain ⟨cs, s', g1, g2, g3⟩ := runIter_shape sh hsh _ hinv rfl (fun g => absurd rfl g) hnd ((samples ps).length + 1) (by rw [hrem, hperm'.length_eq]; omega)
    have hdel : deliveredBy sh ps (epoch + 1) = cs.map fun c => (c.chunkIndex, c.index) := by
      unfold deliveredBy
      rw [g1]
    exact ⟨cs, s', g1, hdel.symm, g3, by rw [hdel, g2, hrem], by rw [hdel, g2, hrem]; exact hperm'⟩
  let streams : Nat → List α := fun k => okVals (((deliveredBy sh (pieces.getD k []) (epoch + 1)).map value).map read)
  have hget : ∀ k ps, pieces[k]? = some ps → pieces.getD k [] = ps := by
    intro k ps hk
    rw [List.getD_eq_getElem?_getD, hk, Option.getD_some]
  have hvals : ∀ k ps, pieces[k]? = some ps → ((deliveredBy sh ps (epoch + 1)).map value).map read = (streams k).map .ok := by
    intro k ps hk
    simp only [streams, hget k ps hk]
    apply okVals_all
    intro x hx
    rw [List.map_map] at hx
    obtain ⟨p, hp', rfl⟩ := List.mem_map.1 hx
    have hmem := List.mem_of_getElem? hk
    obtain ⟨_, _, _, _, _, _, hperm'⟩ := hpass ps hmem
    exact hok p ((hsub ps hmem).2 p (hperm'.mem_iff.1 hp'))
  have hrank : ∀ r, (rankStreams nw streams r).length = nw := by intro r; simp [rankStreams]
  refine ⟨streams, ?_, ?_, ?_⟩
  · intro k ps hk
    have hmem := List.mem_of_getElem? hk
    obtain ⟨cs, s', g1, g2, g3, g4, g5⟩ := hpass ps hmem
    refine ⟨cs, s', g1, ?_⟩
    have hrl := h3 (cs.map fun c => (c.chunkIndex, c.index)) (by
      intro p hp'
      rw [g2] at hp'
      exact (hsub ps hmem).2 p (g5.mem_iff.1 hp'))
    rw [List.map_map] at hrl
    refine worker_reads o enc files join items hs hd hex henc read cs _ g3 _ hrl (by simp) _ ?_
    rw [g2]
    exact hvals k ps hk
  · intro n hn
    have e : ((List.range W).flatMap fun r => (rankStreams nw streams r).flatten) = okVals (((pieces.flatMap fun ps => deliveredBy sh ps (epoch + 1)).map value).map read) := by
      have e1 : ∀ r, (rankStreams nw streams r).flatten = (List.range nw).flatMap fun i => streams (r * nw + i) := by
        intro r
        rw [List.flatMap_def]
        rfl
      simp only [e1]
      rw [ranks_workers_flatMap nw streams W]
      unfold okVals
      rw [List.map_map, List.map_flatMap, List.flatMap_assoc, ← hlen]
      rw [List.flatMap_def, List.flatMap_def]
      congr 1
      apply List.ext_getElem
      · simp
      · intro i g1 g2
        simp only [List.length_map, List.length_range] at g1
        simp only [List.getElem_map, List.getElem_range, streams, okVals]
        rw [hget i _ (List.getElem?_eq_getElem g1), List.map_map]
    rw [e]
    have hk : (pieces.flatMap fun ps => deliveredBy sh ps (epoch + 1)).Perm ((datasetSamples (List.range o.intervals.length) o.intervals).take n) :=
      (flatMap_perm_pointwise _ _ _ fun ps hps => by
        obtain ⟨_, _, _, _, _, _, g5⟩ := hpass ps hps
        exact g5).trans hn
    have := ((hk.map value).map read).flatMap_right (fun x => match x with | .ok a => [a] | .error _ => [])
    refine List.Perm.trans this ?_
    show (okVals _).Perm _
    rw [List.map_take, List.map_take, h2, hr, ← List.map_take, okVals_map]
  · intro r hr'
    have hrn : rankStreams nw streams r ≠ [] := by rw [← List.length_pos_iff, hrank]; exact hnw
    constructor
    · intro d k hleft hy he i xs hxs
      have hi : i < nw := by
        have := (List.getElem?_eq_some_iff.1 hxs).1
        simpa [resumedStreams, hrank] using this
      have hlt : r * nw + i < pieces.length := by
        rw [hlen]
        have := Nat.mul_le_mul_right nw (show r + 1 ≤ W from hr')
        rw [Nat.succ_mul] at this
        omega
      have hps := List.getElem?_eq_getElem hlt
      generalize hgen : pieces[r * nw + i] = ps at hps
      have hmem := List.mem_of_getElem? hps
      obtain ⟨cs, s', g1, g2, g3, g4, g5⟩ := hpass ps hmem
      have hst : (rankStreams nw streams r)[i]? = some (streams (r * nw + i)) := by
        unfold rankStreams
        rw [List.getElem?_map, List.getElem?_range hi]
        rfl
      have hl := hleft i _ hst
      rw [hrank] at hl
      have hsl : (streams (r * nw + i)).length = (samples ps).length := by
        have := congrArg List.length (hvals _ ps hps)
        simp only [List.length_map] at this
        rw [← this, g5.length_eq]
      rw [hsl] at hl
      have hkn : k * bs / bs = k := Nat.mul_div_cancel _ hbs
      have hkm : k * bs % bs = 0 := Nat.mul_mod_left _ _
      obtain ⟨hnd, hin⟩ := hsub ps hmem
      have hne := assigned_nonEmpty ha ps hmem
      obtain ⟨st, a1, a2, a3, a4, a5⟩ := resumeState_spec sh hsh pieces r nw i (k * bs) bs (epoch + 1) hbs hi ps hps hne (by
        rw [hkn, hkm, ← samples_length]; simpa using hl)
      rw [hkn, hkm] at a5
      simp only [ite_self, Nat.add_zero] at a5
      have hst' : st.hasTriggeredDownload = false ∧ 0 < st.nextChunk := by
        unfold resumeState at a1
        simp only [bind, Except.bind] at a1
        split at a1
        · cases a1
        · split at a1
          · cases a1
          · split at a1
            · split at a1
              · cases a1
              · cases a1; exact ⟨rfl, Nat.succ_pos _⟩
            · cases a1
      obtain ⟨cs', s'', b1, b2, b3⟩ := runIter_shape sh hsh st a2 hst'.1 (fun _ => hst'.2) (by rw [a4]; exact hnd) ((samples ps).length + 1) (by
        rw [a5, List.length_drop, stream_length _ (fun k l => hsh _ _ _ _), samples_length]; omega)
      rw [a5, ← g4] at b2
      have hrl := h3 (cs'.map fun c => (c.chunkIndex, c.index)) (by
        intro p hp'
        rw [b2] at hp'
        exact hin p (g5.mem_iff.1 (List.mem_of_mem_drop hp')))
      rw [List.map_map] at hrl
      refine ⟨ps, st, cs', s'', hps, by rw [hy, he]; exact a1, b1, ?_⟩
      refine worker_reads o enc files join items hs hd hex henc read cs' _ b3 _ hrl (by simp) _ ?_
      unfold resumedStreams at hxs
      rw [List.getElem?_mapIdx, hst, Option.map_some, hy, hkn] at hxs
      cases hxs
      rw [b2, List.map_drop, List.map_drop, hvals _ ps hps, ← List.map_drop]
    · intro prefetch s0 hpf h0 hs0 d before hruns
      obtain ⟨k0, k1, k2, k3⟩ := runsOf_state bs prefetch hbs hpf (rankStreams nw streams r) hrn (resumedStreams nw bs streams r) s0 h0 (by
        intro k _ _
        unfold resumedStreams
        rw [hrank]
        simp only [Nat.mul_div_cancel _ hbs]) d before hruns
      rw [hrank] at k3
      refine ⟨?_, by rw [k3], by rw [k3, hs0], k1, ?_⟩
      · rw [c21_recorded nw bs _ s0 h0, if_neg (by omega), Nat.max_eq_left hnw, k3]
      intro es s2 last hs2 hlast hfin
      have hresd : resumedStreams nw bs streams r d = (rankStreams nw streams r).mapIdx fun i xs => xs.drop (bs * Spec.visits before.length nw i) := by
        unfold resumedStreams
        rw [k3]
        simp only [Nat.mul_div_cancel _ hbs]
      rw [hresd] at hlast
      obtain ⟨⟨m, m1, m2⟩, _⟩ := loader_goes_on bs prefetch (s0.epoch + 1) before.length hbs hpf k0 (rankStreams nw streams r) hrn k1 es s2
        (by rw [hrank, hs2, k3]) last (by rw [hrank]; exact hlast)
      rw [← k2] at m1
      have heq : ∀ prefetch' es', 0 < prefetch' → (rankLoader nw bs prefetch' streams r es').finished = true →
          before ++ last.out = (rankLoader nw bs prefetch' streams r es').out := by
        intro prefetch' es' hpf' hf'
        obtain ⟨m', n1, n2⟩ := c39_round_robin (rankStreams nw streams r) hrn bs prefetch' 0 hbs hpf' false (Nat.zero_le _) (fun _ => rfl) es'
        rw [hrank] at n1 n2
        rw [m1]
        unfold rankLoader at hf' ⊢
        rw [n1]
        exact delivered_all bs _ _ _ (m2 hfin) (n2 hf')
      refine ⟨heq, ?_⟩
      obtain ⟨es', he'⟩ := rankLoader_ends nw bs 1 hnw (by decide) streams r
      rw [heq 1 es' (by decide) he', show (rankStreams nw streams r).flatten = (List.range nw).flatMap fun i => streams (r * nw + i) by rw [List.flatMap_def]; rfl]
      exact rankLoader_all nw bs 1 hnw hbs (by decide) streams r es' he'

/-- A data loader, also one that is resumed, that gets its turn in some fair order comes to its end. -/
theorem loader_ends {α : Type} (streams : List (List α)) (hn : streams ≠ []) (bs prefetch latest : Nat) (hpf : 0 < prefetch) (restore : Bool)
    (hl : latest ≤ streams.length) (hr : restore = false → latest = 0) :
    ∃ es, (loaderRun streams.length restore (loaderStart streams.length prefetch latest restore (workerBatches bs streams)) es).finished = true := by
  have hnw : 0 < streams.length := List.length_pos_iff.2 hn
  let σ : Nat → LoaderEvent := fun n => if n % (streams.length + 1) = streams.length then .main else .work (n % (streams.length + 1))
  obtain ⟨n, hn⟩ := c39_terminates streams hn bs prefetch latest hpf restore hl hr σ
    (fun n => ⟨(streams.length + 1) * n + streams.length, by rw [Nat.add_mul]; have : n ≤ streams.length * n := Nat.le_mul_of_pos_left n hnw; omega, by
      show (if _ then _ else _) = _
      rw [Nat.mul_add_mod, Nat.mod_eq_of_lt (Nat.lt_succ_self _), if_pos rfl]⟩)
    (fun w hw n => ⟨(streams.length + 1) * n + w, by rw [Nat.add_mul]; have : n ≤ streams.length * n := Nat.le_mul_of_pos_left n hnw; omega, by
      show (if _ then _ else _) = _
      rw [Nat.mul_add_mod, Nat.mod_eq_of_lt (by omega), if_neg (by omega)]⟩)
    (fun n => loaderRun streams.length restore (loaderStart streams.length prefetch latest restore (workerBatches bs streams)) ((List.range n).map σ)) rfl
    (by
      intro n
      rw [List.range_succ, List.map_append]
      exact loaderRun_append _ _ _ _ _)
  exact ⟨_, hn⟩

/-- **C83, the end is reached.** After any runs that were stopped, the loader of the next one, in some interleaving with its workers, comes to its end. -/
theorem c83_ends {α : Type} (nw bs prefetch : Nat) (hnw : 0 < nw) (hbs : 0 < bs) (hpf : 0 < prefetch) (streams : Nat → List α) (r : Nat)
    (s0 : LoaderState) (h0 : s0.restore = false) (d : LoaderDict) (before : List (List α))
    (h : RunsOf bs prefetch (rankStreams nw streams r) (resumedStreams nw bs streams r) s0 d before) (s2 : LoaderState)
    (hs2 : s2 = loaderBegin (loaderLoad ((rankStreams nw streams r).map List.length).sum d newLoader)) :
    s2.restore = true ∧ s2.epoch = s0.epoch + 1 ∧
    ∃ es, (loaderRun nw s2.restore (loaderStart nw prefetch s2.latest s2.restore (workerBatches bs (resumedStreams nw bs streams r d))) es).finished = true := by
  have hrank : (rankStreams nw streams r).length = nw := by simp [rankStreams]
  have hrn : rankStreams nw streams r ≠ [] := by rw [← List.length_pos_iff, hrank]; exact hnw
  obtain ⟨k0, k1, _, k3⟩ := runsOf_state bs prefetch hbs hpf (rankStreams nw streams r) hrn (resumedStreams nw bs streams r) s0 h0 (by
    intro k _ _
    unfold resumedStreams
    rw [hrank]
    simp only [Nat.mul_div_cancel _ hbs]) d before h
  have htot := batches_lt_total _ hrn bs before.length k1
  have hkb : 0 < before.length * bs := Nat.mul_pos k0 hbs
  have hs2' : s2 = ⟨s0.epoch + 1, before.length * bs, [], (before.length - 1) % nw + 1, (before.length - 1) % nw + 1, true⟩ := by
    rw [hs2, k3, hrank]
    unfold loaderLoad newLoader loaderBegin
    simp [hkb, htot]
  have hl : (resumedStreams nw bs streams r d).length = nw := by simp [resumedStreams, hrank]
  refine ⟨by rw [hs2'], by rw [hs2'], ?_⟩
  have := loader_ends (resumedStreams nw bs streams r d) (by rw [← List.length_pos_iff, hl]; exact hnw) bs prefetch s2.latest hpf s2.restore (by
    rw [hs2', hl]
    have := Nat.mod_lt (before.length - 1) hnw
    simp only
    omega) (by rw [hs2']; simp)
  rw [hl] at this
  exact this

/-- The three samples of the stored dataset of `Props/Config.lean`, shuffled, batches of one: the loader is stopped after the first and again after the second batch,
then comes to its end; together the batches hold the three samples. -/
example : ∃ (streams : Nat → List Bytes) (d : LoaderDict) (before : List (List Bytes)) (s2 : LoaderState) (es : List LoaderEvent) (last : LoaderIter (List Bytes)),
    RunsOf 1 2 (rankStreams 1 streams 0) (resumedStreams 1 1 streams 0) newLoader d before ∧ d = ⟨1, 2, [], 0⟩ ∧ before.length = 2 ∧
    s2 = loaderBegin (loaderLoad ((rankStreams 1 streams 0).map List.length).sum d newLoader) ∧
    last = loaderRun 1 s2.restore (loaderStart 1 2 s2.latest s2.restore (workerBatches 1 (resumedStreams 1 1 streams 0 d))) es ∧
    last.finished = true ∧ ((before ++ last.out).flatten).Perm [[1, 2], [3], [4, 5, 6]] := by
  have hex : ∀ info ∈ storedOpened.chunks, ∀ file, storedFiles (id info.filename) = some file → file.length = info.chunkBytes := by
    intro info hi file hf
    simp only [storedOpened, storedChunks, List.mem_cons, List.not_mem_nil, or_false] at hi
    rcases hi with rfl | rfl <;> cases hf <;> rfl
  obtain ⟨pieces, p1, p2, p3⟩ := c04_shuffle_is_permutation (fun _ l => l.reverse) (fun _ l => List.reverse_perm l) storedOpened.intervals 1 1 1 1 1 (by decide) (by decide)
    (by decide) (.inl rfl)
  obtain ⟨streams, h1, h2, h3⟩ := c83_interrupted storedOpened none (fun _ h => by cases h) storedFiles id storedItems storedExample storedDistinct hex rfl rfl
    (fun b => .ok b) storedItems.flatten rfl (fun _ l => l.reverse) (fun _ l => List.reverse_perm l) (fun l _ _ _ => l.reverse) (fun l _ _ _ => List.reverse_perm l)
    1 1 false 1 1 0 (by decide) (by decide) pieces p2 (.inr ⟨p1, .inl rfl⟩)
  have hall := h2 3 (by rw [List.take_of_length_le (by decide)]; exact p3)
  have hs : (streams 0).length = 3 := by
    have := hall.length_eq
    simpa [rankStreams, storedItems] using this
  obtain ⟨a, b, c, hs⟩ : ∃ a b c, streams 0 = [a, b, c] := by
    match streams 0, hs with
    | [a, b, c], _ => exact ⟨a, b, c, rfl⟩
  have hrs : rankStreams 1 streams 0 = [[a, b, c]] := by
    show [streams (0 * 1 + 0)] = _
    rw [Nat.zero_mul, Nat.add_zero, hs]
  have hrd : ∀ d, resumedStreams 1 1 streams 0 d = [[a, b, c].drop (1 * Spec.visits (d.yielded / 1) 1 0)] := by
    intro d
    unfold resumedStreams
    rw [hrs]
    rfl
  have hleft : ∀ n, n = 1 ∨ n = 2 → SamplesLeft 1 (rankStreams 1 streams 0) n := by
    intro n hn i xs hxs
    rw [hrs] at hxs ⊢
    cases i with
    | zero =>
      cases hxs
      rcases hn with rfl | rfl
      · show 1 * Spec.visits 1 1 0 < 3
        decide
      · show 1 * Spec.visits 2 1 0 < 3
        decide
    | succ i => cases hxs
  have e1 : (loaderRun (rankStreams 1 streams 0).length false (loaderStart (rankStreams 1 streams 0).length 2 (loaderBegin newLoader).latest false
      (workerBatches 1 (rankStreams 1 streams 0))) [.work 0, .main]).out = [[a]] := by
    rw [hrs]
    with_unfolding_all rfl
  have r1 : RunsOf 1 2 (rankStreams 1 streams 0) (resumedStreams 1 1 streams 0) newLoader ⟨1, 1, [], 0⟩ [[a]] := by
    have := RunsOf.first (bs := 1) (prefetch := 2) (streams := rankStreams 1 streams 0) (resumed := resumedStreams 1 1 streams 0) (s0 := newLoader) [.work 0, .main] _ rfl
      (by rw [e1]; simp) (by rw [e1]; exact hleft _ (.inl rfl))
    rw [e1, hrs] at this
    rw [hrs]
    exact this
  have e2 : (loaderRun (rankStreams 1 streams 0).length true (loaderStart (rankStreams 1 streams 0).length 2 1 true
      (workerBatches 1 (resumedStreams 1 1 streams 0 ⟨1, 1, [], 0⟩))) [.work 0, .main]).out = [[b]] := by
    rw [hrs, hrd]
    with_unfolding_all rfl
  have r2 : RunsOf 1 2 (rankStreams 1 streams 0) (resumedStreams 1 1 streams 0) newLoader ⟨1, 2, [], 0⟩ [[a], [b]] := by
    have := RunsOf.again _ _ r1 [.work 0, .main] ⟨1, 1, [], 1, 1, true⟩ (by rw [hrs]; rfl) _ rfl (by rw [e2]; simp) (by rw [e2]; exact hleft _ (.inr rfl))
    rw [e2, hrs] at this
    rw [hrs]
    with_unfolding_all exact this
  obtain ⟨_, _, es, hfin⟩ := c83_ends 1 1 2 (by decide) (by decide) (by decide) streams 0 newLoader rfl _ _ r2 _ rfl
  obtain ⟨_, _, _, _, k⟩ := (h3 0 (by decide)).2 2 newLoader (by decide) rfl rfl _ _ r2
  obtain ⟨_, k⟩ := k es _ _ rfl rfl hfin
  refine ⟨streams, _, _, _, es, _, r2, rfl, rfl, rfl, rfl, hfin, k.trans ?_⟩
  rw [show storedItems.flatten.take 3 = [[1, 2], [3], [4, 5, 6]] from rfl] at hall
  simpa using hall

end LitData.Props
