import Verif.Props.FailedDownload
import Verif.Model.Epochs

/-! C90: epoch after epoch over one cache. -/

namespace LitData.Props

open LitData LitData.Spec

theorem left_others (cfg : RemoteCfg) (w : List Nat) : (cfg.left w).prep.others = [] := by
  unfold RemoteCfg.left PrepCfg.others
  apply List.filter_eq_nil_iff.2
  intro c hc
  simpa using hc

/-- The steps of the thread do not depend on which files are left from before. -/
theorem tstep_left {cfg : RemoteCfg} (w w' : List Nat) {s t : PrepState} (h : TStep (cfg.left w).prep s t) : TStep (cfg.left w').prep s t := by
  cases h with
  | forceNone h1 h2 => exact .forceNone s h1 h2
  | forceSome c rest h1 h2 => exact .forceSome s c rest h1 h2
  | full h1 h2 => exact .full s h1 h2
  | fetchNone h1 h2 h3 => exact .fetchNone s h1 h2 h3
  | fetchSome c rest h1 h2 h3 => exact .fetchSome s c rest h1 h2 h3
  | fetchEnd rest h1 h2 h3 => exact .fetchEnd s rest h1 h2 h3
  | noLimit h1 h2 => exact .noLimit s h1 h2
  | cleanNone h1 h2 h3 => exact .cleanNone s h1 h2 h3
  | cleanSome c rest k h1 h2 h3 h4 => exact .cleanSome s c rest k h1 h2 h3 h4
  | lastNone h1 h2 => exact .lastNone s h1 h2
  | lastSome c rest k h1 h2 h3 => exact .lastSome s c rest k h1 h2 h3

theorem diskAfter_left {cfg : RemoteCfg} (w w' : List Nat) {p t : PrepState} {d d' : String → Option Bytes} (h : DiskAfter (cfg.left w) p t d d') :
    DiskAfter (cfg.left w') p t d d' :=
  ⟨h.1, fun c hc _ q hq => h.2 c hc (by rw [left_others]; simp) q hq⟩

theorem readerStep_left {cfg : RemoteCfg} (w w' : List Nat) {xs : List ChunkedIndex} {s t : RemoteState} (h : ReaderStep (cfg.left w) xs s t) : ReaderStep (cfg.left w') xs s t := by
  cases h with
  | ask x h1 h2 => exact .ask s x h1 h2
  | request c cs h1 => exact .request s c cs h1
  | requested h1 => exact .requested s h1
  | force x h1 h2 h3 => exact .force s x h1 h2 h3
  | read x path b size raw ld h1 h2 h3 h4 => exact .read s x path b size raw ld h1 h2 h3 h4
  | fail h1 => exact .fail s h1

/-- Nor do those of the worker. -/
theorem fstep_left {cfg : RemoteCfg} {comp : Bool} {xs : List ChunkedIndex} (w w' : List Nat) {f g : FineState} (h : FStep (cfg.left w) comp xs f g) :
    FStep (cfg.left w') comp xs f g := by
  cases h with
  | reader t h1 h2 => exact .reader f t (readerStep_left w w' h1) h2
  | thread p disk h1 h2 h3 h4 h5 => exact .thread f p disk h1 h2 (tstep_left w w' h3) h4 (diskAfter_left w w' h5)
  | begin c info h1 h2 h3 h4 => exact .begin f c info h1 h2 h3 h4
  | there c info g h1 h2 h3 h4 => exact .there f c info g h1 h2 h3 h4
  | atOnce c info h1 h2 h3 h4 => exact .atOnce f c info h1 h2 h3 h4
  | busy c h1 h2 h3 => rw [left_others] at h3; cases h3
  | create c info file h1 h2 h3 h4 h5 h6 => exact .create f c info file h1 h2 h3 h4 h5 h6
  | packedThere c h1 h2 h3 => exact .packedThere f c h1 h2 h3
  | fetchPacked c h1 h2 h3 => exact .fetchPacked f c h1 h2 h3
  | unpacked c info g h1 h2 h3 => exact .unpacked f c info g h1 h2 h3
  | unpack c info h1 h2 h3 h4 => exact .unpack f c info h1 h2 h3 h4
  | open_ c info file h1 h2 h3 h4 => exact .open_ f c info file h1 h2 h3 h4
  | write c k n info file h1 h2 h3 h4 h5 => exact .write f c k n info file h1 h2 h3 h4 (by rw [left_others]; intro e; cases e)
  | finish c info h1 h2 => exact .finish f c info h1 h2
  | commit c p h1 h2 h3 => exact .commit f c p h1 (tstep_left w w' h2) h3
  | others c info g h1 h2 h3 => rw [left_others] at h1; cases h1

theorem fsteps_left {cfg : RemoteCfg} {comp : Bool} {xs : List ChunkedIndex} (w w' : List Nat) {f g : FineState} (h : FSteps (cfg.left w) comp xs f g) :
    FSteps (cfg.left w') comp xs f g := by
  induction h with
  | refl => exact .refl _
  | tail _ h ih => exact ih.tail (fstep_left w w' h)

/-- The cache has nothing but whole chunks. -/
def WholeChunks (cfg : RemoteCfg) (disk : String → Option Bytes) : Prop :=
  ∀ q g, disk q = some g → cfg.files q = some g ∧ ∃ c, cfg.pathOf c = some q

theorem epoch_start (cfg : RemoteCfg) (comp : Bool) (xs : List ChunkedIndex) (disk : String → Option Bytes) (packed : Nat → Bool) (h : WholeChunks cfg disk) :
    ∃ w, FReach (cfg.left w) comp xs ⟨.start disk, packed, .idle⟩ := by
  have hmem : ∀ (c : Nat), c ∈ (List.range cfg.chunks.length).filter (fun c => ((cfg.pathOf c).bind disk).isSome) ↔ ((cfg.pathOf c).bind disk).isSome = true := by
    intro c
    rw [List.mem_filter, List.mem_range]
    constructor
    · exact fun h => h.2
    · intro hs
      refine ⟨?_, hs⟩
      apply Nat.lt_of_not_le
      intro hc
      unfold RemoteCfg.pathOf at hs
      rw [List.getElem?_eq_none hc] at hs
      cases hs
  refine ⟨(List.range cfg.chunks.length).filter (fun c => ((cfg.pathOf c).bind disk).isSome), .init _ _ ?_ ?_⟩
  · intro q g hg
    obtain ⟨h1, c, h2⟩ := h q g hg
    refine ⟨h1, c, (hmem c).2 ?_, h2⟩
    rw [h2, Option.bind_some, hg]
    rfl
  · intro c hc _ q hq
    have hs := (hmem c).1 hc
    have hq' : cfg.pathOf c = some q := hq
    rw [hq', Option.bind_some] at hs
    obtain ⟨g, hg⟩ := Option.isSome_iff_exists.1 hs
    rw [hg]
    exact (h q g hg).1.symm

theorem readerStep_disk {cfg : RemoteCfg} {xs : List ChunkedIndex} {s t : RemoteState} (h : ReaderStep cfg xs s t) : t.disk = s.disk := by
  cases h <;> rfl

/-- There is nothing in the cache but files of chunks. -/
theorem only_chunks {cfg : RemoteCfg} {comp : Bool} {xs : List ChunkedIndex} {f : FineState} (h : FReach cfg comp xs f) :
    ∀ q g, f.s.disk q = some g → ∃ c, cfg.pathOf c = some q := by
  have set : ∀ (disk : String → Option Bytes) (c : Nat) (info : ChunkInfo) (g : Option Bytes), (∀ q g, disk q = some g → ∃ c, cfg.pathOf c = some q) → cfg.chunks[c]? = some info →
      ∀ q k, setFile disk (cfg.join info.filename) g q = some k → ∃ c, cfg.pathOf c = some q := by
    intro disk c info g hd hc q k hk
    unfold setFile at hk
    split at hk
    · rename_i e; rw [e]; exact ⟨c, pathOf_info hc⟩
    · exact hd q k hk
  induction h with
  | init disk packed hd _ =>
    intro q g hg
    obtain ⟨_, c, _, hc⟩ := hd q g hg
    exact ⟨c, hc⟩
  | step _ h2 ih =>
    cases h2 with
    | reader t h1 _ => intro q g hg; exact ih q g ((readerStep_disk h1) ▸ hg)
    | thread p disk _ _ _ _ hd =>
      intro q g hg
      rcases hd.1 q with e | ⟨c, _, hc, _⟩ | ⟨c, _, hc, _⟩
      · exact ih q g (e ▸ hg)
      · exact ⟨c, hc⟩
      · exact ⟨c, hc⟩
    | atOnce c info _ _ hc _ => exact set _ c info _ ih hc
    | create c info file _ _ hc _ _ _ => exact set _ c info _ ih hc
    | open_ c info file _ hc _ _ => exact set _ c info _ ih hc
    | write c k n info file _ hc _ _ _ => exact set _ c info _ ih hc
    | finish c info _ hc => exact set _ c info _ ih hc
    | others c info g _ hc _ => exact set _ c info _ ih hc
    | _ => exact ih

theorem left_ok {cfg : RemoteCfg} (hok : RemoteOk cfg) (w : List Nat) : RemoteOk (cfg.left w) := ⟨hok.paths, hok.whole⟩

/-- A thread that is not within a fetch has left whole chunks only. -/
theorem epoch_end {cfg : RemoteCfg} (hok : RemoteOk cfg) (hex : ExactSizes cfg) {comp : Bool} {xs : List ChunkedIndex} {w : List Nat} {f : FineState}
    (h : FReach (cfg.left w) comp xs f) (hj : f.job = .idle) : WholeChunks cfg f.s.disk := by
  intro q g hg
  obtain ⟨c, hc⟩ := only_chunks h q g hg
  refine ⟨?_, c, hc⟩
  obtain ⟨info, hi, rfl⟩ := pathOf_eq hc
  rcases noParts_of (fineInv_reach (left_ok hok w) hex (fun _ => left_others cfg w) h) (by rw [hj]; simp) c info hi (by rw [left_others]; simp) with e | e
  · rw [hg] at e; cases e
  · exact e.symm.trans hg

/-- Each epoch with a new item loader is a pass of a new worker over a cache that has whole chunks. -/
theorem epochs_reach {cfg : RemoteCfg} (hok : RemoteOk cfg) (hex : ExactSizes cfg) {comp : Bool} {before : List (List ChunkedIndex)} {xs : List ChunkedIndex} {f : FineState}
    (h : Epochs cfg comp false before xs f) : ∃ w, FReach (cfg.left w) comp xs f := by
  induction h with
  | first xs disk packed hd => exact epoch_start cfg comp xs disk packed hd
  | step _ h2 ih =>
    obtain ⟨w, hw⟩ := ih
    exact ⟨w, hw.step (fstep_left [] w h2)⟩
  | next ys _ _ hj _ ih =>
    obtain ⟨w, hw⟩ := ih
    exact epoch_start cfg comp ys _ _ (epoch_end hok hex hw hj)

/-- How many more steps a thread that was told to stop takes at most. -/
def exitMeasure (s : PrepState) : Nat :=
  let n := s.toDelete.length
  let q := s.queue.length
  match s.pc with
  | .force => 3 * (n + q) + 2
  | .fetch => 3 * (n + q) + 1
  | .clean => if n = 0 then 3 * q + 3 else 3 * (n + q)
  | .last => 1
  | .exited => 0

/-- A thread that was told to stop. -/
structure Ending (cfg : PrepCfg) (s : PrepState) : Prop where
  inv : PrepInv cfg s
  stopped : s.stopped = true
  few : s.forced.length + s.forceQ.length < cfg.maxPre
  cache : cfg.cache = true

theorem ending_tstep {cfg : PrepCfg} {s t : PrepState} (h : Ending cfg s) (hst : TStep cfg s t) : Ending cfg t ∧ exitMeasure t < exitMeasure s := by
  have hi := pinv_tstep h.inv hst
  obtain ⟨hinv, hstop, hfew, hcache⟩ := h
  obtain ⟨hcons, _⟩ := hinv.ended hstop
  have hlen := congrArg List.length hinv.fifo
  rw [hcons] at hlen
  simp only [List.length_append] at hlen
  obtain ⟨rest, hreq, hq⟩ := hinv.fetch
  have hreq' := congrArg List.length hreq
  rw [List.length_append] at hreq'
  have hcnt := hinv.counter
  cases hst with
  | forceNone hp hf => exact ⟨⟨hi, hstop, hfew, hcache⟩, by simp only [exitMeasure, hp]; omega⟩
  | forceSome c rest hp hf =>
    refine ⟨⟨hi, hstop, ?_, hcache⟩, by simp only [exitMeasure, hp]; omega⟩
    rw [hf] at hfew
    simp only [List.length_append, List.length_cons, List.length_nil] at hfew ⊢
    omega
  | full hp hc =>
    refine ⟨⟨hi, hstop, hfew, hcache⟩, ?_⟩
    simp only [exitMeasure, hp]
    split <;> omega
  | fetchNone hp hc he =>
    have := hq (by rw [hp]; simp) (by rw [hp]; simp)
    rw [he, hstop] at this
    cases rest <;> simp at this
  | fetchSome c r hp hc he =>
    refine ⟨⟨hi, hstop, hfew, hcache⟩, ?_⟩
    simp only [exitMeasure, hp, he, List.length_cons]
    split <;> omega
  | fetchEnd r hp hc he =>
    refine ⟨⟨hi, hstop, hfew, hcache⟩, ?_⟩
    simp only [exitMeasure, hp, he, List.length_cons, hcache, if_true]
    omega
  | noLimit hp hc => rw [hcache] at hc; cases hc
  | cleanNone hp hc hd =>
    refine ⟨⟨hi, hstop, hfew, hcache⟩, ?_⟩
    simp only [exitMeasure, hp, hd, List.length_nil, if_true]
    omega
  | cleanSome c r k hp hc hd hk =>
    refine ⟨⟨hi, hstop, hfew, hcache⟩, ?_⟩
    simp only [exitMeasure, hp, hd, cleanUp, List.length_cons]
    rw [if_neg (by omega)]
    omega
  | lastNone hp hd => exact ⟨⟨hi, hstop, hfew, hcache⟩, by simp only [exitMeasure, hp]; omega⟩
  | lastSome c r k hp hd hk => exact ⟨⟨hi, hstop, hfew, hcache⟩, by simp only [exitMeasure, hp, cleanUp]; omega⟩

/-- **C90, the thread of an epoch ends.** With a limit on the cache, and if fewer chunks than `max_pre_download` were asked for by force, a thread that was told to
stop is at its end after at most three steps for each chunk that is in its queues, and a few more. -/
theorem c90_thread_ends (cfg : PrepCfg) (s t : PrepState) (m : Nat) (h : PrepReach cfg s) (hcache : cfg.cache = true) (hstop : s.stopped = true)
    (hfew : s.forced.length + s.forceQ.length < cfg.maxPre) (hst : TSteps cfg m s t) : m ≤ 3 * (s.toDelete.length + s.queue.length) + 3 ∧
      (3 * (s.toDelete.length + s.queue.length) + 3 = m → t.pc = .exited) := by
  have key : Ending cfg t ∧ exitMeasure t + m ≤ exitMeasure s := by
    induction hst with
    | refl => exact ⟨⟨pinv_reach h, hstop, hfew, hcache⟩, by omega⟩
    | tail _ h2 ih =>
      obtain ⟨a, b⟩ := ih h hstop hfew
      obtain ⟨c, d⟩ := ending_tstep a h2
      exact ⟨c, by omega⟩
  have hm : exitMeasure s ≤ 3 * (s.toDelete.length + s.queue.length) + 3 := by
    simp only [exitMeasure]
    cases s.pc <;> simp only <;> (try split) <;> omega
  refine ⟨by omega, fun e => ?_⟩
  have h0 : exitMeasure t = 0 := by omega
  unfold exitMeasure at h0
  cases hp : t.pc with
  | exited => rfl
  | _ =>
    rw [hp] at h0
    simp only at h0
    (try split at h0) <;> omega

/-- The thread of an epoch that is over can be brought to its end. -/
theorem to_exit {cfg : RemoteCfg} (hok : RemoteOk cfg) (hex : ExactSizes cfg) {comp : Bool} {xs : List ChunkedIndex} (hwarm : cfg.prep.others = []) {cs : List Nat}
    (hsh : PassShape xs cs) {raws : List Bytes}
    (hraws : readLocated cfg.files cfg.join cfg.enc cfg.ecfg cfg.chunks cfg.ivs .init (xs.map fun c => (c.index, c.chunkIndex)) = .ok raws) (hcache : cfg.prep.cache = true)
    {f : FineState} (h : FReach cfg comp xs f) (hdone : f.s.done = xs.length) (hpos : 0 < xs.length) (hfew : forcedCount f.s.p < cfg.prep.maxPre) :
    ∃ g, FSteps cfg comp xs f g ∧ g.job = .idle ∧ g.s.p.pc = .exited ∧ g.s.done = xs.length ∧ forcedCount g.s.p = forcedCount f.s.p := by
  obtain ⟨f1, f11, f12, f13, f14, f15⟩ := settle hok hex hwarm h
  have h1 := fsteps_reach h f11
  have main : ∀ (n : Nat) (f : FineState), FReach cfg comp xs f → f.job = .idle → f.s.done = xs.length → forcedCount f.s.p < cfg.prep.maxPre → exitMeasure f.s.p = n →
      ∃ g, FSteps cfg comp xs f g ∧ g.job = .idle ∧ g.s.p.pc = .exited ∧ g.s.done = xs.length ∧ forcedCount g.s.p = forcedCount f.s.p := by
    intro n
    induction n using Nat.strongRecOn with
    | ind n ih =>
      intro f hf hj hd hfew hn
      by_cases he : f.s.p.pc = .exited
      · exact ⟨f, .refl f, hj, he, hd, rfl⟩
      · have hr := (fineInv_reach hok hex (fun _ => hwarm) hf).reach
        simp only [coarse, hj] at hr
        have hi := rinv_reach hok hsh hraws hr
        have hstop : f.s.p.stopped = true := by
          cases hi.phase with
          | fresh _ _ _ h4 => omega
          | asking _ _ _ h2 => omega
          | reading x _ h2 => rw [List.getElem?_eq_none (by omega)] at h2; cases h2
          | finished _ _ _ _ _ h6 => exact h6
        obtain ⟨p, hp⟩ := c28_never_stuck cfg.prep f.s.p he
        obtain ⟨g, disk, g1, g2, g3, _⟩ := fine_tstep hok hex hwarm hsh hraws hf hj (.inr hstop) hp
        obtain ⟨_, hlt⟩ := ending_tstep ⟨pinv_reach hi.prep, hstop, hfew, hcache⟩ hp
        obtain ⟨k, k1, k2, k3, k4, k5⟩ := ih (exitMeasure p) (by omega) g (fsteps_reach hf g1) g2 (by rw [g3]; exact hd) (by rw [g3]; rw [← tstep_forced hp] at hfew; exact hfew) (by rw [g3])
        exact ⟨k, fsteps_trans g1 k1, k2, k3, k4, by rw [k5, g3]; exact tstep_forced hp⟩
  obtain ⟨g, g1, g2, g3, g4, g5⟩ := main _ f1 h1 f12 (f13.trans hdone) (by rw [f15]; exact hfew) rfl
  exact ⟨g, fsteps_trans f11 g1, g2, g3, g4, by rw [g5, f15]⟩

theorem epochs_steps {cfg : RemoteCfg} {comp given : Bool} {before : List (List ChunkedIndex)} {xs : List ChunkedIndex} {f g : FineState} (h : Epochs cfg comp given before xs f)
    (h2 : FSteps (cfg.left []) comp xs f g) : Epochs cfg comp given before xs g := by
  induction h2 with
  | refl => exact h
  | tail _ h ih => exact ih.step h

/-- **C90, the same samples in each epoch.** However many epochs a worker has read, with whatever order of the chunks, and whatever its threads and the cache did
meanwhile: the samples that it has delivered in this epoch are the first ones of those that reading the remote folder itself gives. -/
theorem c90_same_samples (cfg : RemoteCfg) (hok : RemoteOk cfg) (hex : ExactSizes cfg) (comp : Bool) (before : List (List ChunkedIndex)) (xs : List ChunkedIndex) (cs : List Nat)
    (hsh : PassShape xs cs) (raws : List Bytes)
    (hraws : readLocated cfg.files cfg.join cfg.enc cfg.ecfg cfg.chunks cfg.ivs .init (xs.map fun c => (c.index, c.chunkIndex)) = .ok raws)
    (f : FineState) (h : Epochs cfg comp false before xs f) : f.s.out = raws.take f.s.done := by
  obtain ⟨w, hw⟩ := epochs_reach hok hex h
  exact c76_fine_same_samples (cfg.left w) (left_ok hok w) hex comp (fun _ => left_others cfg w) xs cs hsh raws hraws (.inr (left_others cfg w)) f hw

/-- A pass that can go on can be brought to its end, and its thread too. -/
theorem pass_ends {cfg : RemoteCfg} (hok : RemoteOk cfg) (hex : ExactSizes cfg) {comp : Bool} {xs : List ChunkedIndex} {cs : List Nat}
    (hsh : PassShape xs cs) {raws : List Bytes}
    (hraws : readLocated cfg.files cfg.join cfg.enc cfg.ecfg cfg.chunks cfg.ivs .init (xs.map fun c => (c.index, c.chunkIndex)) = .ok raws) (hcache : cfg.prep.cache = true)
    {w : List Nat} {f : FineState} (hw : FReach (cfg.left w) comp xs f) (hpc : f.s.pc ≠ .failed)
    (hfew : f.s.p.forced.length + f.s.p.forceQ.length + 2 ≤ cfg.prep.maxPre) :
    ∃ g, FSteps (cfg.left w) comp xs f g ∧ g.s.done = xs.length ∧ g.job = .idle ∧ (0 < g.s.done → g.s.p.pc = .exited) ∧ forcedCount g.s.p ≤ forcedCount f.s.p := by
  obtain ⟨g, g1, g2, _, g4⟩ := c76_fine_no_deadlock (cfg.left w) (left_ok hok w) hex comp xs cs hsh raws hraws (left_others cfg w) hcache f hw hpc hfew
  have hg := fsteps_reach hw g1
  have hfew' : forcedCount f.s.p + 2 ≤ cfg.prep.maxPre := hfew
  by_cases hpos : 0 < xs.length
  · obtain ⟨k, k1, k2, k3, k4, k5⟩ := to_exit (left_ok hok w) hex (left_others cfg w) hsh hraws hcache hg g2 hpos (by show forcedCount g.s.p < cfg.prep.maxPre; omega)
    exact ⟨k, fsteps_trans g1 k1, k4, k2, fun _ => k3, by rw [k5]; exact g4⟩
  · obtain ⟨k, k1, k2, k3, k4, k5⟩ := settle (left_ok hok w) hex (left_others cfg w) hg
    exact ⟨k, fsteps_trans g1 k1, k3.trans g2, k2, fun h => by omega, by rw [k5]; exact g4⟩

/-- **C90, each epoch can be brought to its end**, whatever the earlier ones left in the cache, with all samples delivered and the thread ended, and then the next one
can begin. This needs a limit on the cache and `max_pre_download` at least two more than the number of chunks asked for by force. -/
theorem c90_goes_on (cfg : RemoteCfg) (hok : RemoteOk cfg) (hex : ExactSizes cfg) (comp : Bool) (before : List (List ChunkedIndex)) (xs : List ChunkedIndex) (cs : List Nat)
    (hsh : PassShape xs cs) (raws : List Bytes)
    (hraws : readLocated cfg.files cfg.join cfg.enc cfg.ecfg cfg.chunks cfg.ivs .init (xs.map fun c => (c.index, c.chunkIndex)) = .ok raws) (hcache : cfg.prep.cache = true)
    (f : FineState) (h : Epochs cfg comp false before xs f) (hpc : f.s.pc ≠ .failed) (hfew : f.s.p.forced.length + f.s.p.forceQ.length + 2 ≤ cfg.prep.maxPre) :
    ∃ g, FSteps (cfg.left []) comp xs f g ∧ g.s.out = raws ∧ ∀ ys, Epochs cfg comp false (before ++ [xs]) ys (g.again false) := by
  obtain ⟨w, hw⟩ := epochs_reach hok hex h
  obtain ⟨g, g1, g2, g3, g4, _⟩ := pass_ends hok hex hsh hraws hcache hw hpc hfew
  have hs := fsteps_left w [] g1
  have he := epochs_steps h hs
  refine ⟨g, hs, ?_, fun ys => he.next ys g2 g3 g4⟩
  have hlen : raws.length = xs.length := by
    have := (readLocated_known _ _ _ hraws).1
    rwa [List.length_map] at this
  rw [c90_same_samples cfg hok hex comp before xs cs hsh raws hraws g he, g2, ← hlen, List.take_length]

/-! The item loader was passed to the dataset and is the same in all epochs. -/

/-- The worker with another item loader. -/
def withLoader (ld : PyTreeState) (f : FineState) : FineState := { f with s := { f.s with reader := { f.s.reader with loader := ld } } }

/-- Before the first item is read it does not matter which file the loader has had open, if it is another one. -/
theorem withLoader_step {cfg : RemoteCfg} {comp : Bool} {xs : List ChunkedIndex} {f g : FineState} (h : FStep cfg comp xs f g) (hd : g.s.done = f.s.done) (ld : PyTreeState)
    (hp : ∀ x, xs[f.s.done]? = some x → ld.path ≠ cfg.pathOf x.chunkIndex) : FStep cfg comp xs (withLoader ld f) (withLoader ld g) := by
  cases h with
  | reader t h1 h2 =>
    have hs : ReaderStep cfg xs (withLoader ld f).s (withLoader ld { f with s := t }).s := by
      cases h1 with
      | ask x h1 h3 => exact .ask (withLoader ld f).s x h1 h3
      | request c cs h1 => exact .request (withLoader ld f).s c cs h1
      | requested h1 => exact .requested (withLoader ld f).s h1
      | force x h1 h3 h4 => exact .force (withLoader ld f).s x h1 h3 (hp x h3)
      | read x path b size raw ld h1 h2 h3 h4 => simp only at hd; omega
      | fail h1 => exact .fail (withLoader ld f).s h1
    exact .reader (withLoader ld f) _ hs h2
  | thread p disk h1 h2 h3 h4 h5 => exact .thread (withLoader ld f) p disk h1 h2 h3 h4 h5
  | begin c info h1 h2 h3 h4 => exact .begin (withLoader ld f) c info h1 h2 h3 h4
  | there c info g h1 h2 h3 h4 => exact .there (withLoader ld f) c info g h1 h2 h3 h4
  | atOnce c info h1 h2 h3 h4 => exact .atOnce (withLoader ld f) c info h1 h2 h3 h4
  | busy c h1 h2 h3 => exact .busy (withLoader ld f) c h1 h2 h3
  | create c info file h1 h2 h3 h4 h5 h6 => exact .create (withLoader ld f) c info file h1 h2 h3 h4 h5 h6
  | packedThere c h1 h2 h3 => exact .packedThere (withLoader ld f) c h1 h2 h3
  | fetchPacked c h1 h2 h3 => exact .fetchPacked (withLoader ld f) c h1 h2 h3
  | unpacked c info g h1 h2 h3 => exact .unpacked (withLoader ld f) c info g h1 h2 h3
  | unpack c info h1 h2 h3 h4 => exact .unpack (withLoader ld f) c info h1 h2 h3 h4
  | open_ c info file h1 h2 h3 h4 => exact .open_ (withLoader ld f) c info file h1 h2 h3 h4
  | write c k n info file h1 h2 h3 h4 h5 => exact .write (withLoader ld f) c k n info file h1 h2 h3 h4 h5
  | finish c info h1 h2 => exact .finish (withLoader ld f) c info h1 h2
  | commit c p h1 h2 h3 => exact .commit (withLoader ld f) c p h1 h2 h3
  | others c info g h1 h2 h3 => exact .others (withLoader ld f) c info g h1 h2 h3

theorem loadItem_closed {fs : String → Option Bytes} {enc : Option Encryption} {path : String} {c i b size : Nat} {ld ld' : PyTreeState} (h : ld.path ≠ some path)
    (h' : ld'.path ≠ some path) (hdec : ld.decrypted = ld'.decrypted) : loadItem fs none enc ld path c i b size = loadItem fs none enc ld' path c i b size := by
  unfold loadItem openChunk
  rw [if_neg h, if_neg h', hdec]

theorem openChunk_decrypted {fs : String → Option Bytes} {path : String} {size : Nat} {st ld : PyTreeState} (h : openChunk fs st path size = .ok ld) : ld.decrypted = st.decrypted := by
  unfold openChunk at h
  split at h
  · cases h; rfl
  · split at h
    · split at h
      · cases h; rfl
      · cases h
    · cases h

theorem loadItem_decrypted {fs : String → Option Bytes} {enc : Option Encryption} {path : String} {c i b size : Nat} {st ld : PyTreeState} {raw : Bytes}
    (h : loadItem fs none enc st path c i b size = .ok (raw, ld)) : ld.decrypted = st.decrypted := by
  unfold loadItem at h
  simp only [bind, Except.bind] at h
  cases ho : openChunk fs st path size with
  | error e => rw [ho] at h; cases h
  | ok st1 =>
    rw [ho] at h
    simp only at h
    split at h
    · cases h
    · split at h
      · cases h
      · cases h
        exact openChunk_decrypted ho

/-- The file that the loader had open last, over all passes so far. -/
def lastPath (cfg : RemoteCfg) (before : List (List ChunkedIndex)) : Option String := before.flatten.getLast?.bind fun x => cfg.pathOf x.chunkIndex

/-- The pass begins with the chunk with which the one before ended. -/
def SameChunk (before : List (List ChunkedIndex)) (xs : List ChunkedIndex) : Prop := ∃ x y, xs.head? = some x ∧ before.flatten.getLast? = some y ∧ x.chunkIndex = y.chunkIndex

/-- As long as nothing was read, the state with a new loader. -/
def asNew (f : FineState) : FineState := if f.s.done = 0 then withLoader .init f else f

/-- What holds with a loader that is the same in all passes. -/
structure GivenInv (cfg : RemoteCfg) (comp : Bool) (before : List (List ChunkedIndex)) (xs : List ChunkedIndex) (f : FineState) : Prop where
  new : f.s.done = 0 → f.s.reader.loader = ⟨lastPath cfg before, none, none⟩ ∧ f.s.out = []
  busy : f.s.pc ≠ .idle → f.s.reader.thread = true
  dec : f.s.reader.loader.decrypted = none
  path : 0 < f.s.done → f.s.reader.loader.path = (xs.take f.s.done).getLast?.bind fun x => cfg.pathOf x.chunkIndex
  closed : 0 < f.s.done → f.s.done = xs.length → f.s.reader.loader.handle = none
  bound : f.s.done ≤ xs.length
  same : SameChunk before xs → f.s.done = 0
  reach : ¬ SameChunk before xs → ∃ w, FReach (cfg.left w) comp xs (asNew f)

theorem same_iff {cfg : RemoteCfg} (hok : RemoteOk cfg) {before : List (List ChunkedIndex)} {xs : List ChunkedIndex}
    {x : ChunkedIndex} {q : String} (hx : xs[0]? = some x) (hq : cfg.pathOf x.chunkIndex = some q) : SameChunk before xs ↔ lastPath cfg before = some q := by
  unfold SameChunk lastPath
  rw [List.head?_eq_getElem?, hx]
  constructor
  · rintro ⟨a, y, h1, h2, h3⟩
    cases h1
    rw [h2, Option.bind_some, ← h3, hq]
  · intro h
    cases hy : before.flatten.getLast? with
    | none => rw [hy] at h; cases h
    | some y =>
      rw [hy, Option.bind_some] at h
      exact ⟨x, y, rfl, rfl, hok.paths _ _ q hq h⟩

theorem given_step {cfg : RemoteCfg} (hok : RemoteOk cfg) (henc : cfg.ecfg = none) {comp : Bool} {before : List (List ChunkedIndex)} {xs : List ChunkedIndex}
    {cs : List Nat} (hsh : PassShape xs cs) (hknown : ∀ x ∈ xs, ∃ info, cfg.chunks[x.chunkIndex]? = some info) {f g : FineState}
    (hi : GivenInv cfg comp before xs f) (st : FStep (cfg.left []) comp xs f g) : GivenInv cfg comp before xs g := by
  have known : ∀ (n : Nat) (x : ChunkedIndex), xs[n]? = some x → ∃ q, cfg.pathOf x.chunkIndex = some q := by
    intro n x hx
    obtain ⟨info, h⟩ := hknown x (List.mem_of_getElem? hx)
    exact ⟨_, pathOf_info h⟩
  -- a step that reads nothing and leaves the loader alone
  have quiet : g.s.done = f.s.done → g.s.reader.loader = f.s.reader.loader → g.s.out = f.s.out → (g.s.pc ≠ .idle → g.s.reader.thread = true) → GivenInv cfg comp before xs g := by
    intro h1 h2 h3 h4
    refine ⟨?_, h4, h2 ▸ hi.dec, ?_, ?_, h1 ▸ hi.bound, ?_, ?_⟩
    · intro h; rw [h2, h3]; exact hi.new (h1 ▸ h)
    · intro h; rw [h2, h1]; exact hi.path (h1 ▸ h)
    · intro h5 h6; rw [h2]; exact hi.closed (h1 ▸ h5) (h1 ▸ h6)
    · intro h; rw [h1]; exact hi.same h
    · intro h
      obtain ⟨w, hw⟩ := hi.reach h
      refine ⟨w, ?_⟩
      unfold asNew at hw ⊢
      rw [h1]
      split
      · rename_i h0
        rw [if_pos h0] at hw
        refine hw.step (withLoader_step (fstep_left [] w st) h1 .init ?_)
        intro x hx
        obtain ⟨q, hq⟩ := known _ x hx
        show (none : Option String) ≠ cfg.pathOf x.chunkIndex
        rw [hq]
        simp
      · rename_i h0
        rw [if_neg h0] at hw
        exact hw.step (fstep_left [] w st)
  cases st with
  | reader t h1 h2 =>
    cases h1 with
    | ask x a b => exact quiet rfl rfl rfl (fun _ => rfl)
    | request c cs a => exact quiet rfl rfl rfl (fun _ => hi.busy (by rw [a]; simp))
    | requested a => exact quiet rfl rfl rfl (fun _ => hi.busy (by rw [a]; simp))
    | force x a b c => exact quiet rfl rfl rfl (fun _ => hi.busy (by rw [a]; simp))
    | fail a => exact quiet rfl rfl rfl (fun _ => hi.busy (by rw [a]; simp))
    | read x path b size raw ld a hx hg hl =>
      have hthread := hi.busy (by rw [a]; simp)
      obtain ⟨info, hinfo, hpath, _⟩ := configGet_info hg
      have hq : cfg.pathOf x.chunkIndex = some path := by rw [hpath]; exact pathOf_info hinfo
      have hl' : loadItem f.s.disk none cfg.enc f.s.reader.loader path x.chunkIndex x.index b size = .ok (raw, ld) := by rw [← henc]; exact hl
      have hlt : f.s.done < xs.length := by
        apply Nat.lt_of_not_le; intro e; rw [List.getElem?_eq_none e] at hx; cases hx
      have hlast : (xs.take (f.s.done + 1)).getLast? = some x := by
        rw [List.take_add_one, hx]; simp
      have hld : (endRead f.s.reader x ld).1.loader.path = some path ∧ (endRead f.s.reader x ld).1.loader.decrypted = none ∧
          (f.s.done + 1 = xs.length → (endRead f.s.reader x ld).1.loader.handle = none) := by
        have p1 := loadItem_path hl
        have p2 := (loadItem_decrypted hl').trans hi.dec
        have hc : (endRead f.s.reader x ld).1.loader = if x.isLastIndex && f.s.reader.thread then closeLoader ld else ld := by
          unfold endRead
          split <;> simp only <;> split <;> rfl
        rw [hc]
        split
        · exact ⟨p1, p2, fun _ => rfl⟩
        · rename_i hn
          refine ⟨p1, p2, fun e => absurd ?_ hn⟩
          rw [hsh.flag _ x hx, hthread]
          simpa using e
      -- reading the first item shows that the chunk is another one
      have hns : ¬ SameChunk before xs := by
        intro hs
        have h0 := hi.same hs
        rw [h0] at hx
        have := (same_iff hok hx hq).1 hs
        rw [(hi.new h0).1] at hl'
        unfold loadItem openChunk at hl'
        simp only [this, if_true, bind, Except.bind] at hl'
        cases hl'
      refine ⟨?_, ?_, hld.2.1, ?_, ?_, hlt, fun e => absurd e hns, ?_⟩
      · intro e; simp only at e; omega
      · intro e; exact absurd rfl e
      · intro _
        show (endRead f.s.reader x ld).1.loader.path = (xs.take (f.s.done + 1)).getLast?.bind _
        rw [hlast, Option.bind_some, hq]
        exact hld.1
      · intro _ e; exact hld.2.2 e
      · intro _
        obtain ⟨w, hw⟩ := hi.reach hns
        refine ⟨w, ?_⟩
        unfold asNew at hw ⊢
        rw [if_neg (by simp only; omega)]
        split at hw
        · rename_i h0
          have hne : f.s.reader.loader.path ≠ some path := by
            rw [(hi.new h0).1]
            rw [h0] at hx
            intro e
            exact hns ((same_iff hok hx hq).2 e)
          have hstep : ReaderStep (cfg.left w) xs (withLoader .init f).s _ := .read (withLoader .init f).s x path b size raw ld a hx hg (by
            show loadItem f.s.disk cfg.ecfg cfg.enc .init path x.chunkIndex x.index b size = .ok (raw, ld)
            rw [henc, ← hl']
            exact loadItem_closed (by simp [PyTreeState.init]) hne (by rw [hi.dec]; rfl))
          have hend : endRead (withLoader .init f).s.reader x ld = endRead f.s.reader x ld := rfl
          have := FReach.step hw (FStep.reader (comp := comp) (withLoader .init f) _ hstep (by
            intro e _
            rw [show (withLoader .init f).s.reader.thread = f.s.reader.thread from rfl, hthread] at e
            cases e))
          exact this
        · exact hw.step (fstep_left [] w (.reader f _ (.read f.s x path b size raw ld a hx hg hl) h2))
  | thread p disk _ _ _ _ _ => exact quiet rfl rfl rfl hi.busy
  | commit c p _ _ _ => exact quiet rfl rfl rfl hi.busy
  | _ => exact quiet rfl rfl rfl hi.busy

/-- A pass as the dataset makes it, over chunks of the index. -/
def PassOk (cfg : RemoteCfg) (xs : List ChunkedIndex) : Prop := (∃ cs, PassShape xs cs) ∧ ∀ x ∈ xs, ∃ info, cfg.chunks[x.chunkIndex]? = some info

theorem asNew_disk (f : FineState) : (asNew f).s.disk = f.s.disk ∧ (asNew f).job = f.job := by
  unfold asNew; split <;> exact ⟨rfl, rfl⟩

theorem given_inv {cfg : RemoteCfg} (hok : RemoteOk cfg) (hex : ExactSizes cfg) (henc : cfg.ecfg = none) {comp : Bool} {before : List (List ChunkedIndex)} {xs : List ChunkedIndex}
    {f : FineState} (h : Epochs cfg comp true before xs f) (hall : ∀ ys ∈ before ++ [xs], PassOk cfg ys) : GivenInv cfg comp before xs f := by
  have start : ∀ (before : List (List ChunkedIndex)) (xs : List ChunkedIndex) (disk : String → Option Bytes) (packed : Nat → Bool) (ld : PyTreeState), WholeChunks cfg disk →
      ld = ⟨lastPath cfg before, none, none⟩ → GivenInv cfg comp before xs ⟨⟨.init, disk, ⟨false, none, false, ld⟩, .idle, 0, []⟩, packed, .idle⟩ := by
    intro before xs disk packed ld hd hl
    refine ⟨fun _ => ⟨hl, rfl⟩, fun h => absurd rfl h, by rw [hl], fun h => by simp only at h; omega, fun h => by simp only at h; omega, Nat.zero_le _, fun _ => rfl, fun _ => ?_⟩
    exact epoch_start cfg comp xs disk packed hd
  induction h with
  | first xs disk packed hd => exact start [] xs disk packed .init hd rfl
  | step _ h2 ih =>
    obtain ⟨⟨cs, hsh⟩, hknown⟩ := hall _ (List.mem_append_right _ (List.mem_singleton.2 rfl))
    exact given_step hok henc hsh hknown (ih hall) h2
  | @next before xs f ys h1 hd hj _ ih =>
    have hi := ih fun ys hys => hall ys (List.mem_append_left _ hys)
    have hns : ¬ SameChunk before xs := by
      intro hs
      have h0 := hi.same hs
      obtain ⟨x, _, hx, _⟩ := hs
      cases xs with
      | nil => cases hx
      | cons a l => rw [List.length_cons] at hd; omega
    obtain ⟨w, hw⟩ := hi.reach hns
    have hdisk := epoch_end hok hex hw ((asNew_disk f).2.trans hj)
    rw [(asNew_disk f).1] at hdisk
    refine start (before ++ [xs]) ys f.s.disk f.packed f.s.reader.loader hdisk ?_
    by_cases hx : xs = []
    · subst hx
      rw [(hi.new hd).1]
      unfold lastPath
      rw [List.flatten_append]
      simp
    · have hpos : 0 < xs.length := List.length_pos_iff.2 hx
      have h1 := hi.path (by omega)
      rw [hd, List.take_length] at h1
      have h2 := hi.closed (by omega) hd
      have h3 := hi.dec
      have h4 : lastPath cfg (before ++ [xs]) = xs.getLast?.bind fun x => cfg.pathOf x.chunkIndex := by
        unfold lastPath
        rw [List.flatten_append, List.flatten_cons, List.flatten_nil, List.append_nil, List.getLast?_append]
        cases he : xs.getLast? with
        | none => exact absurd (List.getLast?_eq_none_iff.1 he) hx
        | some y => rfl
      rw [h4, ← h1]
      cases hl : f.s.reader.loader with
      | mk a b c => rw [hl] at h2 h3; simp only at h2 h3; rw [h2, h3]

/-- **C90, with an item loader that was passed to the dataset, what is delivered is right**: in each epoch the first ones of the samples of the remote folder. -/
theorem c90_given_same_samples (cfg : RemoteCfg) (hok : RemoteOk cfg) (hex : ExactSizes cfg) (henc : cfg.ecfg = none) (comp : Bool) (before : List (List ChunkedIndex))
    (xs : List ChunkedIndex) (hall : ∀ ys ∈ before ++ [xs], PassOk cfg ys) (raws : List Bytes)
    (hraws : readLocated cfg.files cfg.join cfg.enc cfg.ecfg cfg.chunks cfg.ivs .init (xs.map fun c => (c.index, c.chunkIndex)) = .ok raws)
    (f : FineState) (h : Epochs cfg comp true before xs f) : f.s.out = raws.take f.s.done := by
  have hi := given_inv hok hex henc h hall
  obtain ⟨⟨cs, hsh⟩, _⟩ := hall _ (List.mem_append_right _ (List.mem_singleton.2 rfl))
  by_cases h0 : f.s.done = 0
  · rw [(hi.new h0).2, h0]; rfl
  · obtain ⟨w, hw⟩ := hi.reach fun e => h0 (hi.same e)
    unfold asNew at hw
    rw [if_neg h0] at hw
    exact c76_fine_same_samples (cfg.left w) (left_ok hok w) hex comp (fun _ => left_others cfg w) xs cs hsh raws hraws (.inr (left_others cfg w)) f hw

/-- **C90, an epoch that begins with the chunk with which the last one ended gives nothing.** With an item loader that was passed to the dataset: nothing is ever
delivered in it, since in every state reading the first item raises `AssertionError`, whatever is in the cache. -/
theorem c90_given_raises (cfg : RemoteCfg) (hok : RemoteOk cfg) (hex : ExactSizes cfg) (henc : cfg.ecfg = none) (comp : Bool) (before : List (List ChunkedIndex))
    (xs : List ChunkedIndex) (hall : ∀ ys ∈ before ++ [xs], PassOk cfg ys) (x y : ChunkedIndex) (hx : xs.head? = some x) (hy : before.flatten.getLast? = some y)
    (hxy : x.chunkIndex = y.chunkIndex) (f : FineState) (h : Epochs cfg comp true before xs f) : f.s.done = 0 ∧ f.s.out = [] ∧
      ∀ path b size, configGet cfg.join cfg.chunks cfg.ivs x.chunkIndex = .ok (path, b, size) →
        loadItem f.s.disk cfg.ecfg cfg.enc f.s.reader.loader path x.chunkIndex x.index b size = .error .assertion := by
  have hi := given_inv hok hex henc h hall
  have h0 := hi.same ⟨x, y, hx, hy, hxy⟩
  refine ⟨h0, (hi.new h0).2, fun path b size hg => ?_⟩
  obtain ⟨info, hinfo, hpath, _⟩ := configGet_info hg
  have hq : cfg.pathOf x.chunkIndex = some path := by rw [hpath]; exact pathOf_info hinfo
  rw [(hi.new h0).1, henc]
  refine c10_closed_loader_same_chunk_raises f.s.disk ⟨some path, none, none⟩ path rfl x.chunkIndex x.index b size cfg.enc |> fun e => ?_
  have : lastPath cfg before = some path := by
    unfold lastPath
    rw [hy, Option.bind_some, ← hxy, hq]
  rw [this]
  exact e

theorem quiet_loader {cfg : RemoteCfg} {comp : Bool} {xs : List ChunkedIndex} {f g : FineState} (h : FStep cfg comp xs f g) (hd : g.s.done = f.s.done) :
    g.s.reader.loader = f.s.reader.loader := by
  cases h with
  | reader t h1 _ =>
    cases h1 with
    | read => simp only at hd; omega
    | _ => rfl
  | _ => rfl

/-- What a worker with a new loader does before its first item, one with a loader that had another file open does too. -/
theorem step_back {cfg : RemoteCfg} (henc : cfg.ecfg = none) {comp : Bool} {xs : List ChunkedIndex} {f g : FineState} (hd : f.s.done = 0)
    (hp : ∀ x, xs[0]? = some x → f.s.reader.loader.path ≠ cfg.pathOf x.chunkIndex) (hdec : f.s.reader.loader.decrypted = none) (h : FStep cfg comp xs (withLoader .init f) g) :
    ∃ k, FStep cfg comp xs f k ∧ ((k.s.done = 0 ∧ g = withLoader .init k ∧ k.s.reader.loader = f.s.reader.loader) ∨ (k.s.done ≠ 0 ∧ g = k)) := by
  by_cases hq : g.s.done = f.s.done
  · refine ⟨withLoader f.s.reader.loader g, withLoader_step h hq f.s.reader.loader (fun x hx => hp x ((congrArg (xs[·]?) hd) ▸ hx)), .inl ⟨hq.trans hd, ?_, rfl⟩⟩
    have := quiet_loader h hq
    have e : (withLoader .init f).s.reader.loader = .init := rfl
    rw [e] at this
    show g = { g with s := { g.s with reader := { g.s.reader with loader := .init } } }
    rw [← this]
  · cases h with
    | reader t h1 h2 =>
      cases h1 with
      | read x path b size raw ld a hx hg hl =>
        have hx0 : xs[0]? = some x := by rw [← hd]; exact hx
        obtain ⟨info, hinfo, hpath, _⟩ := configGet_info hg
        have hpq : cfg.pathOf x.chunkIndex = some path := by rw [hpath]; exact pathOf_info hinfo
        have hne := hp x hx0
        rw [hpq] at hne
        have hl' : loadItem f.s.disk cfg.ecfg cfg.enc f.s.reader.loader path x.chunkIndex x.index b size = .ok (raw, ld) := by
          rw [← hl, henc]
          exact loadItem_closed hne (by simp [withLoader, PyTreeState.init]) hdec
        exact ⟨_, .reader f _ (.read f.s x path b size raw ld a hx hg hl') h2, .inr ⟨Nat.succ_ne_zero _, rfl⟩⟩
      | _ => exact absurd rfl hq
    | _ => exact absurd rfl hq

theorem steps_back {cfg : RemoteCfg} (henc : cfg.ecfg = none) {comp : Bool} {xs : List ChunkedIndex} {f g : FineState} (hd : f.s.done = 0)
    (hp : ∀ x, xs[0]? = some x → f.s.reader.loader.path ≠ cfg.pathOf x.chunkIndex) (hdec : f.s.reader.loader.decrypted = none) (h : FSteps cfg comp xs (withLoader .init f) g) :
    ∃ k, FSteps cfg comp xs f k ∧ ((k.s.done = 0 ∧ g = withLoader .init k ∧ k.s.reader.loader = f.s.reader.loader) ∨ (k.s.done ≠ 0 ∧ g = k)) := by
  generalize ha : withLoader .init f = a at h
  induction h with
  | refl => exact ⟨f, .refl f, .inl ⟨hd, ha.symm, rfl⟩⟩
  | tail _ h2 ih =>
    obtain ⟨k, k1, k2⟩ := ih
    rcases k2 with ⟨d, rfl, l⟩ | ⟨d, rfl⟩
    · obtain ⟨m, m1, m2⟩ := step_back henc d (by rw [l]; exact hp) (by rw [l]; exact hdec) h2
      rw [l] at m2
      exact ⟨m, k1.tail m1, m2⟩
    · refine ⟨_, k1.tail h2, .inr ⟨?_, rfl⟩⟩
      cases h2 with
      | reader t h1 _ => cases h1 <;> first | exact d | exact Nat.succ_ne_zero _
      | _ => exact d

/-- **C90, otherwise it goes on.** With an item loader that was passed to the dataset, an epoch that begins with another chunk than that with which the last one ended
can be brought to its end, with all samples delivered. -/
theorem c90_given_goes_on (cfg : RemoteCfg) (hok : RemoteOk cfg) (hex : ExactSizes cfg) (henc : cfg.ecfg = none) (comp : Bool) (before : List (List ChunkedIndex))
    (xs : List ChunkedIndex) (hall : ∀ ys ∈ before ++ [xs], PassOk cfg ys) (raws : List Bytes)
    (hraws : readLocated cfg.files cfg.join cfg.enc cfg.ecfg cfg.chunks cfg.ivs .init (xs.map fun c => (c.index, c.chunkIndex)) = .ok raws) (hcache : cfg.prep.cache = true)
    (hother : ∀ x y, xs.head? = some x → before.flatten.getLast? = some y → x.chunkIndex ≠ y.chunkIndex)
    (f : FineState) (h : Epochs cfg comp true before xs f) (hpc : f.s.pc ≠ .failed) (hfew : f.s.p.forced.length + f.s.p.forceQ.length + 2 ≤ cfg.prep.maxPre) :
    ∃ g, FSteps (cfg.left []) comp xs f g ∧ g.s.out = raws ∧ ∀ ys, Epochs cfg comp true (before ++ [xs]) ys (g.again true) := by
  have hi := given_inv hok hex henc h hall
  obtain ⟨⟨cs, hsh⟩, hknown⟩ := hall _ (List.mem_append_right _ (List.mem_singleton.2 rfl))
  have hns : ¬ SameChunk before xs := fun ⟨x, y, h1, h2, h3⟩ => hother x y h1 h2 h3
  obtain ⟨w, hw⟩ := hi.reach hns
  have key : ∃ g, FSteps (cfg.left w) comp xs f g ∧ g.s.done = xs.length ∧ g.job = .idle ∧ (0 < g.s.done → g.s.p.pc = .exited) := by
    unfold asNew at hw
    split at hw
    · rename_i h0
      obtain ⟨g, g1, g2, g3, g4, _⟩ := pass_ends hok hex hsh hraws hcache hw hpc hfew
      obtain ⟨k, k1, k2⟩ := steps_back (cfg := cfg.left w) henc h0 (by
        intro x hx
        obtain ⟨info, hinfo⟩ := hknown x (List.mem_of_getElem? hx)
        have hq := pathOf_info hinfo
        rw [(hi.new h0).1]
        intro e
        refine hns ((same_iff hok hx hq).2 ?_)
        rw [← hq]; exact e) hi.dec g1
      rcases k2 with ⟨_, rfl, _⟩ | ⟨_, rfl⟩
      · exact ⟨k, k1, g2, g3, g4⟩
      · exact ⟨g, k1, g2, g3, g4⟩
    · obtain ⟨g, g1, g2, g3, g4, _⟩ := pass_ends hok hex hsh hraws hcache hw hpc hfew
      exact ⟨g, g1, g2, g3, g4⟩
  obtain ⟨g, g1, g2, g3, g4⟩ := key
  have hs := fsteps_left w [] g1
  have he := epochs_steps h hs
  refine ⟨g, hs, ?_, fun ys => he.next ys g2 g3 g4⟩
  have hlen : raws.length = xs.length := by
    have := (readLocated_known _ _ _ hraws).1
    rwa [List.length_map] at this
  rw [c90_given_same_samples cfg hok hex henc comp before xs hall raws hraws g he, g2, ← hlen, List.take_length]

/-- A worker that has asked for chunks comes to wait for its item. -/
theorem comes_to_wait {cfg : RemoteCfg} {comp : Bool} {xs : List ChunkedIndex} (l : List Nat) : ∀ (f : FineState), f.s.pc = .asking l →
    ∃ g, FSteps cfg comp xs f g ∧ g.s.pc = .waiting ∧ g.s.done = f.s.done := by
  have hid : ∀ (s t : RemoteState) (P : Prop), t.reader.thread = s.reader.thread → s.reader.thread = false → t.reader.thread = true → P := by
    intro s t P h1 h2 h3; rw [h1, h2] at h3; cases h3
  induction l with
  | nil => intro f hf; exact ⟨_, (FSteps.refl f).tail (.reader f _ (.requested f.s hf) (hid _ _ _ rfl)), rfl, rfl⟩
  | cons c l ih =>
    intro f hf
    have h1 : FStep cfg comp xs f _ := .reader f _ (.request f.s c l hf) (hid _ _ _ rfl)
    obtain ⟨g, g1, g2, g3⟩ := ih { f with s := { f.s with p := { f.s.p with requested := f.s.p.requested ++ [c], queue := f.s.p.queue ++ [some c] }, pc := .asking l } } rfl
    exact ⟨g, fsteps_trans ((FSteps.refl f).tail h1) g1, g2, g3⟩

theorem begins_to_wait {cfg : RemoteCfg} {comp : Bool} {xs : List ChunkedIndex} {f : FineState} {x : ChunkedIndex} (hpc : f.s.pc = .idle) (hj : f.job = .idle)
    (hx : xs[f.s.done]? = some x) : ∃ g, FSteps cfg comp xs f g ∧ g.s.pc = .waiting ∧ g.s.done = f.s.done := by
  have hask : FStep cfg comp xs f _ := .reader f _ (.ask f.s x hpc hx) (fun _ _ => hj)
  obtain ⟨k, k1, k2, k3⟩ := comes_to_wait (cfg := cfg) (comp := comp) (xs := xs) (beginRead f.s.reader x).2.2
    { f with s := { f.s with p := if (beginRead f.s.reader x).2.1 then .init else f.s.p, reader := (beginRead f.s.reader x).1, pc := .asking (beginRead f.s.reader x).2.2 } } rfl
  exact ⟨k, fsteps_trans ((FSteps.refl f).tail hask) k1, k2, k3⟩

/-- **C90, a worker with a single chunk delivers nothing from its second epoch on** if its item loader was passed to the dataset: from an empty cache it can read its
first epoch to the end, with all samples, and come to read in the second one, and that raises `AssertionError`. -/
theorem c90_single_chunk (cfg : RemoteCfg) (hok : RemoteOk cfg) (hex : ExactSizes cfg) (henc : cfg.ecfg = none) (comp : Bool) (xs : List ChunkedIndex) (hok' : PassOk cfg xs)
    (raws : List Bytes)
    (hraws : readLocated cfg.files cfg.join cfg.enc cfg.ecfg cfg.chunks cfg.ivs .init (xs.map fun c => (c.index, c.chunkIndex)) = .ok raws) (hcache : cfg.prep.cache = true)
    (hpre : 2 ≤ cfg.prep.maxPre) (c : Nat) (hone : ∀ x ∈ xs, x.chunkIndex = c) (hne : xs ≠ []) :
    ∃ g, FSteps (cfg.left []) comp xs ⟨.start (fun _ => none), fun _ => false, .idle⟩ g ∧ g.s.out = raws ∧
      (∀ k, FSteps (cfg.left []) comp xs (g.again true) k → k.s.out = []) ∧
      ∃ k, FSteps (cfg.left []) comp xs (g.again true) k ∧ k.s.pc = .waiting ∧ ∀ x ∈ xs.head?, ∀ path b size,
        configGet cfg.join cfg.chunks cfg.ivs x.chunkIndex = .ok (path, b, size) →
        loadItem k.s.disk cfg.ecfg cfg.enc k.s.reader.loader path x.chunkIndex x.index b size = .error .assertion := by
  have h0 : Epochs cfg comp true [] xs ⟨.start (fun _ => none), fun _ => false, .idle⟩ := .first xs _ _ (by intro q g h; cases h)
  obtain ⟨g, g1, g2, g3⟩ := c90_given_goes_on cfg hok hex henc comp [] xs (by intro ys h; rw [List.mem_singleton.1 h]; exact hok') raws hraws hcache
    (by intro x y _ h; cases h) _ h0 (by simp [RemoteState.start]) hpre
  obtain ⟨x, hx⟩ : ∃ x, xs.head? = some x := by cases xs with
    | nil => exact absurd rfl hne
    | cons a l => exact ⟨a, rfl⟩
  obtain ⟨y, hy⟩ : ∃ y, xs.getLast? = some y := by
    cases h : xs.getLast? with
    | none => exact absurd (List.getLast?_eq_none_iff.1 h) hne
    | some y => exact ⟨y, rfl⟩
  have hall : ∀ ys ∈ [] ++ [xs] ++ [xs], PassOk cfg ys := by
    intro ys h
    simp only [List.nil_append, List.cons_append, List.mem_cons, List.not_mem_nil, or_false, or_self] at h
    rw [h]; exact hok'
  have raise : ∀ k, FSteps (cfg.left []) comp xs (g.again true) k → _ := fun k hk =>
    c90_given_raises cfg hok hex henc comp ([] ++ [xs]) xs hall x y hx (by simpa using hy)
      ((hone x (List.mem_of_head? hx)).trans (hone y (List.mem_of_getLast? hy)).symm) k (epochs_steps (g3 xs) hk)
  refine ⟨g, g1, g2, fun k hk => (raise k hk).2.1, ?_⟩
  have hx0 : xs[0]? = some x := by rw [← List.head?_eq_getElem?]; exact hx
  obtain ⟨k, hk, k2, _⟩ := begins_to_wait (cfg := cfg.left []) (comp := comp) (f := g.again true) rfl rfl hx0
  refine ⟨k, hk, k2, fun x' hx' => ?_⟩
  have : x' = x := by rw [hx] at hx'; cases hx'; rfl
  rw [this]
  exact (raise k hk).2.2

/-! Cases that meet the hypotheses: the two chunks of `storedFiles`, first in this order and then in the other one, and the first chunk alone. -/

/-- The chunks in the other order. -/
def backPass : List ChunkedIndex := [⟨2, 1, some [1, 0], false⟩, ⟨0, 0, none, false⟩, ⟨1, 0, none, true⟩]

theorem backPass_shape : PassShape backPass [1, 0] := by
  refine ⟨?_, ?_, by decide, by decide⟩
  · intro x hx; cases hx; rfl
  · intro j x hx
    match j with
    | 0 => cases hx; rfl
    | 1 => cases hx; rfl
    | 2 => cases hx; rfl

/-- The first chunk alone. -/
def onePass : List ChunkedIndex := [⟨0, 0, some [0], false⟩, ⟨1, 0, none, true⟩]

theorem onePass_shape : PassShape onePass [0] := by
  refine ⟨?_, ?_, by decide, by decide⟩
  · intro x hx; cases hx; rfl
  · intro j x hx
    match j with
    | 0 => cases hx; rfl
    | 1 => cases hx; rfl

theorem passes_ok : PassOk backAndForthCfg failPass ∧ PassOk backAndForthCfg backPass ∧ PassOk backAndForthCfg onePass := by
  refine ⟨⟨⟨_, failPass_shape⟩, ?_⟩, ⟨⟨_, backPass_shape⟩, ?_⟩, ⟨⟨_, onePass_shape⟩, ?_⟩⟩ <;> intro x hx
  · simp only [failPass, List.mem_cons, List.not_mem_nil, or_false] at hx
    rcases hx with rfl | rfl | rfl <;> exact ⟨_, rfl⟩
  · simp only [backPass, List.mem_cons, List.not_mem_nil, or_false] at hx
    rcases hx with rfl | rfl | rfl <;> exact ⟨_, rfl⟩
  · simp only [onePass, List.mem_cons, List.not_mem_nil, or_false] at hx
    rcases hx with rfl | rfl <;> exact ⟨_, rfl⟩

/-- Two epochs in the same order, with a loader that was passed to the dataset, can be read to the end. -/
example : ∃ f g, Epochs backAndForthCfg false true [failPass] failPass f ∧ FSteps (backAndForthCfg.left []) false failPass f g ∧ g.s.out = [[1, 2], [3], [4, 5, 6]] := by
  have h0 : Epochs backAndForthCfg false true [] failPass ⟨.start (fun _ => none), fun _ => false, .idle⟩ := .first _ _ _ (by intro q g h; cases h)
  obtain ⟨g, _, _, g3⟩ := c90_given_goes_on backAndForthCfg storedOk.1 storedOk.2 rfl false [] failPass (by intro ys h; rw [List.mem_singleton.1 h]; exact passes_ok.1) _ storedRaws rfl
    (by intro x y _ h; cases h) _ h0 (by simp [RemoteState.start]) (by decide)
  obtain ⟨k, k1, k2, _⟩ := c90_given_goes_on backAndForthCfg storedOk.1 storedOk.2 rfl false ([] ++ [failPass]) failPass
    (by intro ys h; simp only [List.nil_append, List.cons_append, List.mem_cons, List.not_mem_nil, or_false, or_self] at h; rw [h]; exact passes_ok.1) _ storedRaws rfl
    (by intro x y h1 h2; cases h1; cases h2; decide) _ (g3 failPass) (by simp [FineState.again]) (by show 0 + 0 + 2 ≤ backAndForthCfg.prep.maxPre; decide)
  exact ⟨_, k, g3 failPass, k1, k2⟩

/-- In the other order the second epoch gives nothing. -/
example : ∃ f, Epochs backAndForthCfg false true [failPass] backPass f ∧ ∀ g, FSteps (backAndForthCfg.left []) false backPass f g → g.s.out = [] := by
  have h0 : Epochs backAndForthCfg false true [] failPass ⟨.start (fun _ => none), fun _ => false, .idle⟩ := .first _ _ _ (by intro q g h; cases h)
  obtain ⟨g, _, _, g3⟩ := c90_given_goes_on backAndForthCfg storedOk.1 storedOk.2 rfl false [] failPass (by intro ys h; rw [List.mem_singleton.1 h]; exact passes_ok.1) _ storedRaws rfl
    (by intro x y _ h; cases h) _ h0 (by simp [RemoteState.start]) (by decide)
  refine ⟨_, g3 backPass, fun k hk => ?_⟩
  exact (c90_given_raises backAndForthCfg storedOk.1 storedOk.2 rfl false ([] ++ [failPass]) backPass
    (by
      intro ys h
      simp only [List.nil_append, List.cons_append, List.mem_cons, List.not_mem_nil, or_false] at h
      rcases h with rfl | rfl
      · exact passes_ok.1
      · exact passes_ok.2.1) _ ⟨2, 1, none, true⟩ rfl rfl rfl k (epochs_steps (g3 backPass) hk)).2.1

/-- With a new loader it gives everything. -/
example : ∃ f g, Epochs backAndForthCfg false false [failPass] backPass f ∧ FSteps (backAndForthCfg.left []) false backPass f g ∧ g.s.out = [[4, 5, 6], [1, 2], [3]] := by
  have h0 : Epochs backAndForthCfg false false [] failPass ⟨.start (fun _ => none), fun _ => false, .idle⟩ := .first _ _ _ (by intro q g h; cases h)
  obtain ⟨g, _, _, g3⟩ := c90_goes_on backAndForthCfg storedOk.1 storedOk.2 false [] failPass _ failPass_shape _ storedRaws rfl _ h0 (by simp [RemoteState.start]) (by decide)
  obtain ⟨k, k1, k2, _⟩ := c90_goes_on backAndForthCfg storedOk.1 storedOk.2 false ([] ++ [failPass]) backPass _ backPass_shape [[4, 5, 6], [1, 2], [3]] (by decide +kernel) rfl _ (g3 backPass)
    (by simp [FineState.again]) (by show 0 + 0 + 2 ≤ backAndForthCfg.prep.maxPre; decide)
  exact ⟨_, k, g3 backPass, k1, k2⟩

example : ∃ g, FSteps (backAndForthCfg.left []) false onePass ⟨.start (fun _ => none), fun _ => false, .idle⟩ g ∧ g.s.out = [[1, 2], [3]] ∧
    ∀ k, FSteps (backAndForthCfg.left []) false onePass (g.again true) k → k.s.out = [] := by
  obtain ⟨g, g1, g2, g3, _⟩ := c90_single_chunk backAndForthCfg storedOk.1 storedOk.2 rfl false onePass passes_ok.2.2 [[1, 2], [3]] (by decide +kernel) rfl (by decide) 0 (by decide) (by decide)
  exact ⟨g, g1, g2, g3⟩

end LitData.Props
