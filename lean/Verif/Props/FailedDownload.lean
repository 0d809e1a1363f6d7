import Verif.Model.FailedDownload
import Verif.Props.ReaderFine
import Verif.Props.ReaderMore
import Verif.Props.Wait

/-! Reading a remote dataset when a download fails (C89). -/

namespace LitData.Props

open LitData

theorem dstep_fstep {cfg : RemoteCfg} {comp : Bool} {xs : List ChunkedIndex} {a b : FailState} (h : CutStep cfg comp xs a b) : b.f = a.f ∨ FStep cfg comp xs a.f b.f := by
  cases h with
  | live f g st => exact .inr st
  | die f _ => exact .inl rfl
  | reader f t st hk =>
    refine .inr (.reader f t st ?_)
    intro h1 h2
    rcases hk with k | k
    · rw [h1] at k; cases k
    · rw [h2] at k; cases k
  | others f c info g h1 h2 h3 => exact .inr (.others f c info g h1 h2 h3)

theorem dsteps_reach {cfg : RemoteCfg} {comp : Bool} {xs : List ChunkedIndex} {a b : FailState} (ha : FReach cfg comp xs a.f) (h : CutSteps cfg comp xs a b) :
    FReach cfg comp xs b.f := by
  induction h with
  | refl => exact ha
  | tail _ st ih =>
    rcases dstep_fstep st with e | e
    · rw [e]; exact ih
    · exact .step ih e

/-- **C89, no wrong sample.** Whatever downloads fail and at whatever byte, what a worker has delivered is the beginning of what is stored. -/
theorem c89_same_samples (cfg : RemoteCfg) (hok : RemoteOk cfg) (hex : ExactSizes cfg) (comp : Bool) (hcomp : comp = true → cfg.prep.others = [])
    (xs : List ChunkedIndex) (cs : List Nat) (hsh : PassShape xs cs) (raws : List Bytes)
    (hraws : readLocated cfg.files cfg.join cfg.enc cfg.ecfg cfg.chunks cfg.ivs .init (xs.map fun c => (c.index, c.chunkIndex)) = .ok raws)
    (halone : cfg.ecfg = none ∨ cfg.prep.others = []) (f : FineState) (hf : FReach cfg comp xs f) (b : FailState) (h : CutSteps cfg comp xs ⟨f, false⟩ b) :
    b.f.s.out = raws.take b.f.s.done :=
  c76_fine_same_samples cfg hok hex comp hcomp xs cs hsh raws hraws halone b.f (dsteps_reach hf h)

/-- **C89, where it ends.** A thread that an exception has ended has left a fetch unfinished, and stays there. -/
theorem c89_dead_in_fetch (cfg : RemoteCfg) (comp : Bool) (xs : List ChunkedIndex) (f : FineState) (b : FailState) (h : CutSteps cfg comp xs ⟨f, false⟩ b) (hb : b.dead = true) :
    b.f.job ≠ .idle := by
  generalize ha : (⟨f, false⟩ : FailState) = a at h
  induction h with
  | refl => subst ha; cases hb
  | tail _ h2 ih =>
    cases h2 with
    | live _ _ _ => cases hb
    | die _ e => exact e
    | reader _ _ _ _ => exact ih rfl
    | others _ _ _ _ _ _ _ => exact ih rfl

/-- What a step of the reader does if a file is not there in full and not open: it reads no item of that chunk. -/
theorem reader_without {cfg : RemoteCfg} (hok : RemoteOk cfg) {xs : List ChunkedIndex} {s t : RemoteState} {c : Nat} {info : ChunkInfo} (hc : cfg.chunks[c]? = some info)
    (hs : ∀ f, s.disk (cfg.join info.filename) = some f → f.length < info.chunkBytes) (hp : s.reader.loader.path ≠ some (cfg.join info.filename))
    (h : ReaderStep cfg xs s t) :
    t.disk = s.disk ∧ t.reader.loader.path ≠ some (cfg.join info.filename) ∧
      (t.done = s.done ∨ t.done = s.done + 1 ∧ ∃ x, xs[s.done]? = some x ∧ x.chunkIndex ≠ c) := by
  cases h with
  | ask x h1 h2 => exact ⟨rfl, hp, .inl rfl⟩
  | request d ds h1 => exact ⟨rfl, hp, .inl rfl⟩
  | requested h1 => exact ⟨rfl, hp, .inl rfl⟩
  | force x h1 h2 h3 => exact ⟨rfl, hp, .inl rfl⟩
  | fail h1 => exact ⟨rfl, hp, .inl rfl⟩
  | read x path b size raw ld h1 h2 h3 h4 =>
    obtain ⟨i, hi, rfl, rfl⟩ := configGet_info h3
    have hne : x.chunkIndex ≠ c := by
      intro e
      rw [e, hc] at hi
      cases hi
      obtain ⟨f, g1, g2⟩ := openChunk_there h4 hp
      have := hs f g1
      omega
    refine ⟨rfl, ?_, .inr ⟨rfl, x, h2, hne⟩⟩
    have hl := loadItem_path h4
    have : ld.path ≠ some (cfg.join info.filename) := by
      rw [hl]
      intro e
      exact hne (hok.paths _ _ _ (pathOf_info hi) ((Option.some.inj e) ▸ pathOf_info hc))
    simp only [endRead]
    split
    · exact this
    · exact this

/-- **C89, no retry.** Once a failed download has ended the thread, the files of the cache change no more, except those that other workers use; no item of a chunk whose file
is not there in full is read by any number of further steps, although the remote folder has it. -/
theorem c89_no_retry (cfg : RemoteCfg) (hok : RemoteOk cfg) (comp : Bool) (xs : List ChunkedIndex) (f : FineState) (k : Nat) (x : ChunkedIndex) (info : ChunkInfo)
    (hx : xs[k]? = some x) (hk : f.s.done ≤ k) (hinfo : cfg.chunks[x.chunkIndex]? = some info) (hwarm : x.chunkIndex ∉ cfg.prep.others)
    (hmiss : ∀ g, f.s.disk (cfg.join info.filename) = some g → g.length < info.chunkBytes) (hopen : f.s.reader.loader.path ≠ some (cfg.join info.filename))
    (b : FailState) (h : CutSteps cfg comp xs ⟨f, true⟩ b) :
    b.dead = true ∧ b.f.s.done ≤ k ∧ b.f.job = f.job ∧ b.f.s.disk (cfg.join info.filename) = f.s.disk (cfg.join info.filename) ∧
      fileThere b.f.s.disk (cfg.join info.filename) info.chunkBytes = false ∧ b.f.s.reader.loader.path ≠ some (cfg.join info.filename) := by
  have key : b.dead = true ∧ b.f.s.done ≤ k ∧ b.f.job = f.job ∧ b.f.s.disk (cfg.join info.filename) = f.s.disk (cfg.join info.filename) ∧
      b.f.s.reader.loader.path ≠ some (cfg.join info.filename) := by
    generalize ha : (⟨f, true⟩ : FailState) = a at h
    induction h with
    | refl => subst ha; exact ⟨rfl, hk, rfl, rfl, hopen⟩
    | tail _ st ih =>
      obtain ⟨i1, i2, i3, i4, i5⟩ := ih
      cases st with
      | live g g' => cases i1
      | die g => cases i1
      | reader g t st _ =>
        obtain ⟨r1, r2, r3⟩ := reader_without hok hinfo (by rw [i4]; exact hmiss) i5 st
        refine ⟨rfl, ?_, i3, ?_, r2⟩
        · rcases r3 with e | ⟨e, y, hy, hne⟩
          · show t.done ≤ k; rw [e]; exact i2
          · show t.done ≤ k
            have : g.s.done ≠ k := by
              intro e'
              rw [e', hx] at hy
              cases hy
              exact hne rfl
            have i2' : g.s.done ≤ k := i2
            have e'' : t.done = g.s.done + 1 := e
            omega
        · show t.disk _ = _; rw [r1]; exact i4
      | others g d i g' h1 h2 h3 =>
        refine ⟨rfl, i2, i3, ?_, i5⟩
        rcases setFile_cases hok h2 hinfo g.s.disk g' with ⟨e, _⟩ | ⟨_, e⟩
        · rw [e] at hwarm; exact absurd h1 hwarm
        · exact e.trans i4
  obtain ⟨k1, k2, k3, k4, k5⟩ := key
  refine ⟨k1, k2, k3, k4, ?_, k5⟩
  unfold fileThere
  rw [k4]
  split
  · rename_i g hg
    have := hmiss g hg
    simp; omega
  · rfl

/-- **C89, the wait after a failure.** If the thread has died and the reader waits for a file that is not there, then all polls find nothing: with `PyTreeLoader` the wait ends
with an exception as soon as the time is up and not before, with `ParquetLoader` never. -/
theorem c89_failure_raises_late (cfg : RemoteCfg) (hok : RemoteOk cfg) (comp : Bool) (xs : List ChunkedIndex) (f : FineState) (x : ChunkedIndex) (info : ChunkInfo)
    (hx : xs[f.s.done]? = some x) (hinfo : cfg.chunks[x.chunkIndex]? = some info) (hwarm : x.chunkIndex ∉ cfg.prep.others)
    (hmiss : ∀ g, f.s.disk (cfg.join info.filename) = some g → g.length < info.chunkBytes) (hopen : f.s.reader.loader.path ≠ some (cfg.join info.filename))
    (F M : Nat) (ps : List (FailState × Poll))
    (hps : ∀ q ∈ ps, CutSteps cfg comp xs ⟨f, true⟩ q.1 ∧ q.2.there = fileThere q.1.f.s.disk (cfg.join info.filename) info.chunkBytes) :
    ((waitFile (some (F, M)) (fileThere f.s.disk (cfg.join info.filename) info.chunkBytes) (ps.map (·.2))).stop = .raised ↔ ∃ q ∈ ps, M < q.2.maxTime) ∧
    (waitFile (some (F, M)) (fileThere f.s.disk (cfg.join info.filename) info.chunkBytes) (ps.map (·.2))).stop ≠ .found ∧
    waitFile none (fileThere f.s.disk (cfg.join info.filename) info.chunkBytes) (ps.map (·.2)) = ⟨.waiting, ps.length, 0⟩ := by
  have h0 := (c89_no_retry cfg hok comp xs f _ x info hx (Nat.le_refl _) hinfo hwarm hmiss hopen _ (.refl _)).2.2.2.2.1
  have h1 : ∀ p ∈ ps.map (·.2), p.there = false := by
    intro p hp
    obtain ⟨q, hq, rfl⟩ := List.mem_map.1 hp
    obtain ⟨a, b⟩ := hps q hq
    rw [b]
    exact (c89_no_retry cfg hok comp xs f _ x info hx (Nat.le_refl _) hinfo hwarm hmiss hopen _ a).2.2.2.2.1
  rw [h0]
  refine ⟨?_, ?_, ?_⟩
  · rw [c89_wait_raises]
    constructor
    · rintro ⟨_, i, p, hp, hm, _⟩
      obtain ⟨q, hq, rfl⟩ := List.mem_map.1 (List.mem_of_getElem? hp)
      exact ⟨q, hq, hm⟩
    · rintro ⟨q, hq, hm⟩
      obtain ⟨i, hi⟩ := List.getElem?_of_mem (List.mem_map.2 ⟨q, hq, rfl⟩ : q.2 ∈ ps.map (·.2))
      exact ⟨rfl, i, q.2, hi, hm, fun j p _ hp => h1 p (List.mem_of_getElem? hp)⟩
  · rw [Ne, c89_wait_found]
    rintro (e | ⟨i, p, hp, ht, _⟩)
    · cases e
    · rw [h1 p (List.mem_of_getElem? hp)] at ht; cases ht
  · rw [c89_parquet_hangs _ h1, List.length_map]

theorem dsteps_trans {cfg : RemoteCfg} {comp : Bool} {xs : List ChunkedIndex} {a b c : FailState} (h : CutSteps cfg comp xs a b) (h' : CutSteps cfg comp xs b c) :
    CutSteps cfg comp xs a c := by
  induction h' with
  | refl => exact h
  | tail _ st ih => exact .tail ih st

theorem dead_ask_all {cfg : RemoteCfg} {comp : Bool} {xs : List ChunkedIndex} (l : List Nat) (f : FineState) (hj : f.s.reader.thread = true) (h : f.s.pc = .asking l) :
    ∃ g, CutSteps cfg comp xs ⟨f, true⟩ ⟨g, true⟩ ∧ g.s.pc = .waiting ∧ g.s.done = f.s.done ∧ g.s.disk = f.s.disk ∧ g.job = f.job := by
  induction l generalizing f with
  | nil => exact ⟨_, (CutSteps.refl _).tail (.reader f _ (.requested f.s h) (.inl hj)), rfl, rfl, rfl, rfl⟩
  | cons c l ih =>
    have st := CutStep.reader (cfg := cfg) (comp := comp) (xs := xs) f _ (.request f.s c l h) (.inl hj)
    obtain ⟨t, t1, t2, t3, t4, t5⟩ := ih { f with s := { f.s with p := { f.s.p with requested := f.s.p.requested ++ [c], queue := f.s.p.queue ++ [some c] }, pc := .asking l } } hj rfl
    exact ⟨t, dsteps_trans ((CutSteps.refl _).tail st) t1, t2, t3, t4, t5⟩

theorem dead_to_waiting {cfg : RemoteCfg} (hok : RemoteOk cfg) (hex : ExactSizes cfg) {comp : Bool} {xs : List ChunkedIndex} (hwarm : cfg.prep.others = []) {cs : List Nat}
    (hsh : PassShape xs cs) {raws : List Bytes}
    (hraws : readLocated cfg.files cfg.join cfg.enc cfg.ecfg cfg.chunks cfg.ivs .init (xs.map fun c => (c.index, c.chunkIndex)) = .ok raws)
    {f : FineState} (h : FReach cfg comp xs f) (hj : f.job ≠ .idle) (hpc : f.s.pc ≠ .failed) (hn : f.s.done < xs.length) :
    ∃ g, CutSteps cfg comp xs ⟨f, true⟩ ⟨g, true⟩ ∧ g.s.pc = .waiting ∧ g.s.done = f.s.done ∧ g.s.disk = f.s.disk ∧ g.job = f.job := by
  have hi := fineInv_reach hok hex (fun _ => hwarm) h
  have hr := rinv_reach hok hsh hraws hi.reach
  obtain ⟨e1, e2, e3, e4, e5, e6, e7⟩ := coarse_same f
  have hx : xs[f.s.done]? = some xs[f.s.done] := List.getElem?_eq_getElem hn
  cases hr.phase with
  | fresh h1 h2 h3 h4 =>
    exfalso
    obtain ⟨c, hc⟩ : ∃ c, jobChunk f.job = some c := by
      cases hjob : f.job with
      | idle => exact absurd hjob hj
      | _ => exact ⟨_, rfl⟩
    have hw := (hi.wants c hc).2
    rw [← e4, h2, ← e7, h1] at hw
    simp [ReaderState.init, PrepState.init] at hw
  | asking l x h1 h2 h3 h4 =>
    rw [e3] at h1
    rw [e4] at h4
    exact dead_ask_all _ f (by rw [h4]) h1
  | reading x h1 h2 h3 h4 h5 =>
    rw [e3, e2] at h1
    rw [e4] at h3 h4
    rcases h1 with g | g | g | ⟨g, _⟩
    · exact dead_ask_all _ f h3 g
    · exact ⟨f, .refl _, g, rfl, rfl, rfl⟩
    · exact absurd g hpc
    · have st := CutStep.reader (cfg := cfg) (comp := comp) (xs := xs) f _ (.ask f.s _ g hx) (.inl h3)
      obtain ⟨t, t1, t2, t3, t4, t5⟩ := dead_ask_all (cfg := cfg) (comp := comp) (xs := xs) (beginRead f.s.reader xs[f.s.done]).2.2
        { f with s := { f.s with p := if (beginRead f.s.reader xs[f.s.done]).2.1 then .init else f.s.p, reader := (beginRead f.s.reader xs[f.s.done]).1, pc := .asking (beginRead f.s.reader xs[f.s.done]).2.2 } } rfl rfl
      exact ⟨t, dsteps_trans ((CutSteps.refl _).tail st) t1, t2, t3, t4, t5⟩
  | finished h1 h2 => rw [e2] at h2; omega

/-- **C89, what is still read.** After the thread has died, the reader can go on up to the first item whose chunk is not in the cache. -/
theorem c89_reads_what_is_there (cfg : RemoteCfg) (hok : RemoteOk cfg) (hex : ExactSizes cfg) (comp : Bool) (xs : List ChunkedIndex) (hwarm : cfg.prep.others = [])
    (cs : List Nat) (hsh : PassShape xs cs) (raws : List Bytes)
    (hraws : readLocated cfg.files cfg.join cfg.enc cfg.ecfg cfg.chunks cfg.ivs .init (xs.map fun c => (c.index, c.chunkIndex)) = .ok raws)
    (f : FineState) (h : FReach cfg comp xs f) (hj : f.job ≠ .idle) (hpc : f.s.pc ≠ .failed) (k : Nat) (hk : k ≤ xs.length) (hdone : f.s.done ≤ k)
    (hthere : ∀ (j : Nat) (x : ChunkedIndex) (info : ChunkInfo), f.s.done ≤ j → j < k → xs[j]? = some x → cfg.chunks[x.chunkIndex]? = some info →
      f.s.disk (cfg.join info.filename) = cfg.files (cfg.join info.filename)) :
    ∃ g, CutSteps cfg comp xs ⟨f, true⟩ ⟨g, true⟩ ∧ g.s.done = k ∧ g.s.out = raws.take k ∧ g.s.pc ≠ .failed ∧ g.s.disk = f.s.disk := by
  obtain ⟨n, hn⟩ : ∃ n, k = f.s.done + n := ⟨k - f.s.done, by omega⟩
  induction n generalizing f with
  | zero =>
    refine ⟨f, .refl _, by omega, ?_, hpc, rfl⟩
    rw [hn, Nat.add_zero]
    exact c76_fine_same_samples cfg hok hex comp (fun _ => hwarm) xs cs hsh raws hraws (.inr hwarm) f h
  | succ n ih =>
    have hlt : f.s.done < xs.length := by omega
    obtain ⟨g, g1, g2, g3, g4, g5⟩ := dead_to_waiting hok hex hwarm hsh hraws h hj hpc hlt
    have hg : FReach cfg comp xs g := dsteps_reach (a := ⟨f, true⟩) h g1
    have hi := fineInv_reach hok hex (fun _ => hwarm) hg
    have hr := rinv_reach hok hsh hraws hi.reach
    obtain ⟨e1, e2, e3, e4, e5, e6, e7⟩ := coarse_same g
    have hx : xs[g.s.done]? = some xs[g.s.done] := List.getElem?_eq_getElem (by omega)
    have hrest := (hr.sync (.inr hwarm)).rest (by rw [e2]; omega)
    have hthr : g.s.reader.thread = true := by
      cases hr.phase with
      | fresh h1 h2 h3 => rw [e3, g2] at h3; cases h3
      | asking l x h1 => rw [e3, g2] at h1; cases h1
      | finished h1 => rw [e3, g2] at h1; cases h1
      | reading x h1 h2 h3 => rw [← e4]; exact h3
    have hdrop : xs.drop g.s.done = xs[g.s.done] :: xs.drop (g.s.done + 1) := List.drop_eq_getElem_cons (by omega)
    rw [e2, e4, hdrop, List.map_cons, readLocated] at hrest
    generalize xs[g.s.done] = x at hx hrest
    cases hcg : configGet cfg.join cfg.chunks cfg.ivs x.chunkIndex with
    | error e => simp only [hcg] at hrest; cases hrest
    | ok r =>
      obtain ⟨path, b, size⟩ := r
      simp only [hcg] at hrest
      cases hl : loadItem cfg.files cfg.ecfg cfg.enc g.s.reader.loader path x.chunkIndex x.index b size with
      | error e => simp only [hl] at hrest; cases hrest
      | ok r =>
        obtain ⟨raw, ld⟩ := r
        obtain ⟨info, hinfo, rfl, rfl⟩ := configGet_info hcg
        have hw := hthere g.s.done x info (by omega) (by omega) hx hinfo
        rw [← g4] at hw
        rw [← loadItem_same hw] at hl
        have st := CutStep.reader (cfg := cfg) (comp := comp) (xs := xs) g _ (.read g.s x _ b info.chunkBytes raw ld g2 hx hcg hl) (.inl hthr)
        have hd := dsteps_trans g1 ((CutSteps.refl _).tail st)
        obtain ⟨u, u1, u2, u3, u4, u5⟩ := ih _ (dsteps_reach (a := ⟨f, true⟩) h hd) (by show g.job ≠ _; rw [g5]; exact hj) (by simp) (by show g.s.done + 1 ≤ k; omega)
          (by
            intro j y i hj1 hj2 hy hyi
            show g.s.disk _ = _
            rw [g4]
            exact hthere j y i (by have : g.s.done + 1 ≤ j := hj1; omega) hj2 hy hyi)
          (by show k = g.s.done + 1 + n; omega)
        exact ⟨u, dsteps_trans hd u1, u2, u3, u4, u5.trans (by show g.s.disk = _; exact g4)⟩

theorem tstep_keeps {cfg : PrepCfg} {p t : PrepState} (h : TStep cfg p t) {c : Nat} (h1 : c ∉ p.toDelete) (h2 : c ∉ p.pending) :
    c ∉ t.toDelete ∧ c ∉ t.pending ∧ c ∉ deletedIn p t := by
  cases h with
  | cleanSome d rest k _ _ he =>
    rw [he] at h1
    simp only [List.mem_cons, not_or] at h1
    refine ⟨h1.2, ?_, ?_⟩
    · intro hm
      have := List.mem_of_mem_drop hm
      simp [h1.1, h2] at this
    · intro hm
      simp only [deletedIn, cleanUp, List.drop_left] at hm
      have := List.mem_of_mem_take hm
      simp [h1.1, h2] at this
  | lastSome d rest k _ he =>
    rw [he] at h1
    simp only [List.mem_cons, not_or] at h1
    refine ⟨h1.2, ?_, ?_⟩
    · intro hm
      have := List.mem_of_mem_drop hm
      simp [h1.1, h2] at this
    · intro hm
      simp only [deletedIn, cleanUp, List.drop_left] at hm
      have := List.mem_of_mem_take hm
      simp [h1.1, h2] at this
  | _ => exact ⟨h1, h2, by simp [deletedIn]⟩

/-- The file of chunk `c` is a part that nobody replaces. -/
structure Blocked (cfg : RemoteCfg) (xs : List ChunkedIndex) (c : Nat) (info : ChunkInfo) (part : Bytes) (f : FineState) : Prop where
  file : f.s.disk (cfg.join info.filename) = some part
  job : f.job ≠ .unpack c ∧ ∀ k, f.job ≠ .writing c k
  path : f.s.reader.loader.path ≠ some (cfg.join info.filename)
  keep : c ∉ f.s.p.toDelete ∧ c ∉ f.s.p.pending
  last : f.s.reader.last = some c → f.s.pc ≠ .idle ∧ ∃ x, xs[f.s.done]? = some x ∧ x.chunkIndex = c

theorem blocked_step {cfg : RemoteCfg} (hok : RemoteOk cfg) {comp : Bool} {xs : List ChunkedIndex} {c : Nat} {info : ChunkInfo} {part : Bytes} (hc : cfg.chunks[c]? = some info)
    (hw : c ∉ cfg.prep.others) (hshort : part.length < info.chunkBytes) {f g : FineState} (h : Blocked cfg xs c info part f) (st : FStep cfg comp xs f g) :
    Blocked cfg xs c info part g ∧ (g.s.done = f.s.done ∨ g.s.done = f.s.done + 1 ∧ ∃ x, xs[f.s.done]? = some x ∧ x.chunkIndex ≠ c) := by
  obtain ⟨i1, i2, i3, i4, i5⟩ := h
  have other : ∀ (d : Nat) (i : ChunkInfo) (g : Option Bytes), cfg.chunks[d]? = some i → d ≠ c → setFile f.s.disk (cfg.join i.filename) g (cfg.join info.filename) = some part := by
    intro d i g hd hne
    rcases setFile_cases hok hd hc f.s.disk g with ⟨e, _⟩ | ⟨_, e⟩
    · exact absurd e.symm hne
    · rw [e]; exact i1
  have notNone : ∀ (d : Nat) (i : ChunkInfo), cfg.chunks[d]? = some i → f.s.disk (cfg.join i.filename) = none → d ≠ c := by
    intro d i hd hn e
    subst e
    rw [hc] at hd
    cases hd
    rw [i1] at hn
    cases hn
  cases st with
  | reader t st hk =>
    obtain ⟨r1, r2, r3⟩ := reader_without hok hc (by intro g hg; rw [i1] at hg; cases hg; exact hshort) i3 st
    refine ⟨⟨by show t.disk _ = _; rw [r1]; exact i1, i2, r2, ?_, ?_⟩, r3⟩
    · cases st with
      | ask x h1 h2 =>
        show c ∉ (if (beginRead f.s.reader x).2.1 then PrepState.init else f.s.p).toDelete ∧ c ∉ (if (beginRead f.s.reader x).2.1 then PrepState.init else f.s.p).pending
        split
        · exact ⟨by simp [PrepState.init], by simp [PrepState.init]⟩
        · exact i4
      | read x path b size raw ld h1 h2 h3 h4 =>
        have hne : x.chunkIndex ≠ c := by
          rcases r3 with e | ⟨_, y, hy, hne⟩
          · simp at e
          · rw [h2] at hy; cases hy; exact hne
        have hl : f.s.reader.last ≠ some c := by
          intro e
          obtain ⟨_, y, hy, e'⟩ := i5 e
          rw [h2] at hy; cases hy; exact hne e'
        refine ⟨?_, i4.2⟩
        show c ∉ f.s.p.toDelete ++ _
        intro hm
        rcases List.mem_append.1 hm with k | k
        · exact i4.1 k
        · have hgone : c ∉ (if f.s.reader.last = some x.chunkIndex then [] else f.s.reader.last.toList) := by
            split
            · simp
            · intro k'
              cases hlast : f.s.reader.last with
              | none => rw [hlast] at k'; cases k'
              | some d =>
                rw [hlast] at k' hl
                simp at k'
                exact hl (by rw [k'])
          simp only [endRead] at k
          split at k
          · rcases List.mem_append.1 k with k' | k'
            · exact hgone k'
            · simp at k'; exact hne k'.symm
          · exact hgone k
      | _ => exact i4
    · cases st with
      | ask x h1 h2 =>
        intro e
        refine ⟨by simp, x, h2, ?_⟩
        have e' : (if f.s.reader.last = none then some x.chunkIndex else f.s.reader.last) = some c := e
        split at e'
        · exact Option.some.inj e'
        · exact absurd h1 (i5 e').1
      | request d ds h1 => intro e; exact ⟨by simp, (i5 e).2⟩
      | requested h1 => intro e; exact ⟨by simp, (i5 e).2⟩
      | force x h1 h2 h3 => intro e; exact i5 e
      | fail h1 => intro e; exact ⟨by simp, (i5 e).2⟩
      | read x path b size raw ld h1 h2 h3 h4 =>
        intro e
        have hne : x.chunkIndex ≠ c := by
          rcases r3 with e | ⟨_, y, hy, hne⟩
          · simp at e
          · rw [h2] at hy; cases hy; exact hne
        exfalso
        simp only [endRead] at e
        split at e
        · cases e
        · exact hne (Option.some.inj e)
  | thread p disk h1 h2 h3 h4 h5 =>
    obtain ⟨k1, k2, k3⟩ := tstep_keeps h3 i4.1 i4.2
    refine ⟨⟨?_, i2, i3, ⟨k1, k2⟩, i5⟩, .inl rfl⟩
    rcases h5.1 (cfg.join info.filename) with e | ⟨d, hd, _⟩ | ⟨d, hd, hp, _⟩
    · exact e.trans i1
    · rw [h4] at hd; cases hd
    · have := hok.paths d c _ hp (pathOf_info hc)
      rw [this] at hd
      exact absurd hd k3
  | begin d i h1 h2 h3 h4 => exact ⟨⟨i1, ⟨by simp, by simp⟩, i3, i4, i5⟩, .inl rfl⟩
  | there d i g h1 h2 h3 h4 => exact ⟨⟨i1, ⟨by simp, by simp⟩, i3, i4, i5⟩, .inl rfl⟩
  | atOnce d i h1 h2 h3 h4 => exact ⟨⟨other d i _ h3 (notNone d i h3 h4), ⟨by simp, by simp⟩, i3, i4, i5⟩, .inl rfl⟩
  | busy d h1 h2 h3 => exact ⟨⟨i1, ⟨by simp, by simp⟩, i3, i4, i5⟩, .inl rfl⟩
  | create d i file h1 h2 h3 h4 h5 h6 =>
    have hne := notNone d i h3 h4
    exact ⟨⟨other d i _ h3 hne, ⟨by simp, by intro k; simp [hne]⟩, i3, i4, i5⟩, .inl rfl⟩
  | packedThere d h1 h2 h3 => exact ⟨⟨i1, ⟨by simp, by simp⟩, i3, i4, i5⟩, .inl rfl⟩
  | fetchPacked d h1 h2 h3 => exact ⟨⟨i1, ⟨by simp, by simp⟩, i3, i4, i5⟩, .inl rfl⟩
  | unpacked d i g h1 h2 h3 => exact ⟨⟨i1, ⟨by simp, by simp⟩, i3, i4, i5⟩, .inl rfl⟩
  | unpack d i h1 h2 h3 h4 =>
    have hne := notNone d i h2 h3
    exact ⟨⟨i1, ⟨by simp [hne], by simp⟩, i3, i4, i5⟩, .inl rfl⟩
  | open_ d i file h1 h2 h3 h4 =>
    have hne : d ≠ c := by intro e; rw [e] at h1; exact i2.1 h1
    exact ⟨⟨other d i _ h2 hne, ⟨by simp, by intro k; simp [hne]⟩, i3, i4, i5⟩, .inl rfl⟩
  | write d k n i file h1 h2 h3 h4 h5 =>
    have hne : d ≠ c := by intro e; rw [e] at h1; exact i2.2 k h1
    exact ⟨⟨other d i _ h2 hne, ⟨by simp, by intro k; simp [hne]⟩, i3, i4, i5⟩, .inl rfl⟩
  | finish d i h1 h2 =>
    have hne : d ≠ c := by
      intro e
      rw [e] at h1
      rcases h1 with h1 | ⟨k, h1⟩
      · exact i2.1 h1
      · exact i2.2 k h1
    exact ⟨⟨other d i _ h2 hne, ⟨by simp, by simp⟩, i3, i4, i5⟩, .inl rfl⟩
  | commit d p h1 h2 h3 =>
    obtain ⟨k1, k2, k3⟩ := tstep_keeps h2 i4.1 i4.2
    exact ⟨⟨i1, ⟨by simp, by simp⟩, i3, ⟨k1, k2⟩, i5⟩, .inl rfl⟩
  | others d i g h1 h2 h3 =>
    have hne : d ≠ c := by intro e; rw [e] at h1; exact hw h1
    exact ⟨⟨other d i _ h2 hne, i2, i3, i4, i5⟩, .inl rfl⟩

/-- **C89, a part of a file is for ever.** If the cache has a part of the file of a chunk that no other worker fetches, then a pass that starts there never reads an item of the
chunk, and the part stays as it is, whatever it waits for and however often it asks: with a remote folder that has no fault at all. -/
theorem c89_part_blocks (cfg : RemoteCfg) (hok : RemoteOk cfg) (comp : Bool) (xs : List ChunkedIndex) (disk : String → Option Bytes) (packed : Nat → Bool) (k : Nat)
    (x : ChunkedIndex) (info : ChunkInfo) (part : Bytes) (hx : xs[k]? = some x) (hinfo : cfg.chunks[x.chunkIndex]? = some info) (hwarm : x.chunkIndex ∉ cfg.prep.others)
    (hpart : disk (cfg.join info.filename) = some part) (hshort : part.length < info.chunkBytes) (g : FineState)
    (h : FSteps cfg comp xs ⟨.start disk, packed, .idle⟩ g) : g.s.done ≤ k ∧ g.s.disk (cfg.join info.filename) = some part := by
  have key : Blocked cfg xs x.chunkIndex info part g ∧ g.s.done ≤ k := by
    generalize ha : (⟨.start disk, packed, .idle⟩ : FineState) = a at h
    induction h with
    | refl =>
      subst ha
      exact ⟨⟨hpart, ⟨by simp, by simp⟩, by simp [RemoteState.start, ReaderState.init, PyTreeState.init], by simp [RemoteState.start, PrepState.init],
        by simp [RemoteState.start, ReaderState.init]⟩, by simp [RemoteState.start]⟩
    | @tail b d _ st ih =>
      obtain ⟨i1, i2⟩ := ih
      obtain ⟨j1, j2⟩ := blocked_step hok hinfo hwarm hshort i1 st
      refine ⟨j1, ?_⟩
      rcases j2 with e | ⟨e, y, hy, hne⟩
      · rw [e]; exact i2
      · have : b.s.done ≠ k := by
          intro e'
          rw [e', hx] at hy
          cases hy
          exact hne rfl
        omega
  exact ⟨key.2, key.1.file⟩

/-- **C89, a failed download spoils the cache.** If a download or a decompression fails while it writes in place, then no later pass over the same cache, with however many
items in whatever order, gets past the first item of that chunk. -/
theorem c89_failure_spoils_cache (cfg : RemoteCfg) (hok : RemoteOk cfg) (hex : ExactSizes cfg) (comp : Bool) (hcomp : comp = true → cfg.prep.others = []) (xs : List ChunkedIndex)
    (f : FineState) (hf : FReach cfg comp xs f) (c n : Nat) (hjob : f.job = .writing c n) (hwarm : c ∉ cfg.prep.others) (b : FailState)
    (hb : CutSteps cfg comp xs ⟨f, true⟩ b) (ys : List ChunkedIndex) (k : Nat) (y : ChunkedIndex) (hy : ys[k]? = some y) (hc : y.chunkIndex = c) (packed : Nat → Bool)
    (g : FineState) (h : FSteps cfg comp ys ⟨.start b.f.s.disk, packed, .idle⟩ g) : g.s.done ≤ k := by
  have hi := fineInv_reach hok hex hcomp (dsteps_reach (a := ⟨f, true⟩) hf hb)
  have hbj : b.f.job = .writing c n := by
    have key : b.dead = true ∧ b.f.job = f.job := by
      generalize ha : (⟨f, true⟩ : FailState) = a at hb
      clear hi h
      induction hb with
      | refl => subst ha; exact ⟨rfl, rfl⟩
      | tail _ st ih =>
        obtain ⟨i1, i2⟩ := ih
        cases st with
        | live => cases i1
        | die => cases i1
        | reader => exact ⟨rfl, i2⟩
        | others => exact ⟨rfl, i2⟩
    rw [key.2]; exact hjob
  obtain ⟨info, file, p1, p2, p3, p4⟩ := hi.part c n hbj
  subst hc
  have hl := hex _ info file p1 p2
  exact (c89_part_blocks cfg hok comp ys _ packed k y info (file.take n) hy p1 hwarm (p4 hwarm) (by rw [List.length_take]; omega) g h).1

/-- **C89, a failure outside of the writing.** If nothing is written in place when a download fails (a local folder, Hugging Face), then the cache has whole files only, now and
however the reader goes on. -/
theorem c89_clean_failure (cfg : RemoteCfg) (hok : RemoteOk cfg) (hex : ExactSizes cfg) (comp : Bool) (hcomp : comp = true → cfg.prep.others = []) (xs : List ChunkedIndex)
    (f : FineState) (hf : FReach cfg comp xs f) (hjob : ∀ c n, f.job ≠ .writing c n) (b : FailState) (hb : CutSteps cfg comp xs ⟨f, true⟩ b) (c : Nat) (info : ChunkInfo)
    (hinfo : cfg.chunks[c]? = some info) (hwarm : c ∉ cfg.prep.others) :
    b.f.s.disk (cfg.join info.filename) = none ∨ b.f.s.disk (cfg.join info.filename) = cfg.files (cfg.join info.filename) := by
  have key : b.dead = true ∧ b.f.job = f.job := by
    generalize ha : (⟨f, true⟩ : FailState) = a at hb
    induction hb with
    | refl => subst ha; exact ⟨rfl, rfl⟩
    | tail _ st ih =>
      obtain ⟨i1, i2⟩ := ih
      cases st with
      | live => cases i1
      | die => cases i1
      | reader => exact ⟨rfl, i2⟩
      | others => exact ⟨rfl, i2⟩
  exact noParts_of (fineInv_reach hok hex hcomp (dsteps_reach (a := ⟨f, true⟩) hf hb)) (by rw [key.2]; exact hjob) c info hinfo hwarm

/-- A pass over the two chunks of `storedFiles`. -/
def failPass : List ChunkedIndex := [⟨0, 0, some [0, 1], false⟩, ⟨1, 0, none, false⟩, ⟨2, 1, none, true⟩]

theorem failPass_shape : PassShape failPass [0, 1] := by
  refine ⟨?_, ?_, by decide, by decide⟩
  · intro x hx; cases hx; rfl
  · intro j x hx
    match j with
    | 0 => cases hx; rfl
    | 1 => cases hx; rfl
    | 2 => cases hx; rfl

theorem storedOk : RemoteOk backAndForthCfg ∧ ExactSizes backAndForthCfg := by
  refine ⟨stored_remoteOk storedExample storedDistinct _ _ _, ?_⟩
  intro c info file hc hf
  match c with
  | 0 => cases hc; cases hf; rfl
  | 1 => cases hc; cases hf; rfl

theorem storedRaws : readLocated storedFiles id none none storedChunks [⟨0, 0, 2, 2⟩, ⟨2, 2, 3, 3⟩] .init (failPass.map fun c => (c.index, c.chunkIndex)) =
    .ok [[1, 2], [3], [4, 5, 6]] := by decide +kernel

/-- The thread is told of both chunks and begins with the first. -/
theorem failPass_begins : FReach backAndForthCfg false failPass
    ⟨⟨⟨[0, 1], [some 0, some 1], [], [], [], 0, [], [], [], [], 0, false, .fetch⟩, cacheOf false false, ⟨true, some 0, true, .init⟩, .waiting, 0, []⟩, fun _ => false, .look 0⟩ := by
  have r0 : FReach backAndForthCfg false failPass ⟨.start (cacheOf false false), fun _ => false, .idle⟩ := by
    refine FReach.init _ _ ?_ (by intro c h; cases h)
    intro q f h
    unfold cacheOf at h
    simp at h
  have r1 : FReach backAndForthCfg false failPass ⟨⟨.init, cacheOf false false, ⟨true, some 0, true, .init⟩, .asking [0, 1], 0, []⟩, fun _ => false, .idle⟩ :=
    r0.step (.reader _ _ (.ask _ ⟨0, 0, some [0, 1], false⟩ rfl rfl) (fun _ _ => rfl))
  have r2 : FReach backAndForthCfg false failPass
      ⟨⟨⟨[0], [some 0], [], [], [], 0, [], [], [], [], 0, false, .force⟩, cacheOf false false, ⟨true, some 0, true, .init⟩, .asking [1], 0, []⟩, fun _ => false, .idle⟩ :=
    r1.step (.reader _ _ (.request _ 0 [1] rfl) (fun _ _ => rfl))
  have r3 : FReach backAndForthCfg false failPass
      ⟨⟨⟨[0, 1], [some 0, some 1], [], [], [], 0, [], [], [], [], 0, false, .force⟩, cacheOf false false, ⟨true, some 0, true, .init⟩, .asking [], 0, []⟩, fun _ => false, .idle⟩ :=
    r2.step (.reader _ _ (.request _ 1 [] rfl) (fun _ _ => rfl))
  have r4 : FReach backAndForthCfg false failPass
      ⟨⟨⟨[0, 1], [some 0, some 1], [], [], [], 0, [], [], [], [], 0, false, .force⟩, cacheOf false false, ⟨true, some 0, true, .init⟩, .waiting, 0, []⟩, fun _ => false, .idle⟩ :=
    r3.step (.reader _ _ (.requested _ rfl) (fun _ _ => rfl))
  have r5 : FReach backAndForthCfg false failPass
      ⟨⟨⟨[0, 1], [some 0, some 1], [], [], [], 0, [], [], [], [], 0, false, .fetch⟩, cacheOf false false, ⟨true, some 0, true, .init⟩, .waiting, 0, []⟩, fun _ => false, .idle⟩ :=
    r4.step (.thread _ _ _ rfl (.inl rfl) (.forceNone _ rfl rfl) rfl (diskAfter_same rfl))
  exact r5.step (.begin _ 0 ⟨"a", 2, fileA.length, none⟩ rfl (.inl rfl) (.inr ⟨rfl, by decide, rfl⟩) rfl)

/-- **C89, it happens.** A download that fails after three bytes, with files that are all in the remote folder: the worker delivers nothing, and neither does any
later pass over the same cache. -/
theorem c89_spoiled_occurs : ∃ f, FReach backAndForthCfg false failPass f ∧ f.job = .writing 0 3 ∧
    ∀ b, CutSteps backAndForthCfg false failPass ⟨f, true⟩ b → b.f.s.out = [] ∧
      ∀ packed g, FSteps backAndForthCfg false failPass ⟨.start b.f.s.disk, packed, .idle⟩ g → g.s.done = 0 := by
  have r1 := failPass_begins.step (.create _ 0 ⟨"a", 2, fileA.length, none⟩ fileA rfl rfl rfl rfl rfl (by decide +kernel))
  have r2 := r1.step (.write _ 0 0 3 ⟨"a", 2, fileA.length, none⟩ fileA rfl rfl rfl (by decide +kernel) (by intro h; cases h))
  refine ⟨_, r2, rfl, fun b hb => ?_⟩
  have hraws := storedRaws
  constructor
  · have h1 := c76_fine_same_samples backAndForthCfg storedOk.1 storedOk.2 false (by simp) failPass [0, 1] failPass_shape _ hraws (.inl rfl) b.f (dsteps_reach (a := ⟨_, true⟩) r2 hb)
    have h2 := (c89_no_retry backAndForthCfg storedOk.1 false failPass _ 0 ⟨0, 0, some [0, 1], false⟩ ⟨"a", 2, fileA.length, none⟩ rfl (Nat.le_refl _) rfl (by intro h; cases h)
      (by intro g hg; cases hg; decide +kernel) (by decide) b hb).2.1
    rw [h1, show b.f.s.done = 0 by omega]
    rfl
  · intro packed g hg
    have := c89_failure_spoils_cache backAndForthCfg storedOk.1 storedOk.2 false (by simp) failPass _ r2 0 3 rfl (by intro h; cases h) b hb failPass 0 ⟨0, 0, some [0, 1], false⟩ rfl rfl packed g hg
    omega

/-- **C89, a failure at the second chunk.** The first chunk has come and the download of the second one fails before it begins: the worker can deliver the two samples
of the first chunk, and in no continuation more, although the remote folder has the second one. -/
theorem c89_second_chunk_occurs : ∃ f, FReach backAndForthCfg false failPass f ∧ f.job = .look 1 ∧
    (∃ g, CutSteps backAndForthCfg false failPass ⟨f, true⟩ ⟨g, true⟩ ∧ g.s.out = [[1, 2], [3]]) ∧
    ∀ b, CutSteps backAndForthCfg false failPass ⟨f, true⟩ b → b.f.s.done ≤ 2 := by
  have hA : setFile (cacheOf false false) "a" (storedFiles "a") = cacheOf true false := by
    funext r
    unfold setFile cacheOf storedFiles
    by_cases h : r = "a"
    · subst h; rfl
    · simp only [if_neg h]
  have r1 : FReach backAndForthCfg false failPass
      ⟨⟨⟨[0, 1], [some 0, some 1], [], [], [], 0, [], [], [], [], 0, false, .fetch⟩, cacheOf true false, ⟨true, some 0, true, .init⟩, .waiting, 0, []⟩, fun _ => false, .ready 0⟩ := by
    rw [← hA]
    exact failPass_begins.step (.atOnce _ 0 ⟨"a", 2, fileA.length, none⟩ rfl rfl rfl rfl)
  have r2 : FReach backAndForthCfg false failPass
      ⟨⟨⟨[0, 1], [some 1], [0], [], [], 1, [], [], [], [], 0, false, .clean⟩, cacheOf true false, ⟨true, some 0, true, .init⟩, .waiting, 0, []⟩, fun _ => false, .idle⟩ :=
    r1.step (.commit _ 0 _ rfl (.fetchSome _ 0 [some 1] rfl (by decide) rfl) rfl)
  have r3 : FReach backAndForthCfg false failPass
      ⟨⟨⟨[0, 1], [some 1], [0], [], [], 1, [], [], [], [], 0, false, .force⟩, cacheOf true false, ⟨true, some 0, true, .init⟩, .waiting, 0, []⟩, fun _ => false, .idle⟩ :=
    r2.step (.thread _ _ _ rfl (.inl rfl) (.cleanNone _ rfl rfl rfl) rfl (diskAfter_same rfl))
  have r4 : FReach backAndForthCfg false failPass
      ⟨⟨⟨[0, 1], [some 1], [0], [], [], 1, [], [], [], [], 0, false, .fetch⟩, cacheOf true false, ⟨true, some 0, true, .init⟩, .waiting, 0, []⟩, fun _ => false, .idle⟩ :=
    r3.step (.thread _ _ _ rfl (.inl rfl) (.forceNone _ rfl rfl) rfl (diskAfter_same rfl))
  have r5 := r4.step (.begin _ 1 ⟨"b", 1, fileB.length, none⟩ rfl (.inl rfl) (.inr ⟨rfl, by decide, rfl⟩) rfl)
  refine ⟨_, r5, rfl, ?_, ?_⟩
  · obtain ⟨g, g1, g2, g3, _⟩ := c89_reads_what_is_there backAndForthCfg storedOk.1 storedOk.2 false failPass rfl [0, 1] failPass_shape _ storedRaws _ r5 (by simp) (by simp) 2 (by decide)
      (by simp) (by
        intro j x info _ hj hx hi
        match j with
        | 0 => cases hx; cases hi; rfl
        | 1 => cases hx; cases hi; rfl)
    exact ⟨g, g1, g3⟩
  · intro b hb
    exact (c89_no_retry backAndForthCfg storedOk.1 false failPass _ 2 ⟨2, 1, none, true⟩ ⟨"b", 1, fileB.length, none⟩ rfl (by simp) rfl (by intro h; cases h)
      (by intro g hg; cases hg) (by decide) b hb).2.1

end LitData.Props
