import Verif.Lemmas.WriterJob

/-! Property C43: the processes behind `optimize`, for every interleaving. -/

namespace LitData.Props
open LitData

variable {σ C : Type} {cfg : PipeCfg σ C} {remote0 : FName → Option C}

/-- A state in which nothing can happen any more. -/
def Final (cfg : PipeCfg σ C) (s : PWorld σ C) : Prop := ∀ t, ¬ PStep cfg s t

/-- All workers have ended. -/
def Ended (cfg : PipeCfg σ C) (s : PWorld σ C) : Prop := ∀ w, w < cfg.workers → (s.ws w).phase = .done

/-- How the main process changes. -/
theorem step_main {s t : PWorld σ C} (hst : PStep cfg s t) : (s.main = .waiting ∨ s.main = .joining) ∧
    (t.main = s.main ∨ t.main = .joining ∨
      (t.main = .error ∧ ((∃ w, w < cfg.workers ∧ (s.ws w).phase = .failed) ∨ (Ended cfg s ∧ ∃ n, s.disk n ≠ none))) ∨
      (t.main = .indexed ∧ t.ws = s.ws ∧ t.disk = s.disk ∧ Ended cfg s ∧ (cfg.outPath = true → ∀ n, s.disk n = none))) := by
  cases hst with
  | receive w c q hm hq hs => exact ⟨Or.inl hm, Or.inl rfl⟩
  | receiveLast w c q hm hq hs => exact ⟨Or.inl hm, Or.inr (Or.inl rfl)⟩
  | raise w hm hw hp => exact ⟨Or.inl hm, Or.inr (Or.inr (Or.inl ⟨rfl, Or.inl ⟨w, hw, hp⟩⟩))⟩
  | leftover n hm hall ho hd => exact ⟨Or.inr hm, Or.inr (Or.inr (Or.inl ⟨rfl, Or.inr ⟨hall, n, hd⟩⟩))⟩
  | index hm hall ho => exact ⟨Or.inr hm, Or.inr (Or.inr (Or.inr ⟨rfl, rfl, rfl, hall, ho⟩))⟩
  | _ => exact ⟨by assumption, Or.inl rfl⟩

/-- The index is written after all workers have ended. -/
theorem indexed_before {s : PWorld σ C} (h : PReach cfg remote0 s) (hm : s.main = .indexed) :
    Ended cfg s ∧ (cfg.outPath = true → ∀ n, s.disk n = none) := by
  cases h with
  | start => cases hm
  | @step s0 t hr hst =>
    obtain ⟨h1, h2 | h2 | ⟨h2, _⟩ | ⟨_, h2, h3, h4, h5⟩⟩ := step_main hst
    · rw [← h2, hm] at h1; rcases h1 with h1 | h1 <;> cases h1
    · rw [hm] at h2; cases h2
    · rw [hm] at h2; cases h2
    · refine ⟨?_, ?_⟩
      · unfold Ended; rw [h2]; exact h4
      · rw [h3]; exact h5

/-- When the index is written, no file of a worker is waiting for an uploader. -/
theorem indexed_queued (hD : 0 < cfg.downloaders) (hU : 0 < cfg.uploaders) {owner : FName → Nat} (hn : NamesOk cfg owner)
    (hok : cfg.faulty = false ∨ (cfg.cloud = false ∧ cfg.outPath = true)) {s : PWorld σ C} (h : PReach cfg remote0 s) (hm : s.main = .indexed)
    {w : Nat} (hw : w < cfg.workers) (hd : (s.ws w).phase = .done) : queued cfg (s.ws w) = [] := by
  have hloc := loc_reach hD hU h w hw
  rcases hok with hf | ⟨hc, ho⟩
  · unfold queued
    rw [List.flatMap_eq_nil_iff]
    intro u hu
    rw [hloc.upC hf (Or.inr hd) u (List.mem_range.1 hu)]
    rfl
  · have hfin := finv_reach hD hU hn (Or.inr hc) h
    cases hq : queued cfg (s.ws w) with
    | nil => rfl
    | cons n q =>
      exfalso
      have hmem : n ∈ queued cfg (s.ws w) := by rw [hq]; exact List.mem_cons_self
      have : n ∈ (s.ws w).emitted.map (·.1) := hloc.names.mem_iff.2 (List.mem_append_right _ hmem)
      obtain ⟨f, hf, rfl⟩ := List.mem_map.1 this
      have := hfin.disk w hw f.1 f.2 hf hmem
      rw [(indexed_before h hm).2 ho] at this
      cases this

/-- The inputs that downloader `d` of `downloaders` fetches, in order. -/
def shareOf (downloaders d : Nat) (l : List Nat) : List Nat := l.filter fun i => i % downloaders == d

/-- **C43.** Whatever the processes of a node do and in whatever order, when the index is written every worker
has handled each of its inputs exactly once, in an order in which the inputs of each downloader keep their order
(and in their own order without downloaders), and every file of this run of the worker is in the output directory with its
content; every file of the directory whose name no worker ever uses is as before. Uploads may fail when the output directory is
not in a cloud; see `c43_lost_upload` for a cloud. -/
theorem c43_index_after_files_partial (hD : 0 < cfg.downloaders) (hU : 0 < cfg.uploaders) {owner : FName → Nat} (hn : NamesOk cfg owner)
    (hok : cfg.faulty = false ∨ (cfg.cloud = false ∧ cfg.outPath = true)) {s : PWorld σ C} (h : PReach cfg remote0 s) (hm : s.main = .indexed) :
    (∀ w, w < cfg.workers → ∃ order files, order.Perm (List.range (cfg.items w)) ∧
      (cfg.inputDir = false → order = List.range (cfg.items w)) ∧
      (cfg.inputDir = true → ∀ d, d < cfg.downloaders → shareOf cfg.downloaders d order = shareOf cfg.downloaders d (List.range (cfg.items w))) ∧
      jobFiles (cfg.job w) order = some files ∧ ∀ f ∈ files, s.remote f.1 = some f.2) ∧
    (∀ n, (∀ w, w < cfg.workers → ∀ order files,
        (jobFiles (cfg.job w) order = some files ∨ ∃ st, jobRun (cfg.job w) (cfg.job w).start order = some (st, files)) → n ∉ files.map (·.1)) →
      s.remote n = remote0 n) := by
  have hok' : cfg.faulty = false ∨ cfg.cloud = false := hok.imp id (·.1)
  have hloc := loc_reach hD hU h
  have hfin := finv_reach hD hU hn hok' h
  constructor
  · intro w hw
    have hd := (indexed_before h hm).1 w hw
    have hl := hloc w hw
    have hr1 : (s.ws w).phase ≠ .running := by rw [hd]; intro h; cases h
    have hr2 : (s.ws w).phase ≠ .failed := by rw [hd]; intro h; cases h
    obtain ⟨h1, h2, h3⟩ := hl.all_processed hr1 hr2
    refine ⟨(s.ws w).processed, (s.ws w).emitted, h1, ?_, ?_, hl.runEnd hr1 hr2, ?_⟩
    · intro hi
      have := (hl.ordF hi).1
      rw [h2] at this
      simpa [somes] using this
    · intro hi d hdd
      have := hl.ord d hdd hi
      rw [h2, h3 d hdd] at this
      simpa [somes, shareOf] using this
    · intro f hf
      refine hfin.sent w hw f.1 f.2 hf ?_
      have := hl.names.mem_iff.1 (List.mem_map_of_mem (f := (·.1)) hf)
      rw [indexed_queued hD hU hn hok h hm hw hd, List.append_nil] at this
      exact this
  · intro n hnew
    refine hfin.old n ?_
    intro w hw
    by_cases h1 : (s.ws w).phase = .running ∨ (s.ws w).phase = .failed
    · exact hnew w hw _ _ (Or.inr ⟨_, (hloc w hw).run h1⟩)
    · exact hnew w hw _ _ (Or.inl ((hloc w hw).runEnd (fun e => h1 (Or.inl e)) (fun e => h1 (Or.inr e))))

/-- **C43.** There is no infinite execution. -/
theorem c43_terminates (cfg : PipeCfg σ C) : WellFounded fun t s : PWorld σ C => PStep cfg s t := pstep_wf

/-- **C43.** When uploads succeed, the user's function does not raise and no file belongs to two inputs, every execution that
cannot go on has written the index. -/
theorem c43_complete_partial (hW : 0 < cfg.workers) (hD : 0 < cfg.downloaders) (hU : 0 < cfg.uploaders) {owner : FName → Nat} (hn : NamesOk cfg owner)
    (hf : cfg.faulty = false) (hdisj : PathsDisjoint cfg) (hjobs : JobsOk cfg) {s : PWorld σ C} (h : PReach cfg remote0 s) (hend : Final cfg s) :
    s.main = .indexed ∧ ∀ w, w < cfg.workers → (s.ws w).phase = .done := by
  have hnf := no_failure hD hU hdisj hjobs h
  have hne : s.main ≠ .error := by
    intro he
    cases h with
    | start => cases he
    | @step s0 t hr hst =>
      obtain ⟨h1, h2 | h2 | ⟨_, h2⟩ | ⟨h2, _⟩⟩ := step_main hst
      · rw [← h2, he] at h1; rcases h1 with h1 | h1 <;> cases h1
      · rw [he] at h2; cases h2
      · have hnf0 := no_failure hD hU hdisj hjobs hr
        rcases h2 with ⟨w, hw, hp⟩ | ⟨hall, n, hd⟩
        · exact hnf0 w hw hp
        · obtain ⟨w, hw, h3⟩ := (finv_reach hD hU hn (Or.inl hf) hr).left n hd
          have hdone := hall w hw
          have hl := loc_reach hD hU hr w hw
          rcases h3 with h3 | h3
          · obtain ⟨u, hu, h3⟩ := List.mem_flatMap.1 h3
            rw [hl.upC hf (Or.inr hdone) u (List.mem_range.1 hu)] at h3
            cases h3
          · rw [(hl.rmC hdone).2] at h3
            cases h3
      · rw [he] at h2; cases h2
  have hm : s.main = .indexed := by
    cases hm : s.main with
    | waiting => obtain ⟨t, ht⟩ := pstep_progress hW hD hU hn hf h (Or.inl hm) (fun _ => hnf); exact absurd ht (hend t)
    | joining => obtain ⟨t, ht⟩ := pstep_progress hW hD hU hn hf h (Or.inr hm) (fun _ => hnf); exact absurd ht (hend t)
    | indexed => rfl
    | error => exact absurd hm hne
  exact ⟨hm, (indexed_before h hm).1⟩

/-- From every state an execution that cannot go on is reached. -/
theorem reaches_final {s : PWorld σ C} (h : PReach cfg remote0 s) : ∃ t, PReach cfg remote0 t ∧ Final cfg t := by
  revert h
  induction s using (c43_terminates cfg).induction with
  | h s ih =>
    intro h
    by_cases hend : Final cfg s
    · exact ⟨s, h, hend⟩
    · simp only [Final, Classical.not_forall, Classical.not_not] at hend
      obtain ⟨t, ht⟩ := hend
      exact ih t ht (.step h ht)

/-- `c43_optimize_partial` with the order in which each worker has handled its inputs. -/
theorem c43_optimize_at (wcfg : WriterCfg) (comp : Option String) (rank first : Nat → Nat) (out : Nat → Nat → List WItem)
    (cfg : PipeCfg (WriterState × Nat) (List WItem)) (remote0 : FName → Option (List WItem))
    (hW : 0 < cfg.workers) (hD : 0 < cfg.downloaders) (hU : 0 < cfg.uploaders) (hf : cfg.faulty = false)
    (hr : ∀ w v, w < cfg.workers → v < cfg.workers → rank w = rank v → w = v)
    (hj : ∀ w, w < cfg.workers → cfg.job w = writerJob wcfg comp (rank w) (first w) fun i => some (out w i))
    (hpos : wcfg.chunkSize = 0 ∨ ∀ w i, w < cfg.workers → i < cfg.items w → ∀ x ∈ out w i, x.data ≠ [])
    (hdisj : PathsDisjoint cfg) (s : PWorld (WriterState × Nat) (List WItem)) (h : PReach cfg remote0 s) (hend : Final cfg s) :
    s.main = .indexed ∧
    (∀ w, w < cfg.workers → ∃ chunks : List (List WItem), (s.ws w).processed.Perm (List.range (cfg.items w)) ∧
      (cfg.inputDir = false ∨ cfg.downloaders = 1 → (s.ws w).processed = List.range (cfg.items w)) ∧
      (∃ st, workerRun wcfg 0 ((s.ws w).processed.flatMap (out w)) = .ok st ∧ st.chunks = chunks) ∧
      chunks.flatten = (s.ws w).processed.flatMap (out w) ∧ (∀ c ∈ chunks, c ≠ []) ∧
      ∀ (k : Nat) (c : List WItem), chunks[k]? = some c → s.remote (chunkFilename comp (rank w) (first w + k)) = some c) ∧
    (∀ n, (∀ w k, w < cfg.workers → n ≠ chunkFilename comp (rank w) (first w + k)) → s.remote n = remote0 n) := by
  obtain ⟨owner, hn⟩ := writerJob_names wcfg comp rank first _ hr hj
  have hjobs : JobsOk cfg := writerJob_ok wcfg comp rank first _ hj (fun w hw i hi => ⟨_, rfl, hpos.symm.imp (fun h => h w i hw hi) id⟩)
  obtain ⟨hm, hdone⟩ := c43_complete_partial hW hD hU hn hf hdisj hjobs h hend
  have hfin := finv_reach hD hU hn (Or.inl hf) h
  refine ⟨hm, ?_, ?_⟩
  · intro w hw
    have hl := loc_reach hD hU h w hw
    have hd := hdone w hw
    have hr1 : (s.ws w).phase ≠ .running := by rw [hd]; intro h; cases h
    have hr2 : (s.ws w).phase ≠ .failed := by rw [hd]; intro h; cases h
    obtain ⟨h1, h2, h3⟩ := hl.all_processed hr1 hr2
    have hrun := hl.runEnd hr1 hr2
    rw [hj w hw] at hrun
    obtain ⟨chunks, he, hc, hst⟩ := writerJob_files _ _ _ _ _ _ _ hrun
    have hs : samplesOf (fun i => some (out w i)) (s.ws w).processed = (s.ws w).processed.flatMap (out w) := by simp [samplesOf]
    have hp : (∀ x ∈ samplesOf (fun i => some (out w i)) (s.ws w).processed, x.data ≠ []) ∨ wcfg.chunkSize = 0 := by
      rcases hpos with hpos | hpos
      · exact Or.inr hpos
      · left
        rw [hs]
        intro x hx
        obtain ⟨i, hi, hx⟩ := List.mem_flatMap.1 hx
        exact hpos w i hw (List.mem_range.1 (h1.mem_iff.1 hi)) x hx
    obtain ⟨hc1, hc2⟩ := hc hp
    refine ⟨chunks, h1, ?_, hs ▸ hst, by rw [hc1, hs], hc2, ?_⟩
    · rintro (hi | hi)
      · have := (hl.ordF hi).1
        rw [h2] at this
        simpa [somes] using this
      · cases hin : cfg.inputDir with
        | false =>
          have := (hl.ordF hin).1
          rw [h2] at this
          simpa [somes] using this
        | true =>
          have := hl.ord 0 hD hin
          rw [h2, h3 0 hD] at this
          have e : ∀ l : List Nat, l.filter (fun _ => true) = l := fun l => List.filter_eq_self.2 (fun _ _ => rfl)
          simpa [somes, hi, Nat.mod_one, e] using this
    · intro k c hk
      have hmem := mem_chunkFiles (comp := comp) (rank := rank w) (n := first w) hk
      rw [← he] at hmem
      refine hfin.sent w hw _ _ hmem ?_
      have := hl.names.mem_iff.1 (List.mem_map_of_mem (f := (·.1)) hmem)
      rw [indexed_queued hD hU hn (Or.inl hf) h hm hw hd, List.append_nil] at this
      exact this
  · intro n hnew
    refine hfin.old n ?_
    intro w hw hmem
    have hl := loc_reach hD hU h w hw
    have hd := hdone w hw
    have hrun := hl.runEnd (by rw [hd]; intro h; cases h) (by rw [hd]; intro h; cases h)
    rw [hj w hw] at hrun
    obtain ⟨chunks, he, _⟩ := writerJob_files _ _ _ _ _ _ _ hrun
    rw [he, chunkFiles_names] at hmem
    obtain ⟨i, hi, rfl⟩ := List.mem_map.1 hmem
    rw [List.mem_range'] at hi
    obtain ⟨k, _, rfl⟩ := hi
    exact hnew w k hw (by rw [Nat.one_mul])

/-- **C43.** For `optimize`: worker `w` writes its samples with the writer of its rank. Every execution ends
with the index written. Then the output directory has, for every worker, chunk files whose numbers start at
`first w`, which are what the writer of `Model/Writer.lean` makes of its samples, and which together hold the samples of each of
its inputs exactly once; in input order when there are no
downloaders or there is one. Files with other names than those of the workers' chunks are as before. -/
theorem c43_optimize_partial (wcfg : WriterCfg) (comp : Option String) (rank first : Nat → Nat) (out : Nat → Nat → List WItem)
    (cfg : PipeCfg (WriterState × Nat) (List WItem)) (remote0 : FName → Option (List WItem))
    (hW : 0 < cfg.workers) (hD : 0 < cfg.downloaders) (hU : 0 < cfg.uploaders) (hf : cfg.faulty = false)
    (hr : ∀ w v, w < cfg.workers → v < cfg.workers → rank w = rank v → w = v)
    (hj : ∀ w, w < cfg.workers → cfg.job w = writerJob wcfg comp (rank w) (first w) fun i => some (out w i))
    (hpos : wcfg.chunkSize = 0 ∨ ∀ w i, w < cfg.workers → i < cfg.items w → ∀ x ∈ out w i, x.data ≠ [])
    (hdisj : PathsDisjoint cfg) (s : PWorld (WriterState × Nat) (List WItem)) (h : PReach cfg remote0 s) (hend : Final cfg s) :
    s.main = .indexed ∧
    (∀ w, w < cfg.workers → ∃ (order : List Nat) (chunks : List (List WItem)), order.Perm (List.range (cfg.items w)) ∧
      (cfg.inputDir = false ∨ cfg.downloaders = 1 → order = List.range (cfg.items w)) ∧
      (∃ st, workerRun wcfg 0 (order.flatMap (out w)) = .ok st ∧ st.chunks = chunks) ∧
      chunks.flatten = order.flatMap (out w) ∧ (∀ c ∈ chunks, c ≠ []) ∧
      ∀ (k : Nat) (c : List WItem), chunks[k]? = some c → s.remote (chunkFilename comp (rank w) (first w + k)) = some c) ∧
    (∀ n, (∀ w k, w < cfg.workers → n ≠ chunkFilename comp (rank w) (first w + k)) → s.remote n = remote0 n) := by
  obtain ⟨hm, hwk, hrest⟩ := c43_optimize_at wcfg comp rank first out cfg remote0 hW hD hU hf hr hj hpos hdisj s h hend
  exact ⟨hm, fun w hw => ⟨(s.ws w).processed, hwk w hw⟩, hrest⟩

/-- Two workers with three inputs each; input `i` of worker `w` has a file of its own and two samples. -/
def pipeDemo : PipeCfg (WriterState × Nat) (List WItem) where
  workers := 2
  downloaders := 2
  uploaders := 2
  inputDir := true
  outPath := true
  cloud := true
  faulty := false
  items := fun _ => 3
  paths := fun w i => [String.ofList (List.replicate (3 * w + i) 'f')]
  job := fun w => writerJob ⟨0, 4⟩ none w 0 fun i => some [⟨[w.toUInt8, i.toUInt8], none⟩, ⟨[i.toUInt8], none⟩]

/-- The hypotheses of `c43_optimize_partial` are met, and there is an execution that ends. -/
example : ∃ s, PReach pipeDemo (fun _ => none) s ∧ Final pipeDemo s ∧ s.main = .indexed := by
  obtain ⟨s, h1, h2⟩ := reaches_final (PReach.start (cfg := pipeDemo) (remote0 := fun _ => none))
  refine ⟨s, h1, h2, (c43_optimize_partial ⟨0, 4⟩ none id (fun _ => 0) (fun w i => [⟨[w.toUInt8, i.toUInt8], none⟩, ⟨[i.toUInt8], none⟩])
    pipeDemo _ (by decide) (by decide) (by decide) rfl (fun _ _ _ _ h => h) (fun _ _ => rfl) (Or.inr ?_) ?_ s h1 h2).1⟩
  · intro w i _ _ x hx
    simp only [List.mem_cons, List.not_mem_nil, or_false] at hx
    rcases hx with rfl | rfl <;> simp
  · intro w v i j hw hv hi hj hne p hp hq
    simp only [pipeDemo, List.mem_singleton] at hp hq hi hj
    have := ofList_inj _ _ (hp.symm.trans hq)
    have := congrArg List.length this
    simp only [List.length_replicate] at this
    omega

/-- One worker with two inputs which name the same file. -/
def sharedFile : PipeCfg Unit Nat where
  workers := 1
  downloaders := 1
  uploaders := 1
  inputDir := true
  outPath := true
  cloud := true
  faulty := false
  items := fun _ => 2
  paths := fun _ _ => ["f"]
  job := fun _ => ⟨(), fun _ _ => some ((), []), fun _ => some []⟩

/-- **C43.** Inputs that share a file: the remover deletes the file after the first of them, and the second fails,
though nothing goes wrong. So `PathsDisjoint` cannot be left out of `c43_complete_partial`. -/
theorem c43_shared_file_fails : ∃ s, PReach sharedFile (fun _ => none) s ∧ s.main = .error := by
  have h1 := PReach.step (.start (cfg := sharedFile) (remote0 := fun _ => none))
    (PStep.download _ 0 0 0 [some 1, none] (Or.inl rfl) (by decide) (by decide) rfl)
  have h2 := PReach.step h1 (PStep.download _ 0 0 1 [none] (Or.inl rfl) (by decide) (by decide) rfl)
  have h3 := PReach.step h2 (PStep.process _ 0 0 [some 1] () [] false (Or.inl rfl) (by decide) rfl rfl (fun _ p hp => by
    simp only [sharedFile, List.mem_singleton] at hp; subst hp; rfl) rfl (fun h => by cases h))
  have h4 := PReach.step h3 (PStep.removeInputs _ 0 0 0 [] (Or.inl rfl) (by decide) rfl rfl)
  have h5 := PReach.step h4 (PStep.processFail _ 0 1 [] (Or.inl rfl) (by decide) rfl rfl (Or.inl fun h => by
    have := h rfl "f" (by simp [sharedFile])
    cases this))
  exact ⟨_, .step h5 (PStep.raise _ 0 rfl (by decide) rfl), rfl⟩

/-- One worker with one input and one chunk file; the output directory is in a cloud. -/
def cloudDemo : PipeCfg Unit Nat where
  workers := 1
  downloaders := 1
  uploaders := 1
  inputDir := false
  outPath := true
  cloud := true
  faulty := true
  items := fun _ => 1
  paths := fun _ _ => []
  job := fun _ => ⟨(), fun _ _ => some ((), []), fun _ => some [("chunk-0-0.bin", 7)]⟩

/-- **C43.** An upload to a cloud that fails is not noticed: the index is written, and the chunk is lost. -/
theorem c43_lost_upload : ∃ s, PReach cloudDemo (fun _ => none) s ∧ s.main = .indexed ∧ s.remote "chunk-0-0.bin" = none ∧ s.disk "chunk-0-0.bin" = none := by
  have h1 := PReach.step (.start (cfg := cloudDemo) (remote0 := fun _ => none))
    (PStep.process _ 0 0 [none] () [] false (Or.inl rfl) (by decide) rfl rfl (fun h => by cases h) rfl (fun h => by cases h))
  have h2 := PReach.step h1 (PStep.finishInputs _ 0 [] [("chunk-0-0.bin", 7)] (Or.inl rfl) (by decide) rfl rfl rfl rfl)
  have h3 := PReach.step h2 (PStep.uploadLost _ 0 0 "chunk-0-0.bin" [none] (Or.inl rfl) (by decide) (by decide) rfl rfl rfl rfl)
  have h4 := PReach.step h3 (PStep.uploadEnd _ 0 0 [] (Or.inl rfl) (by decide) (by decide) rfl rfl)
  have h5 := PReach.step h4 (PStep.joinUploaders _ 0 (Or.inl rfl) (by decide) rfl (fun u hu => by
    have : u = 0 := by simp only [cloudDemo] at hu; omega
    subst this; rfl))
  have h6 := PReach.step h5 (PStep.removeChunk _ 0 "chunk-0-0.bin" [none] (Or.inl rfl) (by decide) rfl rfl)
  have h7 := PReach.step h6 (PStep.removeEnd _ 0 [] (Or.inl rfl) (by decide) rfl rfl)
  have h8 := PReach.step h7 (PStep.finish _ 0 (Or.inl rfl) (by decide) rfl rfl)
  have h9 := PReach.step h8 (PStep.receiveLast _ 0 1 [] rfl rfl rfl)
  have hdisk : ∀ n : FName, (if n = "chunk-0-0.bin" then (none : Option Nat) else
      (if n = "chunk-0-0.bin" then some 7 else none)) = none := by intro n; split <;> simp_all
  refine ⟨_, .step h9 (PStep.index _ rfl ?_ ?_), rfl, rfl, rfl⟩
  · intro w hw
    have : w = 0 := by simp only [cloudDemo] at hw; omega
    subst this; rfl
  · intro _ n
    exact hdisk n

end LitData.Props
