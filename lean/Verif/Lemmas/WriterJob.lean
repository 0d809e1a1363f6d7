import Verif.Lemmas.ProcessesEnd
import Verif.Lemmas.Checkpoint
import Verif.Lemmas.Names
import Verif.Props.Writer
import Verif.Model.Pipeline

/-! The job of a worker of `optimize`: its files are the chunks of all its samples, with different names. -/

namespace LitData
open Props (inOrder inOrder_eq)

theorem numbered_append (n : Nat) (a b : List (List WItem)) : numbered n (a ++ b) = numbered n a ++ numbered (n + a.length) b := by
  induction a generalizing n with
  | nil => simp [numbered]
  | cons x a ih => simp [numbered, ih, Nat.add_assoc, Nat.add_comm 1]

theorem chunkFiles_append (comp : Option String) (rank n : Nat) (a b : List (List WItem)) :
    chunkFiles comp rank n (a ++ b) = chunkFiles comp rank n a ++ chunkFiles comp rank (n + a.length) b := by
  simp [chunkFiles, numbered_append]

theorem numbered_fst (n : Nat) (a : List (List WItem)) : (numbered n a).map (·.1) = List.range' n a.length := by
  induction a generalizing n with
  | nil => rfl
  | cons x a ih => simp [numbered, ih, List.range'_succ]

theorem chunkFiles_names (comp : Option String) (rank n : Nat) (a : List (List WItem)) :
    (chunkFiles comp rank n a).map (·.1) = (List.range' n a.length).map (chunkFilename comp rank) := by
  rw [← numbered_fst]
  simp [chunkFiles]

theorem chunkFiles_nodup (comp : Option String) (rank n : Nat) (a : List (List WItem)) : ((chunkFiles comp rank n a).map (·.1)).Nodup := by
  rw [chunkFiles_names]
  have : (List.range' n a.length).Pairwise (fun x y => x ≠ y) := List.nodup_range'
  refine List.pairwise_map.2 (this.imp ?_)
  intro x y hne h
  exact hne (chunkFilename_inj _ _ _ _ _ _ h).2

theorem mem_chunkFiles {comp : Option String} {rank n : Nat} {a : List (List WItem)} {k : Nat} {c : List WItem} (h : a[k]? = some c) :
    (chunkFilename comp rank (n + k), c) ∈ chunkFiles comp rank n a := by
  induction a generalizing n k with
  | nil => simp at h
  | cons x a ih =>
    simp only [chunkFiles, numbered, List.map_cons]
    cases k with
    | zero => simp at h; simp [h]
    | succ k =>
      simp only [List.getElem?_cons_succ] at h
      have := ih (n := n + 1) h
      rw [show n + 1 + k = n + (k + 1) by omega] at this
      exact List.mem_cons_of_mem _ this

theorem addAll_chunks {cfg : WriterCfg} : ∀ (ys : List (Nat × WItem)) {s s' : WriterState}, addAll cfg s ys = .ok s' → s.chunks <+: s'.chunks
  | [], s, s', h => by simp only [addAll, Except.ok.injEq] at h; rw [h]; exact List.prefix_refl _
  | (i, x) :: ys, s, s', h => by
    simp only [addAll] at h
    cases h1 : addItem cfg s i x with
    | error e => rw [h1] at h; cases h
    | ok s1 =>
      rw [h1] at h
      exact (addItem_chunks h1).trans (addAll_chunks ys h)

/-- The samples of a worker in the order in which it handles its inputs. -/
def samplesOf (out : Nat → Option (List WItem)) (order : List Nat) : List WItem := order.flatMap fun i => (out i).getD []

theorem writerJob_run (cfg : WriterCfg) (comp : Option String) (rank first : Nat) (out : Nat → Option (List WItem)) :
    ∀ (order : List Nat) (st : WriterState) (done : List Nat) (pend : List WItem) (r : WriterState × Nat) (files : List (FName × List WItem)),
      WInv cfg 0 (samplesOf out done) st pend →
      jobRun (writerJob cfg comp rank first out) (st, (samplesOf out done).length) order = some (r, files) →
      ∃ pend', WInv cfg 0 (samplesOf out (done ++ order)) r.1 pend' ∧ r.2 = (samplesOf out (done ++ order)).length ∧
        chunkFiles comp rank first st.chunks ++ files = chunkFiles comp rank first r.1.chunks
  | [], st, done, pend, r, files, hinv, h => by
    simp only [jobRun, Option.some.injEq, Prod.mk.injEq] at h
    obtain ⟨rfl, rfl⟩ := h
    exact ⟨pend, by simpa using hinv, by simp, by simp⟩
  | i :: order, st, done, pend, r, files, hinv, h => by
    simp only [jobRun, writerJob] at h
    cases ho : out i with
    | none => rw [ho] at h; simp at h
    | some xs =>
      rw [ho] at h
      simp only at h
      obtain ⟨s1, p1, h1, h2⟩ := addAll_spec cfg 0 xs _ st pend hinv
      rw [Nat.zero_add] at h1
      have e : (List.range' (samplesOf out done).length xs.length).zip xs = enum (samplesOf out done).length xs := by
        rw [← inOrder_eq]; rfl
      rw [e, h1] at h
      simp only at h
      have hs : samplesOf out (done ++ [i]) = samplesOf out done ++ xs := by simp [samplesOf, ho]
      cases h3 : jobRun (writerJob cfg comp rank first out) (s1, (samplesOf out done).length + xs.length) order with
      | none =>
        exfalso
        simp only [writerJob] at h3
        rw [h3] at h; simp at h
      | some r1 =>
        have h3' := h3
        simp only [writerJob] at h3
        rw [h3] at h
        simp only [Option.map_some, Option.some.injEq, Prod.mk.injEq] at h
        obtain ⟨rfl, rfl⟩ := h
        rw [show (samplesOf out done).length + xs.length = (samplesOf out (done ++ [i])).length by rw [hs, List.length_append]] at h3'
        obtain ⟨p2, h4, h5, h6⟩ := writerJob_run cfg comp rank first out order s1 (done ++ [i]) p1 r1.1 r1.2 (by rw [hs]; exact h2) h3'
        rw [List.append_assoc, List.singleton_append] at h4 h5
        refine ⟨p2, h4, h5, ?_⟩
        rw [← h6, ← List.append_assoc, ← chunkFiles_append]
        congr 2
        obtain ⟨t, ht⟩ := addAll_chunks _ h1
        rw [← ht]
        simp

/-- `done` after any number of samples added in order. -/
theorem winv_done {cfg : WriterCfg} {a : Nat} {xs : List WItem} {s : WriterState} {pend : List WItem} (h : WInv cfg a xs s pend)
    (hpos : (∀ x ∈ xs, x.data ≠ []) ∨ cfg.chunkSize = 0) :
    ∃ s', writerDone cfg false s = .ok s' ∧ s.chunks <+: s'.chunks ∧ s'.chunks.flatten = xs ∧ ∀ c ∈ s'.chunks, c ≠ [] := by
  have hsize : cfg.chunkSize = 0 ∨ pend.length ≤ cfg.chunkSize := by
    rcases hpos with hp | hc
    · by_cases hc : cfg.chunkSize = 0
      · exact Or.inl hc
      · right
        rcases h.mode with ⟨_, _, m3⟩ | ⟨_, _, _, _, _, m6⟩ | ⟨_, m, z, _, m3, m4⟩
        · omega
        · exact length_le_of_not_over m6 hc
        · exfalso
          refine hp z ?_ (List.length_eq_zero_iff.1 m4)
          rw [h.all]
          exact List.mem_append_right _ (List.mem_of_getElem? m3)
    · exact Or.inl hc
  obtain ⟨s', h3, h4, h5⟩ := done_spec cfg a xs s pend h hsize
  refine ⟨s', h3, ⟨_, h5.symm⟩, ?_, ?_⟩
  · rw [h5, h.all]
    split
    · rename_i h; simp [h]
    · simp
  · intro c hc
    rw [h5] at hc
    rcases List.mem_append.1 hc with hc | hc
    · exact h.ok.ne c hc
    · split at hc
      · simp at hc
      · rename_i h; simp only [List.mem_singleton] at hc; exact hc ▸ h

theorem writerJob_start (cfg : WriterCfg) (comp : Option String) (rank first : Nat) (out : Nat → Option (List WItem)) (order : List Nat)
    {r : WriterState × Nat} {files : List (FName × List WItem)}
    (h : jobRun (writerJob cfg comp rank first out) (writerJob cfg comp rank first out).start order = some (r, files)) :
    ∃ pend, WInv cfg 0 (samplesOf out order) r.1 pend ∧ r.2 = (samplesOf out order).length ∧ files = chunkFiles comp rank first r.1.chunks := by
  obtain ⟨pend, h1, h2, h3⟩ := writerJob_run cfg comp rank first out order WriterState.init [] [] r files (init_inv cfg 0) h
  exact ⟨pend, h1, h2, h3⟩

theorem addAll_append (cfg : WriterCfg) : ∀ (xs ys : List (Nat × WItem)) (s s1 : WriterState), addAll cfg s xs = .ok s1 →
    addAll cfg s (xs ++ ys) = addAll cfg s1 ys
  | [], ys, s, s1, h => by simp only [addAll, Except.ok.injEq] at h; rw [h]; rfl
  | (i, x) :: xs, ys, s, s1, h => by
    simp only [addAll, List.cons_append] at h ⊢
    cases h1 : addItem cfg s i x with
    | error e => rw [h1] at h; cases h
    | ok s2 =>
      rw [h1] at h
      exact addAll_append cfg xs ys s2 s1 h

/-- The inputs of a worker are added to its writer one after the other. -/
theorem writerJob_added (cfg : WriterCfg) (comp : Option String) (rank first : Nat) (out : Nat → Option (List WItem)) :
    ∀ (order : List Nat) (st : WriterState) (done : List Nat) (r : WriterState × Nat) (files : List (FName × List WItem)),
      addAll cfg WriterState.init (enum 0 (samplesOf out done)) = .ok st →
      jobRun (writerJob cfg comp rank first out) (st, (samplesOf out done).length) order = some (r, files) →
      addAll cfg WriterState.init (enum 0 (samplesOf out (done ++ order))) = .ok r.1
  | [], st, done, r, files, hst, h => by
    simp only [jobRun, Option.some.injEq, Prod.mk.injEq] at h
    obtain ⟨rfl, rfl⟩ := h
    simpa using hst
  | i :: order, st, done, r, files, hst, h => by
    simp only [jobRun, writerJob] at h
    cases ho : out i with
    | none => rw [ho] at h; simp at h
    | some xs =>
      rw [ho] at h
      simp only at h
      have e : (List.range' (samplesOf out done).length xs.length).zip xs = enum (samplesOf out done).length xs := by
        rw [← inOrder_eq]; rfl
      rw [e] at h
      have hs : samplesOf out (done ++ [i]) = samplesOf out done ++ xs := by simp [samplesOf, ho]
      cases h1 : addAll cfg st (enum (samplesOf out done).length xs) with
      | error e => rw [h1] at h; simp at h
      | ok s1 =>
        rw [h1] at h
        simp only at h
        cases h3 : jobRun (writerJob cfg comp rank first out) (s1, (samplesOf out done).length + xs.length) order with
        | none =>
          exfalso
          simp only [writerJob] at h3
          rw [h3] at h; simp at h
        | some r1 =>
          have h3' := h3
          simp only [writerJob] at h3
          rw [h3] at h
          simp only [Option.map_some, Option.some.injEq, Prod.mk.injEq] at h
          obtain ⟨rfl, rfl⟩ := h
          rw [show (samplesOf out done).length + xs.length = (samplesOf out (done ++ [i])).length by rw [hs, List.length_append]] at h3'
          have := writerJob_added cfg comp rank first out order s1 (done ++ [i]) r1.1 r1.2 (by
            rw [hs, enum_append, addAll_append cfg _ _ _ _ hst, Nat.zero_add, h1]) h3'
          rwa [List.append_assoc, List.singleton_append] at this

theorem writeChunk_chunks {cfg : WriterCfg} {s s' : WriterState} {b : Bool} (h : writeChunk cfg s b = .ok s') : s.chunks <+: s'.chunks := by
  unfold writeChunk at h
  cases h1 : chunkItems s b with
  | error e => rw [h1] at h; cases h
  | ok r =>
    rw [h1] at h
    simp only [bind, Except.bind] at h
    split at h
    · cases h
    · split at h
      · cases h
      · cases h; exact List.prefix_append _ _

theorem doneLoop_chunks {cfg : WriterCfg} : ∀ (fuel : Nat) {s s' : WriterState}, doneLoop cfg fuel s = .ok s' → s.chunks <+: s'.chunks
  | 0, s, s', h => by simp only [doneLoop, Except.ok.injEq] at h; rw [h]; exact List.prefix_refl _
  | fuel + 1, s, s', h => by
    simp only [doneLoop] at h
    split at h
    · cases h1 : writeChunk cfg (shouldWrite cfg s).2 false with
      | error e => rw [h1] at h; cases h
      | ok s1 =>
        rw [h1] at h
        have := writeChunk_chunks h1
        rw [shouldWrite_chunks] at this
        exact this.trans (doneLoop_chunks fuel h)
    · cases h; rw [shouldWrite_chunks]; exact List.prefix_refl _

theorem writerDone_chunks {cfg : WriterCfg} {s s' : WriterState} {b : Bool} (h : writerDone cfg b s = .ok s') : s.chunks <+: s'.chunks := by
  unfold writerDone at h
  split at h
  · cases h; exact List.prefix_refl _
  · cases h1 : doneLoop cfg (s.buf.length + 1) s with
    | error e => rw [h1] at h; cases h
    | ok s1 =>
      rw [h1] at h
      simp only [Except.bind] at h
      split at h
      · cases h; exact doneLoop_chunks _ h1
      · exact (doneLoop_chunks _ h1).trans (writeChunk_chunks h)

/-- The files of a whole run. -/
theorem writerJob_files (cfg : WriterCfg) (comp : Option String) (rank first : Nat) (out : Nat → Option (List WItem)) (order : List Nat)
    (files : List (FName × List WItem)) (h : jobFiles (writerJob cfg comp rank first out) order = some files) :
    ∃ chunks : List (List WItem), files = chunkFiles comp rank first chunks ∧
      ((∀ x ∈ samplesOf out order, x.data ≠ []) ∨ cfg.chunkSize = 0 → chunks.flatten = samplesOf out order ∧ ∀ c ∈ chunks, c ≠ []) ∧
      ∃ st, workerRun cfg 0 (samplesOf out order) = .ok st ∧ st.chunks = chunks := by
  unfold jobFiles at h
  cases h1 : jobRun (writerJob cfg comp rank first out) (writerJob cfg comp rank first out).start order with
  | none => rw [h1] at h; simp at h
  | some r =>
    rw [h1] at h
    obtain ⟨r, fs⟩ := r
    obtain ⟨pend, h2, _, h3⟩ := writerJob_start cfg comp rank first out order h1
    have hadd := writerJob_added cfg comp rank first out order WriterState.init [] r fs rfl h1
    rw [List.nil_append] at hadd
    simp only [Option.bind_some, writerJob] at h
    cases h4 : writerDone cfg false r.1 with
    | error e => rw [h4] at h; simp at h
    | ok s' =>
      rw [h4] at h
      simp only [Option.map_some, Option.some.injEq] at h
      rw [h3, ← chunkFiles_append] at h
      have hpre : r.1.chunks ++ s'.chunks.drop r.1.chunks.length = s'.chunks := by
        have hp : r.1.chunks <+: s'.chunks := writerDone_chunks h4
        obtain ⟨t, ht⟩ := hp
        rw [← ht, List.drop_left]
      rw [hpre] at h
      refine ⟨_, h.symm, ?_, s', ?_, rfl⟩
      · intro hpos
        obtain ⟨s2, h5, _, h7, h8⟩ := winv_done h2 hpos
        rw [h4] at h5
        cases h5
        exact ⟨h7, h8⟩
      · unfold workerRun
        rw [show (List.range' 0 (samplesOf out order).length).zip (samplesOf out order) = enum 0 (samplesOf out order) by
          rw [← inOrder_eq]; rfl, hadd]
        exact h4

/-- The names of the files of the workers of a node are different when their ranks are. -/
theorem writerJob_names {cfg : PipeCfg (WriterState × Nat) (List WItem)} (wcfg : WriterCfg) (comp : Option String) (rank first : Nat → Nat)
    (out : Nat → Nat → Option (List WItem)) (hr : ∀ w v, w < cfg.workers → v < cfg.workers → rank w = rank v → w = v)
    (hj : ∀ w, w < cfg.workers → cfg.job w = writerJob wcfg comp (rank w) (first w) (out w)) : ∃ owner, NamesOk cfg owner := by
  open Classical in
  refine ⟨fun n => if h : ∃ w, w < cfg.workers ∧ ∃ k, n = chunkFilename comp (rank w) k then h.choose else 0, ?_⟩
  intro w hw order files hf
  rw [hj w hw] at hf
  have hc : ∃ chunks, files = chunkFiles comp (rank w) (first w) chunks := by
    rcases hf with ⟨st, hf⟩ | hf
    · obtain ⟨_, _, _, h⟩ := writerJob_start _ _ _ _ _ _ hf
      exact ⟨_, h⟩
    · obtain ⟨cs, h, _⟩ := writerJob_files _ _ _ _ _ _ _ hf
      exact ⟨cs, h⟩
  obtain ⟨chunks, rfl⟩ := hc
  refine ⟨chunkFiles_nodup _ _ _ _, ?_⟩
  intro f hf
  have : f.1 ∈ (chunkFiles comp (rank w) (first w) chunks).map (·.1) := List.mem_map_of_mem hf
  rw [chunkFiles_names] at this
  obtain ⟨k, _, hk⟩ := List.mem_map.1 this
  have hex : ∃ w, w < cfg.workers ∧ ∃ k, f.1 = chunkFilename comp (rank w) k := ⟨w, hw, k, hk.symm⟩
  simp only [hex, dif_pos]
  obtain ⟨h1, k', h2⟩ := hex.choose_spec
  exact (hr _ _ hw h1 (chunkFilename_inj _ _ _ _ _ _ (hk.trans h2)).1).symm

theorem writerJob_ok {cfg : PipeCfg (WriterState × Nat) (List WItem)} (wcfg : WriterCfg) (comp : Option String) (rank first : Nat → Nat)
    (out : Nat → Nat → Option (List WItem)) (hj : ∀ w, w < cfg.workers → cfg.job w = writerJob wcfg comp (rank w) (first w) (out w))
    (hout : ∀ w, w < cfg.workers → ∀ i, i < cfg.items w → ∃ xs, out w i = some xs ∧ ((∀ x ∈ xs, x.data ≠ []) ∨ wcfg.chunkSize = 0)) : JobsOk cfg := by
  intro w hw
  rw [hj w hw]
  constructor
  · intro order st files i h hi _
    obtain ⟨pend, h1, h2, _⟩ := writerJob_start _ _ _ _ _ _ h
    obtain ⟨xs, h3, _⟩ := hout w hw i hi
    simp only [writerJob, h3]
    obtain ⟨s1, p1, h4, _⟩ := addAll_spec wcfg 0 xs _ _ _ h1
    rw [Nat.zero_add, ← h2] at h4
    have e : (List.range' st.2 xs.length).zip xs = enum st.2 xs := by
      rw [← inOrder_eq]; rfl
    rw [e, h4]
    rfl
  · intro order st files hp h
    obtain ⟨pend, h1, _, _⟩ := writerJob_start _ _ _ _ _ _ h
    have hpos : (∀ x ∈ samplesOf (out w) order, x.data ≠ []) ∨ wcfg.chunkSize = 0 := by
      by_cases hc : wcfg.chunkSize = 0
      · exact Or.inr hc
      · left
        intro x hx
        obtain ⟨i, hi, hx⟩ := List.mem_flatMap.1 hx
        obtain ⟨xs, h3, h4⟩ := hout w hw i (List.mem_range.1 (hp.mem_iff.1 hi))
        rw [h3] at hx
        exact (h4.resolve_right hc) x hx
    obtain ⟨s', h5, _⟩ := winv_done h1 hpos
    simp only [writerJob, h5]
    rfl

end LitData
