import Verif.Lemmas.Checkpoint
import Verif.Props.Merge

/-! Property C25: `optimize` resumed from a checkpoint. -/

namespace LitData.Props
open LitData

variable {β : Type}

/-- One run from a directory that satisfies the invariant. -/
theorem checkpointRun_spec (cfg : WriterCfg) (first : Nat) (f : β → Option WItem) (g : β → WItem) (inputs : List β)
    (hf : ∀ x ∈ inputs, f x = some (g x)) (hpos : (∀ x ∈ inputs, (g x).data ≠ []) ∨ cfg.chunkSize = 0) (r : Remote)
    (hr : RInv first (inputs.map g) r) :
    ∃ w cs, checkpointRun cfg 1 first f (remainingInputs inputs r) r = .ok w ∧ (∀ e ∈ w.emitted, e.1 = 0) ∧
      Track first (inputs.map g) r cs w.infos w.nextNumber (w.emitted.map (·.2)) ∧ cs.flatten = inputs.map g := by
  obtain ⟨cs0, hd, htr⟩ := Track.start hr
  have hpre : cs0.flatten = (inputs.map g).take (loadedCkpt r).doneTill := by
    rw [hd]; exact (List.prefix_iff_eq_take.1 htr.flat)
  have hrest : cs0.flatten ++ (remainingInputs inputs r).map g = inputs.map g := by
    unfold remainingInputs
    rw [hpre, List.map_drop, List.take_append_drop]
  have hsub : ∀ x ∈ remainingInputs inputs r, x ∈ inputs := fun x hx => List.mem_of_mem_drop hx
  obtain ⟨w, pend, h1, h2⟩ := handleInputs_inv (cfg := cfg) (f := f) (r := r) (cs0 := cs0) (outs := inputs.map g) (first := first) g
    (remainingInputs inputs r) (ys := []) (w := startWorker first (loadedCkpt r)) (pend := [])
    ⟨init_inv cfg 0, rfl, by simpa [startWorker, WriterState.init] using htr, by simp [startWorker]⟩
    (fun x hx => hf x (hsub x hx)) (by rw [List.nil_append, hrest]; exact List.prefix_rfl)
  rw [List.nil_append] at h2
  have hsize : cfg.chunkSize = 0 ∨ pend.length ≤ cfg.chunkSize := by
    rcases hpos with hp | hc
    · by_cases hc : cfg.chunkSize = 0
      · exact Or.inl hc
      · right
        rcases h2.win.mode with ⟨_, _, m3⟩ | ⟨_, _, _, _, _, m6⟩ | ⟨_, m, z, _, m3, m4⟩
        · omega
        · exact length_le_of_not_over m6 hc
        · exfalso
          have hz : z ∈ (remainingInputs inputs r).map g := by
            rw [h2.win.all]; exact List.mem_append_right _ (List.mem_of_getElem? m3)
          obtain ⟨x, hx, rfl⟩ := List.mem_map.1 hz
          exact hp x (hsub x hx) (List.length_eq_zero_iff.1 m4)
    · exact Or.inl hc
  obtain ⟨s', h3, _, h5⟩ := done_spec cfg 0 _ w.writer pend h2.win hsize
  generalize hnew : (if pend = [] then [] else [pend] : List (List WItem)) = new at h5
  have hdrop : s'.chunks.drop w.writer.chunks.length = new := by rw [h5]; simp
  have hflat : (cs0 ++ w.writer.chunks ++ new).flatten = inputs.map g := by
    rw [← hrest, h2.win.all, List.append_assoc, List.flatten_append, List.flatten_append]
    congr 2
    rw [← hnew]
    split
    · rename_i hp; simp [hp]
    · simp
  have hne : ∀ c ∈ new, c ≠ [] := by
    intro c hc
    rw [← hnew] at hc
    split at hc
    · simp at hc
    · rename_i hp; simp only [List.mem_singleton] at hc; exact hc ▸ hp
  have htr2 := (Track.chunks new h2.trk hne (by rw [hflat]; exact List.prefix_rfl)).ckpt
  have hend : endWorker cfg 1 w = .ok (CkWorker.mk s' (w.infos ++ infosOf (numbered w.nextNumber new))
      (w.nextNumber + (numbered w.nextNumber new).length) w.counter w.indexCounter
      (w.emitted ++ (numbered w.nextNumber new).mapIdx (fun i e => (i % 1, Upload.chunk e.1 e.2)) ++
        (saveCheckpoint (w.infos ++ infosOf (numbered w.nextNumber new))).toList.map (fun c => (w.counter % 1, Upload.ckpt c)))) := by
    unfold endWorker
    simp only [h3, Except.bind, hdrop]
  have hidx : ((numbered w.nextNumber new).mapIdx (fun i e => (i % 1, Upload.chunk e.1 e.2))) =
      (numbered w.nextNumber new).map (fun e => (0, Upload.chunk e.1 e.2)) := by
    apply List.ext_getElem
    · simp
    · intro i _ _; simp [Nat.mod_one]
  have hrun : checkpointRun cfg 1 first f (remainingInputs inputs r) r = endWorker cfg 1 w := by
    unfold checkpointRun
    rw [h1]
    rfl
  rw [hend] at hrun
  refine ⟨_, _, hrun, ?_, ?_, hflat⟩
  · intro e he
    simp only [hidx, List.mem_append, List.mem_map] at he
    rcases he with (he | ⟨_, _, rfl⟩) | ⟨_, _, rfl⟩
    · exact h2.tag e he
    · rfl
    · exact Nat.mod_one _
  · simpa [hidx, Function.comp_def] using htr2

/-- With one uploader, what was uploaded is a prefix of what was queued. -/
theorem uploaded_single {emitted applied : List (Nat × Upload)} (h : ∀ e ∈ emitted, e.1 = 0) (hu : Uploaded emitted applied) :
    applied <+: emitted := by
  have h0 : emitted.filter (fun e => e.1 == 0) = emitted := by
    rw [List.filter_eq_self]; intro e he; simp [h e he]
  have h1 : applied.filter (fun e => e.1 == 0) = applied := by
    rw [List.filter_eq_self]
    intro e he
    by_cases hq : e.1 = 0
    · simp [hq]
    · exfalso
      have h2 := hu e.1
      have h3 : emitted.filter (fun x => x.1 == e.1) = [] := by
        rw [List.filter_eq_nil_iff]; intro x hx; rw [h x hx]; simp; omega
      rw [h3, List.prefix_nil, List.filter_eq_nil_iff] at h2
      exact absurd (h2 e he) (by simp)
  have := hu 0
  rwa [h0, h1] at this

theorem interrupted_inv (cfg : WriterCfg) (first : Nat) (f : β → Option WItem) (g : β → WItem) (inputs : List β)
    (hf : ∀ x ∈ inputs, f x = some (g x)) (hpos : (∀ x ∈ inputs, (g x).data ≠ []) ∨ cfg.chunkSize = 0) {r : Remote}
    (hr : Interrupted cfg false 1 first f inputs r) : RInv first (inputs.map g) r := by
  induction hr with
  | fresh => exact ⟨[], rfl, rfl, rfl, List.nil_prefix, by simp [loadedCkpt]⟩
  | crash _hint harr hrun hup ih =>
    rename_i r0 w arriving applied
    obtain ⟨w', cs, h1, h2, h3, _⟩ := checkpointRun_spec cfg first f g inputs hf hpos r0 ih
    have harr' : arriving = remainingInputs inputs r0 := by simpa [Arrives] using harr
    rw [harr', h1] at hrun
    cases hrun
    have hp := uploaded_single h2 hup
    unfold afterUploads
    rw [List.prefix_iff_eq_take.1 hp, List.map_take]
    exact h3.pre _

/-- **C25 (partial).** One uploader (the default), no downloaders, a function that returns a sample for every
input. After any number of runs, each interrupted at any point — that is, after any number of uploads — the next
run that finishes leaves an index whose chunks, read in order from the output directory, are the outputs of all
inputs, each once and in order. Missing: functions which skip inputs by returning `None`
(`c25_skipped_inputs_repeat`), several uploaders (`c25_two_uploaders_lose`), downloaders
(`c25_downloaders_lose`), a worker that had nothing left (`c25_finished_worker_breaks_merge`), and inputs that
contain tuples (`c25_tuple_inputs_refused`): for these the code loses samples, repeats samples or raises. -/
theorem c25_resume_partial (cfg : WriterCfg) (first : Nat) (f : β → Option WItem) (inputs : List β)
    (hf : ∀ x ∈ inputs, ∃ it, f x = some it ∧ (it.data ≠ [] ∨ cfg.chunkSize = 0)) (r : Remote)
    (hr : Interrupted cfg false 1 first f inputs r) :
    ∃ w, checkpointRun cfg 1 first f (remainingInputs inputs r) r = .ok w ∧
      ∀ applied : List (Nat × Upload), Uploaded w.emitted applied → applied.length = w.emitted.length →
        readIndex (afterUploads r applied).files w.infos = some (inputs.filterMap f) := by
  let g : β → WItem := fun x => (f x).getD ⟨[], none⟩
  have hg : ∀ x ∈ inputs, f x = some (g x) := by
    intro x hx
    obtain ⟨it, h, _⟩ := hf x hx
    simp [g, h]
  have hpos : (∀ x ∈ inputs, (g x).data ≠ []) ∨ cfg.chunkSize = 0 := by
    by_cases hc : cfg.chunkSize = 0
    · exact Or.inr hc
    · left
      intro x hx
      obtain ⟨it, h, h2⟩ := hf x hx
      have : g x = it := by simp [g, h]
      rw [this]
      exact h2.resolve_right hc
  obtain ⟨w, cs, h1, h2, h3, h4⟩ := checkpointRun_spec cfg first f g inputs hg hpos r (interrupted_inv cfg first f g inputs hg hpos hr)
  refine ⟨w, h1, ?_⟩
  intro applied hup hlen
  have he : applied = w.emitted := (uploaded_single h2 hup).eq_of_length hlen
  subst he
  have hmap : inputs.filterMap f = inputs.map g := by
    clear h1 h3 h4 hr hpos hf
    induction inputs with
    | nil => rfl
    | cons x l ih =>
      rw [List.filterMap_cons, hg x List.mem_cons_self, List.map_cons, ih (fun y hy => hg y (List.mem_cons_of_mem _ hy))]
  rw [hmap, ← h4]
  exact readIndex_eq _ _ _ h3.read

/-- Samples of one byte, named by a number. -/
def ckItem (n : Nat) : WItem := ⟨[n.toUInt8], none⟩

/-- The worker after a run that succeeded. -/
def ckGet : Py CkWorker → CkWorker
  | .ok w => w
  | .error _ => ⟨WriterState.init, [], 0, 0, 0, []⟩

/-- It is enough to look at the queues that exist. -/
theorem uploaded_of_lt (n : Nat) {emitted applied : List (Nat × Upload)} (h1 : ∀ e ∈ applied, e.1 < n)
    (h2 : ∀ q, q < n → applied.filter (fun e => e.1 == q) <+: emitted.filter (fun e => e.1 == q)) : Uploaded emitted applied := by
  intro q
  by_cases hq : q < n
  · exact h2 q hq
  · have : applied.filter (fun e => e.1 == q) = [] := by
      rw [List.filter_eq_nil_iff]; intro e he; have := h1 e he; simp; omega
    rw [this]; exact List.nil_prefix

/-- The function of the examples: every input gives a sample. -/
def ckAll (n : Nat) : Option WItem := some (ckItem n)

/-- A function which skips the input 11. -/
def ckSkip (n : Nat) : Option WItem := if n = 11 then none else some (ckItem n)

/-- The first run of the examples, with chunks of one sample. -/
def ckFirst (numUploaders : Nat) (f : Nat → Option WItem) (arriving : List Nat) : CkWorker :=
  ckGet (checkpointRun ⟨0, 1⟩ numUploaders 0 f arriving ⟨[], none⟩)

/-- The directory after a crash of the first run. -/
def ckCrash (applied : List (Nat × Upload)) : Remote := afterUploads ⟨[], none⟩ applied

/-- A crash after the second chunk, with its checkpoint not yet uploaded. -/
def ckDemoUploads : List (Nat × Upload) := (ckFirst 1 ckAll [10, 11, 12, 13]).emitted.take 3

/-- The hypotheses of `c25_resume_partial` are met by this crash. -/
example : Interrupted ⟨0, 1⟩ false 1 0 ckAll [10, 11, 12, 13] (ckCrash ckDemoUploads) ∧
    (loadedCkpt (ckCrash ckDemoUploads)).doneTill = 1 ∧ (ckCrash ckDemoUploads).files = [(1, [ckItem 11]), (0, [ckItem 10])] :=
  ⟨Interrupted.crash (w := ckFirst 1 ckAll [10, 11, 12, 13]) (arriving := [10, 11, 12, 13]) .fresh (by unfold Arrives remainingInputs; decide +kernel)
    (by decide +kernel) (uploaded_of_lt 1 (by decide +kernel) (by decide +kernel)), by decide +kernel, by decide +kernel⟩

/-- Uploads of a run that skips an input, up to the second checkpoint. -/
def ckSkipUploads : List (Nat × Upload) := (ckFirst 1 ckSkip [10, 11, 12, 13]).emitted.take 4

/-- The checkpoint counts outputs, and the next run skips that many inputs: when the function returned `None` for
an input before the checkpoint, samples are stored twice. -/
theorem c25_skipped_inputs_repeat : ∃ (r : Remote) (w : CkWorker), Interrupted ⟨0, 1⟩ false 1 0 ckSkip [10, 11, 12, 13] r ∧
    checkpointRun ⟨0, 1⟩ 1 0 ckSkip (remainingInputs [10, 11, 12, 13] r) r = .ok w ∧
    readIndex (afterUploads r w.emitted).files w.infos = some [ckItem 10, ckItem 12, ckItem 12, ckItem 13] :=
  ⟨ckCrash ckSkipUploads, ckGet (checkpointRun ⟨0, 1⟩ 1 0 ckSkip (remainingInputs [10, 11, 12, 13] (ckCrash ckSkipUploads)) (ckCrash ckSkipUploads)),
    Interrupted.crash (w := ckFirst 1 ckSkip [10, 11, 12, 13]) (arriving := [10, 11, 12, 13]) .fresh (by unfold Arrives remainingInputs; decide +kernel)
      (by decide +kernel) (uploaded_of_lt 1 (by decide +kernel) (by decide +kernel)), by decide +kernel, by decide +kernel⟩

/-- Uploads of a run with two uploaders, of which the second one has done nothing yet. -/
def ckTwoUploads : List (Nat × Upload) := ((ckFirst 2 ckAll [10, 11, 12, 13]).emitted.filter fun e => e.1 == 0).take 2

/-- With two uploaders a checkpoint may arrive before a chunk that it lists: after a crash this chunk is never
written, and the finished dataset names a file that does not exist. -/
theorem c25_two_uploaders_lose : ∃ (r : Remote) (w : CkWorker), Interrupted ⟨0, 1⟩ false 2 0 ckAll [10, 11, 12, 13] r ∧
    checkpointRun ⟨0, 1⟩ 2 0 ckAll (remainingInputs [10, 11, 12, 13] r) r = .ok w ∧
    w.infos.any (fun i => (fileGet (afterUploads r w.emitted).files i.number).isNone) = true :=
  ⟨ckCrash ckTwoUploads, ckGet (checkpointRun ⟨0, 1⟩ 2 0 ckAll (remainingInputs [10, 11, 12, 13] (ckCrash ckTwoUploads)) (ckCrash ckTwoUploads)),
    Interrupted.crash (w := ckFirst 2 ckAll [10, 11, 12, 13]) (arriving := [10, 11, 12, 13]) .fresh (by unfold Arrives remainingInputs; decide +kernel)
      (by decide +kernel) (uploaded_of_lt 2 (by decide +kernel) (by decide +kernel)), by decide +kernel, by decide +kernel⟩

/-- Uploads of a run in which the second input was downloaded first, up to the first checkpoint. -/
def ckOrderUploads : List (Nat × Upload) := (ckFirst 1 ckAll [11, 10, 12, 13]).emitted.take 2

/-- With downloaders the inputs arrive in any order, but the next run skips the first inputs of the list: a
sample is lost and another one stored twice. -/
theorem c25_downloaders_lose : ∃ (r : Remote) (w : CkWorker), Interrupted ⟨0, 1⟩ true 1 0 ckAll [10, 11, 12, 13] r ∧
    checkpointRun ⟨0, 1⟩ 1 0 ckAll (remainingInputs [10, 11, 12, 13] r) r = .ok w ∧
    readIndex (afterUploads r w.emitted).files w.infos = some [ckItem 11, ckItem 11, ckItem 12, ckItem 13] :=
  ⟨ckCrash ckOrderUploads, ckGet (checkpointRun ⟨0, 1⟩ 1 0 ckAll (remainingInputs [10, 11, 12, 13] (ckCrash ckOrderUploads)) (ckCrash ckOrderUploads)),
    Interrupted.crash (w := ckFirst 1 ckAll [11, 10, 12, 13]) (arriving := [11, 10, 12, 13]) .fresh (by unfold Arrives remainingInputs; decide +kernel)
      (by decide +kernel) (uploaded_of_lt 1 (by decide +kernel) (by decide +kernel)), by decide +kernel, by decide +kernel⟩

/-- The part `data_format` of a writer's configuration (`streaming/writer.py:147-157`): it is set by the first
sample that the writer serializes, and not restored from a checkpoint. -/
def formatAfter (format : List String) (stored : List WItem) : Option (List String) := if stored = [] then none else some format

/-- A worker whose inputs were all done before the crash stores nothing after it, so that its index has no
format, and merging its index with that of a worker which had inputs left raises. -/
theorem c25_finished_worker_breaks_merge (format : List String) (x : WItem) (rest : List WItem) (c0 c1 : List ChunkInfo) :
    (mergeNoWait none none ([("0.index.json", .index ⟨c0, some (formatAfter format [])⟩),
      ("1.index.json", .index ⟨c1, some (formatAfter format (x :: rest))⟩)] : CacheDir (Option (List String)))).1 = .error .exception := by
  have hs : sortBy strLe (["0.index.json", "1.index.json"].filter isIndexName) = ["0.index.json", "1.index.json"] := by decide +kernel
  unfold mergeNoWait
  simp only [List.map_cons, List.map_nil, hs]
  simp [mergeLoop, dirGet, dirRemove, formatAfter]

mutual
/-- No tuple inside. -/
def NoTuple : UserItem → Prop
  | .int _ => True
  | .str _ => True
  | .list l => NoTuples l
  | .tuple _ => False

/-- No tuple in any of them. -/
def NoTuples : List UserItem → Prop
  | [] => True
  | x :: l => NoTuple x ∧ NoTuples l
end

mutual
theorem viaJson_eq : ∀ x : UserItem, x.viaJson = x ↔ NoTuple x
  | .int _ => by simp [UserItem.viaJson, NoTuple]
  | .str _ => by simp [UserItem.viaJson, NoTuple]
  | .list l => by
    have := viaJsonList_eq l
    simp [UserItem.viaJson, NoTuple, this]
  | .tuple l => by simp [UserItem.viaJson, NoTuple]

theorem viaJsonList_eq : ∀ l : List UserItem, viaJsonList l = l ↔ NoTuples l
  | [] => by simp [viaJsonList, NoTuples]
  | x :: l => by
    have h1 := viaJson_eq x
    have h2 := viaJsonList_eq l
    simp [viaJsonList, NoTuples, h1, h2]
end

/-- A run that continues with the same workers and inputs is accepted exactly when no input contains a tuple:
tuples are read back from `config.json` as lists, and a tuple is not equal to a list. -/
theorem c25_tuple_inputs_refused (numWorkers : Nat) (items : List (List UserItem)) :
    (checkConfig (savedConfig numWorkers items) numWorkers items = .ok () ↔ ∀ w ∈ items, NoTuples w) ∧
    (checkConfig (savedConfig numWorkers items) numWorkers items = .error .valueError ↔ ∃ w ∈ items, ¬ NoTuples w) := by
  have hmap : ∀ l : List (List UserItem), l.map viaJsonList = l ↔ ∀ w ∈ l, NoTuples w := by
    intro l
    induction l with
    | nil => simp
    | cons w l ih => simp [ih, viaJsonList_eq]
  unfold checkConfig savedConfig
  by_cases h : items.map viaJsonList = items
  · simp [h]
    intro w hw; exact (hmap items).1 h w hw
  · have h' := fun hh => h ((hmap items).2 hh)
    simp only [ne_eq, not_true_eq_false, if_false, h, not_false_eq_true, if_true, reduceCtorEq, false_iff, true_iff]
    refine ⟨h', ?_⟩
    apply Classical.byContradiction
    intro hn
    apply h'
    intro w hw
    apply Classical.byContradiction
    intro hnw
    exact hn ⟨w, hw, hnw⟩

/-- A path with a label, as a tuple. -/
example : checkConfig (savedConfig 1 [[.tuple [.str "a.png", .int 3]]]) 1 [[.tuple [.str "a.png", .int 3]]] = .error .valueError :=
  (c25_tuple_inputs_refused 1 _).2.2 ⟨_, List.mem_cons_self, by simp [NoTuples, NoTuple]⟩

/-- A run is accepted as a continuation exactly if it has the same number of workers, the same inputs for each of them, and no tuples among
these. -/
theorem c25_only_same_run (n n' : Nat) (items items' : List (List UserItem)) :
    (checkConfig (savedConfig n items) n' items' = .ok () ↔ n = n' ∧ items.map viaJsonList = items') ∧
    ((∀ w ∈ items, NoTuples w) → (checkConfig (savedConfig n items) n' items' = .ok () ↔ n = n' ∧ items = items')) := by
  have h1 : checkConfig (savedConfig n items) n' items' = .ok () ↔ n = n' ∧ items.map viaJsonList = items' := by
    unfold checkConfig savedConfig
    by_cases ha : n = n' <;> by_cases hb : items.map viaJsonList = items' <;> simp [ha, hb]
  refine ⟨h1, fun h => ?_⟩
  rw [h1]
  have : items.map viaJsonList = items := by
    have : items.map viaJsonList = items.map id := List.map_congr_left fun w hw => (viaJsonList_eq w).2 (h w hw)
    rw [this, List.map_id]
  rw [this]

example : checkConfig (savedConfig 2 [[.int 1], [.int 2]]) 1 [[.int 1], [.int 2]] ≠ .ok () := by
  rw [Ne, (c25_only_same_run 2 1 _ _).1]
  simp

/-- Every input is counted once, whether or not it gives a sample. -/
theorem c25_counts_inputs {β : Type} (cfg : WriterCfg) (u : Nat) (f : β → Option WItem) (xs : List β) (w w' : CkWorker)
    (h : handleInputs cfg u f w xs = .ok w') : w'.counter = w.counter + xs.length := by
  induction xs generalizing w with
  | nil =>
    simp only [handleInputs, Except.ok.injEq] at h
    subst h; rfl
  | cons x xs ih =>
    unfold handleInputs at h
    cases hx : handleInput cfg u f w x with
    | error e => rw [hx] at h; cases h
    | ok w1 =>
      rw [hx] at h
      have hc : w1.counter = w.counter + 1 := by
        unfold handleInput at hx
        split at hx
        · simp only [Except.ok.injEq] at hx; subst hx; rfl
        · cases ha : addItem cfg w.writer w.indexCounter ‹_› with
          | error e => rw [ha] at hx; cases hx
          | ok s => rw [ha] at hx; simp only [Except.bind, Except.ok.injEq] at hx; subst hx; rfl
      rw [ih w1 h, hc, List.length_cons]
      omega

end LitData.Props
