import Verif.Model.Checkpoint
import Verif.Lemmas.Writer

/-! Facts about checkpoints. -/

namespace LitData

theorem fileGet_put (files : List (Nat × List WItem)) (n m : Nat) (c : List WItem) :
    fileGet ((n, c) :: files.filter fun e => e.1 != n) m = if m = n then some c else fileGet files m := by
  unfold fileGet
  rw [List.find?_cons]
  by_cases h : m = n
  · subst h; simp
  · have hb : (n == m) = false := by simp; omega
    simp only [hb, h, if_false]
    congr 1
    rw [List.find?_filter]
    induction files with
    | nil => rfl
    | cons e l ih =>
      rw [List.find?_cons, List.find?_cons, ih]
      by_cases he : e.1 = m
      · have : (e.1 != n) = true := by simp; omega
        simp [he, h]
      · have : (e.1 == m) = false := by simp [he]
        simp [this]

theorem applyUploads_append (r : Remote) (a b : List Upload) : applyUploads r (a ++ b) = applyUploads (applyUploads r a) b := by
  simp [applyUploads]

/-- What holds of the output directory between runs. -/
def RInv (first : Nat) (outs : List WItem) (r : Remote) : Prop :=
  ∃ cs : List (List WItem), (loadedCkpt r).chunks.map (fun i => fileGet r.files i.number) = cs.map some ∧
    (loadedCkpt r).chunks.map (·.size) = cs.map (·.length) ∧ (loadedCkpt r).doneTill = cs.flatten.length ∧
    cs.flatten <+: outs ∧ ∀ i ∈ (loadedCkpt r).chunks, i.number < first + (loadedCkpt r).doneTill

/-- What holds during a run: `cs` are the chunks written so far, those of the checkpoint included. -/
structure Track (first : Nat) (outs : List WItem) (r : Remote) (cs : List (List WItem)) (infos : List CkInfo) (next : Nat)
    (em : List Upload) : Prop where
  pre : ∀ k, RInv first outs (applyUploads r (em.take k))
  read : infos.map (fun i => fileGet (applyUploads r em).files i.number) = cs.map some
  size : infos.map (·.size) = cs.map (·.length)
  low : ∀ i ∈ infos, i.number < next
  cklow : ∀ i ∈ (loadedCkpt (applyUploads r em)).chunks, i.number < next
  bound : next ≤ first + cs.flatten.length
  flat : cs.flatten <+: outs

theorem Track.start {first : Nat} {outs : List WItem} {r : Remote} (h : RInv first outs r) :
    ∃ cs, (loadedCkpt r).doneTill = cs.flatten.length ∧
      Track first outs r cs (loadedCkpt r).chunks (first + (loadedCkpt r).doneTill) [] := by
  have h0 := h
  obtain ⟨cs, h1, h2, h3, h4, h5⟩ := h
  exact ⟨cs, h3, ⟨fun k => by simpa [applyUploads] using h0, h1, h2, h5, h5, by omega, h4⟩⟩

theorem take_snoc_cases {β : Type} (l : List β) (a : β) (k : Nat) : (l ++ [a]).take k = l.take k ∨ (l ++ [a]).take k = l ++ [a] := by
  by_cases h : k ≤ l.length
  · left; rw [List.take_append_of_le_length h]
  · right; rw [List.take_of_length_le (l := l ++ [a])]; simp; omega

theorem Track.chunk {first : Nat} {outs : List WItem} {r : Remote} {cs : List (List WItem)} {infos : List CkInfo} {next : Nat}
    {em : List Upload} (h : Track first outs r cs infos next em) (c : List WItem) (hc : c ≠ []) (hf : (cs ++ [c]).flatten <+: outs) :
    Track first outs r (cs ++ [c]) (infos ++ [⟨next, c.length⟩]) (next + 1) (em ++ [.chunk next c]) := by
  have happ : applyUploads r (em ++ [.chunk next c]) = applyUpload (applyUploads r em) (.chunk next c) := by
    rw [applyUploads_append]; rfl
  have hget : ∀ m, fileGet (applyUpload (applyUploads r em) (.chunk next c)).files m =
      if m = next then some c else fileGet (applyUploads r em).files m := fun m => fileGet_put _ _ _ _
  have hck : loadedCkpt (applyUpload (applyUploads r em) (.chunk next c)) = loadedCkpt (applyUploads r em) := rfl
  have hmap : ∀ l : List CkInfo, (∀ i ∈ l, i.number < next) →
      l.map (fun i => fileGet (applyUpload (applyUploads r em) (.chunk next c)).files i.number) =
      l.map (fun i => fileGet (applyUploads r em).files i.number) := by
    intro l hl
    apply List.map_congr_left
    intro i hi
    have := hl i hi
    rw [hget, if_neg (by omega)]
  have hlen : 0 < c.length := List.length_pos_iff.2 hc
  refine ⟨?_, ?_, ?_, ?_, ?_, ?_, hf⟩
  · intro k
    rcases take_snoc_cases em (.chunk next c) k with e | e
    · rw [e]; exact h.pre k
    · rw [e, happ]
      obtain ⟨cs', h1, h2, h3, h4, h5⟩ := h.pre em.length
      rw [List.take_length] at h1 h2 h3 h5
      refine ⟨cs', ?_, ?_, ?_, h4, ?_⟩
      · rw [hck, hmap _ h.cklow]; exact h1
      · rw [hck]; exact h2
      · rw [hck]; exact h3
      · rw [hck]; exact h5
  · rw [happ, List.map_append, hmap _ h.low, h.read]
    simp [hget]
  · simp [h.size]
  · intro i hi
    rcases List.mem_append.1 hi with hi | hi
    · have := h.low i hi; omega
    · simp at hi; subst hi; exact Nat.lt_succ_self _
  · rw [happ, hck]
    intro i hi
    have := h.cklow i hi; omega
  · have := h.bound
    simp only [List.flatten_append, List.length_append, List.flatten_cons, List.flatten_nil, List.append_nil]
    omega

theorem Track.ckpt {first : Nat} {outs : List WItem} {r : Remote} {cs : List (List WItem)} {infos : List CkInfo} {next : Nat}
    {em : List Upload} (h : Track first outs r cs infos next em) :
    Track first outs r cs infos next (em ++ (saveCheckpoint infos).toList.map Upload.ckpt) := by
  unfold saveCheckpoint
  split
  · simpa using h
  · simp only [Option.toList_some, List.map_cons, List.map_nil]
    have happ : applyUploads r (em ++ [.ckpt ⟨infos, (infos.map (·.size)).sum⟩]) =
        applyUpload (applyUploads r em) (.ckpt ⟨infos, (infos.map (·.size)).sum⟩) := by
      rw [applyUploads_append]; rfl
    have hck : loadedCkpt (applyUpload (applyUploads r em) (.ckpt ⟨infos, (infos.map (·.size)).sum⟩)) =
        ⟨infos, (infos.map (·.size)).sum⟩ := rfl
    have hsum : (infos.map (·.size)).sum = cs.flatten.length := by
      rw [h.size, List.length_flatten]
    refine ⟨?_, ?_, h.size, h.low, ?_, h.bound, h.flat⟩
    · intro k
      rcases take_snoc_cases em (.ckpt ⟨infos, (infos.map (·.size)).sum⟩) k with e | e
      · rw [e]; exact h.pre k
      · rw [e, happ]
        refine ⟨cs, ?_, ?_, ?_, h.flat, ?_⟩
        · rw [hck]; exact h.read
        · rw [hck]; exact h.size
        · rw [hck]; exact hsum
        · rw [hck]
          intro i hi
          have h1 := h.low i hi
          have h2 := h.bound
          show i.number < first + (infos.map (·.size)).sum
          omega
    · rw [happ]; exact h.read
    · rw [happ, hck]; exact h.low

theorem Track.chunks {first : Nat} {outs : List WItem} {r : Remote} (new : List (List WItem)) : ∀ {cs : List (List WItem)} {infos : List CkInfo}
    {next : Nat} {em : List Upload}, Track first outs r cs infos next em → (∀ c ∈ new, c ≠ []) → (cs ++ new).flatten <+: outs →
    Track first outs r (cs ++ new) (infos ++ infosOf (numbered next new)) (next + (numbered next new).length)
      (em ++ (numbered next new).map fun e => Upload.chunk e.1 e.2) := by
  induction new with
  | nil => intro cs infos next em h _ _; simpa [numbered, infosOf] using h
  | cons c new ih =>
    intro cs infos next em h hne hf
    have h1 : Track first outs r (cs ++ [c]) _ _ _ := h.chunk c (hne c List.mem_cons_self) (by
      refine List.IsPrefix.trans ?_ hf
      exact ⟨new.flatten, by simp⟩)
    have h2 := ih h1 (fun d hd => hne d (List.mem_cons_of_mem _ hd)) (by simpa using hf)
    have e : next + 1 + (numbered (next + 1) new).length = next + ((numbered (next + 1) new).length + 1) := by omega
    simpa [numbered, infosOf, e] using h2

theorem flushIf_chunks {cfg : WriterCfg} {r : Bool × WriterState} {s : WriterState} (h : flushIf cfg r = .ok s) : r.2.chunks <+: s.chunks := by
  unfold flushIf at h
  split at h
  · unfold writeChunk at h
    cases hc : chunkItems r.2 false with
    | error e => rw [hc] at h; simp [bind, Except.bind] at h
    | ok p =>
      rw [hc] at h
      simp only [bind, Except.bind] at h
      by_cases h1 : p.1.length = 0
      · rw [if_pos h1] at h; cases h
      · rw [if_neg h1] at h
        by_cases h2 : cfg.chunkSize ≠ 0 ∧ ¬ p.1.length ≤ cfg.chunkSize
        · rw [if_pos h2] at h; cases h
        · rw [if_neg h2] at h
          simp only [pure, Except.pure, Except.ok.injEq] at h
          subst h
          exact ⟨[p.1], rfl⟩
  · cases h; exact List.prefix_rfl

theorem scan_chunks (cfg : WriterCfg) (s : WriterState) : ∀ fuel i a b, (scan cfg s fuel i a b).2.chunks = s.chunks := by
  intro fuel
  induction fuel with
  | zero => intros; rfl
  | succ n ih =>
    intro i a b
    unfold scan
    split
    · split
      · simp only
        split
        · rfl
        · exact ih _ _ _
      · rfl
    · rfl

theorem shouldWrite_chunks (cfg : WriterCfg) (s : WriterState) : (shouldWrite cfg s).2.chunks = s.chunks := by
  unfold shouldWrite
  split
  · rfl
  · split
    · rfl
    · exact scan_chunks _ _ _ _ _ _

theorem addItem_chunks {cfg : WriterCfg} {s s' : WriterState} {i : Nat} {x : WItem} (h : addItem cfg s i x = .ok s') :
    s.chunks <+: s'.chunks := by
  unfold addItem at h
  split at h
  · cases h
  · simp only at h
    split at h
    · have := flushIf_chunks h; rwa [shouldWrite_chunks] at this
    · split at h
      · have := flushIf_chunks h; rwa [shouldWrite_chunks] at this
      · split at h
        · have := flushIf_chunks h; rwa [shouldWrite_chunks] at this
        · cases h; exact List.prefix_rfl

/-- The invariant of a worker that has stored the outputs `ys` since it started at a checkpoint holding `cs0`. -/
structure CkInv (cfg : WriterCfg) (first : Nat) (outs : List WItem) (r : Remote) (cs0 : List (List WItem)) (ys : List WItem)
    (w : CkWorker) (pend : List WItem) : Prop where
  win : WInv cfg 0 ys w.writer pend
  idx : w.indexCounter = ys.length
  trk : Track first outs r (cs0 ++ w.writer.chunks) w.infos w.nextNumber (w.emitted.map (·.2))
  tag : ∀ e ∈ w.emitted, e.1 = 0

theorem handleInput_inv {β : Type} {cfg : WriterCfg} {first : Nat} {outs : List WItem} {r : Remote} {cs0 : List (List WItem)} {ys : List WItem}
    {w : CkWorker} {pend : List WItem} {f : β → Option WItem} (h : CkInv cfg first outs r cs0 ys w pend) (x : β) (it : WItem)
    (hx : f x = some it) (hp : cs0.flatten ++ (ys ++ [it]) <+: outs) :
    ∃ w' pend', handleInput cfg 1 f w x = .ok w' ∧ CkInv cfg first outs r cs0 (ys ++ [it]) w' pend' := by
  obtain ⟨s', pend', h1, h2⟩ := addItem_spec cfg 0 ys w.writer pend h.win it
  rw [Nat.zero_add] at h1
  obtain ⟨new, hnew⟩ := addItem_chunks h1
  have hdrop : s'.chunks.drop w.writer.chunks.length = new := by rw [← hnew]; simp
  have htr := (Track.chunks new h.trk (by
      intro c hc
      exact h2.ok.ne c (by rw [← hnew]; exact List.mem_append_right _ hc)) (by
      refine List.IsPrefix.trans ?_ hp
      rw [h2.all, List.append_assoc, hnew, List.flatten_append]
      exact ⟨pend', by simp⟩)).ckpt
  have hw : handleInput cfg 1 f w x = .ok (CkWorker.mk s' (w.infos ++ infosOf (numbered w.nextNumber new))
      (w.nextNumber + (numbered w.nextNumber new).length) (w.counter + 1) (w.indexCounter + 1)
      (w.emitted ++ (numbered w.nextNumber new).map (fun e => (w.counter % 1, Upload.chunk e.1 e.2)) ++
        (saveCheckpoint (w.infos ++ infosOf (numbered w.nextNumber new))).toList.map (fun c => (w.counter % 1, Upload.ckpt c)))) := by
    unfold handleInput
    rw [hx]
    simp only [h.idx, h1, Except.bind, hdrop]
  refine ⟨_, pend', hw, ⟨h2, by simp [h.idx], ?_, ?_⟩⟩
  · rw [List.append_assoc, hnew] at htr
    simpa [Function.comp_def] using htr
  · intro e he
    simp only [List.mem_append, List.mem_map] at he
    rcases he with (he | ⟨_, _, rfl⟩) | ⟨_, _, rfl⟩
    · exact h.tag e he
    · exact Nat.mod_one _
    · exact Nat.mod_one _

theorem handleInputs_inv {β : Type} {cfg : WriterCfg} {first : Nat} {outs : List WItem} {r : Remote} {cs0 : List (List WItem)}
    {f : β → Option WItem} (g : β → WItem) (xs : List β) : ∀ {ys : List WItem} {w : CkWorker} {pend : List WItem},
    CkInv cfg first outs r cs0 ys w pend → (∀ x ∈ xs, f x = some (g x)) → cs0.flatten ++ (ys ++ xs.map g) <+: outs →
    ∃ w' pend', handleInputs cfg 1 f w xs = .ok w' ∧ CkInv cfg first outs r cs0 (ys ++ xs.map g) w' pend' := by
  induction xs with
  | nil => intro ys w pend h _ _; exact ⟨w, pend, rfl, by simpa using h⟩
  | cons x xs ih =>
    intro ys w pend h hx hp
    obtain ⟨w1, p1, h1, h2⟩ := handleInput_inv h x (g x) (hx x List.mem_cons_self) (by
      refine List.IsPrefix.trans ?_ hp
      exact ⟨xs.map g, by simp⟩)
    obtain ⟨w2, p2, h3, h4⟩ := ih h2 (fun y hy => hx y (List.mem_cons_of_mem _ hy)) (by simpa using hp)
    refine ⟨w2, p2, ?_, by simpa using h4⟩
    unfold handleInputs
    rw [h1]
    exact h3

theorem readIndex_eq (files : List (Nat × List WItem)) (infos : List CkInfo) : ∀ cs : List (List WItem),
    infos.map (fun i => fileGet files i.number) = cs.map some → readIndex files infos = some cs.flatten := by
  induction infos with
  | nil => intro cs h; cases cs with
    | nil => rfl
    | cons c cs => simp at h
  | cons i is ih =>
    intro cs h
    cases cs with
    | nil => simp at h
    | cons c cs =>
      simp only [List.map_cons, List.cons.injEq] at h
      unfold readIndex
      rw [h.1, ih cs h.2]
      rfl

end LitData
