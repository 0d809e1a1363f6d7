import Verif.Props.Append
import Verif.Model.Entry
import Verif.Props.NumpyItems
import Verif.Props.Modes

/-! Property C70: what `map` and `optimize` refuse, what they leave of the output then, and how they hand the inputs to the workers. -/

namespace LitData.Props
open LitData

/-- Inputs that are refused before anything is done. -/
def BadInputs (a : CallArgs) : Prop :=
  a.inputs = .other ∨ a.inputs = .list [] ∨ a.inputs = .tuple [] ∨ a.inputs = .loader 0 ∨
  ∃ n, a.inputs = .loader n ∧ (a.batchSize ≠ none ∨ a.weights ≠ none)

/-- Arguments that `optimize` refuses before it does anything. -/
def RefusedEarly (env : CallEnv) (a : OptimizeArgs) : Prop :=
  (∃ s, a.mode = .other s) ∨ BadInputs a.toCallArgs ∨ (a.chunkSize = false ∧ a.chunkBytes = false) ∨
  (env.inStudio = false ∧ (a.machine = true ∨ a.numNodes ≠ none))

theorem checkInputs_iff (a : CallArgs) : (BadInputs a → checkInputs a = .error .valueError) ∧ (¬ BadInputs a → checkInputs a = .ok ()) := by
  unfold checkInputs BadInputs
  cases hi : a.inputs with
  | list l => by_cases h : l = [] <;> simp [h]
  | tuple l => by_cases h : l = [] <;> simp [h]
  | other => simp
  | loader n =>
    cases hb : a.batchSize <;> cases hw : a.weights <;> by_cases h : n = 0 <;> simp [h]

theorem checkStudio_iff (env : CallEnv) (a : CallArgs) :
    ((env.inStudio = false ∧ (a.machine = true ∨ a.numNodes ≠ none)) → checkStudio env a = .error .valueError) ∧
    (¬ (env.inStudio = false ∧ (a.machine = true ∨ a.numNodes ≠ none)) → checkStudio env a = .ok ()) := by
  unfold checkStudio
  cases env.inStudio <;> cases a.machine <;> cases a.numNodes <;> simp

/-- The checks are passed or raise ValueError. -/
theorem optimizeChecks_iff (env : CallEnv) (a : OptimizeArgs) :
    (RefusedEarly env a → optimizeChecks env a = .error .valueError) ∧ (¬ RefusedEarly env a → optimizeChecks env a = .ok ()) := by
  have h1 := checkInputs_iff a.toCallArgs
  have h2 := checkStudio_iff env a.toCallArgs
  unfold optimizeChecks RefusedEarly
  by_cases hb : BadInputs a.toCallArgs
  · rw [h1.1 hb]
    cases a.mode <;> simp [hb, bind, Except.bind]
  · rw [h1.2 hb]
    by_cases hs : env.inStudio = false ∧ (a.machine = true ∨ a.numNodes ≠ none)
    · rw [h2.1 hs]
      cases a.mode <;> cases a.chunkSize <;> cases a.chunkBytes <;> simp [hb, hs, bind, Except.bind]
    · rw [h2.2 hs]
      cases a.mode <;> cases a.chunkSize <;> cases a.chunkBytes <;> simp only [hb, hs, bind, Except.bind] <;> simp

/-- **C70, checked first.** Such arguments raise ValueError, and the output stays as it was. -/
theorem c70_refused_early (env : CallEnv) (a : OptimizeArgs) (h : RefusedEarly env a) (o : Outputs) : env.optimizeCall a o = (.error .valueError, o) := by
  unfold CallEnv.optimizeCall
  rw [(optimizeChecks_iff env a).1 h]

/-- The same for `map`, which has no mode and no limits of chunks. -/
theorem c70_map_refused_early (env : CallEnv) (a : CallArgs) (h : BadInputs a ∨ (env.inStudio = false ∧ (a.machine = true ∨ a.numNodes ≠ none)))
    (e : Bool) (o : Outputs) : env.mapCall a e o = .error .valueError := by
  unfold CallEnv.mapCall
  by_cases hb : BadInputs a
  · rw [(checkInputs_iff a).1 hb]; rfl
  · rw [(checkInputs_iff a).2 hb, (checkStudio_iff env a).1 (h.resolve_left hb)]; rfl

/-- The part of `optimize` after the removal of the old dataset. -/
def afterClear (env : CallEnv) (a : OptimizeArgs) (d : UserDir) (o : Outputs) : Py CallResult × Outputs :=
  match env.optimizePrepare a o d with
  | .error e => (.error e, o)
  | .ok (input, starts) => match (if a.useCheckpoint then (.ok (), o) else o.cleanup d) with
    | (.error e, o) => (.error e, o)
    | (.ok (), o) => match env.runItems a.toCallArgs input none (a.useCheckpoint && a.isGenerator) with
      | .error e => (.error e, o)
      | .ok ws => (.ok (.started ⟨d, input, starts, ws⟩), o)

theorem optimizeCall_eq (env : CallEnv) (a : OptimizeArgs) (o : Outputs) (h : ¬ RefusedEarly env a) (hr : runsHere env a.toCallArgs = true) (d : UserDir)
    (hd : env.optimizeOutput a = .ok d) (hc : inCloudspaces d = false) :
    env.optimizeCall a o = match o.clear d a.mode a.useCheckpoint with
      | (.error e, o) => (.error e, o)
      | (.ok (), o) => afterClear env a d o := by
  unfold CallEnv.optimizeCall afterClear
  rw [(optimizeChecks_iff env a).2 h]
  simp only [hr, Bool.not_true, Bool.false_eq_true, if_false, hd, hc]
  rfl

/-- What the preparation has found. -/
theorem optimizePrepare_ok (env : CallEnv) (a : OptimizeArgs) (o : Outputs) (d input : UserDir) (starts : List Nat)
    (h : env.optimizePrepare a o d = .ok (input, starts)) :
    env.resolveInput a.toCallArgs = .ok input ∧ ¬ (a.chunkSize = true ∧ a.chunkBytes = true) ∧
    (a.mode ≠ .append → starts = List.replicate (env.workers a.toCallArgs).toNat 0) ∧
    ∀ names, a.mode = .append → env.existing o d = .ok (some names) → startingChunks (env.workers a.toCallArgs).toNat names = .ok starts := by
  unfold CallEnv.optimizePrepare at h
  cases hi : env.resolveInput a.toCallArgs with
  | error e => rw [hi] at h; cases h
  | ok inp =>
    rw [hi] at h
    simp only [bind, Except.bind] at h
    by_cases hm : a.mode = .append
    · simp only [hm, if_true] at h
      cases he : env.existing o d with
      | error e => rw [he] at h; cases h
      | ok old =>
        rw [he] at h
        cases old with
        | none =>
          simp only at h
          split at h
          · cases h
          · rename_i hlim
            simp only [Except.ok.injEq, Prod.mk.injEq] at h
            obtain ⟨rfl, rfl⟩ := h
            exact ⟨rfl, by simpa using hlim, fun hh => absurd hm hh, fun names _ hn => by cases hn⟩
        | some names =>
          simp only at h
          cases hs : startingChunks (env.workers a.toCallArgs).toNat names with
          | error e => rw [hs] at h; cases h
          | ok st =>
            rw [hs] at h
            simp only at h
            split at h
            · cases h
            · rename_i hlim
              simp only [Except.ok.injEq, Prod.mk.injEq] at h
              obtain ⟨rfl, rfl⟩ := h
              refine ⟨rfl, by simpa using hlim, fun hh => absurd hm hh, fun names' _ hn => ?_⟩
              injection hn with hn
              injection hn with hn
              rw [← hn]
              exact hs
    · simp only [hm, if_false] at h
      split at h
      · cases h
      · rename_i hlim
        simp only [Except.ok.injEq, Prod.mk.injEq] at h
        obtain ⟨rfl, rfl⟩ := h
        exact ⟨rfl, by simpa using hlim, fun _ => rfl, fun names hh => absurd hh hm⟩

/-- What a call that starts has gone through. -/
theorem optimizeCall_began (env : CallEnv) (a : OptimizeArgs) (o o' : Outputs) (p : RunPlan) (h : env.optimizeCall a o = (.ok (.started p), o')) :
    ¬ RefusedEarly env a ∧ runsHere env a.toCallArgs = true ∧ env.optimizeOutput a = .ok p.output ∧ env.resolveInput a.toCallArgs = .ok p.input ∧
    ¬ (a.chunkSize = true ∧ a.chunkBytes = true) ∧
    env.runItems a.toCallArgs p.input none (a.useCheckpoint && a.isGenerator) = .ok p.workers ∧
    ∃ o1, (a.mode = .append → o1 = o) ∧ env.optimizePrepare a o1 p.output = .ok (p.input, p.starts) := by
  by_cases hre : RefusedEarly env a
  · rw [c70_refused_early env a hre o] at h
    cases h
  refine ⟨hre, ?_⟩
  cases hr : runsHere env a.toCallArgs with
  | false =>
    unfold CallEnv.optimizeCall at h
    rw [(optimizeChecks_iff env a).2 hre] at h
    simp [hr] at h
  | true =>
    refine ⟨rfl, ?_⟩
    cases hd : env.optimizeOutput a with
    | error e =>
      unfold CallEnv.optimizeCall at h
      rw [(optimizeChecks_iff env a).2 hre] at h
      simp [hr, hd] at h
    | ok d =>
      cases hc : inCloudspaces d with
      | true =>
        unfold CallEnv.optimizeCall at h
        rw [(optimizeChecks_iff env a).2 hre] at h
        simp [hr, hd, hc] at h
      | false =>
        rw [optimizeCall_eq env a o hre hr d hd hc] at h
        split at h
        · cases h
        · rename_i o1 hclear
          have ho1 : a.mode = .append → o1 = o := by
            intro hm
            rw [hm] at hclear
            simp only [Outputs.clear, Prod.mk.injEq, true_and] at hclear
            exact hclear.symm
          unfold afterClear at h
          cases hp : env.optimizePrepare a o1 d with
          | error e => rw [hp] at h; cases h
          | ok is =>
            obtain ⟨input, starts⟩ := is
            rw [hp] at h
            simp only at h
            split at h
            · cases h
            · cases hw : env.runItems a.toCallArgs input none (a.useCheckpoint && a.isGenerator) with
              | error e => rw [hw] at h; cases h
              | ok ws =>
                rw [hw] at h
                simp only [Prod.mk.injEq, Except.ok.injEq, CallResult.started.injEq] at h
                obtain ⟨rfl, _⟩ := h
                obtain ⟨h1, h2, _⟩ := optimizePrepare_ok env a o1 d input starts hp
                exact ⟨rfl, h1, h2, hw, o1, ho1, hp⟩

theorem optimizeCall_started (env : CallEnv) (a : OptimizeArgs) (o o' : Outputs) (p : RunPlan) (h : env.optimizeCall a o = (.ok (.started p), o')) :
    ¬ RefusedEarly env a ∧ runsHere env a.toCallArgs = true ∧ env.optimizeOutput a = .ok p.output ∧ env.resolveInput a.toCallArgs = .ok p.input ∧
    ¬ (a.chunkSize = true ∧ a.chunkBytes = true) ∧
    env.runItems a.toCallArgs p.input none (a.useCheckpoint && a.isGenerator) = .ok p.workers := by
  obtain ⟨h1, h2, h3, h4, h5, h6, _⟩ := optimizeCall_began env a o o' p h
  exact ⟨h1, h2, h3, h4, h5, h6⟩

theorem liftBucket_keeps {α : Type} (o : Objects α) (bucket : PathStr) (f : Bucket → Py Unit × Bucket) (h : ∀ b, (f b).2 = b) : (liftBucket o bucket f).2 = o := by
  unfold liftBucket
  simp only [h]
  rw [List.filter_eq_self]
  intro e he
  by_cases hb : e.1.1 = bucket
  · rw [Bool.or_eq_true]
    right
    rw [List.any_eq_true]
    refine ⟨(e.1.2, []), List.mem_map.2 ⟨e.1.2, ?_, rfl⟩, by simp⟩
    refine (sortBy_perm lexLe _).symm.subset (List.mem_map.2 ⟨e, List.mem_filter.2 ⟨he, by simpa using hb⟩, rfl⟩)
  · rw [Bool.or_eq_true]
    left
    simpa using hb

/-- In append mode, and when an unfinished run is resumed, nothing is removed at the start. -/
theorem clear_keeps (o : Outputs) (d : UserDir) (mode : OptMode) (ck : Bool) (h : mode = .append ∨ (mode = .none ∧ ck = true)) : (o.clear d mode ck).2 = o := by
  rcases h with rfl | ⟨rfl, rfl⟩
  · rfl
  · unfold Outputs.clear
    simp only
    cases d.url with
    | none =>
      simp only
      cases nonEmpty d.path with
      | none => rfl
      | some p =>
        have := (c36_kept (pathParts p) true o.files .s3 [] false []).2.2.2.2.1
        simp only [this]
    | some url =>
      simp only
      cases fsProvider url with
      | error e => rfl
      | ok st =>
        simp only
        cases bucketAndPath url st.scheme with
        | error e => rfl
        | ok k =>
          have := liftBucket_keeps o.objects k.1 (assertDirRemote st k.2 .none true false) fun b => (c36_kept [] true [] st k.2 false b).2.2.2.2.2
          simp only [this]

/-- **C70, nothing is lost with checkpoints.** With `use_checkpoint`, in append mode or without a mode, a call leaves the output as it was until the workers
start, whether it is refused or not. -/
theorem c70_checkpoint_keeps (env : CallEnv) (a : OptimizeArgs) (hck : a.useCheckpoint = true) (hm : a.mode = .append ∨ a.mode = .none) (o : Outputs) :
    (env.optimizeCall a o).2 = o := by
  unfold CallEnv.optimizeCall
  have hc := fun d => clear_keeps o d a.mode true (by rcases hm with h | h <;> simp [h])
  split
  · rfl
  · split
    · rfl
    · split
      · rfl
      · split
        · rfl
        · rename_i d _ _
          have hcd := hc d
          rw [hck]
          generalize o.clear d a.mode true = c at *
          obtain ⟨c1, c2⟩ := c
          simp only at hcd
          subst hcd
          cases c1 with
          | error e => rfl
          | ok u =>
            simp only
            cases env.optimizePrepare a c2 d with
            | error e => rfl
            | ok is =>
              simp only
              cases env.runItems a.toCallArgs is.1 none (true && a.isGenerator) <;> rfl

/-- **C70, without a mode.** If the local output directory holds an index, the call is refused and nothing is lost. -/
theorem c70_none_keeps (env : CallEnv) (a : OptimizeArgs) (hm : a.mode = .none) (p : PathStr) (hp : p ≠ []) (hd : env.optimizeOutput a = .ok ⟨some p, none⟩)
    (hr : runsHere env a.toCallArgs = true) (o : Outputs) (b : Bytes) (h : (pathParts p ++ ["index.json"], b) ∈ o.files) :
    ∃ e, env.optimizeCall a o = (.error e, o) := by
  by_cases hre : RefusedEarly env a
  · exact ⟨_, c70_refused_early env a hre o⟩
  · rw [optimizeCall_eq env a o hre hr _ hd rfl, hm]
    have : o.clear ⟨some p, none⟩ .none a.useCheckpoint = (.error .runtimeError, o) := by
      unfold Outputs.clear
      have hn : nonEmpty (some p) = some p := by simp [nonEmpty, hp]
      simp only [hn, c36_none_refuses (pathParts p) a.useCheckpoint o.files b h]
    rw [this]
    exact ⟨_, rfl⟩

/-- **C70, append mode.** Whether the call is refused or not, only checkpoints are removed from a local output directory. -/
theorem c70_append_keeps (env : CallEnv) (a : OptimizeArgs) (hm : a.mode = .append) (p : PathStr) (hd : env.optimizeOutput a = .ok ⟨some p, none⟩)
    (o : Outputs) :
    (env.optimizeCall a o).2.objects = o.objects ∧ (∀ e ∈ (env.optimizeCall a o).2.files, e ∈ o.files) ∧
    ∀ e ∈ o.files, e ∉ (env.optimizeCall a o).2.files → ∃ rest, e.1 = pathParts p ++ ".checkpoints" :: rest := by
  have hclean : ∀ o' : Outputs, (o'.cleanup ⟨some p, none⟩).2.objects = o'.objects ∧ (∀ e ∈ (o'.cleanup ⟨some p, none⟩).2.files, e ∈ o'.files) ∧
      ∀ e ∈ o'.files, e ∉ (o'.cleanup ⟨some p, none⟩).2.files → ∃ rest, e.1 = pathParts p ++ ".checkpoints" :: rest := by
    intro o'
    unfold Outputs.cleanup
    simp only
    split
    · unfold LocalFs.rmtree
      split
      · rename_i h
        split at h
        · cases h
        · injection h with h
          subst h
          refine ⟨rfl, fun e he => (List.mem_filter.1 he).1, fun e he hn => ?_⟩
          have : (pathParts p ++ [".checkpoints"]).isPrefixOf e.1 = true := by
            refine Classical.byContradiction fun hc => hn (List.mem_filter.2 ⟨he, ?_⟩)
            rw [Bool.eq_false_iff.2 hc]
            rfl
          obtain ⟨rest, hrest⟩ := List.isPrefixOf_iff_prefix.1 this
          exact ⟨rest, by rw [← hrest]; simp⟩
      · exact ⟨rfl, fun e he => he, fun e he hn => absurd he hn⟩
    · exact ⟨rfl, fun e he => he, fun e he hn => absurd he hn⟩
  have hself : o.objects = o.objects ∧ (∀ e ∈ o.files, e ∈ o.files) ∧ ∀ e ∈ o.files, e ∉ o.files → ∃ rest, e.1 = pathParts p ++ ".checkpoints" :: rest :=
    ⟨rfl, fun e he => he, fun e he hn => absurd he hn⟩
  by_cases hre : RefusedEarly env a
  · rw [c70_refused_early env a hre o]; exact hself
  · cases hr : runsHere env a.toCallArgs with
    | false =>
      have : env.optimizeCall a o = (.ok .launched, o) := by
        unfold CallEnv.optimizeCall
        rw [(optimizeChecks_iff env a).2 hre]
        simp [hr]
      rw [this]; exact hself
    | true =>
      rw [optimizeCall_eq env a o hre hr _ hd rfl, hm]
      show (afterClear env a ⟨some p, none⟩ o).2.objects = _ ∧ (∀ e ∈ (afterClear env a ⟨some p, none⟩ o).2.files, e ∈ o.files) ∧
        ∀ e ∈ o.files, e ∉ (afterClear env a ⟨some p, none⟩ o).2.files → _
      unfold afterClear
      cases env.optimizePrepare a o ⟨some p, none⟩ with
      | error e => exact hself
      | ok is =>
        simp only
        cases a.useCheckpoint with
        | true =>
          simp only [if_true]
          cases env.runItems a.toCallArgs is.1 none (true && a.isGenerator) <;> exact hself
        | false =>
          have hc := hclean o
          simp only [Bool.false_eq_true, if_false]
          generalize o.cleanup ⟨some p, none⟩ = c at hc
          obtain ⟨c1, c2⟩ := c
          cases c1 with
          | error e => exact hc
          | ok u =>
            simp only
            cases env.runItems a.toCallArgs is.1 none (false && a.isGenerator) <;> exact hc

/-- The mapping fails for every negative number of workers. -/
theorem assign_negative (env : CallEnv) (n : Int) (hn : n < 0) (items : List UserItem) (hne : items ≠ []) (weights : Option (List Int)) (reorder : Bool) :
    ∃ e, env.assign n items weights reorder = .error e := by
  have hpack : ∀ ws, ∃ e, packGreedily items ws 0 = .error e := by
    intro ws
    obtain ⟨h1, h2, h3⟩ := c24_refused items ws 0
    by_cases hl : items.length = ws.length
    · by_cases hp : ∃ w ∈ ws, w ≤ 0
      · exact ⟨_, h2 hp⟩
      · refine ⟨_, h3 hl (fun w hw => ?_) hne⟩
        rcases Int.lt_or_le 0 w with h | h
        · exact h
        · exact absurd ⟨w, hw, h⟩ hp
    · exact ⟨_, h1 hl⟩
  unfold CallEnv.assign
  rw [if_neg (by omega)]
  cases weights with
  | some ws =>
    simp only
    split
    · exact ⟨_, rfl⟩
    · obtain ⟨e, he⟩ := hpack ws
      exact ⟨e, by rw [he]; rfl⟩
  | none =>
    simp only
    split
    · cases hm : items.mapM (itemBytes env.fileSizes) with
      | error e => exact ⟨e, rfl⟩
      | ok sizes =>
        obtain ⟨e, he⟩ := hpack sizes
        exact ⟨e, by simp only [bind, Except.bind, he]; rfl⟩
    · exact ⟨_, rfl⟩

theorem preparedItems_ne (a : CallArgs) (hb : ¬ BadInputs a) (items : List UserItem) (h : preparedItems a = .ok items) : items ≠ [] := by
  have hgroups : ∀ (l : List UserItem) (gs : List (List UserItem)), l ≠ [] → batchInputs a.batchSize l = .inr gs → gs ≠ [] := by
    intro l gs hl hgs
    cases hbs : a.batchSize with
    | none => rw [hbs] at hgs; cases hgs
    | some b =>
      rw [hbs] at hgs
      by_cases h1 : 1 < b
      · obtain ⟨groups, g1, g2, _⟩ := c40_groups b.toNat (by omega) l
        rw [show ((b.toNat : Nat) : Int) = b by omega, hgs] at g1
        injection g1 with g1
        subst g1
        rintro rfl
        exact hl (by simpa using g2.symm)
      · rw [c40_no_groups (some b) (by intro n hn; injection hn; omega)] at hgs
        cases hgs
  unfold preparedItems at h
  unfold BadInputs at hb
  cases hi : a.inputs with
  | other => rw [hi] at h; cases h
  | loader n =>
    rw [hi] at h
    simp only [Except.ok.injEq] at h
    subst h
    intro hn
    have : n ≠ 0 := by
      rintro rfl
      exact hb (by simp [hi])
    have := congrArg List.length hn
    simp at this
    omega
  | list l =>
    rw [hi] at h
    have hl : l ≠ [] := by rintro rfl; exact hb (by simp [hi])
    simp only at h
    cases hg : batchInputs a.batchSize l with
    | inl l' =>
      rw [hg] at h
      simp only [Except.ok.injEq] at h
      subst h
      cases hbs : a.batchSize with
      | none => rw [hbs] at hg; injection hg with hg; rw [← hg]; exact hl
      | some b =>
        rw [hbs] at hg
        unfold batchInputs at hg
        simp only at hg
        split at hg
        · cases hg
        · injection hg with hg; rw [← hg]; exact hl
    | inr gs =>
      rw [hg] at h
      simp only [Except.ok.injEq] at h
      subst h
      have := hgroups l gs hl hg
      simpa using this
  | tuple l =>
    rw [hi] at h
    have hl : l ≠ [] := by rintro rfl; exact hb (by simp [hi])
    simp only at h
    cases hg : batchInputs a.batchSize l with
    | inl l' => rw [hg] at h; cases h
    | inr gs =>
      rw [hg] at h
      simp only [Except.ok.injEq] at h
      subst h
      have := hgroups l gs hl hg
      simpa using this

/-- Arguments that are refused only after the old dataset is removed: both limits of a chunk, a tuple of inputs, a generator with checkpoints, a negative number of
workers, or file names in the second input but not in the first. -/
def RefusedLate (env : CallEnv) (a : OptimizeArgs) : Prop :=
  (a.chunkSize = true ∧ a.chunkBytes = true) ∨ (∃ l, a.inputs = .tuple l ∧ a.batchSize = none) ∨ (a.useCheckpoint = true ∧ a.isGenerator = true) ∨
  (∃ n, a.numWorkers = some n ∧ n < 0) ∨
  (∃ x y l, a.inputs = .list (x :: y :: l) ∧ a.inputDir = none ∧ env.indexedPaths x = [] ∧ env.indexedPaths y ≠ [])

theorem refusedLate_not_started (env : CallEnv) (a : OptimizeArgs) (h : RefusedLate env a) (o o' : Outputs) (p : RunPlan) :
    env.optimizeCall a o ≠ (.ok (.started p), o') := by
  intro hst
  obtain ⟨h1, h2, h3, h4, h5, h6⟩ := optimizeCall_started env a o o' p hst
  have hb : ¬ BadInputs a.toCallArgs := fun hb => h1 (.inr (.inl hb))
  unfold CallEnv.runItems at h6
  cases hi : preparedItems a.toCallArgs with
  | error e => rw [hi] at h6; cases h6
  | ok items =>
    rw [hi] at h6
    simp only [bind, Except.bind] at h6
    rcases h with h | ⟨l, h, hbs⟩ | ⟨hc, hg⟩ | ⟨n, hn, hneg⟩ | ⟨x, y, l, hl, hd, hx, hy⟩
    · exact h5 h
    · unfold preparedItems at hi
      rw [h, hbs] at hi
      cases hi
    · split at h6
      · cases h6
      · rw [hc, hg] at h6
        cases h6
    · have hw : env.workers a.toCallArgs = n := by
        unfold CallEnv.workers
        rw [hn]
        simp only
        rw [if_neg (by omega)]
      rw [hw] at h6
      obtain ⟨e, he⟩ := assign_negative env n hneg items (preparedItems_ne _ hb items hi) none (a.reorder && p.input.path.isSome)
      rw [he] at h6
      cases h6
    · unfold CallEnv.resolveInput at h4
      rw [hl, hd] at h4
      simp only [nonEmpty, Option.filter, CallEnv.inferInputDir, hx, List.head?_cons, hy, if_false] at h4
      cases h4

/-- **C70, refuted: a refused call removes the dataset.** With `mode="overwrite"` and such arguments, the call raises although the dataset in the local output
directory is gone: neither its index nor a chunk is left. -/
theorem c70_overwrite_destroys (env : CallEnv) (a : OptimizeArgs) (h : RefusedLate env a) (hre : ¬ RefusedEarly env a) (hm : a.mode = .overwrite) (p : PathStr) (hp : p ≠ [])
    (hd : env.optimizeOutput a = .ok ⟨some p, none⟩) (hr : runsHere env a.toCallArgs = true) (o : Outputs)
    (hdir : ∀ e ∈ o.files, ∀ n rest, e.1 = pathParts p ++ n :: rest → isBin n = true ∨ n = "index.json" → rest = [])
    (hck : ∀ e ∈ o.files, e.1 ≠ pathParts p ++ [".checkpoints"]) :
    ∃ e, (env.optimizeCall a o).1 = .error e ∧
      ∀ f ∈ (env.optimizeCall a o).2.files, f.1 ≠ pathParts p ++ ["index.json"] ∧ ∀ n, isBin n = true → f.1 ≠ pathParts p ++ [n] := by
  have hcall := optimizeCall_eq env a o hre hr _ hd rfl
  have hn : nonEmpty (some p) = some p := by simp [nonEmpty, hp]
  have hclear : o.clear ⟨some p, none⟩ a.mode a.useCheckpoint = ((assertDirLocal (pathParts p) .overwrite a.useCheckpoint o.files).1,
      { o with files := (assertDirLocal (pathParts p) .overwrite a.useCheckpoint o.files).2 }) := by
    unfold Outputs.clear
    rw [hm]
    simp only [hn]
  have hok := c36_overwrite_returns (pathParts p) a.useCheckpoint o.files hdir hck
  have hgone := c36_overwrite_clears (pathParts p) a.useCheckpoint o.files hok
  rw [hclear, hok] at hcall
  simp only at hcall
  generalize assertDirLocal (pathParts p) .overwrite a.useCheckpoint o.files = r at hcall hgone
  have hsub : ∀ f ∈ (afterClear env a ⟨some p, none⟩ { o with files := r.2 }).2.files, f ∈ r.2 := by
    unfold afterClear
    cases env.optimizePrepare a { o with files := r.2 } ⟨some p, none⟩ with
    | error e => exact fun f hf => hf
    | ok is =>
      simp only
      cases a.useCheckpoint with
      | true =>
        simp only [if_true]
        cases env.runItems a.toCallArgs is.1 none (true && a.isGenerator) <;> exact fun f hf => hf
      | false =>
        simp only [Bool.false_eq_true, if_false]
        have hc : ∀ f ∈ (Outputs.cleanup { o with files := r.2 } ⟨some p, none⟩).2.files, f ∈ r.2 := by
          unfold Outputs.cleanup
          simp only
          split
          · unfold LocalFs.rmtree
            split
            · rename_i h
              split at h
              · cases h
              · injection h with h
                subst h
                exact fun f hf => (List.mem_filter.1 hf).1
            · exact fun f hf => hf
          · exact fun f hf => hf
        generalize Outputs.cleanup { o with files := r.2 } ⟨some p, none⟩ = c at hc
        obtain ⟨c1, c2⟩ := c
        cases c1 with
        | error e => exact hc
        | ok u =>
          simp only
          cases env.runItems a.toCallArgs is.1 none (false && a.isGenerator) <;> exact hc
  rw [hcall]
  cases hres : afterClear env a ⟨some p, none⟩ { o with files := r.2 } with
  | mk r1 r2 =>
    rw [hres] at hsub hcall
    cases r1 with
    | error e =>
      refine ⟨e, rfl, fun f hf => ?_⟩
      have := hgone f (hsub f hf)
      exact ⟨this.1, this.2.1⟩
    | ok q =>
      exfalso
      cases q with
      | started pl => exact refusedLate_not_started env a h o r2 pl hcall
      | launched =>
        unfold afterClear at hres
        split at hres
        · cases hres
        · split at hres
          · cases hres
          · split at hres <;> cases hres

/-- The call on node `r` of a job: the nodes share everything but their rank and the permutations that they draw. -/
def onNode (env : CallEnv) (draw : Nat → Nat → List UserItem → List UserItem) (r : Nat) : CallEnv := { env with nodeRank := r, draw := draw r }

theorem packGreedily_ok {items : List UserItem} {ws : List Int} {n : Nat} {bins} (h : packGreedily items ws n = .ok bins) :
    items.length = ws.length ∧ ∀ w ∈ ws, 0 < w := by
  obtain ⟨h1, h2, _⟩ := c24_refused items ws n
  constructor
  · refine Classical.byContradiction fun hc => ?_
    rw [h1 hc] at h
    cases h
  · intro w hw
    rcases Int.lt_or_le 0 w with hp | hp
    · exact hp
    · rw [h2 ⟨w, hw, hp⟩] at h
      cases h

theorem flatten_parts_perm {β : Type} (outs outs0 : List (List (List β))) (hlen : outs0.length = outs.length)
    (h : ∀ (r : Nat) (o o0 : List (List β)), outs[r]? = some o → outs0[r]? = some o0 → o.length = o0.length ∧
      ∀ (i : Nat) (a b : List β), o[i]? = some a → o0[i]? = some b → a.Perm b) : outs.flatten.flatten.Perm outs0.flatten.flatten := by
  rw [List.flatten_flatten, List.flatten_flatten]
  refine flatten_eq_of_parts _ _ (by simpa using hlen.symm) ?_
  intro r a b ha hb
  rw [List.getElem?_map] at ha hb
  cases ho : outs[r]? with
  | none => rw [ho] at ha; cases ha
  | some o =>
    cases ho0 : outs0[r]? with
    | none => rw [ho0] at hb; cases hb
    | some o0 =>
      rw [ho] at ha
      rw [ho0] at hb
      simp only [Option.map_some, Option.some.injEq] at ha hb
      subst ha; subst hb
      obtain ⟨m1, m2⟩ := h r o o0 ho ho0
      exact flatten_eq_of_parts _ _ m1 m2

/-- The mapping on all nodes, when it succeeds on all of them. -/
theorem assign_nodes (env : CallEnv) (draw : Nat → Nat → List UserItem → List UserItem) (hdraw : ∀ r w l, (draw r w l).Perm l) (n : Int) (hn : 0 < n)
    (items : List UserItem) (weights : Option (List Int)) (reorder : Bool) (outs : List (List (List UserItem))) (hlen : outs.length = env.nodesVar.getD 1)
    (hN : 0 < env.nodesVar.getD 1)
    (h : ∀ (r : Nat) (o : List (List UserItem)), outs[r]? = some o → (onNode env draw r).assign n items weights reorder = .ok o) :
    (Uniform items → outs.flatten.flatten.Perm items) ∧ (weights = none → reorder = false → outs.flatten.flatten = items) ∧
    ∀ o ∈ outs, o.length = n.toNat := by
  have hnp : 0 < n.toNat := by omega
  have hmap : ∀ (r : Nat) (o : List (List UserItem)), outs[r]? = some o →
      mapItemsNp (env.nodesVar.getD 1) r n.toNat (draw r) env.fileSizes items weights reorder = .ok o := by
    intro r o ho
    have := h r o ho
    unfold CallEnv.assign at this
    rw [if_pos hn] at this
    exact this
  -- the sequential mapping
  by_cases hseq : weights = none ∧ reorder = false
  · obtain ⟨rfl, rfl⟩ := hseq
    obtain ⟨outs1, h1, h2, h3⟩ := c69_sequential (env.nodesVar.getD 1) n.toNat draw env.fileSizes items hN hnp
    have heq : outs = outs1 := by
      apply List.ext_getElem (by omega)
      intro i hi hi1
      have g1 := hmap i _ (List.getElem?_eq_getElem hi)
      have g2 := (h2 i _ (List.getElem?_eq_getElem hi1)).1
      rw [g1] at g2
      injection g2
    subst heq
    refine ⟨fun _ => by rw [h3], fun _ _ => h3, ?_⟩
    intro o ho
    obtain ⟨r, hr, rfl⟩ := List.getElem_of_mem ho
    exact (h2 r _ (List.getElem?_eq_getElem hr)).2
  · -- by weights
    have h0 : 0 < outs.length := by omega
    obtain ⟨ws, hws⟩ : ∃ ws : List Int, ∀ (r : Nat) (o : List (List UserItem)), outs[r]? = some o →
        mapWeightedNp (env.nodesVar.getD 1) r n.toNat (draw r) items (some ws) = .ok o := by
      cases weights with
      | some ws =>
        refine ⟨ws, fun r o ho => ?_⟩
        have := hmap r o ho
        unfold mapItemsNp at this
        simp only at this
        split at this
        · cases this
        · exact this
      | none =>
        have hre : reorder = true := by
          cases reorder with
          | true => rfl
          | false => exact absurd ⟨rfl, rfl⟩ hseq
        subst hre
        cases hm : items.mapM (itemBytes env.fileSizes) with
        | error e =>
          exfalso
          have := hmap 0 _ (List.getElem?_eq_getElem h0)
          unfold mapItemsNp at this
          simp only [if_true, hm] at this
          cases this
        | ok sizes =>
          refine ⟨sizes, fun r o ho => ?_⟩
          have := hmap r o ho
          unfold mapItemsNp at this
          simp only [if_true, hm] at this
          exact this
    have hpos : items.length = ws.length ∧ ∀ w ∈ ws, 0 < w := by
      have := hws 0 _ (List.getElem?_eq_getElem h0)
      unfold mapWeightedNp at this
      cases hp : packGreedily items ((some ws).getD (List.replicate items.length 1)) (env.nodesVar.getD 1 * n.toNat) with
      | error e => rw [hp] at this; cases this
      | ok bins => exact packGreedily_ok hp
    obtain ⟨outs1, k1, k2, k3⟩ := np_nodes (env.nodesVar.getD 1) n.toNat draw hdraw items ws hpos.1 hpos.2 hN hnp outs hlen hws
    refine ⟨fun hu => ?_, fun h1 h2 => absurd ⟨h1, h2⟩ hseq, ?_⟩
    · refine (flatten_parts_perm outs outs1 k1 ?_).trans k2
      intro r o o0 ho ho0
      obtain ⟨m1, m2⟩ := k3 r o o0 ho ho0
      refine ⟨m1, fun i x y hx hy => ?_⟩
      have hsub : Uniform y := hu.sub y fun z hz =>
        k2.subset (List.mem_flatten.2 ⟨y, List.mem_flatten.2 ⟨o0, List.mem_of_getElem? ho0, List.mem_of_getElem? hy⟩, hz⟩)
      have := m2 i x y hx hy
      rwa [uniform_conv hsub] at this
    · intro o ho
      obtain ⟨r, hr, rfl⟩ := List.getElem_of_mem ho
      obtain ⟨q, hq, hql, _⟩ := mapWeightedNp_ok _ _ _ _ _ _ _ (hws r _ (List.getElem?_eq_getElem hr))
      obtain ⟨outs0, g1, g2, _⟩ := c24_nodes (env.nodesVar.getD 1) n.toNat (fun _ _ l => l) (fun _ _ l => List.Perm.refl l) items ws hpos.1 hpos.2 hN hnp
      have h5 := g2 r outs0[r] (List.getElem?_eq_getElem (by omega))
      rw [h5.1] at hq
      injection hq with hq
      rw [← hql, ← hq]
      exact h5.2

/-- What the workers of a node get, without `fast_dev_run`. -/
theorem runItems_ok (env : CallEnv) (a : CallArgs) (hf : a.fastDevRun = .flag false) (input : UserDir) (weights : Option (List Int)) (refuse : Bool)
    (ws : List (List UserItem)) (h : env.runItems a input weights refuse = .ok ws) :
    refuse = false ∧ ∃ items, preparedItems a = .ok items ∧ env.assign (env.workers a) items weights (a.reorder && input.path.isSome) = .ok ws := by
  unfold CallEnv.runItems at h
  cases hi : preparedItems a with
  | error e => rw [hi] at h; cases h
  | ok items =>
    rw [hi] at h
    simp only [bind, Except.bind] at h
    cases ha : env.assign (env.workers a) items weights (a.reorder && input.path.isSome) with
    | error e => rw [ha] at h; cases h
    | ok ws' =>
      rw [ha, hf] at h
      cases refuse with
      | true => cases h
      | false =>
        simp only [Bool.false_eq_true, if_false, fastDevRun, Except.ok.injEq] at h
        subst h
        exact ⟨rfl, items, rfl, ha⟩

/-- All nodes of a job together, for the inputs as the recipe hands them on. -/
theorem started_nodes (env : CallEnv) (draw : Nat → Nat → List UserItem → List UserItem) (hdraw : ∀ r w l, (draw r w l).Perm l) (a : OptimizeArgs)
    (hf : a.fastDevRun = .flag false) (hdef : 0 < env.defaultWorkers) (hN : 0 < env.nodesVar.getD 1) (plans : List RunPlan) (hlen : plans.length = env.nodesVar.getD 1)
    (h : ∀ (r : Nat) (p : RunPlan), plans[r]? = some p → ∃ o o', (onNode env draw r).optimizeCall a o = (.ok (.started p), o')) :
    ∃ items, preparedItems a.toCallArgs = .ok items ∧
      (Uniform items → (plans.flatMap (·.workers)).flatten.Perm items) ∧
      (a.reorder = false ∨ (∃ u, env.resolveInput a.toCallArgs = .ok ⟨none, u⟩) → (plans.flatMap (·.workers)).flatten = items) ∧
      ∀ p ∈ plans, p.workers.length = (env.workers a.toCallArgs).toNat := by
  have h0 : 0 < plans.length := by omega
  have hnw : 0 < env.workers a.toCallArgs := by
    refine Classical.byContradiction fun hc => ?_
    have hneg : ∃ n, a.numWorkers = some n ∧ n < 0 := by
      unfold CallEnv.workers at hc
      cases hn : a.numWorkers with
      | none => rw [hn] at hc; simp only at hc; omega
      | some n =>
        rw [hn] at hc
        simp only at hc
        split at hc
        · omega
        · exact ⟨n, rfl, by omega⟩
    obtain ⟨o, o', ho⟩ := h 0 _ (List.getElem?_eq_getElem h0)
    exact refusedLate_not_started (onNode env draw 0) a (.inr (.inr (.inr (.inl hneg)))) o o' _ ho
  have hex : ∀ (r : Nat) (p : RunPlan), plans[r]? = some p → env.resolveInput a.toCallArgs = .ok p.input ∧
      ∃ items, preparedItems a.toCallArgs = .ok items ∧
        (onNode env draw r).assign (env.workers a.toCallArgs) items none (a.reorder && p.input.path.isSome) = .ok p.workers := by
    intro r p hp
    obtain ⟨o, o', ho⟩ := h r p hp
    obtain ⟨_, _, _, hi, _, hw⟩ := optimizeCall_started _ _ _ _ _ ho
    obtain ⟨_, items, hit, has⟩ := runItems_ok _ _ hf _ _ _ _ hw
    exact ⟨hi, items, hit, has⟩
  obtain ⟨hin0, items, hit, _⟩ := hex 0 _ (List.getElem?_eq_getElem h0)
  refine ⟨items, hit, ?_⟩
  have hall := assign_nodes env draw hdraw (env.workers a.toCallArgs) hnw items none (a.reorder && (plans[0].input).path.isSome) (plans.map (·.workers))
    (by simpa using hlen) hN (by
      intro r o ho
      rw [List.getElem?_map] at ho
      cases hp : plans[r]? with
      | none => rw [hp] at ho; cases ho
      | some p =>
        rw [hp] at ho
        simp only [Option.map_some, Option.some.injEq] at ho
        subst ho
        obtain ⟨g1, items', g2, g3⟩ := hex r p hp
        rw [hit] at g2
        injection g2 with g2
        subst g2
        rw [hin0] at g1
        injection g1 with g1
        rw [g1]
        exact g3)
  obtain ⟨a1, a2, a3⟩ := hall
  have hfl : plans.flatMap (·.workers) = (plans.map (·.workers)).flatten := List.flatMap_def
  rw [hfl]
  refine ⟨a1, ?_, ?_⟩
  · intro hs
    apply a2 rfl
    rcases hs with hs | ⟨u, hu⟩
    · rw [hs]; rfl
    · rw [hin0] at hu
      injection hu with hu
      rw [hu]
      simp
  · intro p hp
    exact a3 _ (List.mem_map.2 ⟨p, hp, rfl⟩)

/-- **C70, the inputs (partial).** If `optimize` is called with a list on every node of a job and starts its workers everywhere, then all workers together get the
inputs of the list: in order if the files are not reordered or no local input directory is known, and else each of them once if they are uniform (see C69 for
the others). Every node starts the number of workers that was asked for. -/
theorem c70_inputs_partial (env : CallEnv) (draw : Nat → Nat → List UserItem → List UserItem) (hdraw : ∀ r w l, (draw r w l).Perm l) (a : OptimizeArgs)
    (l : List UserItem) (hl : a.inputs = .list l) (hb : a.batchSize = none)
    (hf : a.fastDevRun = .flag false) (hdef : 0 < env.defaultWorkers) (hN : 0 < env.nodesVar.getD 1) (plans : List RunPlan) (hlen : plans.length = env.nodesVar.getD 1)
    (h : ∀ (r : Nat) (p : RunPlan), plans[r]? = some p → ∃ o o', (onNode env draw r).optimizeCall a o = (.ok (.started p), o')) :
    (Uniform l → (plans.flatMap (·.workers)).flatten.Perm l) ∧
    (a.reorder = false ∨ (∃ u, env.resolveInput a.toCallArgs = .ok ⟨none, u⟩) → (plans.flatMap (·.workers)).flatten = l) ∧
    ∀ p ∈ plans, (∀ n : Nat, 0 < n → a.numWorkers = some (n : Int) → p.workers.length = n) ∧ (a.numWorkers = some 0 → p.workers.length = 1) ∧
      (a.numWorkers = none → p.workers.length = env.defaultWorkers) := by
  obtain ⟨items, h1, h2, h3, h4⟩ := started_nodes env draw hdraw a hf hdef hN plans hlen h
  have : items = l := by
    unfold preparedItems at h1
    rw [hl, hb] at h1
    simp only [batchInputs, Except.ok.injEq] at h1
    exact h1.symm
  subst this
  refine ⟨h2, h3, fun p hp => ?_⟩
  have h5 := h4 p hp
  unfold CallEnv.workers at h5
  refine ⟨fun n hn hw => ?_, fun hw => ?_, fun hw => ?_⟩ <;> rw [hw] at h5
  · have h6 : p.workers.length = (if (n : Int) = 0 then 1 else (n : Int)).toNat := h5
    rw [if_neg (by omega)] at h6
    omega
  · exact h5
  · have h6 : p.workers.length = (env.defaultWorkers : Int).toNat := h5
    omega

/-- **C70, groups.** With a `batch_size` above one and in order, the workers get the inputs in groups: all but the last one have `batch_size` inputs, and put
together they are the list. -/
theorem c70_batches (env : CallEnv) (draw : Nat → Nat → List UserItem → List UserItem) (hdraw : ∀ r w l, (draw r w l).Perm l) (a : OptimizeArgs)
    (l : List UserItem) (hl : a.inputs = .list l) (b : Nat) (hb1 : 1 < b) (hb : a.batchSize = some (b : Int))
    (hf : a.fastDevRun = .flag false) (hdef : 0 < env.defaultWorkers) (hN : 0 < env.nodesVar.getD 1) (plans : List RunPlan) (hlen : plans.length = env.nodesVar.getD 1)
    (h : ∀ (r : Nat) (p : RunPlan), plans[r]? = some p → ∃ o o', (onNode env draw r).optimizeCall a o = (.ok (.started p), o'))
    (hseq : a.reorder = false ∨ (∃ u, env.resolveInput a.toCallArgs = .ok ⟨none, u⟩)) :
    ∃ groups : List (List UserItem), (plans.flatMap (·.workers)).flatten = groups.map .list ∧ groups.flatten = l ∧
      ∀ (j : Nat) (g : List UserItem), groups[j]? = some g → g ≠ [] ∧ g.length ≤ b ∧ (j + 1 < groups.length → g.length = b) := by
  obtain ⟨items, h1, h2, h3, h4⟩ := started_nodes env draw hdraw a hf hdef hN plans hlen h
  obtain ⟨groups, g1, g2, _, g4⟩ := c40_groups b hb1 l
  refine ⟨groups, ?_, g2, fun j g hj => ⟨(g4 j g hj).1, (g4 j g hj).2.1, (g4 j g hj).2.2.1⟩⟩
  rw [h3 hseq]
  unfold preparedItems at h1
  rw [hl, hb] at h1
  simp only [g1, Except.ok.injEq] at h1
  exact h1.symm

/-- **C70, loaders.** With a loader as inputs the workers get the numbers of its batches, in order. -/
theorem c70_loader (env : CallEnv) (draw : Nat → Nat → List UserItem → List UserItem) (hdraw : ∀ r w l, (draw r w l).Perm l) (a : OptimizeArgs)
    (n : Nat) (hl : a.inputs = .loader n)
    (hf : a.fastDevRun = .flag false) (hdef : 0 < env.defaultWorkers) (hN : 0 < env.nodesVar.getD 1) (plans : List RunPlan) (hlen : plans.length = env.nodesVar.getD 1)
    (h : ∀ (r : Nat) (p : RunPlan), plans[r]? = some p → ∃ o o', (onNode env draw r).optimizeCall a o = (.ok (.started p), o')) :
    (plans.flatMap (·.workers)).flatten = (List.range n).map fun i => .int (i : Nat) := by
  obtain ⟨items, h1, h2, h3, h4⟩ := started_nodes env draw hdraw a hf hdef hN plans hlen h
  rw [h3 (.inr ⟨none, by unfold CallEnv.resolveInput; rw [hl]⟩)]
  unfold preparedItems at h1
  rw [hl] at h1
  simp only [Except.ok.injEq] at h1
  exact h1.symm

/-- **C70, refuted: `optimize` ignores its weights.** The call does the same with any weights as without. -/
theorem c70_weights_ignored (env : CallEnv) (a : OptimizeArgs) (l : List UserItem) (hl : a.inputs = .list l) (ws : List Int) (o : Outputs) :
    env.optimizeCall { a with weights := some ws } o = env.optimizeCall { a with weights := none } o := by
  have hc : optimizeChecks env { a with weights := some ws } = optimizeChecks env { a with weights := none } := by
    unfold optimizeChecks checkInputs
    simp only [hl]
    rfl
  unfold CallEnv.optimizeCall
  rw [hc]
  rfl

theorem mapCall_started (env : CallEnv) (a : CallArgs) (e : Bool) (o : Outputs) (p : RunPlan) (h : env.mapCall a e o = .ok (.started p)) :
    ¬ BadInputs a ∧ resolveDir env.cloud a.output = .ok p.output ∧ env.resolveInput a = .ok p.input ∧ env.runItems a p.input a.weights false = .ok p.workers ∧
      (e = true → o.checkEmpty p.output = .ok ()) := by
  unfold CallEnv.mapCall at h
  have hb : ¬ BadInputs a := by
    intro hb
    rw [(checkInputs_iff a).1 hb] at h
    cases h
  rw [(checkInputs_iff a).2 hb] at h
  simp only [bind, Except.bind] at h
  cases h1 : checkStudio env a with
  | error x => rw [h1] at h; cases h
  | ok u =>
    rw [h1] at h
    simp only at h
    cases h2 : runsHere env a with
    | false => rw [h2] at h; cases h
    | true =>
      rw [h2] at h
      simp only [Bool.not_true, Bool.false_eq_true, if_false] at h
      cases h3 : resolveDir env.cloud a.output with
      | error x => rw [h3] at h; cases h
      | ok d =>
        rw [h3] at h
        simp only at h
        cases h4 : inCloudspaces d with
        | true => rw [h4] at h; cases h
        | false =>
          rw [h4] at h
          simp only [Bool.false_eq_true, if_false] at h
          have hrest : ∀ q : Py CallResult, q = (match env.resolveInput a with
              | .error err => Except.error err
              | .ok v => match env.runItems a v a.weights false with
                | .error err => Except.error err
                | .ok w => Except.ok (CallResult.started ⟨d, v, List.replicate (env.workers a).toNat 0, w⟩)) → q = .ok (.started p) →
              .ok d = (Except.ok p.output : Py UserDir) ∧ env.resolveInput a = .ok p.input ∧ env.runItems a p.input a.weights false = .ok p.workers := by
            intro q hq hp
            rw [hq] at hp
            cases h6 : env.resolveInput a with
            | error x => rw [h6] at hp; cases hp
            | ok input =>
              rw [h6] at hp
              simp only at hp
              cases h7 : env.runItems a input a.weights false with
              | error x => rw [h7] at hp; cases hp
              | ok ws =>
                rw [h7] at hp
                simp only [Except.ok.injEq, CallResult.started.injEq] at hp
                subst hp
                exact ⟨rfl, rfl, h7⟩
          cases e with
          | false =>
            obtain ⟨r1, r2, r3⟩ := hrest _ (by
              cases env.resolveInput a with
              | error x => rfl
              | ok i =>
                simp only [Bool.false_eq_true, if_false]
                cases env.runItems a i a.weights false <;> rfl) h
            exact ⟨hb, r1, r2, r3, fun he => by cases he⟩
          | true =>
            simp only [if_true] at h
            cases h5 : o.checkEmpty d with
            | error x => rw [h5] at h; cases h
            | ok u =>
              rw [h5] at h
              obtain ⟨r1, r2, r3⟩ := hrest _ (by
              cases env.resolveInput a with
              | error x => rfl
              | ok i =>
                simp only
                cases env.runItems a i a.weights false <;> rfl) h
              injection r1 with r1
              exact ⟨hb, by rw [r1], r2, r3, fun _ => by rw [← r1, h5]⟩

/-- **C70, `map` with weights and groups.** One weight for each input is refused if the inputs are put into groups. -/
theorem c70_map_weights_batch (env : CallEnv) (a : CallArgs) (l : List UserItem) (hl : a.inputs = .list l) (h2 : 2 ≤ l.length) (b : Nat) (hb1 : 1 < b)
    (hb : a.batchSize = some (b : Int)) (ws : List Int) (hw : a.weights = some ws) (hlen : ws.length = l.length) (e : Bool) (o : Outputs) (p : RunPlan) :
    env.mapCall a e o ≠ .ok (.started p) := by
  intro h
  obtain ⟨_, _, _, hrun, _⟩ := mapCall_started env a e o p h
  unfold CallEnv.runItems at hrun
  obtain ⟨groups, g1, g2, g3, _⟩ := c40_groups b hb1 l
  have hp : preparedItems a = .ok (groups.map .list) := by
    unfold preparedItems
    rw [hl, hb]
    simp only [g1]
  have hlt : groups.length < l.length := by
    rw [g3]
    rw [Nat.div_lt_iff_lt_mul (by omega)]
    have : l.length * 2 ≤ l.length * b := Nat.mul_le_mul_left _ hb1
    have hb' : b ≤ (l.length - 1) * b := Nat.le_mul_of_pos_left _ (by omega)
    have : l.length * b = (l.length - 1) * b + b := by
      have hs : l.length = (l.length - 1) + 1 := by omega
      conv => lhs; rw [hs]
      rw [Nat.add_mul, Nat.one_mul]
    have : (l.length - 1) * 2 ≤ (l.length - 1) * b := Nat.mul_le_mul_left _ hb1
    omega
  have hbad : ∀ r, env.assign (env.workers a) (groups.map .list) a.weights r = .error .valueError := by
    intro r
    have hne : ws.length ≠ (groups.map UserItem.list).length := by simp; omega
    unfold CallEnv.assign mapItemsNp
    rw [hw]
    simp only [hne, ne_eq, not_false_eq_true, if_true, ite_self]
  rw [hp] at hrun
  simp only [bind, Except.bind, hbad] at hrun
  cases hrun

/-- **C70, refuted for tuples.** A tuple of inputs passes the checks and is never processed unless it is put into groups: `run` wants a list. -/
theorem c70_tuple_refused (env : CallEnv) (a : OptimizeArgs) (l : List UserItem) (hl : a.inputs = .tuple l) (hb : a.batchSize = none) (o o' : Outputs) (p : RunPlan) :
    env.optimizeCall a o ≠ (.ok (.started p), o') :=
  refusedLate_not_started env a (.inr (.inl ⟨l, hl, hb⟩)) o o' p

/-- **C70, a URL as input directory.** The plan then has no local path, so that nothing is downloaded (`InputCfg`), and the files are not reordered. -/
theorem c70_url_input (env : CallEnv) (a : OptimizeArgs) (l : List UserItem) (hl : a.inputs = .list l) (url : PathStr) (hu : "s3://".toList <+: url)
    (hd : a.inputDir = some url) (o o' : Outputs) (p : RunPlan) (h : env.optimizeCall a o = (.ok (.started p), o')) : p.input = ⟨none, some url⟩ := by
  obtain ⟨_, _, _, hi, _, _⟩ := optimizeCall_started _ _ _ _ _ h
  have hne : url ≠ [] := by
    rintro rfl
    obtain ⟨t, ht⟩ := hu
    simp at ht
  have hr : isRemote url = true := by
    have : startsWith "s3://" url = true := List.isPrefixOf_iff_prefix.2 hu
    simp [isRemote, this]
  unfold CallEnv.resolveInput at hi
  rw [hl, hd] at hi
  have hn : nonEmpty (some url) = some url := by simp [nonEmpty, hne]
  simp only [hn, bind, Except.bind, resolveDir, hr, if_true, Except.ok.injEq] at hi
  exact hi.symm

/-- **C70, the input directory.** It is looked for in the first input, and if the first two name no file there is none, whatever the other inputs are. -/
theorem c70_first_two_inputs (env : CallEnv) (a : OptimizeArgs) (x y : UserItem) (l : List UserItem) (hl : a.inputs = .list (x :: y :: l)) (hd : a.inputDir = none)
    (hx : env.indexedPaths x = []) (hy : env.indexedPaths y = []) (o o' : Outputs) (p : RunPlan) (h : env.optimizeCall a o = (.ok (.started p), o')) :
    p.input = ⟨none, none⟩ := by
  obtain ⟨_, _, _, hi, _, _⟩ := optimizeCall_started _ _ _ _ _ h
  unfold CallEnv.resolveInput at hi
  rw [hl, hd] at hi
  simp only [nonEmpty, Option.filter, CallEnv.inferInputDir, hx, hy, List.head?_cons, if_true, bind, Except.bind, resolveDir, Except.ok.injEq] at hi
  exact hi.symm

/-- **C70, the nodes.** In a Studio, a call with a number of nodes starts them and does nothing else. -/
theorem c70_launched (env : CallEnv) (a : OptimizeArgs) (h : ¬ RefusedEarly env a) (n : Nat) (hn : a.numNodes = some n) (hv : env.nodesVar = none) (o : Outputs) :
    env.optimizeCall a o = (.ok .launched, o) := by
  unfold CallEnv.optimizeCall
  rw [(optimizeChecks_iff env a).2 h]
  simp [runsHere, hn, hv]

/-- **C70, folders of a Studio.** They are refused as outputs before anything is removed. -/
theorem c70_cloudspaces (env : CallEnv) (a : OptimizeArgs) (h : ¬ RefusedEarly env a) (hr : runsHere env a.toCallArgs = true) (p : Option PathStr) (u v : PathStr)
    (hd : env.optimizeOutput a = .ok ⟨p, some (u ++ "cloudspaces".toList ++ v)⟩) (o : Outputs) : env.optimizeCall a o = (.error .valueError, o) := by
  have hin : ∀ u : PathStr, hasInfix "cloudspaces".toList (u ++ ("cloudspaces".toList ++ v)) = true := by
    intro u
    induction u with
    | nil =>
      have hp : ("cloudspaces".toList).isPrefixOf ("cloudspaces".toList ++ v) = true := List.isPrefixOf_iff_prefix.2 (List.prefix_append _ _)
      cases hc : "cloudspaces".toList ++ v with
      | nil => simp at hc
      | cons c s =>
        rw [hc] at hp
        simp only [List.nil_append, hasInfix, hp, Bool.true_or]
    | cons c u ih => simp only [List.cons_append, hasInfix, ih, Bool.or_true]
  unfold CallEnv.optimizeCall
  rw [(optimizeChecks_iff env a).2 h]
  have : inCloudspaces ⟨p, some (u ++ "cloudspaces".toList ++ v)⟩ = true := by
    unfold inCloudspaces
    simp only [Option.any_some]
    rw [List.append_assoc]
    exact hin u
  simp only [hr, Bool.not_true, Bool.false_eq_true, if_false, hd, this, if_true]

/-- **C70, the first chunks.** Unless it appends, every worker starts with chunk zero. When one node appends to a local dataset, no worker writes a chunk with the
name of one that the index lists. -/
theorem c70_first_chunks (env : CallEnv) (a : OptimizeArgs) (o o' : Outputs) (pl : RunPlan) (h : env.optimizeCall a o = (.ok (.started pl), o')) :
    (a.mode ≠ .append → ∀ s ∈ pl.starts, s = 0) ∧
    ∀ (p : PathStr) (b : Bytes) (chunks : List (Option String × Nat × Nat)), a.mode = .append → env.optimizeOutput a = .ok ⟨some p, none⟩ →
      o.files.lookup (pathParts p ++ ["index.json"]) = some b → env.readIndex b = .ok (chunks.map fun e => chunkFilename e.1 e.2.1 e.2.2) →
      (∀ e ∈ chunks, ∀ c, e.1 = some c → '-' ∉ c.toList) →
      ∀ (worker first : Nat), pl.starts[worker]? = some first → ∀ (comp : Option String) (j : Nat),
        chunkFilename comp worker (first + j) ∉ chunks.map fun e => chunkFilename e.1 e.2.1 e.2.2 := by
  obtain ⟨_, _, hout, _, _, _, o1, ho1, hp⟩ := optimizeCall_began env a o o' pl h
  obtain ⟨_, _, h3, h4⟩ := optimizePrepare_ok env a o1 _ _ _ hp
  constructor
  · intro hm s hs
    rw [h3 hm] at hs
    exact List.eq_of_mem_replicate hs
  · intro p b chunks hm hd hb hr hc worker first hw comp j
    rw [hout] at hd
    injection hd with hd
    have hex : env.existing o1 pl.output = .ok (some (chunks.map fun e => chunkFilename e.1 e.2.1 e.2.2)) := by
      rw [ho1 hm, hd]
      unfold CallEnv.existing
      simp only [hb, hr, Except.map]
    have hst := h4 _ hm hex
    obtain ⟨starts, g1, g2, g3⟩ := c26_names_new_partial (env.workers a.toCallArgs).toNat chunks hc
    rw [g1] at hst
    injection hst with hst
    subst hst
    have := g3 worker first hw comp j
    simpa [globalRank] using this

/-- **C70, `map` (partial).** If `map` is called with a list on every node of a job and starts its workers everywhere, then all workers together get the inputs of
the list: in order without weights and without a reordering, and else each of them once if they are uniform. -/
theorem c70_map_inputs_partial (env : CallEnv) (draw : Nat → Nat → List UserItem → List UserItem) (hdraw : ∀ r w l, (draw r w l).Perm l) (a : CallArgs) (e : Bool)
    (l : List UserItem) (hl : a.inputs = .list l) (hb : a.batchSize = none)
    (hf : a.fastDevRun = .flag false) (hn : 0 < env.workers a) (hN : 0 < env.nodesVar.getD 1) (plans : List RunPlan) (hlen : plans.length = env.nodesVar.getD 1)
    (h : ∀ (r : Nat) (p : RunPlan), plans[r]? = some p → ∃ o, (onNode env draw r).mapCall a e o = .ok (.started p)) :
    (Uniform l → (plans.flatMap (·.workers)).flatten.Perm l) ∧
    (a.weights = none → (a.reorder = false ∨ (∃ u, env.resolveInput a = .ok ⟨none, u⟩)) → (plans.flatMap (·.workers)).flatten = l) ∧
    ∀ p ∈ plans, (p.workers.length : Int) = env.workers a := by
  have h0 : 0 < plans.length := by omega
  have hit : preparedItems a = .ok l := by
    unfold preparedItems
    rw [hl, hb]
    rfl
  have hex : ∀ (r : Nat) (p : RunPlan), plans[r]? = some p → env.resolveInput a = .ok p.input ∧
      (onNode env draw r).assign (env.workers a) l a.weights (a.reorder && p.input.path.isSome) = .ok p.workers := by
    intro r p hp
    obtain ⟨o, ho⟩ := h r p hp
    obtain ⟨_, _, hi, hw, _⟩ := mapCall_started _ _ _ _ _ ho
    obtain ⟨_, items, hit', has⟩ := runItems_ok _ _ hf _ _ _ _ hw
    rw [hit] at hit'
    injection hit' with hit'
    subst hit'
    exact ⟨hi, has⟩
  obtain ⟨hin0, _⟩ := hex 0 _ (List.getElem?_eq_getElem h0)
  obtain ⟨a1, a2, a3⟩ := assign_nodes env draw hdraw (env.workers a) hn l a.weights (a.reorder && (plans[0].input).path.isSome) (plans.map (·.workers))
    (by simpa using hlen) hN (by
      intro r o ho
      rw [List.getElem?_map] at ho
      cases hp : plans[r]? with
      | none => rw [hp] at ho; cases ho
      | some p =>
        rw [hp] at ho
        simp only [Option.map_some, Option.some.injEq] at ho
        subst ho
        obtain ⟨g1, g3⟩ := hex r p hp
        rw [hin0] at g1
        injection g1 with g1
        rw [g1]
        exact g3)
  have hfl : plans.flatMap (·.workers) = (plans.map (·.workers)).flatten := List.flatMap_def
  rw [hfl]
  refine ⟨a1, ?_, ?_⟩
  · intro hw hs
    apply a2 hw
    rcases hs with hs | ⟨u, hu⟩
    · rw [hs]; rfl
    · rw [hin0] at hu
      injection hu with hu
      rw [hu]
      simp
  · intro p hp
    have := a3 _ (List.mem_map.2 ⟨p, hp, rfl⟩)
    omega

/-- **C70, an output that is not empty.** With `error_when_not_empty`, `map` is refused if objects lie in the output directory of a store, and for a local directory
it is never refused for that. -/
theorem c70_map_not_empty (env : CallEnv) (a : CallArgs) (o : Outputs) (p : RunPlan) (h : env.mapCall a true o = .ok (.started p)) :
    (∀ url st k, p.output.url = some url → fsProvider url = .ok st → bucketAndPath url st.scheme = .ok k →
      st.isEmpty ((o.objects.filter fun e => e.1.1 == k.1).map fun e => (e.1.2, e.2)) k.2 = true) ∧
    (∀ files, p.output.url = none → env.mapCall a true { o with files := files } = .ok (.started p)) := by
  obtain ⟨_, h2, _, _, h5⟩ := mapCall_started env a true o p h
  constructor
  · intro url st k hu hs hk
    have := h5 rfl
    unfold Outputs.checkEmpty at this
    rw [hu] at this
    simp only [hs, hk] at this
    split at this
    · assumption
    · cases this
  · intro files hu
    have hsame : ∀ d : UserDir, Outputs.checkEmpty { o with files := files } d = o.checkEmpty d := fun d => rfl
    rw [← h]
    unfold CallEnv.mapCall
    simp only [hsame]

/-! Concrete cases. -/

def entryCloud : CloudEnv where
  absolute p := p
  strftime p := p
  lower p := p
  clusterId := none
  projectId := none
  studioId := none
  clusters := []
  spaces := []
  awsSources := []
  folderSources := []

def entryEnv : CallEnv where
  cloud := entryCloud
  inStudio := false
  nodesVar := none
  nodeRank := 0
  defaultWorkers := 2
  size _ := none
  draw _ l := l
  readIndex _ := .ok ["chunk-0-0.bin"]
  workDir := .error .exception

def entryArgs : OptimizeArgs where
  inputs := .list [.int 1, .int 2, .int 3]
  output := .text "/data/out".toList
  inputDir := none
  weights := none
  numWorkers := some 2
  fastDevRun := .flag false
  numNodes := none
  machine := false
  reorder := true
  batchSize := none
  chunkSize := true
  chunkBytes := false
  mode := .overwrite
  useCheckpoint := false
  isGenerator := false

def entryOutputs : Outputs := ⟨[(["data", "out", "index.json"], [1]), (["data", "out", "chunk-0-0.bin"], [2])], []⟩

/-- A call that starts: the old dataset is removed and the workers get the inputs in order. -/
example : entryEnv.optimizeCall entryArgs entryOutputs =
    (.ok (.started ⟨⟨some "/data/out".toList, none⟩, ⟨none, none⟩, [0, 0], [[.int 1], [.int 2, .int 3]]⟩), ⟨[], []⟩) := by
  rfl

/-- The same call with both limits is refused, and the dataset is gone. -/
example : entryEnv.optimizeCall { entryArgs with chunkBytes := true } entryOutputs = (.error .valueError, ⟨[], []⟩) := by
  rfl

/-- The hypotheses of `c70_overwrite_destroys` for this call. -/
example : RefusedLate entryEnv { entryArgs with chunkBytes := true } ∧ ¬ RefusedEarly entryEnv { entryArgs with chunkBytes := true } ∧
    entryEnv.optimizeOutput { entryArgs with chunkBytes := true } = .ok ⟨some "/data/out".toList, none⟩ ∧
    (∀ e ∈ entryOutputs.files, ∀ n rest, e.1 = pathParts "/data/out".toList ++ n :: rest → isBin n = true ∨ n = "index.json" → rest = []) ∧
    ∀ e ∈ entryOutputs.files, e.1 ≠ pathParts "/data/out".toList ++ [".checkpoints"] := by
  have hpp : pathParts "/data/out".toList = ["data", "out"] := by decide +kernel
  refine ⟨.inl ⟨rfl, rfl⟩, ?_, rfl, ?_, ?_⟩
  · intro h
    have h1 := (optimizeChecks_iff entryEnv { entryArgs with chunkBytes := true }).1 h
    have h2 : optimizeChecks entryEnv { entryArgs with chunkBytes := true } = .ok () := rfl
    rw [h2] at h1
    cases h1
  · rw [hpp]
    intro e he n rest h1 _
    simp only [entryOutputs, List.mem_cons, List.not_mem_nil, or_false] at he
    rcases he with rfl | rfl <;> simp at h1 <;> exact h1.2
  · rw [hpp]
    decide +kernel

/-- Two nodes with two workers each, the hypotheses of `c70_inputs_partial` and `c70_batches`. -/
example : let env : CallEnv := { entryEnv with nodesVar := some 2 }
    let a : OptimizeArgs := { entryArgs with inputs := .list [.int 1, .int 2, .int 3, .int 4, .int 5], mode := .none }
    let plans : List RunPlan := [⟨⟨some "/data/out".toList, none⟩, ⟨none, none⟩, [0, 0], [[.int 1], [.int 2]]⟩,
      ⟨⟨some "/data/out".toList, none⟩, ⟨none, none⟩, [0, 0], [[.int 3], [.int 4, .int 5]]⟩]
    plans.length = env.nodesVar.getD 1 ∧ env.resolveInput a.toCallArgs = .ok ⟨none, none⟩ ∧
    ∀ (r : Nat) (p : RunPlan), plans[r]? = some p → ∃ o o', (onNode env (fun _ _ l => l) r).optimizeCall a o = (.ok (.started p), o') := by
  refine ⟨rfl, rfl, fun r p hp => ⟨⟨[], []⟩, ⟨[], []⟩, ?_⟩⟩
  match r, hp with
  | 0, hp => cases hp; rfl
  | 1, hp => cases hp; rfl

example : (entryEnv.optimizeCall { entryArgs with mode := .none, batchSize := some 2 } ⟨[], []⟩).1 =
    .ok (.started ⟨⟨some "/data/out".toList, none⟩, ⟨none, none⟩, [0, 0], [[.list [.int 1, .int 2]], [.list [.int 3]]]⟩) := rfl

example : (entryEnv.optimizeCall { entryArgs with mode := .none, inputs := .loader 5 } ⟨[], []⟩).1 =
    .ok (.started ⟨⟨some "/data/out".toList, none⟩, ⟨none, none⟩, [0, 0], [[.int 0, .int 1], [.int 2, .int 3, .int 4]]⟩) := rfl

/-- A call that appends: the first worker starts behind the chunk of the index. -/
example : entryEnv.optimizeCall { entryArgs with mode := .append } entryOutputs =
    (.ok (.started ⟨⟨some "/data/out".toList, none⟩, ⟨none, none⟩, [1, 0], [[.int 1], [.int 2, .int 3]]⟩), entryOutputs) := by
  rfl

/-- A URL as input directory, and a store as output. -/
example : (entryEnv.optimizeCall { entryArgs with mode := .none, inputDir := some "s3://bucket/in".toList, output := .text "s3://bucket/out".toList } ⟨[], []⟩).1 =
    .ok (.started ⟨⟨none, some "s3://bucket/out".toList⟩, ⟨none, some "s3://bucket/in".toList⟩, [0, 0], [[.int 1], [.int 2, .int 3]]⟩) := rfl

/-- `map` with weights, and the same in groups. -/
example : entryEnv.mapCall { entryArgs.toCallArgs with weights := some [1, 1, 5] } true ⟨[], []⟩ =
    .ok (.started ⟨⟨some "/data/out".toList, none⟩, ⟨none, none⟩, [0, 0], [[.int 3], [.int 1, .int 2]]⟩) := rfl

example : entryEnv.mapCall { entryArgs.toCallArgs with weights := some [1, 1, 5], batchSize := some 2 } true ⟨[], []⟩ = .error .valueError := rfl

/-- In a Studio, the nodes are started. -/
example : ({ entryEnv with inStudio := true }).optimizeCall { entryArgs with numNodes := some 2 } entryOutputs = (.ok .launched, entryOutputs) := rfl

/-- The second input names a file, the first does not. -/
example : ({ entryEnv with size := fun p => if p = "/f".toList then some 3 else none }).optimizeCall
    { entryArgs with inputs := .list [.str "a", .str "/f"] } entryOutputs = (.error .valueError, ⟨[], []⟩) := rfl

end LitData.Props
