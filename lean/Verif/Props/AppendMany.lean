import Verif.Props.AppendRun

/-! Property C97: a dataset that grows over any number of calls of `optimize(mode="append")`, some of which are broken off. -/

namespace LitData.Props
open LitData Spec

/-- Whatever fails, and wherever the run is: a file of the output directory whose name no worker has given to a chunk is as before. -/
theorem remote_old {σ C : Type} {cfg : PipeCfg σ C} {remote0 : FName → Option C} (hD : 0 < cfg.downloaders) (hU : 0 < cfg.uploaders)
    {s : PWorld σ C} (h : PReach cfg remote0 s) (n : FName) (hn : ∀ w, w < cfg.workers → n ∉ (s.ws w).emitted.map (·.1)) : s.remote n = remote0 n := by
  induction h with
  | start => rfl
  | @step s t h hst ih =>
    have hloc := loc_reach hD hU h
    have grow : (∀ v, ∃ more, (t.ws v).emitted = (s.ws v).emitted ++ more) → s.remote n = remote0 n := by
      intro hg
      apply ih
      intro w hw hm
      obtain ⟨more, e⟩ := hg w
      apply hn w hw
      rw [e, List.map_append]
      exact List.mem_append_left _ hm
    have same : ∀ (w : Nat) (x : PWorker σ C) (more : List (FName × C)), x.emitted = (s.ws w).emitted ++ more → t.ws = upd s.ws w x →
        s.remote n = remote0 n := by
      intro w x more hx ht
      apply grow
      intro v
      rw [ht]
      by_cases hv : v = w
      · subst hv
        exact ⟨more, by simp [upd, hx]⟩
      · exact ⟨[], by simp [upd, hv]⟩
    cases hst with
    | download w d i q => exact same w _ [] (by simp) rfl
    | downloadEnd w d q => exact same w _ [] (by simp) rfl
    | process w i q st files report => exact same w _ files rfl rfl
    | processFail w i q => exact same w _ [] (by simp) rfl
    | countNone w q => exact same w _ [] (by simp) rfl
    | finishInputs w q files => exact same w _ files rfl rfl
    | finishFail w q => exact same w _ [] (by simp) rfl
    | upload w u m c q hmain hw hu hal hq hd =>
      have hs := same w _ [] (by simp) rfl
      have hne : n ≠ m := by
        rintro rfl
        apply hn w hw
        have : n ∈ (s.ws w).emitted.map (·.1) := by
          refine (hloc w hw).names.mem_iff.2 (List.mem_append_right _ ?_)
          unfold queued
          rw [List.mem_flatMap]
          exact ⟨u, List.mem_range.2 hu, mem_somes.2 (by rw [hq]; exact List.mem_cons_self)⟩
        simpa [PWorld.set, upd] using this
      show putFiles s.remote [(m, c)] n = _
      simp only [putFiles, if_neg hne]
      exact hs
    | uploadLost w u m q => exact same w _ [] (by simp) rfl
    | uploaderDies w u m q => exact same w _ [] (by simp) rfl
    | uploadEnd w u q => exact same w _ [] (by simp) rfl
    | joinUploaders w => exact same w _ [] (by simp) rfl
    | removeInputs w v i q => exact same w _ [] (by simp) rfl
    | removeChunk w m q => exact same w _ [] (by simp) rfl
    | removeEnd w q => exact same w _ [] (by simp) rfl
    | finish w => exact same w _ [] (by simp) rfl
    | receive w c q => exact grow fun v => ⟨[], by simp⟩
    | receiveLast w c q => exact grow fun v => ⟨[], by simp⟩
    | raise w => exact grow fun v => ⟨[], by simp⟩
    | leftover m => exact grow fun v => ⟨[], by simp⟩
    | index => exact grow fun v => ⟨[], by simp⟩

/-- No worker gives a name of the existing index to a chunk of its own. -/
theorem not_emitted
    (wcfg : WriterCfg) (comp : Option String) (cfg : PipeCfg (WriterState × Nat) (List WItem)) (remote0 : FName → Option (List WItem))
    (existing : List ChunkInfo) (ids : List (Option String × Nat × Nat)) (hids : existing.map (·.filename) = ids.map fun e => chunkFilename e.1 e.2.1 e.2.2)
    (hdash : ∀ e ∈ ids, ∀ c, e.1 = some c → '-' ∉ c.toList)
    (starts : List Nat) (hstarts : startingChunks cfg.workers (existing.map (·.filename)) = .ok starts)
    (out : Nat → Nat → Option (List WItem)) (hD : 0 < cfg.downloaders) (hU : 0 < cfg.uploaders)
    (hj : ∀ w, w < cfg.workers → cfg.job w = writerJob wcfg comp (globalRank 0 cfg.workers w) (starts.getD w 0) (out w))
    (s : PWorld (WriterState × Nat) (List WItem)) (h : PReach cfg remote0 s) :
    ∀ info ∈ existing, ∀ w, w < cfg.workers → info.filename ∉ (s.ws w).emitted.map (·.1) := by
  intro info hinfo w hw hm
  have hl := loc_reach hD hU h w hw
  have hc : ∃ chunks, (s.ws w).emitted = chunkFiles comp (globalRank 0 cfg.workers w) (starts.getD w 0) chunks := by
    by_cases h1 : (s.ws w).phase = .running ∨ (s.ws w).phase = .failed
    · have := hl.run h1
      rw [hj w hw] at this
      obtain ⟨_, _, _, e⟩ := writerJob_start _ _ _ _ _ _ this
      exact ⟨_, e⟩
    · have := hl.runEnd (fun e => h1 (Or.inl e)) (fun e => h1 (Or.inr e))
      rw [hj w hw] at this
      obtain ⟨cs, e, _⟩ := writerJob_files _ _ _ _ _ _ _ this
      exact ⟨cs, e⟩
  obtain ⟨chunks, e⟩ := hc
  rw [e, chunkFiles_names] at hm
  obtain ⟨i, hi, e2⟩ := List.mem_map.1 hm
  rw [List.mem_range'] at hi
  obtain ⟨k, _, rfl⟩ := hi
  rw [Nat.one_mul] at e2
  obtain ⟨starts', c1, c2, c3⟩ := c26_names_new_partial cfg.workers ids hdash
  rw [← hids, hstarts] at c1
  cases c1
  have := c3 w (starts.getD w 0) (by rw [List.getD_eq_getElem?_getD, List.getElem?_eq_getElem (by omega), Option.getD_some]) comp k
  rw [← hids] at this
  simp only [globalRank, Nat.zero_mul, Nat.zero_add] at this e2
  rw [e2] at this
  exact this (List.mem_map_of_mem hinfo)

/-- **C97, a run that is broken off.** The workers start at the numbers that `optimize` works out from the existing index. In every state of every run, whether or not
the user's function raises, uploads fail or all processes are killed there, each file that the existing index lists is as before. -/
theorem c97_kept
    (wcfg : WriterCfg) (comp : Option String) (cfg : PipeCfg (WriterState × Nat) (List WItem)) (remote0 : FName → Option (List WItem))
    (existing : List ChunkInfo) (ids : List (Option String × Nat × Nat)) (hids : existing.map (·.filename) = ids.map fun e => chunkFilename e.1 e.2.1 e.2.2)
    (hdash : ∀ e ∈ ids, ∀ c, e.1 = some c → '-' ∉ c.toList)
    (starts : List Nat) (hstarts : startingChunks cfg.workers (existing.map (·.filename)) = .ok starts)
    (out : Nat → Nat → Option (List WItem)) (hD : 0 < cfg.downloaders) (hU : 0 < cfg.uploaders)
    (hj : ∀ w, w < cfg.workers → cfg.job w = writerJob wcfg comp (globalRank 0 cfg.workers w) (starts.getD w 0) (out w))
    (s : PWorld (WriterState × Nat) (List WItem)) (h : PReach cfg remote0 s) :
    ∀ info ∈ existing, s.remote info.filename = remote0 info.filename :=
  fun info hinfo => remote_old hD hU h _ (not_emitted wcfg comp cfg remote0 existing ids hids hdash starts hstarts out hD hU hj s h info hinfo)

/-- The files of the folder that a run has not written are as before. -/
def OthersKept (cfg : PipeCfg (WriterState × Nat) (List WItem)) (s : PWorld (WriterState × Nat) (List WItem)) (join : String → String)
    (before after : String → Option Bytes) : Prop :=
  ∀ n, (∀ w, w < cfg.workers → n ∉ (s.ws w).emitted.map (·.1)) → after (join n) = before (join n)

/-- What a folder can hold after calls of `optimize` with `mode="append"`, the first of which may have no mode: the chunks of its `index.json` (none if there is no index),
what is read of its files, and the inputs of the calls that returned. -/
inductive AppendHistory {β : Type} (wcfg : WriterCfg) (comp : Option Compressor) (enc : Option Encryption) (config : IndexConfig) (fn : β → List (Bytes × Option Nat))
    (join : String → String) : List ChunkInfo → (String → Option Bytes) → List β → Prop where
  /-- There is no dataset yet; the folder may have other files. -/
  | start (fs : String → Option Bytes) : AppendHistory wcfg comp enc config fn join [] fs []
  /-- A call does all its work, with any number of workers and under any schedule, and its main process merges the indexes of the workers with the existing one. -/
  | completed {existing : List ChunkInfo} {fs0 : String → Option Bytes} {done : List β} (before : AppendHistory wcfg comp enc config fn join existing fs0 done)
      (inputs : List β) (cfg : PipeCfg (WriterState × Nat) (List WItem)) (remote0 : FName → Option (List WItem)) (nonce : Nat → Nat → Nat → Nat) (nc : Nat → Nat → Nat)
      (hW : 0 < cfg.workers) (hD : 0 < cfg.downloaders) (hU : 0 < cfg.uploaders) (hf : cfg.faulty = false)
      (shares : List (List β)) (hshares : mapSequentially 1 0 cfg.workers inputs = .ok shares)
      (hitems : ∀ w, w < cfg.workers → cfg.items w = (shares.getD w []).length)
      (starts : List Nat) (hstarts : startingChunks cfg.workers (existing.map (·.filename)) = .ok starts)
      (hj : ∀ w, w < cfg.workers → cfg.job w = writerJob wcfg (comp.map (·.name)) (globalRank 0 cfg.workers w) (starts.getD w 0) fun i =>
        some (workerItems enc (nonce w i) (((shares.getD w [])[i]?).elim [] fn)))
      (hpos : wcfg.chunkSize = 0 ∨ ∀ b ∈ inputs, ∀ p ∈ fn b, ∀ n, encryptItem enc n p.1 ≠ [])
      (hdisj : PathsDisjoint cfg)
      (hfit : ∀ w (order : List Nat), w < cfg.workers → order.Perm (List.range (cfg.items w)) →
        ChunksFit wcfg 0 (order.flatMap fun i => workerItems enc (nonce w i) (((shares.getD w [])[i]?).elim [] fn)))
      (s : PWorld (WriterState × Nat) (List WItem)) (h : PReach cfg remote0 s) (hend : Final cfg s)
      (infos : List (List ChunkInfo)) (hlen : infos.length = cfg.workers)
      (hinfos : ∀ (w : Nat) (cs : List ChunkInfo), infos[w]? = some cs → workerIndexFrom wcfg comp enc (nc w) w (starts.getD w 0)
        ((s.ws w).processed.flatMap fun i => workerItems enc (nonce w i) (((shares.getD w [])[i]?).elim [] fn)) = .ok cs)
      (d d' : CacheDir IndexConfig) (hd : WorkersDone config infos d) (hsome : existing = [] → infos.flatten ≠ [])
      (hmerge : mergeNoWait none (if existing = [] then none else some ⟨existing, some config⟩) d = (.ok (), d'))
      (chunks : List ChunkInfo) (config' : Option IndexConfig) (hindex : dirGet d' "index.json" = some (.index ⟨chunks, config'⟩))
      (fs : String → Option Bytes) (hold : HoldsChunks comp enc nc cfg.workers s.remote fs join) (hkept : OthersKept cfg s join fs0 fs) :
      AppendHistory wcfg comp enc config fn join chunks fs (done ++ inputs)
  /-- A call fails or is killed, in any state of its run: the index is not replaced. Of the files that it was writing anything may be left. -/
  | broken {existing : List ChunkInfo} {fs0 : String → Option Bytes} {done : List β} (before : AppendHistory wcfg comp enc config fn join existing fs0 done)
      (cfg : PipeCfg (WriterState × Nat) (List WItem)) (remote0 : FName → Option (List WItem)) (out : Nat → Nat → Option (List WItem))
      (hD : 0 < cfg.downloaders) (hU : 0 < cfg.uploaders)
      (starts : List Nat) (hstarts : startingChunks cfg.workers (existing.map (·.filename)) = .ok starts)
      (hj : ∀ w, w < cfg.workers → cfg.job w = writerJob wcfg (comp.map (·.name)) (globalRank 0 cfg.workers w) (starts.getD w 0) (out w))
      (s : PWorld (WriterState × Nat) (List WItem)) (h : PReach cfg remote0 s)
      (fs : String → Option Bytes) (hkept : OthersKept cfg s join fs0 fs) :
      AppendHistory wcfg comp enc config fn join existing fs done

theorem Stored.congr {enc : Option Encryption} {fs fs' : String → Option Bytes} {join : String → String} {a : List ChunkInfo} {x : List (List Bytes)}
    (h : Stored enc fs join a x) (he : ∀ info ∈ a, fs' (join info.filename) = fs (join info.filename)) : Stored enc fs' join a x := by
  obtain ⟨l1, h⟩ := h
  refine ⟨l1, ?_⟩
  intro k c l hc hl
  have := h k c l hc hl
  rw [← he c (List.mem_of_getElem? hc)] at this
  exact this

/-- What holds after every history. -/
theorem history_inv {β α : Type} (wcfg : WriterCfg) (comp : Option Compressor) (hcomp : ∀ c, comp = some c → Compressor.Lossless c)
    (hname : ∀ c, comp = some c → '-' ∉ c.name.toList) (enc : Option Encryption) (config : IndexConfig) (fn : β → List (Bytes × Option Nat)) (join : String → String)
    (read : Bytes → Py α) (out : β → List α)
    {chunks : List ChunkInfo} {fs : String → Option Bytes} {done : List β} (h : AppendHistory wcfg comp enc config fn join chunks fs done)
    (hread : ∀ b ∈ done, (fn b).map (fun p => read p.1) = (out b).map .ok) :
    (∃ ids : List (Option String × Nat × Nat), chunks.map (·.filename) = ids.map (fun e => chunkFilename e.1 e.2.1 e.2.2) ∧
      ∀ e ∈ ids, ∀ c, e.1 = some c → '-' ∉ c.toList) ∧
    (chunks.map (·.filename)).Nodup ∧ ∃ items : List (List Bytes), Stored enc fs join chunks items ∧ chunks.map (·.chunkSize) = items.map List.length ∧
      (∀ info ∈ chunks, ∀ file, fs (join info.filename) = some file → file.length = info.chunkBytes) ∧
      ∃ zs : List α, items.flatten.map read = zs.map .ok ∧ zs.Perm (done.flatMap out) := by
  induction h with
  | start fs =>
    refine ⟨⟨[], rfl, by simp⟩, by simp, [], ⟨rfl, by intro k c l hc; simp at hc⟩, rfl, by simp, [], rfl, ?_⟩
    simp
  | @broken existing fs0 done before cfg remote0 out' hD hU starts hstarts hj s h fs hkept ih =>
    obtain ⟨⟨ids, hids, hdash⟩, hnd, items, hst, hsz, hex, hz⟩ := ih hread
    have hsame : ∀ info ∈ existing, fs (join info.filename) = fs0 (join info.filename) := fun info hinfo =>
      hkept _ (not_emitted wcfg _ cfg remote0 existing ids hids hdash starts hstarts out' hD hU hj s h info hinfo)
    exact ⟨⟨ids, hids, hdash⟩, hnd, items, hst.congr hsame, hsz, fun info hi file hfile => hex info hi file (hsame info hi ▸ hfile), hz⟩
  | @completed existing fs0 done before inputs cfg remote0 nonce nc hW hD hU hf shares hshares hitems starts hstarts hj hpos hdisj hfit s h hend infos hlen hinfos d d' hd
      hsome hmerge chunks config' hindex fs hold hkept ih =>
    obtain ⟨⟨ids, hids, hdash⟩, hnd, items, hst, hsz, hex, zs, hz1, hz2⟩ := ih (fun b hb => hread b (List.mem_append_left _ hb))
    obtain ⟨hmem, hzs⟩ := shares_read read inputs fn out (fun b hb => hread b (List.mem_append_right _ hb)) cfg.workers hW cfg.items shares hshares hitems
    have hsame : ∀ info ∈ existing, fs (join info.filename) = fs0 (join info.filename) := fun info hinfo =>
      hkept _ (not_emitted wcfg _ cfg remote0 existing ids hids hdash starts hstarts _ hD hU hj s h info hinfo)
    obtain ⟨prior, hprior⟩ : ∃ prior : Option (IndexData IndexConfig), prior = if existing = [] then none else some ⟨existing, some config⟩ := ⟨_, rfl⟩
    rw [← hprior] at hmerge
    have hp2 : prior = none ∧ existing = [] ∨ prior = some ⟨existing, some config⟩ := by
      by_cases he : existing = []
      · left; simp [hprior, he]
      · right; simp [hprior, he]
    obtain ⟨hm, _, orders, infos', k0, k2, k3, k4⟩ := c82_appended wcfg comp hcomp enc config cfg remote0 existing prior hp2 ids hids hdash hnd starts hstarts
      (fun w i => ((shares.getD w [])[i]?).elim [] fn) nonce nc hW hD hU hf hj (by
        rcases hpos with hp | hp
        · exact Or.inl hp
        · right
          intro w i hw hi x hx
          obtain ⟨b, hb, hbi⟩ := hmem w i hw hi
          simp only [hbi, Option.elim_some, workerItems, List.mem_mapIdx] at hx
          obtain ⟨j, hj', rfl⟩ := hx
          exact hp b hb _ (List.getElem_mem _) _) hdisj hfit s h hend
    have k1 : orders.length = cfg.workers := by rw [k0]; simp
    have horder : ∀ w, w < cfg.workers → orders[w]? = some (s.ws w).processed := by
      intro w hw
      rw [k0, List.getElem?_map, List.getElem?_range hw]
      rfl
    have hinf : infos' = infos := by
      apply List.ext_getElem (by omega)
      intro w h1 h2
      have a := (k3 w _ _ (horder w (by omega)) (List.getElem?_eq_getElem h1)).2.2
      rw [hinfos w _ (List.getElem?_eq_getElem h2)] at a
      injection a with a
      exact a.symm
    subst hinf
    obtain ⟨d'', new, items', m1, m2, m4, ms, mn, m5, m6⟩ := k4 d hd (by
      intro hn
      apply hsome
      rcases hp2 with ⟨_, e⟩ | e
      · exact e
      · rw [hn] at e; cases e)
    rw [hmerge] at m1
    cases m1
    rw [hindex] at m2
    cases m2
    obtain ⟨b1, b2⟩ := m5 fs join hold
    obtain ⟨zs', z1, z2⟩ := hzs orders k1 (by
      intro w o how
      have hlt : w < cfg.workers := k1 ▸ (List.getElem?_eq_some_iff.1 how).1
      exact (k3 w o infos'[w] how (List.getElem?_eq_getElem (by omega))).1)
    refine ⟨?_, m4, items ++ items', (hst.congr hsame).append b1, by rw [List.map_append, List.map_append, hsz, ms], ?_, zs ++ zs', ?_, ?_⟩
    · have : ∃ ids' : List (Option String × Nat × Nat), new.map (·.filename) = ids'.map (fun e => chunkFilename e.1 e.2.1 e.2.2) ∧
          ∀ e ∈ ids', ∀ c, e.1 = some c → '-' ∉ c.toList := by
        clear hmerge hindex m4 ms m5 b1 b2
        induction new with
        | nil => exact ⟨[], rfl, by simp⟩
        | cons a r ihr =>
          obtain ⟨ids', e1, e2⟩ := ihr (fun info hi => mn info (List.mem_cons_of_mem _ hi))
          obtain ⟨w, k, e⟩ := mn a List.mem_cons_self
          refine ⟨(comp.map (·.name), w, k) :: ids', by simp [e, e1], ?_⟩
          intro x hx c hc
          rcases List.mem_cons.1 hx with rfl | hx
          · obtain ⟨c', h1, rfl⟩ := Option.map_eq_some_iff.1 hc
            exact hname c' h1
          · exact e2 x hx c hc
      obtain ⟨ids', e1, e2⟩ := this
      refine ⟨ids ++ ids', by rw [List.map_append, List.map_append, hids, e1], ?_⟩
      intro e he
      rcases List.mem_append.1 he with he | he
      · exact hdash e he
      · exact e2 e he
    · intro info hi file hfile
      rcases List.mem_append.1 hi with hi | hi
      · exact hex info hi file (hsame info hi ▸ hfile)
      · exact b2 info hi file hfile
    · rw [List.flatten_append, List.map_append, List.map_append, hz1, m6, List.map_map, ← z1]
      rfl
    · rw [List.flatMap_append]
      exact hz2.append z2

/-- **C97.** A folder has grown over any number of calls of `optimize` with `mode="append"`, each with its own inputs, number of workers and schedule; some of the calls
were broken off anywhere, and the following ones were made with the index that was there. Then the index opens, and the batches that all ranks stream from the
folder hold exactly the outputs of the function for the inputs of all calls that returned. -/
theorem c97_grown {β : Type} (wcfg : WriterCfg) (comp : Option Compressor) (hcomp : ∀ c, comp = some c → Compressor.Lossless c)
    (hname : ∀ c, comp = some c → '-' ∉ c.name.toList)
    (enc : Option Encryption) (hsound : ∀ e, enc = some e → Encryption.Sound e) (penv : PyEnv) (available : List String) (sers : Table LeafTree)
    (config : IndexConfig) (formats : List String) (stext : String) (spec : TSpec) (hc1 : config.compression = comp.map (·.name)) (hc2 : config.encryption = enc.map Encryption.config)
    (hc3 : config.dataFormat = some formats) (hc4 : config.dataSpec = some stext) (hc5 : config.itemLoader = some "PyTreeLoader")
    (hspec : treespecLoads penv stext = .ok spec) (hknown : ∀ f ∈ formats, KnownFormat (sers.map (·.1)) f)
    (hav : ∀ c, comp = some c → c.name ∈ available)
    (fn : β → List (Bytes × Option Nat)) (out : β → List LeafTree) (join : String → String) (hjoin : ∀ a b, join a = join b → a = b)
    (chunks : List ChunkInfo) (fs : String → Option Bytes) (done : List β) (h : AppendHistory wcfg comp enc config fn join chunks fs done)
    (hread : ∀ b ∈ done, (fn b).map (fun p => readSample sers formats spec p.1) = (out b).map .ok)
    (hne : done.flatMap out ≠ []) (hfew : (done.flatMap out).length < 2 ^ 53)
    (updated : Option String) (draw : Nat → Option (List Nat → List Nat)) (hdraw : Perms draw) :
    ∃ o, openDataset penv available true (some (indexText updated chunks config)) ⟨none, Dbl.one, draw, sers, fun _ => true⟩ = .ok o ∧
      ∀ (W nw bs epoch : Nat), 0 < W → 0 < nw → 0 < bs →
        (∀ (perm : Nat → List Nat → List Nat) (sh : Shuffler) (nn : Nat), (∀ e l, (perm e l).Perm l) → (∀ a n e k, (sh a n e k).Perm a) → epoch = 1 ∨ nn = 1 →
          ∃ pieces, fullShuffleAssign perm o.intervals W nn false nw bs epoch = .ok pieces ∧ pieces.length = W * nw ∧
            EpochGives o fs join enc o.read sh W nw bs epoch pieces (done.flatMap out)) ∧
        ∃ pieces, noShuffleAssign o.intervals W false nw bs = .ok pieces ∧ pieces.length = W * nw ∧
          EpochGives o fs join enc o.read noShuffler W nw bs epoch pieces (done.flatMap out) := by
  obtain ⟨_, hnd, items, hst, hsz, hex, zs, hz1, hz2⟩ := history_inv wcfg comp hcomp hname enc config fn join (readSample sers formats spec) out h hread
  obtain ⟨o, g1, _, g2⟩ := dataset_gives (comp.map (·.name)) enc hsound penv available sers config formats stext spec hc1 hc2 hc3 hc4 hc5 hspec hknown (by
      intro c hc
      obtain ⟨c', h1, rfl⟩ := Option.map_eq_some_iff.1 hc
      exact hav c' h1)
    chunks items hnd hsz zs hz1 (fun e => hne ((e ▸ hz2).nil_eq.symm)) (by rw [hz2.length_eq]; exact hfew) updated draw hdraw
  refine ⟨o, g1, ?_⟩
  intro W nw bs epoch hW hnw hbs
  obtain ⟨q1, q2⟩ := g2 fs join hjoin hst hex W nw bs epoch hW hnw hbs
  refine ⟨?_, ?_⟩
  · intro perm sh nn a b c
    obtain ⟨pieces, p1, p2, p3⟩ := q1 perm sh nn a b c
    exact ⟨pieces, p1, p2, p3.perm hz2⟩
  · obtain ⟨pieces, p1, p2, p3⟩ := q2 false
    refine ⟨pieces, p1, p2, ?_⟩
    simp only [Bool.false_eq_true, if_false, List.take_length] at p3
    exact p3.perm hz2

/-- `appendPipe` in an empty folder: all workers start at chunk 0. -/
def freshPipe : PipeCfg (WriterState × Nat) (List WItem) where
  workers := 3
  downloaders := 1
  uploaders := 2
  inputDir := false
  outPath := true
  cloud := true
  faulty := false
  items := fun w => (([[0, 1], [2, 3], [4, 5, 6]] : List (List Nat)).getD w []).length
  paths := fun _ _ => []
  job := fun w => writerJob ⟨2, 0⟩ none (globalRank 0 3 w) (([0, 0, 0] : List Nat).getD w 0) fun i =>
    some (workerItems none (fun _ => 0) (((([[0, 1], [2, 3], [4, 5, 6]] : List (List Nat)).getD w [])[i]?).elim [] runFn))

theorem freshPipe_fit : ∀ w (order : List Nat), w < freshPipe.workers → order.Perm (List.range (freshPipe.items w)) →
    ChunksFit ⟨2, 0⟩ 0 (order.flatMap fun i => workerItems none ((fun _ _ _ => 0 : Nat → Nat → Nat → Nat) w i)
      (((([[0, 1], [2, 3], [4, 5, 6]] : List (List Nat)).getD w [])[i]?).elim [] runFn)) := by
  intro w order hw hp
  have hpf := hp.flatMap_right fun i => workerItems none (fun _ => 0)
    (((([[0, 1], [2, 3], [4, 5, 6]] : List (List Nat)).getD w [])[i]?).elim [] runFn)
  have hmap := (hpf.map fun x => x.data.length)
  apply chunksFit_of_total
  · left
    intro x hx
    rw [hpf.mem_iff] at hx
    have : ∀ w < 3, ∀ x ∈ (List.range (freshPipe.items w)).flatMap (fun i => workerItems none (fun _ => 0)
      (((([[0, 1], [2, 3], [4, 5, 6]] : List (List Nat)).getD w [])[i]?).elim [] runFn)), x.data ≠ [] := by decide +kernel
    exact this w hw x hx
  · rw [hpf.length_eq, hmap.sum_nat]
    have : ∀ w < 3, 8 + 4 * ((List.range (freshPipe.items w)).flatMap (fun i => workerItems none (fun _ => 0)
      (((([[0, 1], [2, 3], [4, 5, 6]] : List (List Nat)).getD w [])[i]?).elim [] runFn))).length +
      (((List.range (freshPipe.items w)).flatMap (fun i => workerItems none (fun _ => 0)
      (((([[0, 1], [2, 3], [4, 5, 6]] : List (List Nat)).getD w [])[i]?).elim [] runFn))).map fun x => x.data.length).sum < 2 ^ 32 := by
      decide +kernel
    exact this w hw

/-- What the function gives for the inputs of the workers. -/
def freshOut (w i : Nat) : List (Bytes × Option Nat) := ((([[0, 1], [2, 3], [4, 5, 6]] : List (List Nat)).getD w [])[i]?).elim [] runFn

/-- The indexes of the workers of `freshPipe`, and merging them. -/
theorem fresh_infos (config : IndexConfig) (s : PWorld (WriterState × Nat) (List WItem)) (h1 : PReach freshPipe (fun _ => none) s) (h2 : Final freshPipe s) :
    ∃ infos : List (List ChunkInfo), infos.length = freshPipe.workers ∧ infos.flatten ≠ [] ∧
      (∀ (w : Nat) (cs : List ChunkInfo), infos[w]? = some cs → workerIndexFrom ⟨2, 0⟩ none none (fun _ => 0) w (([0, 0, 0] : List Nat).getD w 0)
        ((s.ws w).processed.flatMap fun i => workerItems none (fun _ => 0) (freshOut w i)) = .ok cs) ∧
      ∀ d, WorkersDone config infos d → ∃ d' new, mergeNoWait none none d = (.ok (), d') ∧ dirGet d' "index.json" = some (.index ⟨[] ++ new, some config⟩) := by
  obtain ⟨_, _, orders, infos, k0, k2, k3, k4⟩ := c82_appended ⟨2, 0⟩ none (fun c h => by cases h) none config freshPipe (fun _ => none) [] none (Or.inl ⟨rfl, rfl⟩)
    [] rfl (by simp) (by simp) [0, 0, 0] (by decide) freshOut
    (fun _ _ _ => 0) (fun _ _ => 0) (by decide) (by decide) (by decide) rfl (fun _ _ => rfl) (Or.inl rfl)
    (fun _ _ _ _ _ _ _ _ _ _ hp => by simp [freshPipe] at hp) freshPipe_fit s h1 h2
  have horder : ∀ w, w < freshPipe.workers → orders[w]? = some (s.ws w).processed := by
    intro w hw
    rw [k0, List.getElem?_map, List.getElem?_range hw]
    rfl
  have hw : ∀ (w : Nat) (cs : List ChunkInfo), infos[w]? = some cs → w < freshPipe.workers := fun w cs h => k2 ▸ (List.getElem?_eq_some_iff.1 h).1
  have hsome : infos.flatten ≠ [] := by
    intro e
    have hl : infos.length = 3 := k2
    have hget : infos[2]? = some infos[2] := List.getElem?_eq_getElem (by omega)
    obtain ⟨_, g2, g3⟩ := k3 2 _ _ (horder 2 (by decide)) hget
    rw [g2 (Or.inl rfl), List.flatten_eq_nil_iff.1 e _ (List.getElem_mem _)] at g3
    have : ((workerIndexFrom ⟨2, 0⟩ none none (fun _ => 0) 2 0 ((List.range 3).flatMap fun i => workerItems none (fun _ => 0)
      (freshOut 2 i))).toOption.map List.length) ≠ some 0 := by decide +kernel
    apply this
    have e3 : workerIndexFrom ⟨2, 0⟩ none none (fun _ => 0) 2 0 ((List.range 3).flatMap fun i => workerItems none (fun _ => 0) (freshOut 2 i)) = .ok [] := g3
    rw [e3]
    rfl
  refine ⟨infos, k2, hsome, fun w cs hcs => (k3 w _ cs (horder w (hw w cs hcs)) hcs).2.2, ?_⟩
  intro d hd
  obtain ⟨d', new, _, m1, m2, _⟩ := k4 d hd (fun _ => hsome)
  exact ⟨d', new, m1, m2⟩

/-- A first call in an empty folder that is killed at once. -/
theorem fresh_broken (config : IndexConfig) : AppendHistory ⟨2, 0⟩ none none config runFn id [] (fun _ => none) [] := by
  refine AppendHistory.broken (existing := []) (fs0 := fun _ => none) (done := []) (.start fun _ => none) freshPipe (fun _ => none)
    (fun w i => some (workerItems none (fun _ => 0) (freshOut w i))) (by decide) (by decide) [0, 0, 0] (by decide) ?_ (startPWorld freshPipe fun _ => none) PReach.start _ ?_
  · intro w hw
    rfl
  · intro n hn
    rfl

/-- A history as in `c97_grown`: a first call is killed, the second one does all its work. -/
example (config : IndexConfig) : ∃ chunks fs, AppendHistory ⟨2, 0⟩ none none config runFn id chunks fs (List.range 7) := by
  obtain ⟨s, h1, h2⟩ := reaches_final (PReach.start (cfg := freshPipe) (remote0 := fun _ => none))
  obtain ⟨infos, k2, hsome, k3, k4⟩ := fresh_infos config s h1 h2
  obtain ⟨d, hd⟩ := workersDone_exists config infos
  obtain ⟨fs', hfs⟩ := holdsChunks_exists none none (fun _ _ => 0) freshPipe.workers s.remote
  obtain ⟨d', new, m1, m2⟩ := k4 d hd
  refine ⟨[] ++ new, fun n => if (s.remote n).isNone then none else fs' n, ?_⟩
  rw [show List.range 7 = [] ++ List.range 7 from rfl]
  refine AppendHistory.completed (existing := []) (fs0 := fun _ => none) (done := []) (fresh_broken config)
    (List.range 7) freshPipe (fun _ => none) (fun _ _ _ => 0) (fun _ _ => 0) (by decide) (by decide) (by decide) rfl [[0, 1], [2, 3], [4, 5, 6]] (by decide)
    (fun _ _ => rfl) [0, 0, 0] (by decide) (fun _ _ => rfl) (Or.inl rfl) (fun _ _ _ _ _ _ _ _ _ _ hp => by simp [freshPipe] at hp) freshPipe_fit s h1 h2 infos k2
    k3 d d' hd (fun _ => hsome) m1 _ _ m2 _ ?_ ?_
  · intro w k c hw hc
    show (if _ then _ else _) = _
    rw [if_neg (by simp only [id_eq]; rw [hc]; simp)]
    exact hfs w k c hw hc
  · intro n hn
    show (if _ then _ else _) = _
    rw [id_eq, remote_old (by decide) (by decide) h1 n hn]
    rfl

end LitData.Props
