import Verif.Lemmas.CheckpointStore

/-! Property C68: a run with checkpoints loads exactly what interrupted runs with the same settings have saved. -/

namespace LitData.Props
open LitData

/-- The key of a file in the folder of checkpoints of a dataset. -/
def ckKey (P name : PathStr) : PathStr := P ++ "/.checkpoints/".toList ++ name

/-- A dataset in an object store: its bucket and its key, and a temporary folder. -/
structure RemoteDir (bucket P tmp : PathStr) : Prop where
  bucket : BucketName bucket
  url : UrlKey P
  clean : CleanKey P
  tmpNe : tmp ≠ []
  tmpLast : tmp.getLast? ≠ some '/'

theorem ckKey_eq (P name : PathStr) : ckKey P name = (P ++ "/.checkpoints".toList) ++ '/' :: name := by simp [ckKey]

theorem RemoteDir.folder {bucket P tmp : PathStr} (h : RemoteDir bucket P tmp) : UrlKey (P ++ "/.checkpoints".toList) ∧ CleanKey (P ++ "/.checkpoints".toList) := by
  refine ⟨UrlKey.append.2 ⟨h.url, by unfold UrlKey; decide⟩, ?_⟩
  have : P ++ "/.checkpoints".toList = P ++ '/' :: ".checkpoints".toList := rfl
  rw [this]
  exact CleanKey.both.2 ⟨h.clean, by unfold CleanKey; decide⟩

theorem remote_url (st : ObjStore) (bucket P : PathStr) (slash : Bool) (hP : CleanKey P) :
    checkpointsUrl (outputOf (objectUrl st bucket P) slash) = objectUrl st bucket ((P ++ "/.checkpoints".toList) ++ ['/']) := by
  rw [checkpointsUrl_eq _ _ (objectUrl_last st bucket P hP.last hP.ne), objectUrl_append]
  simp

/-- **C68, loading.** If the folder of checkpoints of a dataset in an object store holds a configuration and the checkpoints of some workers, in files and not in folders,
the configuration is compared, and then every worker gets its own checkpoint, or none if there is none. For S3 the folder has at most 1000 objects. -/
theorem c68_load_partial (st : ObjStore) (o : Objects CkText) (hn : (o.map (·.1)).Nodup) (bucket P tmp : PathStr) (slash : Bool) (hr : RemoteDir bucket P tmp)
    (files : LocalFiles CkText) (hfresh : ∀ p, files (tmp ++ '/' :: p) = none) (hflat : ∀ rel x, ((bucket, ckKey P rel), x) ∈ o → rel ≠ [] ∧ '/' ∉ rel)
    (hpage : st = .s3 → (o.filter fun e => e.1.1 == bucket && (ckKey P []).isPrefixOf e.1.2).length ≤ 1000)
    (n numWorkers : Nat) (its items : List (List UserItem)) (hconfig : ((bucket, ckKey P "config.json".toList), .config n its) ∈ o)
    (g : Nat → Option Ckpt) (hg : ∀ i < numWorkers, o.get (bucket, ckKey P (ckptName i)) = (g i).map .ckpt) :
    loadRemote st o (outputOf (objectUrl st bucket P) slash) tmp files numWorkers items =
      (checkConfig (n, its) numWorkers items).bind fun _ => .ok ((List.range numWorkers).map fun i => (g i).getD ⟨[], 0⟩) := by
  have hpage' : st = .s3 → (o.filter fun e => e.1.1 == bucket && ((P ++ "/.checkpoints".toList) ++ ['/']).isPrefixOf e.1.2).length ≤ 1000 := by
    have : (P ++ "/.checkpoints".toList) ++ ['/'] = ckKey P [] := by simp [ckKey]
    rw [this]
    exact hpage
  obtain ⟨D, files', hrun, hD, he, hfiles⟩ := downloadDir_flat st o hn bucket (P ++ "/.checkpoints".toList) tmp hr.bucket hr.folder.1 hr.folder.2 hr.tmpNe hr.tmpLast files
    hfresh (fun rel x hm => hflat rel x (by rwa [ckKey_eq])) ⟨_, _, by rw [ckKey_eq] at hconfig; exact hconfig⟩ hpage'
  unfold loadRemote
  rw [remote_url st bucket P slash hr.clean, hrun]
  refine loadFrom_spec D hD he files' n numWorkers its items g ?_ ?_
  · rw [hfiles, ← ckKey_eq]
    exact o.get_of_mem hn hconfig
  · intro i hi
    rw [hfiles, ← ckKey_eq]
    exact hg i hi

/-- **C68, nothing saved.** Without objects in the folder of checkpoints no worker gets a checkpoint, as long as there is no `config.json` in the current folder. -/
theorem c68_nothing_partial (st : ObjStore) (o : Objects CkText) (bucket P tmp : PathStr) (slash : Bool) (hr : RemoteDir bucket P tmp)
    (files : LocalFiles CkText) (hno : ∀ rel x, ((bucket, ckKey P rel), x) ∉ o) (numWorkers : Nat) (items : List (List UserItem)) :
    loadRemote st o (outputOf (objectUrl st bucket P) slash) tmp files numWorkers items = loadFrom ".".toList files numWorkers items ∧
    (files "./config.json".toList = none →
      loadRemote st o (outputOf (objectUrl st bucket P) slash) tmp files numWorkers items = .ok (List.replicate numWorkers ⟨[], 0⟩)) := by
  have hlist : st.list o bucket ((P ++ "/.checkpoints".toList) ++ ['/']) = [] := by
    have hf : (o.filter fun e => e.1.1 == bucket && ((P ++ "/.checkpoints".toList) ++ ['/']).isPrefixOf e.1.2) = [] := by
      rw [List.filter_eq_nil_iff]
      intro e he
      simp only [Bool.and_eq_true, beq_iff_eq, List.isPrefixOf_iff_prefix]
      rintro ⟨h1, rel, h2⟩
      refine hno rel e.2 ?_
      have : ((bucket, ckKey P rel), e.2) = e := by
        refine Prod.ext (Prod.ext h1.symm ?_) rfl
        simp only [← h2, ckKey]
        simp
      rw [this]
      exact he
    unfold ObjStore.list
    rw [hf]
    cases st <;> rfl
  have hrun : st.downloadDir o (objectUrl st bucket ((P ++ "/.checkpoints".toList) ++ ['/'])) tmp files = .ok (".".toList, files) := by
    unfold ObjStore.downloadDir
    rw [bucketAndPath_object st bucket _ hr.bucket (UrlKey.append.2 ⟨hr.folder.1, by unfold UrlKey; decide⟩)]
    show st.fetchAll _ tmp (st.list o bucket _) _ files = _
    rw [hlist]
    rfl
  have h1 : loadRemote st o (outputOf (objectUrl st bucket P) slash) tmp files numWorkers items = loadFrom ".".toList files numWorkers items := by
    unfold loadRemote
    rw [remote_url st bucket P slash hr.clean, hrun]
    rfl
  refine ⟨h1, ?_⟩
  intro hc
  rw [h1]
  unfold loadFrom
  have : joinPath ".".toList "config.json".toList = "./config.json".toList := by decide
  rw [this, hc]

/-- **C68, fails: the current folder.** If nothing was saved, a `config.json` in the folder in which the program runs is taken for the configuration: any other JSON file makes
the run fail, also one that holds the settings of another run. -/
theorem c68_current_folder (st : ObjStore) (o : Objects CkText) (bucket P tmp : PathStr) (slash : Bool) (hr : RemoteDir bucket P tmp)
    (files : LocalFiles CkText) (hno : ∀ rel x, ((bucket, ckKey P rel), x) ∉ o) (numWorkers : Nat) (items : List (List UserItem)) :
    (files "./config.json".toList = some .other → loadRemote st o (outputOf (objectUrl st bucket P) slash) tmp files numWorkers items = .error .keyError) ∧
    (∀ n its, files "./config.json".toList = some (.config n its) → n ≠ numWorkers →
      loadRemote st o (outputOf (objectUrl st bucket P) slash) tmp files numWorkers items = .error .valueError) := by
  have hj : joinPath ".".toList "config.json".toList = "./config.json".toList := by decide
  constructor
  · intro hc
    rw [(c68_nothing_partial st o bucket P tmp slash hr files hno numWorkers items).1]
    unfold loadFrom
    rw [hj, hc]
  · intro n its hc hne
    rw [(c68_nothing_partial st o bucket P tmp slash hr files hno numWorkers items).1]
    unfold loadFrom
    rw [hj, hc]
    simp only [checkConfig, ne_eq, hne, not_false_eq_true, if_true]
    rfl

/-- What the folder of checkpoints holds: the configuration, and the checkpoints `g`. -/
structure CkSaved (o : Objects CkText) (bucket P : PathStr) (numWorkers : Nat) (items : List (List UserItem)) (g : Nat → Option Ckpt) : Prop where
  nodup : (o.map (·.1)).Nodup
  names : ∀ rel x, ((bucket, ckKey P rel), x) ∈ o → rel = "config.json".toList ∨ ∃ i < numWorkers, rel = ckptName i
  config : ((bucket, ckKey P "config.json".toList), .config (savedConfig numWorkers items).1 (savedConfig numWorkers items).2) ∈ o
  ckpts : ∀ i < numWorkers, o.get (bucket, ckKey P (ckptName i)) = (g i).map .ckpt

theorem ckptName_inj {i j : Nat} (h : ckptName i = ckptName j) : i = j := by
  unfold ckptName at h
  rw [List.append_left_inj, List.append_right_inj] at h
  exact toDigits_inj _ _ h

theorem ckptName_config (i : Nat) : ckptName i ≠ "config.json".toList := by
  unfold ckptName
  intro h
  have := congrArg (fun l : List Char => l.take 2) h
  simp at this

theorem ckKey_inj {P a b : PathStr} (h : ckKey P a = ckKey P b) : a = b := by
  unfold ckKey at h
  exact List.append_cancel_left h

theorem nodup_length_le' {α : Type} [DecidableEq α] : ∀ {l m : List α}, l.Nodup → l ⊆ m → l.length ≤ m.length
  | [], _, _, _ => by simp
  | a :: l, m, hnd, hsub => by
    rw [List.nodup_cons] at hnd
    have ha : a ∈ m := hsub (by simp)
    have := nodup_length_le' (l := l) (m := m.erase a) hnd.2 (by
      intro b hb
      have hne : b ≠ a := fun h => hnd.1 (h ▸ hb)
      exact (List.mem_erase_of_ne hne).2 (hsub (by simp [hb])))
    rw [List.length_erase_of_mem ha] at this
    have : 0 < m.length := List.length_pos_of_mem ha
    simp only [List.length_cons]
    omega

theorem ckptName_ne (i : Nat) : ckptName i ≠ [] := by
  unfold ckptName
  intro h
  exact absurd (List.append_eq_nil_iff.1 h).2 (by decide)

theorem CkSaved.flat {o : Objects CkText} {bucket P : PathStr} {numWorkers : Nat} {items : List (List UserItem)} {g : Nat → Option Ckpt}
    (h : CkSaved o bucket P numWorkers items g) : ∀ rel x, ((bucket, ckKey P rel), x) ∈ o → rel ≠ [] ∧ '/' ∉ rel := by
  intro rel x hm
  rcases h.names rel x hm with rfl | ⟨i, -, rfl⟩
  · exact ⟨by decide, config_plain⟩
  · exact ⟨ckptName_ne i, ckptName_plain i⟩

theorem CkSaved.page {o : Objects CkText} {bucket P : PathStr} {numWorkers : Nat} {items : List (List UserItem)} {g : Nat → Option Ckpt}
    (h : CkSaved o bucket P numWorkers items g) : (o.filter fun e => e.1.1 == bucket && (ckKey P []).isPrefixOf e.1.2).length ≤ numWorkers + 1 := by
  have hsub : ((o.filter fun e => e.1.1 == bucket && (ckKey P []).isPrefixOf e.1.2).map (·.1)).Nodup := h.nodup.sublist (List.filter_sublist.map _)
  have := nodup_length_le' (m := (bucket, ckKey P "config.json".toList) :: (List.range numWorkers).map fun i => (bucket, ckKey P (ckptName i))) hsub (by
    intro k hk
    obtain ⟨e, he, rfl⟩ := List.mem_map.1 hk
    obtain ⟨h1, h2⟩ := List.mem_filter.1 he
    simp only [Bool.and_eq_true, beq_iff_eq, List.isPrefixOf_iff_prefix] at h2
    obtain ⟨h2, rel, h3⟩ := h2
    have hk : e.1 = (bucket, ckKey P rel) := by
      refine Prod.ext h2 ?_
      simp only [← h3, ckKey]
      simp
    rcases h.names rel e.2 (by rw [← hk]; exact h1) with hr | ⟨i, hi, hr⟩
    · rw [hk, hr]
      exact List.mem_cons_self
    · rw [hk, hr]
      exact List.mem_cons_of_mem _ (List.mem_map.2 ⟨i, List.mem_range.2 hi, rfl⟩))
  simpa using this

theorem ck_url (st : ObjStore) (bucket P name : PathStr) (slash : Bool) (hP : CleanKey P) (hn : '/' ∉ name) :
    joinPath (checkpointsUrl (outputOf (objectUrl st bucket P) slash)) name = objectUrl st bucket (ckKey P name) := by
  rw [remote_url st bucket P slash hP]
  unfold joinPath
  have hh : name.head? ≠ some '/' := fun h => hn (List.mem_of_mem_head? h)
  rw [if_neg hh, if_pos]
  · rw [objectUrl_append]
    simp [ckKey]
  · right
    unfold objectUrl
    rw [← List.cons_append, ← List.append_assoc, List.getLast?_append]
    rfl

theorem ckKey_url {bucket P tmp : PathStr} (hr : RemoteDir bucket P tmp) {name : PathStr} (h : UrlKey name) : UrlKey (ckKey P name) := by
  unfold ckKey
  exact UrlKey.append.2 ⟨UrlKey.append.2 ⟨hr.url, by unfold UrlKey; decide⟩, h⟩

theorem ckptName_url (i : Nat) : UrlKey (ckptName i) := by
  unfold ckptName
  refine UrlKey.append.2 ⟨UrlKey.append.2 ⟨by unfold UrlKey; decide, ?_⟩, by unfold UrlKey; decide⟩
  unfold UrlKey
  intro c hc
  have := Nat.isDigit_of_mem_toDigits (by decide) (by decide) hc
  constructor <;> rintro rfl <;> revert this <;> decide

/-- The settings and inputs are saved: the folder holds them, and the checkpoints are as before. -/
theorem save_saved (st : ObjStore) (o : Objects CkText) (bucket P tmp : PathStr) (slash : Bool) (hr : RemoteDir bucket P tmp) (numWorkers : Nat)
    (items : List (List UserItem)) (g : Nat → Option Ckpt) (hn : (o.map (·.1)).Nodup)
    (names : ∀ rel x, ((bucket, ckKey P rel), x) ∈ o → rel = "config.json".toList ∨ ∃ i < numWorkers, rel = ckptName i)
    (ckpts : ∀ i < numWorkers, o.get (bucket, ckKey P (ckptName i)) = (g i).map .ckpt) :
    CkSaved (saveRemote st o (outputOf (objectUrl st bucket P) slash) numWorkers items) bucket P numWorkers items g := by
  have hput : saveRemote st o (outputOf (objectUrl st bucket P) slash) numWorkers items =
      o.put (bucket, ckKey P "config.json".toList) (.config (savedConfig numWorkers items).1 (savedConfig numWorkers items).2) := by
    unfold saveRemote ObjStore.upload
    rw [ck_url st bucket P _ slash hr.clean config_plain, bucketAndPath_object st bucket _ hr.bucket (ckKey_url hr (by unfold UrlKey; decide))]
    rfl
  rw [hput]
  refine ⟨o.nodup_put _ _ hn, ?_, ?_, ?_⟩
  · intro rel x hm
    rcases (o.mem_put ..).1 hm with ⟨h1, -⟩ | ⟨-, h2⟩
    · injection h1 with _ h1
      exact Or.inl (ckKey_inj h1)
    · exact names rel x h2
  · exact (o.mem_put ..).2 (Or.inl ⟨rfl, rfl⟩)
  · intro i hi
    rw [Objects.get_put, if_neg]
    · exact ckpts i hi
    · intro h
      injection h with _ h
      exact ckptName_config i (ckKey_inj h)

/-- A checkpoint is uploaded: it is the checkpoint of its worker, those of the others are as before. -/
theorem upload_saved (st : ObjStore) (o : Objects CkText) (bucket P tmp cacheDir uuid : PathStr) (slash : Bool) (hr : RemoteDir bucket P tmp) (numWorkers : Nat)
    (items : List (List UserItem)) (g : Nat → Option Ckpt) (h : CkSaved o bucket P numWorkers items g) (rank : Nat) (hrank : rank < numWorkers) (c : Ckpt)
    (hc : cacheDir ≠ []) (hce : cacheDir.getLast? ≠ some '/') (hu : uuid.length = 32) (hus : '/' ∉ uuid) :
    ∃ o', st.upload o (uploadTarget cacheDir (outputOf (objectUrl st bucket P) slash) none (checkpointFile cacheDir rank uuid)) (.ckpt c) = .ok o' ∧
      CkSaved o' bucket P numWorkers items fun i => if i = rank then some c else g i := by
  have hbase : objectUrl st bucket P ≠ [] := by
    unfold objectUrl
    cases st <;> simp [ObjStore.scheme]
  have hkey : objectUrl st bucket P ++ "/.checkpoints/checkpoint-".toList ++ Nat.toDigits 10 rank ++ ".json".toList =
      objectUrl st bucket (ckKey P (ckptName rank)) := by
    rw [objectUrl_append, objectUrl_append, objectUrl_append]
    unfold ckKey ckptName
    generalize Nat.toDigits 10 rank = d
    have : P ++ "/.checkpoints/checkpoint-".toList ++ d ++ ".json".toList = P ++ "/.checkpoints/".toList ++ ("checkpoint-".toList ++ d ++ ".json".toList) := by simp
    rw [this]
  refine ⟨o.put (bucket, ckKey P (ckptName rank)) (.ckpt c), ?_, ?_⟩
  · rw [c60_checkpoint cacheDir _ uuid slash rank hbase (objectUrl_last st bucket P hr.clean.last hr.clean.ne) hc hce hu hus, hkey]
    unfold ObjStore.upload
    rw [bucketAndPath_object st bucket _ hr.bucket (ckKey_url hr (ckptName_url rank))]
    rfl
  · refine ⟨o.nodup_put _ _ h.nodup, ?_, ?_, ?_⟩
    · intro rel x hm
      rcases (o.mem_put ..).1 hm with ⟨h1, -⟩ | ⟨-, h2⟩
      · injection h1 with _ h1
        exact Or.inr ⟨rank, hrank, ckKey_inj h1⟩
      · exact h.names rel x h2
    · refine (o.mem_put ..).2 (Or.inr ⟨?_, h.config⟩)
      intro h'
      injection h' with _ h'
      exact ckptName_config rank (ckKey_inj h').symm
    · intro i hi
      rw [Objects.get_put]
      by_cases hir : i = rank
      · rw [if_pos (by rw [hir]), if_pos hir]
        rfl
      · rw [if_neg, if_neg hir]
        · exact h.ckpts i hi
        · intro h'
          injection h' with _ h'
          exact hir (ckptName_inj (ckKey_inj h'))

/-- A checkpoint that a worker uploads: its rank, the random part of the name of the local file, and what it holds. -/
structure CkUpload where
  rank : Nat
  uuid : PathStr
  ckpt : Ckpt

/-- The uploads of checkpoints of one run (`processing/data_processor.py:226-293`). -/
noncomputable def uploadCkpts (st : ObjStore) (url cacheDir : PathStr) : List CkUpload → Objects CkText → Py (Objects CkText)
  | [], o => .ok o
  | u :: l, o => (st.upload o (uploadTarget cacheDir url none (checkpointFile cacheDir u.rank u.uuid)) (.ckpt u.ckpt)).bind (uploadCkpts st url cacheDir l)

/-- Runs one after the other, each of which begins, uploads checkpoints and is interrupted. -/
noncomputable def interruptedRuns (st : ObjStore) (url tmp cacheDir : PathStr) (files : LocalFiles CkText) (numWorkers : Nat) (items : List (List UserItem)) :
    List (List CkUpload) → Objects CkText → Py (Objects CkText)
  | [], o => .ok o
  | run :: runs, o => (beginRemote st o url tmp files numWorkers items).bind fun r =>
    (uploadCkpts st url cacheDir run r.2).bind (interruptedRuns st url tmp cacheDir files numWorkers items runs)

/-- The last checkpoint that a worker has uploaded. -/
def lastUpload (l : List CkUpload) (i : Nat) : Option Ckpt := (l.filter fun u => u.rank == i).getLast?.map (·.ckpt)

theorem lastUpload_append (a b : List CkUpload) (i : Nat) : lastUpload (a ++ b) i = (lastUpload b i).or (lastUpload a i) := by
  unfold lastUpload
  rw [List.filter_append, List.getLast?_append]
  cases (List.filter (fun u => u.rank == i) b).getLast? <;> simp

theorem uploadCkpts_saved (st : ObjStore) (bucket P tmp cacheDir : PathStr) (slash : Bool) (hr : RemoteDir bucket P tmp) (numWorkers : Nat) (items : List (List UserItem))
    (hc : cacheDir ≠ []) (hce : cacheDir.getLast? ≠ some '/') (l : List CkUpload) (hl : ∀ u ∈ l, u.rank < numWorkers ∧ u.uuid.length = 32 ∧ '/' ∉ u.uuid)
    (o : Objects CkText) (g : Nat → Option Ckpt) (h : CkSaved o bucket P numWorkers items g) :
    ∃ o', uploadCkpts st (outputOf (objectUrl st bucket P) slash) cacheDir l o = .ok o' ∧ CkSaved o' bucket P numWorkers items fun i => (lastUpload l i).or (g i) := by
  induction l generalizing o g with
  | nil => exact ⟨o, rfl, by simpa [lastUpload] using h⟩
  | cons u l ih =>
    obtain ⟨h1, h2, h3⟩ := hl u (by simp)
    obtain ⟨o1, e1, s1⟩ := upload_saved st o bucket P tmp cacheDir u.uuid slash hr numWorkers items g h u.rank h1 u.ckpt hc hce h2 h3
    obtain ⟨o2, e2, s2⟩ := ih (fun u hu => hl u (by simp [hu])) o1 _ s1
    refine ⟨o2, ?_, ?_⟩
    · unfold uploadCkpts
      rw [e1]
      exact e2
    · have : (fun i => (lastUpload (u :: l) i).or (g i)) = fun i => (lastUpload l i).or (if i = u.rank then some u.ckpt else g i) := by
        funext i
        have := lastUpload_append [u] l i
        rw [List.singleton_append] at this
        rw [this]
        by_cases hi : i = u.rank
        · subst hi
          cases lastUpload l u.rank <;> simp [lastUpload]
        · have hne : (u.rank == i) = false := by simpa using fun h => hi h.symm
          cases lastUpload l i <;> simp [lastUpload, hi, hne]
      rw [this]
      exact s2

theorem load_saved (st : ObjStore) (o : Objects CkText) (bucket P tmp : PathStr) (slash : Bool) (hr : RemoteDir bucket P tmp) (files : LocalFiles CkText)
    (hfresh : ∀ p, files (tmp ++ '/' :: p) = none) (numWorkers : Nat) (hw : st = .s3 → numWorkers < 1000) (items : List (List UserItem))
    (g : Nat → Option Ckpt) (h : CkSaved o bucket P numWorkers items g) (n' : Nat) (items' : List (List UserItem)) :
    loadRemote st o (outputOf (objectUrl st bucket P) slash) tmp files n' items' =
      (checkConfig (savedConfig numWorkers items) n' items').bind fun _ => .ok ((List.range n').map fun i => ((if i < numWorkers then g i else none)).getD ⟨[], 0⟩) :=
  c68_load_partial st o h.nodup bucket P tmp slash hr files hfresh h.flat (fun hs => by have := h.page; have := hw hs; omega) _ n' _ items' h.config
    (fun i => if i < numWorkers then g i else none) (fun i _ => by
      by_cases hi : i < numWorkers
      · rw [if_pos hi]
        exact h.ckpts i hi
      · rw [if_neg hi]
        refine o.get_none fun x hm => ?_
        rcases h.names _ x hm with hc | ⟨j, hj, hc⟩
        · exact ckptName_config i hc
        · exact hi (ckptName_inj hc ▸ hj))

theorem load_same (st : ObjStore) (o : Objects CkText) (bucket P tmp : PathStr) (slash : Bool) (hr : RemoteDir bucket P tmp) (files : LocalFiles CkText)
    (hfresh : ∀ p, files (tmp ++ '/' :: p) = none) (numWorkers : Nat) (hw : st = .s3 → numWorkers < 1000) (items : List (List UserItem)) (ht : ∀ w ∈ items, NoTuples w)
    (g : Nat → Option Ckpt) (h : CkSaved o bucket P numWorkers items g) :
    loadRemote st o (outputOf (objectUrl st bucket P) slash) tmp files numWorkers items = .ok ((List.range numWorkers).map fun i => (g i).getD ⟨[], 0⟩) := by
  rw [load_saved st o bucket P tmp slash hr files hfresh numWorkers hw items g h numWorkers items, (c25_tuple_inputs_refused numWorkers items).1.2 ht]
  show Except.ok _ = _
  congr 1
  apply List.map_congr_left
  intro i hi
  rw [if_pos (List.mem_range.1 hi)]

/-- Other settings or inputs than those saved are refused. -/
theorem load_other (st : ObjStore) (o : Objects CkText) (bucket P tmp : PathStr) (slash : Bool) (hr : RemoteDir bucket P tmp) (files : LocalFiles CkText)
    (hfresh : ∀ p, files (tmp ++ '/' :: p) = none) (numWorkers : Nat) (hw : st = .s3 → numWorkers < 1000) (items : List (List UserItem)) (ht : ∀ w ∈ items, NoTuples w)
    (g : Nat → Option Ckpt) (h : CkSaved o bucket P numWorkers items g) (n' : Nat) (items' : List (List UserItem)) (hne : n' ≠ numWorkers ∨ items' ≠ items) :
    loadRemote st o (outputOf (objectUrl st bucket P) slash) tmp files n' items' = .error .valueError := by
  rw [load_saved st o bucket P tmp slash hr files hfresh numWorkers hw items g h n' items']
  have hsaved : savedConfig numWorkers items = (numWorkers, items) := by
    have := ((c25_only_same_run numWorkers numWorkers items items).1).1 ((c25_tuple_inputs_refused numWorkers items).1.2 ht)
    unfold savedConfig
    rw [this.2]
  rw [hsaved]
  unfold checkConfig
  by_cases h1 : numWorkers = n'
  · have h2 : items ≠ items' := by
      rintro rfl
      rcases hne with hne | hne
      · exact hne h1.symm
      · exact hne rfl
    rw [if_neg (by simpa using h1), if_pos h2]
    rfl
  · rw [if_pos h1]
    rfl

/-- A later run begins: it gets the checkpoints, which are not changed. -/
theorem begin_saved (st : ObjStore) (o : Objects CkText) (bucket P tmp : PathStr) (slash : Bool) (hr : RemoteDir bucket P tmp) (files : LocalFiles CkText)
    (hfresh : ∀ p, files (tmp ++ '/' :: p) = none) (numWorkers : Nat) (hw : st = .s3 → numWorkers < 1000) (items : List (List UserItem)) (ht : ∀ w ∈ items, NoTuples w)
    (g : Nat → Option Ckpt) (h : CkSaved o bucket P numWorkers items g) :
    ∃ o', beginRemote st o (outputOf (objectUrl st bucket P) slash) tmp files numWorkers items = .ok ((List.range numWorkers).map fun i => (g i).getD ⟨[], 0⟩, o') ∧
      CkSaved o' bucket P numWorkers items g := by
  have hload := load_same st o bucket P tmp slash hr files hfresh numWorkers hw items ht g h
  unfold beginRemote
  rw [hload]
  refine ⟨_, rfl, ?_⟩
  split
  · exact save_saved st o bucket P tmp slash hr numWorkers items g h.nodup h.names h.ckpts
  · exact h

/-- **C68, interrupted runs.** For an output in an object store whose folder of checkpoints is empty, any number of runs with the same settings and inputs, which upload any
checkpoints of their workers and are interrupted: no run is refused, and the next one gets for each worker the last checkpoint that the worker has uploaded, in whichever
run, and none if it has uploaded none. A run with other settings or inputs is refused. Missing: inputs with tuples, a `config.json` in the current folder, 1000 workers or more with S3, and several nodes, for all of which it is false. -/
theorem c68_resume_partial (st : ObjStore) (o : Objects CkText) (bucket P tmp cacheDir : PathStr) (slash : Bool) (hr : RemoteDir bucket P tmp) (files : LocalFiles CkText)
    (hfresh : ∀ p, files (tmp ++ '/' :: p) = none) (hcwd : files "./config.json".toList = none) (hc : cacheDir ≠ []) (hce : cacheDir.getLast? ≠ some '/')
    (hn : (o.map (·.1)).Nodup) (hno : ∀ rel x, ((bucket, ckKey P rel), x) ∉ o) (numWorkers : Nat) (hw : st = .s3 → numWorkers < 1000)
    (items : List (List UserItem)) (ht : ∀ w ∈ items, NoTuples w) (runs : List (List CkUpload))
    (hruns : ∀ run ∈ runs, ∀ u ∈ run, u.rank < numWorkers ∧ u.uuid.length = 32 ∧ '/' ∉ u.uuid) :
    ∃ o', interruptedRuns st (outputOf (objectUrl st bucket P) slash) tmp cacheDir files numWorkers items runs o = .ok o' ∧
      loadRemote st o' (outputOf (objectUrl st bucket P) slash) tmp files numWorkers items =
        .ok ((List.range numWorkers).map fun i => (lastUpload runs.flatten i).getD ⟨[], 0⟩) ∧
      (runs ≠ [] → ∀ n' items', n' ≠ numWorkers ∨ items' ≠ items → loadRemote st o' (outputOf (objectUrl st bucket P) slash) tmp files n' items' = .error .valueError) := by
  have later : ∀ (runs : List (List CkUpload)) (o : Objects CkText) (g : Nat → Option Ckpt), CkSaved o bucket P numWorkers items g →
      (∀ run ∈ runs, ∀ u ∈ run, u.rank < numWorkers ∧ u.uuid.length = 32 ∧ '/' ∉ u.uuid) →
      ∃ o', interruptedRuns st (outputOf (objectUrl st bucket P) slash) tmp cacheDir files numWorkers items runs o = .ok o' ∧
        CkSaved o' bucket P numWorkers items fun i => (lastUpload runs.flatten i).or (g i) := by
    intro runs
    induction runs with
    | nil => exact fun o g h _ => ⟨o, rfl, by simpa [lastUpload] using h⟩
    | cons run runs ih =>
      intro o g h hl
      obtain ⟨o1, e1, s1⟩ := begin_saved st o bucket P tmp slash hr files hfresh numWorkers hw items ht g h
      obtain ⟨o2, e2, s2⟩ := uploadCkpts_saved st bucket P tmp cacheDir slash hr numWorkers items hc hce run (hl run (by simp)) o1 g s1
      obtain ⟨o3, e3, s3⟩ := ih o2 _ s2 (fun r hr' => hl r (by simp [hr']))
      refine ⟨o3, ?_, ?_⟩
      · unfold interruptedRuns
        rw [e1]
        show (uploadCkpts _ _ _ run o1).bind _ = _
        rw [e2]
        exact e3
      · have : (fun i => (lastUpload (run :: runs).flatten i).or (g i)) = fun i => (lastUpload runs.flatten i).or ((lastUpload run i).or (g i)) := by
          funext i
          rw [List.flatten_cons, lastUpload_append, Option.or_assoc]
        rw [this]
        exact s3
  have hempty := (c68_nothing_partial st o bucket P tmp slash hr files hno numWorkers items).2 hcwd
  cases runs with
  | nil =>
    refine ⟨o, rfl, ?_, fun h => absurd rfl h⟩
    rw [hempty]
    congr 1
    simp only [List.flatten_nil, lastUpload, List.filter_nil, List.getLast?_nil, Option.map_none, Option.getD_none]
    rw [List.map_const', List.length_range]
  | cons run runs =>
    have s1 : CkSaved (saveRemote st o (outputOf (objectUrl st bucket P) slash) numWorkers items) bucket P numWorkers items fun _ => none :=
      save_saved st o bucket P tmp slash hr numWorkers items _ hn (fun rel x hm => absurd hm (hno rel x))
        (fun i _ => by rw [o.get_none (hno (ckptName i))]; rfl)
    have e1 : beginRemote st o (outputOf (objectUrl st bucket P) slash) tmp files numWorkers items =
        .ok (List.replicate numWorkers ⟨[], 0⟩, saveRemote st o (outputOf (objectUrl st bucket P) slash) numWorkers items) := by
      unfold beginRemote
      rw [hempty]
      show Except.ok _ = _
      rw [if_pos (by simp)]
    obtain ⟨o2, e2, s2⟩ := uploadCkpts_saved st bucket P tmp cacheDir slash hr numWorkers items hc hce run (hruns run (by simp)) _ _ s1
    obtain ⟨o3, e3, s3⟩ := later runs o2 _ s2 (fun r hr' => hruns r (by simp [hr']))
    refine ⟨o3, ?_, ?_, fun _ n' items' hne => load_other st o3 bucket P tmp slash hr files hfresh numWorkers hw items ht _ s3 n' items' hne⟩
    · unfold interruptedRuns
      rw [e1]
      show (uploadCkpts _ _ _ run _).bind _ = _
      rw [e2]
      exact e3
    · rw [load_same st o3 bucket P tmp slash hr files hfresh numWorkers hw items ht _ s3]
      congr 1
      apply List.map_congr_left
      intro i _
      rw [List.flatten_cons, lastUpload_append]
      cases lastUpload runs.flatten i <;> simp

/-- **C68, fails: tuples.** If an input holds a tuple, as `(path, label)`, the run after an interrupted one is refused although nothing has changed. -/
theorem c68_tuples (st : ObjStore) (o : Objects CkText) (bucket P tmp : PathStr) (slash : Bool) (hr : RemoteDir bucket P tmp) (files : LocalFiles CkText)
    (hfresh : ∀ p, files (tmp ++ '/' :: p) = none) (hcwd : files "./config.json".toList = none)
    (hn : (o.map (·.1)).Nodup) (hno : ∀ rel x, ((bucket, ckKey P rel), x) ∉ o) (numWorkers : Nat) (hw : st = .s3 → numWorkers < 1000)
    (items : List (List UserItem)) (ht : ∃ w ∈ items, ¬ NoTuples w) :
    ∃ cs o', beginRemote st o (outputOf (objectUrl st bucket P) slash) tmp files numWorkers items = .ok (cs, o') ∧
      beginRemote st o' (outputOf (objectUrl st bucket P) slash) tmp files numWorkers items = .error .valueError := by
  have s1 : CkSaved (saveRemote st o (outputOf (objectUrl st bucket P) slash) numWorkers items) bucket P numWorkers items fun _ => none :=
    save_saved st o bucket P tmp slash hr numWorkers items _ hn (fun rel x hm => absurd hm (hno rel x))
      (fun i _ => by rw [o.get_none (hno (ckptName i))]; rfl)
  refine ⟨List.replicate numWorkers ⟨[], 0⟩, saveRemote st o (outputOf (objectUrl st bucket P) slash) numWorkers items, ?_, ?_⟩
  · unfold beginRemote
    rw [(c68_nothing_partial st o bucket P tmp slash hr files hno numWorkers items).2 hcwd]
    show Except.ok _ = _
    rw [if_pos (by simp)]
  · unfold beginRemote
    rw [load_saved st _ bucket P tmp slash hr files hfresh numWorkers hw items _ s1 numWorkers items, (c25_tuple_inputs_refused numWorkers items).2.2 ht]
    rfl

/-- **C68, fails: several nodes.** The configuration is shared by the nodes. If a node has other inputs than the one that saved it last, its next run is refused, and what the
other nodes have uploaded is of no use: a run can be resumed by at most one of the nodes. -/
theorem c68_nodes (st : ObjStore) (o : Objects CkText) (bucket P tmp : PathStr) (slash : Bool) (hr : RemoteDir bucket P tmp) (files : LocalFiles CkText)
    (hfresh : ∀ p, files (tmp ++ '/' :: p) = none) (hn : (o.map (·.1)).Nodup) (hno : ∀ rel x, ((bucket, ckKey P rel), x) ∉ o)
    (numWorkers : Nat) (hw : st = .s3 → numWorkers < 1000) (items0 items1 : List (List UserItem)) (hne : items0 ≠ items1) (ht1 : ∀ w ∈ items1, NoTuples w) :
    loadRemote st (saveRemote st (saveRemote st o (outputOf (objectUrl st bucket P) slash) numWorkers items0) (outputOf (objectUrl st bucket P) slash) numWorkers items1)
      (outputOf (objectUrl st bucket P) slash) tmp files numWorkers items0 = .error .valueError := by
  have s0 : CkSaved (saveRemote st o (outputOf (objectUrl st bucket P) slash) numWorkers items0) bucket P numWorkers items0 fun _ => none :=
    save_saved st o bucket P tmp slash hr numWorkers items0 _ hn (fun rel x hm => absurd hm (hno rel x))
      (fun i _ => by rw [o.get_none (hno (ckptName i))]; rfl)
  have s1 := save_saved st _ bucket P tmp slash hr numWorkers items1 _ s0.nodup s0.names s0.ckpts
  exact load_other st _ bucket P tmp slash hr files hfresh numWorkers hw items1 ht1 _ s1 numWorkers items0 (Or.inr hne)

/-- The listing of the first page, as a store of its own. -/
theorem first_page {α : Type} (o : Objects α) (hn : (o.map (·.1)).Nodup) (bucket pre : PathStr) :
    ∃ o' : Objects α, ObjStore.list .s3 o' bucket pre = ObjStore.list .s3 o bucket pre ∧ (o'.map (·.1)).Nodup ∧
      (o'.filter fun e => e.1.1 == bucket && pre.isPrefixOf e.1.2).length ≤ 1000 ∧
      ∀ k x, ((bucket, k), x) ∈ o' ↔ (k, x) ∈ ObjStore.list .s3 o bucket pre := by
  have hsort : (ObjStore.list .s3 o bucket pre).Pairwise fun a b => lexLe a.1 b.1 = true :=
    (sortBy_pairwise (fun a b : PathStr × α => lexLe a.1 b.1) (fun a b => lexLe_total a.1 b.1) (fun a b c => lexLe_trans a.1 b.1 c.1) _).sublist (List.take_sublist _ _)
  have hpre : ∀ e ∈ ObjStore.list .s3 o bucket pre, pre.isPrefixOf e.1 = true := by
    intro e he
    have := (sortBy_perm _ _).mem_iff.1 (List.mem_of_mem_take he)
    obtain ⟨e', he', rfl⟩ := List.mem_map.1 this
    have := (List.mem_filter.1 he').2
    simp only [Bool.and_eq_true] at this
    exact this.2
  have hlen : (ObjStore.list .s3 o bucket pre).length ≤ 1000 := by
    unfold ObjStore.list
    simp only [List.length_take]
    omega
  have hnd := list_nodup .s3 o bucket pre hn
  generalize ObjStore.list .s3 o bucket pre = L at *
  have hfilter : ((L.map fun e => ((bucket, e.1), e.2)).filter fun e => e.1.1 == bucket && pre.isPrefixOf e.1.2) = L.map fun e => ((bucket, e.1), e.2) := by
    rw [List.filter_eq_self]
    intro e he
    obtain ⟨e', he', rfl⟩ := List.mem_map.1 he
    simp [hpre e' he']
  refine ⟨L.map fun e => ((bucket, e.1), e.2), ?_, ?_, ?_, ?_⟩
  · unfold ObjStore.list
    simp only
    rw [hfilter, List.map_map]
    have : (L.map ((fun e : (PathStr × PathStr) × α => (e.1.2, e.2)) ∘ fun e => ((bucket, e.1), e.2))) = L := by
      have : ((fun e : (PathStr × PathStr) × α => (e.1.2, e.2)) ∘ fun e : PathStr × α => ((bucket, e.1), e.2)) = id := rfl
      rw [this, List.map_id]
    rw [this, sortBy_sorted _ _ hsort, List.take_of_length_le hlen]
  · rw [List.map_map]
    have : ((fun e : (PathStr × PathStr) × α => e.1) ∘ fun e : PathStr × α => ((bucket, e.1), e.2)) = (fun k => (bucket, k)) ∘ (·.1) := rfl
    rw [this, ← List.map_map, List.nodup_iff_pairwise_ne, List.pairwise_map]
    rw [List.nodup_iff_pairwise_ne] at hnd
    exact hnd.imp fun h h' => h (by injection h')
  · rw [hfilter, List.length_map]
    exact hlen
  · intro k x
    simp only [List.mem_map, Prod.mk.injEq, true_and]
    constructor
    · rintro ⟨e, he, ⟨rfl, rfl⟩⟩
      exact he
    · intro h
      exact ⟨_, h, rfl, rfl⟩

/-- The first page does not hold the configuration. -/
theorem config_not_first (o : Objects CkText) (bucket P : PathStr) (n : Nat) (its : List (List UserItem)) (g : Nat → Option Ckpt)
    (h : CkSaved o bucket P n its g) (hmany : 1000 < (o.filter fun e => e.1.1 == bucket && (ckKey P []).isPrefixOf e.1.2).length) (x : CkText) :
    (ckKey P "config.json".toList, x) ∉ ObjStore.list .s3 o bucket (ckKey P []) := by
  intro hx
  generalize hfull : sortBy (fun a b : PathStr × CkText => lexLe a.1 b.1) ((o.filter fun e => e.1.1 == bucket && (ckKey P []).isPrefixOf e.1.2).map fun e => (e.1.2, e.2)) = full
  have hlist : ObjStore.list .s3 o bucket (ckKey P []) = full.take 1000 := by
    rw [← hfull]
    rfl
  have hlen : 1000 < full.length := by
    rw [← hfull, (sortBy_perm _ _).length_eq, List.length_map]
    exact hmany
  have hsort : full.Pairwise fun a b => lexLe a.1 b.1 = true := by
    rw [← hfull]
    exact sortBy_pairwise (fun a b : PathStr × CkText => lexLe a.1 b.1) (fun a b => lexLe_total a.1 b.1) (fun a b c => lexLe_trans a.1 b.1 c.1) _
  have hnd : (full.map (·.1)).Nodup := by
    have := list_nodup .gcp o bucket (ckKey P []) h.nodup
    unfold ObjStore.list at this
    simp only at this
    rw [hfull] at this
    exact this
  rw [hlist] at hx
  have hsplit : full = full.take 1000 ++ full.drop 1000 := (List.take_append_drop _ _).symm
  have hdrop : full.drop 1000 ≠ [] := by
    intro he
    have := congrArg List.length he
    simp only [List.length_drop, List.length_nil] at this
    omega
  obtain ⟨⟨k, y⟩, hy⟩ := List.exists_mem_of_ne_nil _ hdrop
  rw [hsplit] at hsort hnd
  have hle := (List.pairwise_append.1 hsort).2.2 _ hx _ hy
  rw [List.map_append] at hnd
  have hne := (List.nodup_append.1 hnd).2.2 _ (List.mem_map_of_mem (f := fun e : PathStr × CkText => e.1) hx) _ (List.mem_map_of_mem (f := fun e : PathStr × CkText => e.1) hy)
  have hin : ((bucket, k), y) ∈ o ∧ ckKey P [] <+: k := by
    have := (sortBy_perm _ _).mem_iff.1 (hfull ▸ List.mem_of_mem_drop hy)
    obtain ⟨e', he', h'⟩ := List.mem_map.1 this
    obtain ⟨h1, h2⟩ := List.mem_filter.1 he'
    simp only [Bool.and_eq_true, beq_iff_eq, List.isPrefixOf_iff_prefix] at h2
    injection h' with h3 h4
    subst h3 h4
    refine ⟨?_, h2.2⟩
    have : ((bucket, e'.1.2), e'.2) = e' := Prod.ext (Prod.ext h2.1.symm rfl) rfl
    rw [this]
    exact h1
  obtain ⟨h1, rel, rfl⟩ := hin
  have hk : ckKey P [] ++ rel = ckKey P rel := by simp [ckKey]
  rw [hk] at h1 hle hne
  rcases h.names rel y h1 with rfl | ⟨i, -, rfl⟩
  · exact hne rfl
  · have hlt : lexLe (ckKey P (ckptName i)) (ckKey P "config.json".toList) = true := by
      unfold ckKey
      rw [lexLe_append]
      unfold ckptName
      rw [List.append_assoc]
      rfl
    exact hne (lexLe_antisymm _ _ hle hlt)

/-- **C68, fails: many workers.** An S3 listing has 1000 objects, and the names of the checkpoints come before `config.json`. With 1000 checkpoints or more the configuration
is not found: all checkpoints are ignored, the work of all workers is done again, and nothing is compared. -/
theorem c68_many_workers (o : Objects CkText) (bucket P tmp : PathStr) (slash : Bool) (hr : RemoteDir bucket P tmp) (files : LocalFiles CkText)
    (hfresh : ∀ p, files (tmp ++ '/' :: p) = none) (n : Nat) (its : List (List UserItem)) (g : Nat → Option Ckpt)
    (h : CkSaved o bucket P n its g) (hmany : 1000 < (o.filter fun e => e.1.1 == bucket && (ckKey P []).isPrefixOf e.1.2).length)
    (numWorkers : Nat) (items : List (List UserItem)) :
    loadRemote .s3 o (outputOf (objectUrl .s3 bucket P) slash) tmp files numWorkers items = .ok (List.replicate numWorkers ⟨[], 0⟩) := by
  have hQ : (P ++ "/.checkpoints".toList) ++ ['/'] = ckKey P [] := by simp [ckKey]
  obtain ⟨o', hl, hn', hpage, hmem⟩ := first_page o h.nodup bucket (ckKey P [])
  have hsubset : ∀ k x, (k, x) ∈ ObjStore.list .s3 o bucket (ckKey P []) → ((bucket, k), x) ∈ o ∧ ckKey P [] <+: k := by
    intro k x hm
    have := (sortBy_perm _ _).mem_iff.1 (List.mem_of_mem_take hm)
    obtain ⟨e', he', h'⟩ := List.mem_map.1 this
    obtain ⟨h1, h2⟩ := List.mem_filter.1 he'
    simp only [Bool.and_eq_true, beq_iff_eq, List.isPrefixOf_iff_prefix] at h2
    injection h' with h3 h4
    subst h3 h4
    refine ⟨?_, h2.2⟩
    have : ((bucket, e'.1.2), e'.2) = e' := Prod.ext (Prod.ext h2.1.symm rfl) rfl
    rw [this]
    exact h1
  have hnoconfig : ∀ x, ((bucket, ckKey P "config.json".toList), x) ∉ o' := fun x hx => config_not_first o bucket P n its g h hmany x ((hmem _ _).1 hx)
  have hdl : ObjStore.downloadDir .s3 o (objectUrl .s3 bucket ((P ++ "/.checkpoints".toList) ++ ['/'])) tmp files =
      ObjStore.downloadDir .s3 o' (objectUrl .s3 bucket ((P ++ "/.checkpoints".toList) ++ ['/'])) tmp files := by
    unfold ObjStore.downloadDir
    rw [bucketAndPath_object .s3 bucket _ hr.bucket (UrlKey.append.2 ⟨hr.folder.1, by unfold UrlKey; decide⟩)]
    show ObjStore.fetchAll .s3 _ tmp (ObjStore.list .s3 o bucket _) _ files = ObjStore.fetchAll .s3 _ tmp (ObjStore.list .s3 o' bucket _) _ files
    rw [hQ, hl]
  have hsome : ∃ rel x, ((bucket, (P ++ "/.checkpoints".toList) ++ '/' :: rel), x) ∈ o' := by
    have hne : ObjStore.list .s3 o bucket (ckKey P []) ≠ [] := by
      intro he
      have := congrArg List.length he
      unfold ObjStore.list at this
      simp only [List.length_take, (sortBy_perm _ _).length_eq, List.length_map, List.length_nil] at this
      omega
    obtain ⟨⟨k, y⟩, hy⟩ := List.exists_mem_of_ne_nil _ hne
    obtain ⟨-, rel, h2⟩ := hsubset k y hy
    refine ⟨rel, y, (hmem _ _).2 ?_⟩
    have : (P ++ "/.checkpoints".toList) ++ '/' :: rel = k := by
      rw [← h2]
      simp [ckKey]
    rw [this]
    exact hy
  obtain ⟨D, files', hrun, hD, he, hfiles⟩ := downloadDir_flat .s3 o' hn' bucket (P ++ "/.checkpoints".toList) tmp hr.bucket hr.folder.1 hr.folder.2 hr.tmpNe hr.tmpLast files
    hfresh (fun rel x hm => h.flat rel x (by rw [ckKey_eq]; exact (hsubset _ _ ((hmem _ _).1 hm)).1)) hsome (fun _ => by rw [hQ]; exact hpage)
  unfold loadRemote
  rw [remote_url .s3 bucket P slash hr.clean, hdl, hrun]
  show loadFrom D files' numWorkers items = _
  unfold loadFrom
  rw [joinPath_plain D _ hD he config_plain, hfiles, ← ckKey_eq, o'.get_none hnoconfig]

/-- The key of the folder, with the slash of the URL. -/
theorem outputOf_url (st : ObjStore) (bucket P : PathStr) (slash : Bool) : outputOf (objectUrl st bucket P) slash = objectUrl st bucket (outputOf P slash) := by
  unfold outputOf
  rw [objectUrl_append]

theorem outputOf_key {P : PathStr} (h : UrlKey P) (slash : Bool) : UrlKey (outputOf P slash) := by
  unfold outputOf
  refine UrlKey.append.2 ⟨h, ?_⟩
  cases slash <;> (unfold UrlKey; decide)

/-- The keys of a bucket, as the functions for a URL see them. -/
def bucketKeys {α : Type} (o : Objects α) (bucket : PathStr) : Bucket := (sortBy lexLe ((o.filter fun e => e.1.1 == bucket).map fun e => e.1.2)).map fun k => (k, [])

theorem bucketKeys_mem {α : Type} (o : Objects α) (bucket k : PathStr) : (k, ([] : Bytes)) ∈ bucketKeys o bucket ↔ ∃ x, ((bucket, k), x) ∈ o := by
  unfold bucketKeys
  simp only [List.mem_map, Prod.mk.injEq, and_true, (sortBy_perm _ _).mem_iff, List.mem_filter, beq_iff_eq]
  constructor
  · rintro ⟨_, ⟨e, ⟨h1, h2⟩, rfl⟩, rfl⟩
    refine ⟨e.2, ?_⟩
    have : ((bucket, e.1.2), e.2) = e := Prod.ext (Prod.ext h2.symm rfl) rfl
    rw [this]
    exact h1
  · rintro ⟨x, h⟩
    exact ⟨k, ⟨_, ⟨h, rfl⟩, rfl⟩, rfl⟩

theorem liftBucket_eq {α : Type} (o : Objects α) (bucket : PathStr) (f : Bucket → Py Unit × Bucket) :
    liftBucket o bucket f = ((f (bucketKeys o bucket)).1, o.filter fun e => e.1.1 != bucket || (f (bucketKeys o bucket)).2.any fun k => k.1 == e.1.2) := rfl

theorem liftBucket_id {α : Type} (o : Objects α) (bucket : PathStr) (f : Bucket → Py Unit × Bucket) (h : (f (bucketKeys o bucket)).2 = bucketKeys o bucket) :
    (liftBucket o bucket f).2 = o := by
  rw [liftBucket_eq]
  simp only
  rw [List.filter_eq_self, h]
  intro e he
  by_cases hb : e.1.1 = bucket
  · rw [Bool.or_eq_true]
    right
    refine List.any_eq_true.2 ⟨(e.1.2, []), (bucketKeys_mem o bucket e.1.2).2 ⟨e.2, ?_⟩, by simp⟩
    have : ((bucket, e.1.2), e.2) = e := Prod.ext (Prod.ext hb.symm rfl) rfl
    rw [this]
    exact he
  · simp [hb]

/-- The mode `append` begins as without a mode. -/
theorem c68_append (st : ObjStore) (o : Objects CkText) (bucket P tmp : PathStr) (slash : Bool) (hr : RemoteDir bucket P tmp) (files : LocalFiles CkText) (refuse : Bool)
    (numWorkers : Nat) (items : List (List UserItem)) :
    optimizeBegin st o (outputOf (objectUrl st bucket P) slash) tmp files .append refuse numWorkers items =
      beginRemote st o (outputOf (objectUrl st bucket P) slash) tmp files numWorkers items := by
  unfold optimizeBegin
  rw [outputOf_url, bucketAndPath_object st bucket _ hr.bucket (outputOf_key hr.url slash)]
  simp only
  have h1 : (liftBucket o bucket (assertDirRemote st (outputOf P slash) .append true refuse)).1 = .ok () := rfl
  have h2 := liftBucket_id o bucket (assertDirRemote st (outputOf P slash) .append true refuse) rfl
  generalize liftBucket o bucket (assertDirRemote st (outputOf P slash) .append true refuse) = r at *
  obtain ⟨r1, r2⟩ := r
  subst h1 h2
  rfl

theorem folder_not_empty (st : ObjStore) (b : Bucket) (P rel : PathStr) (slash : Bool) (hP : CleanKey P) (x : Bytes) (h : (P ++ '/' :: rel, x) ∈ b) :
    st.isEmpty b (outputOf P slash) = false := by
  have hl : lstripSlash (outputOf P slash) = outputOf P slash := by
    unfold lstripSlash outputOf
    cases hp : P with
    | nil => exact absurd hp hP.ne
    | cons c p =>
      have := hP.head
      rw [hp] at this
      rw [List.cons_append, List.dropWhile_cons_of_neg (by simpa using this)]
  have hs : rstripSlash (outputOf P slash) = P := by
    cases slash with
    | false => simpa [outputOf] using rstripSlash_eq hP.last
    | true =>
      have := rstripSlash_eq hP.last
      unfold rstripSlash at this ⊢
      simpa [outputOf] using this
  cases st with
  | s3 =>
    simp only [ObjStore.isEmpty, Bool.not_eq_false', hl, hs]
    exact List.any_eq_true.2 ⟨_, h, List.isPrefixOf_iff_prefix.2 ⟨rel, by simp⟩⟩
  | gcp =>
    simp only [ObjStore.isEmpty, Bool.not_eq_false']
    refine List.any_eq_true.2 ⟨_, h, List.isPrefixOf_iff_prefix.2 ?_⟩
    cases slash with
    | false => exact ⟨'/' :: rel, by simp [outputOf]⟩
    | true => exact ⟨rel, by simp [outputOf]⟩

/-- **C68, fails: without a mode.** If anything is left below the URL, as the checkpoints of an interrupted run are, a run without a mode is refused: it can only be resumed with
the mode `append`. (The answer to the question whether there is an index is not used.) -/
theorem c68_refused (st : ObjStore) (o : Objects CkText) (bucket P tmp : PathStr) (slash : Bool) (hr : RemoteDir bucket P tmp) (files : LocalFiles CkText)
    (numWorkers : Nat) (items : List (List UserItem)) (rel : PathStr) (x : CkText) (h : ((bucket, P ++ '/' :: rel), x) ∈ o) :
    optimizeBegin st o (outputOf (objectUrl st bucket P) slash) tmp files .none false numWorkers items = .error .runtimeError := by
  unfold optimizeBegin
  rw [outputOf_url, bucketAndPath_object st bucket _ hr.bucket (outputOf_key hr.url slash)]
  simp only
  have he := folder_not_empty st (bucketKeys o bucket) P rel slash hr.clean [] ((bucketKeys_mem o bucket _).2 ⟨x, h⟩)
  rw [liftBucket_eq]
  have : assertDirRemote st (outputOf P slash) .none true false (bucketKeys o bucket) = (.error .runtimeError, bucketKeys o bucket) := by
    simp [assertDirRemote, he, hasIndexFile, ObjStore.exists]
  rw [this]

/-- **C68, `overwrite`.** With the mode `overwrite` the checkpoints are removed with everything else below the URL (at most 1000 objects for S3): the run begins at the start. -/
theorem c68_overwrite (st : ObjStore) (o : Objects CkText) (bucket P tmp : PathStr) (slash refuse : Bool) (hr : RemoteDir bucket P tmp) (files : LocalFiles CkText)
    (hcwd : files "./config.json".toList = none) (numWorkers : Nat) (items : List (List UserItem))
    (hpage : st = .s3 → (o.filter fun e => e.1.1 == bucket && (outputOf P slash).isPrefixOf e.1.2).length ≤ 1000) :
    ∃ o', optimizeBegin st o (outputOf (objectUrl st bucket P) slash) tmp files .overwrite refuse numWorkers items = .ok (List.replicate numWorkers ⟨[], 0⟩, o') := by
  generalize hr' : liftBucket o bucket (assertDirRemote st (outputOf P slash) .overwrite true refuse) = r
  have hkeys : ∀ b : Bucket, (assertDirRemote st (outputOf P slash) .overwrite true refuse b).1 = .ok () := by
    intro b
    simp only [assertDirRemote, clears]
    split
    · rfl
    · simp
  have h1 : r.1 = .ok () := by rw [← hr', liftBucket_eq]; exact hkeys _
  have h2 : ∀ rel x, ((bucket, ckKey P rel), x) ∉ r.2 := by
    intro rel x hm
    rw [← hr', liftBucket_eq] at hm
    obtain ⟨hm, hk⟩ := List.mem_filter.1 hm
    simp only [bne_self_eq_false, Bool.false_or] at hk
    have hin : (ckKey P rel, ([] : Bytes)) ∈ bucketKeys o bucket := (bucketKeys_mem o bucket _).2 ⟨x, hm⟩
    have hsl : ckKey P rel = P ++ '/' :: (".checkpoints/".toList ++ rel) := by simp [ckKey]
    have he := folder_not_empty st (bucketKeys o bucket) P _ slash hr.clean [] (by rw [← hsl]; exact hin)
    have hpre : (outputOf P slash).isPrefixOf (ckKey P rel) = true := by
      rw [List.isPrefixOf_iff_prefix, hsl]
      cases slash with
      | false => exact ⟨_, by simp [outputOf]; rfl⟩
      | true => exact ⟨".checkpoints/".toList ++ rel, by simp [outputOf]⟩
    have hdel : (assertDirRemote st (outputOf P slash) .overwrite true refuse (bucketKeys o bucket)).2 = st.delete (bucketKeys o bucket) (outputOf P slash) := by
      simp [assertDirRemote, he, clears]
    rw [hdel] at hk
    obtain ⟨e, he1, he2⟩ := List.any_eq_true.1 hk
    unfold ObjStore.delete at he1
    obtain ⟨he3, he4⟩ := List.mem_filter.1 he1
    simp only [beq_iff_eq] at he2
    refine absurd he4 ?_
    rw [Bool.not_eq_true, Bool.not_eq_false', List.contains_iff_mem, he2]
    have hfull : ckKey P rel ∈ ((bucketKeys o bucket).filter fun k => (outputOf P slash).isPrefixOf k.1).map (·.1) :=
      List.mem_map.2 ⟨_, List.mem_filter.2 ⟨hin, hpre⟩, rfl⟩
    cases st with
    | gcp => exact hfull
    | s3 =>
      show _ ∈ (((bucketKeys o bucket).filter fun k => (outputOf P slash).isPrefixOf k.1).map (·.1)).take 1000
      rw [List.take_of_length_le]
      · exact hfull
      · rw [List.length_map]
        refine Nat.le_trans (Nat.le_of_eq ?_) (hpage rfl)
        unfold bucketKeys
        rw [List.filter_map, List.length_map]
        rw [((sortBy_perm _ _).filter _).length_eq, List.filter_map, List.length_map, List.filter_filter]
        congr 1
        apply List.filter_congr
        intro e _
        rw [Bool.and_comm]
        rfl
  refine ⟨saveRemote st r.2 (outputOf (objectUrl st bucket P) slash) numWorkers items, ?_⟩
  unfold optimizeBegin
  have hb : bucketAndPath (outputOf (objectUrl st bucket P) slash) st.scheme = .ok (bucket, outputOf P slash) := by
    rw [outputOf_url, bucketAndPath_object st bucket _ hr.bucket (outputOf_key hr.url slash)]
  rw [hb]
  simp only
  rw [hr']
  obtain ⟨r1, r2⟩ := r
  dsimp only at h1 h2
  subst h1
  simp only
  unfold beginRemote
  rw [(c68_nothing_partial st r2 bucket P tmp slash hr files h2 numWorkers items).2 hcwd]
  show Except.ok _ = _
  rw [if_pos (by simp)]

theorem cleanup_url (st : ObjStore) (bucket P : PathStr) (slash : Bool) (hP : CleanKey P) :
    joinPath (rstripSlash (outputOf (objectUrl st bucket P) slash) ++ "/".toList) ".checkpoints".toList = objectUrl st bucket (P ++ "/.checkpoints".toList) := by
  have hs : rstripSlash (outputOf (objectUrl st bucket P) slash) = objectUrl st bucket P := by
    have he := objectUrl_last st bucket P hP.last hP.ne
    cases slash with
    | false => simpa [outputOf] using rstripSlash_eq he
    | true =>
      have := rstripSlash_eq he
      unfold rstripSlash at this ⊢
      simpa [outputOf] using this
  rw [hs]
  unfold joinPath
  rw [if_neg (by decide), if_pos (by right; rw [List.getLast?_append]; rfl), objectUrl_append, objectUrl_append]
  congr 1
  simp

/-- **C68, cleaning up.** A run without checkpoints removes the folder of checkpoints (at most 1000 objects for S3), and no object whose key does not begin with its name. -/
theorem c68_cleanup_partial (st : ObjStore) (o : Objects CkText) (bucket P tmp : PathStr) (slash : Bool) (hr : RemoteDir bucket P tmp)
    (hpage : st = .s3 → (o.filter fun e => e.1.1 == bucket && (P ++ "/.checkpoints".toList).isPrefixOf e.1.2).length ≤ 1000) :
    ∃ o', cleanupRemote st o (outputOf (objectUrl st bucket P) slash) = .ok o' ∧
      ∀ e, e ∈ o' ↔ e ∈ o ∧ ¬ (e.1.1 = bucket ∧ (P ++ "/.checkpoints".toList) <+: e.1.2) := by
  unfold cleanupRemote ObjStore.deleteAll
  rw [cleanup_url st bucket P slash hr.clean, bucketAndPath_object st bucket _ hr.bucket hr.folder.1]
  refine ⟨_, rfl, ?_⟩
  intro e
  rw [List.mem_filter]
  refine and_congr_right fun he => ?_
  simp only [Bool.not_eq_true', Bool.and_eq_false_iff, beq_eq_false_iff_ne, ne_eq, not_and]
  constructor
  · rintro (h | h)
    · exact fun h' => absurd h' h
    · intro hb hpre
      have : (e.1.2, e.2) ∈ st.list o bucket (P ++ "/.checkpoints".toList) := by
        refine (list_mem st o bucket _ hpage _ _).2 ⟨?_, hpre⟩
        have : ((bucket, e.1.2), e.2) = e := Prod.ext (Prod.ext hb.symm rfl) rfl
        rw [this]
        exact he
      have := List.mem_map_of_mem (f := fun a : PathStr × CkText => a.1) this
      rw [← List.contains_iff_mem] at this
      rw [this] at h
      cases h
  · intro h
    by_cases hb : e.1.1 = bucket
    · right
      cases hc : ((st.list o bucket (P ++ "/.checkpoints".toList)).map (·.1)).contains e.1.2 with
      | false => rfl
      | true =>
        obtain ⟨a, ha, hae⟩ := List.mem_map.1 (List.contains_iff_mem.1 hc)
        have := (list_mem st o bucket _ hpage a.1 a.2).1 ha
        rw [hae] at this
        exact absurd this.2 (h hb)
    · exact Or.inl hb

/-- **C68, fails: cleaning up.** With more than 1000 objects in the folder, the configuration of the old run is left by a clean-up (S3): the next run with checkpoints
and other inputs is compared with it. -/
theorem c68_cleanup_many (o : Objects CkText) (bucket P tmp : PathStr) (slash : Bool) (hr : RemoteDir bucket P tmp) (n : Nat) (its : List (List UserItem)) (g : Nat → Option Ckpt)
    (h : CkSaved o bucket P n its g) (hmany : 1000 < (o.filter fun e => e.1.1 == bucket && (ckKey P []).isPrefixOf e.1.2).length)
    (honly : ∀ e ∈ o, e.1.1 = bucket → (P ++ "/.checkpoints".toList) <+: e.1.2 → ckKey P [] <+: e.1.2) :
    ∃ o', cleanupRemote .s3 o (outputOf (objectUrl .s3 bucket P) slash) = .ok o' ∧
      ((bucket, ckKey P "config.json".toList), .config (savedConfig n its).1 (savedConfig n its).2) ∈ o' := by
  unfold cleanupRemote ObjStore.deleteAll
  rw [cleanup_url .s3 bucket P slash hr.clean, bucketAndPath_object .s3 bucket _ hr.bucket hr.folder.1]
  refine ⟨_, rfl, List.mem_filter.2 ⟨h.config, ?_⟩⟩
  simp only [beq_self_eq_true, Bool.true_and, Bool.not_eq_true']
  have hfilter : (o.filter fun e => e.1.1 == bucket && (P ++ "/.checkpoints".toList).isPrefixOf e.1.2) = o.filter fun e => e.1.1 == bucket && (ckKey P []).isPrefixOf e.1.2 := by
    apply List.filter_congr
    intro e he
    by_cases hb : e.1.1 = bucket
    · have : (P ++ "/.checkpoints".toList).isPrefixOf e.1.2 = (ckKey P []).isPrefixOf e.1.2 := by
        rw [Bool.eq_iff_iff, List.isPrefixOf_iff_prefix, List.isPrefixOf_iff_prefix]
        refine ⟨honly e he hb, fun h' => List.IsPrefix.trans ⟨['/'], ?_⟩ h'⟩
        simp [ckKey]
      rw [this]
    · have : (e.1.1 == bucket) = false := by simpa using hb
      rw [this, Bool.false_and, Bool.false_and]
  have hlist : ObjStore.list .s3 o bucket (P ++ "/.checkpoints".toList) = ObjStore.list .s3 o bucket (ckKey P []) := by
    unfold ObjStore.list
    rw [hfilter]
  rw [hlist, ← Bool.not_eq_true, List.contains_iff_mem]
  intro hm
  obtain ⟨⟨k, x⟩, hx, hk⟩ := List.mem_map.1 hm
  dsimp only at hk
  subst hk
  exact config_not_first o bucket P n its g h hmany x hx

/-- The local files of a run (`processing/data_processor.py:287-289`): a checkpoint is copied to the output folder. -/
def copyCkpts (output cacheDir : PathStr) : List CkUpload → LocalFiles CkText → LocalFiles CkText
  | [], files => files
  | u :: l, files => copyCkpts output cacheDir l fun p => if p = uploadTarget cacheDir output none (checkpointFile cacheDir u.rank u.uuid) then some (.ckpt u.ckpt) else files p

/-- Runs with a local output, each of which begins, copies checkpoints and is interrupted. -/
noncomputable def interruptedLocal (output cacheDir : PathStr) (numWorkers : Nat) (items : List (List UserItem)) : List (List CkUpload) → LocalFiles CkText → Py (LocalFiles CkText)
  | [], files => .ok files
  | run :: runs, files => (beginLocal output files numWorkers items).bind fun r =>
    interruptedLocal output cacheDir numWorkers items runs (copyCkpts output cacheDir run r.2)

/-- A file in the local folder of checkpoints. -/
def ckPath (base name : PathStr) : PathStr := base ++ "/.checkpoints".toList ++ '/' :: name

theorem ckPath_inj {base a b : PathStr} (h : ckPath base a = ckPath base b) : a = b := by
  unfold ckPath at h
  have := List.append_cancel_left h
  injection this

theorem local_dir (base : PathStr) (slash : Bool) (hb : base ≠ []) (he : base.getLast? ≠ some '/') :
    joinPath (outputOf base slash) ".checkpoints".toList = base ++ "/.checkpoints".toList ∧ base ++ "/.checkpoints".toList ≠ [] ∧
      (base ++ "/.checkpoints".toList).getLast? ≠ some '/' := by
  refine ⟨?_, by simp, ?_⟩
  · rw [join_output base slash hb he _ (by decide)]
    rfl
  · have : "/.checkpoints".toList.getLast? = some 's' := by decide
    rw [List.getLast?_append, this]
    simp

theorem copyCkpts_get (base cacheDir : PathStr) (slash : Bool) (hb : base ≠ []) (he : base.getLast? ≠ some '/') (hc : cacheDir ≠ []) (hce : cacheDir.getLast? ≠ some '/')
    (l : List CkUpload) (hl : ∀ u ∈ l, u.uuid.length = 32 ∧ '/' ∉ u.uuid) (files : LocalFiles CkText) :
    copyCkpts (outputOf base slash) cacheDir l files (ckPath base "config.json".toList) = files (ckPath base "config.json".toList) ∧
    ∀ i, copyCkpts (outputOf base slash) cacheDir l files (ckPath base (ckptName i)) = ((lastUpload l i).map .ckpt).or (files (ckPath base (ckptName i))) := by
  induction l generalizing files with
  | nil => exact ⟨rfl, fun i => rfl⟩
  | cons u l ih =>
    have htarget : uploadTarget cacheDir (outputOf base slash) none (checkpointFile cacheDir u.rank u.uuid) = ckPath base (ckptName u.rank) := by
      rw [c60_checkpoint cacheDir base u.uuid slash u.rank hb he hc hce (hl u (by simp)).1 (hl u (by simp)).2]
      unfold ckPath ckptName
      generalize Nat.toDigits 10 u.rank = d
      simp
    obtain ⟨h1, h2⟩ := ih (fun u hu => hl u (by simp [hu])) fun p => if p = uploadTarget cacheDir (outputOf base slash) none (checkpointFile cacheDir u.rank u.uuid) then some (.ckpt u.ckpt) else files p
    rw [htarget] at h1 h2
    unfold copyCkpts
    rw [htarget]
    refine ⟨?_, fun i => ?_⟩
    · rw [h1, if_neg]
      exact fun h => ckptName_config u.rank (ckPath_inj h).symm
    · rw [h2]
      have := lastUpload_append [u] l i
      rw [List.singleton_append] at this
      rw [this]
      by_cases hi : i = u.rank
      · subst hi
        rw [if_pos rfl]
        cases lastUpload l u.rank <;> simp [lastUpload]
      · have hne : (u.rank == i) = false := by simpa using fun h => hi h.symm
        rw [if_neg (fun h => hi (ckptName_inj (ckPath_inj h)))]
        cases lastUpload l i <;> simp [lastUpload, hne]

/-- **C68, a local output.** The same for a local folder, for any number of workers and whatever the current folder holds. Missing: inputs with tuples, and several nodes. -/
theorem c68_local_partial (base cacheDir : PathStr) (slash : Bool) (hb : base ≠ []) (he : base.getLast? ≠ some '/') (hc : cacheDir ≠ []) (hce : cacheDir.getLast? ≠ some '/')
    (files : LocalFiles CkText) (hno : ∀ name, files (ckPath base name) = none) (numWorkers : Nat) (items : List (List UserItem)) (ht : ∀ w ∈ items, NoTuples w)
    (runs : List (List CkUpload)) (hruns : ∀ run ∈ runs, ∀ u ∈ run, u.uuid.length = 32 ∧ '/' ∉ u.uuid) :
    ∃ files', interruptedLocal (outputOf base slash) cacheDir numWorkers items runs files = .ok files' ∧
      loadLocal (outputOf base slash) files' numWorkers items = .ok ((List.range numWorkers).map fun i => (lastUpload runs.flatten i).getD ⟨[], 0⟩) ∧
      (runs ≠ [] → ∀ n' items', n' ≠ numWorkers ∨ items' ≠ items → loadLocal (outputOf base slash) files' n' items' = .error .valueError) := by
  obtain ⟨hdir, hd1, hd2⟩ := local_dir base slash hb he
  have hsaved : savedConfig numWorkers items = (numWorkers, items) := by
    have := ((c25_only_same_run numWorkers numWorkers items items).1).1 ((c25_tuple_inputs_refused numWorkers items).1.2 ht)
    unfold savedConfig
    rw [this.2]
  have hload : ∀ (files : LocalFiles CkText) (g : Nat → Option Ckpt), files (ckPath base "config.json".toList) = some (.config numWorkers items) →
      (∀ i, files (ckPath base (ckptName i)) = (g i).map .ckpt) → ∀ n' items', loadLocal (outputOf base slash) files n' items' =
        (checkConfig (numWorkers, items) n' items').bind fun _ => .ok ((List.range n').map fun i => (g i).getD ⟨[], 0⟩) := by
    intro files g h1 h2 n' items'
    unfold loadLocal
    rw [hdir]
    exact loadFrom_spec _ hd1 hd2 files _ n' _ items' g h1 (fun i _ => h2 i)
  have hsave : ∀ (files : LocalFiles CkText) (g : Nat → Option Ckpt), (∀ i, files (ckPath base (ckptName i)) = (g i).map .ckpt) →
      saveLocal (outputOf base slash) files numWorkers items (ckPath base "config.json".toList) = some (.config numWorkers items) ∧
      ∀ i, saveLocal (outputOf base slash) files numWorkers items (ckPath base (ckptName i)) = (g i).map .ckpt := by
    intro files g h
    unfold saveLocal
    rw [hdir, joinPath_plain _ _ hd1 hd2 config_plain, hsaved]
    refine ⟨if_pos rfl, fun i => ?_⟩
    rw [if_neg]
    · exact h i
    · exact fun h => ckptName_config i (ckPath_inj (base := base) h)
  have hcheck : checkConfig (numWorkers, items) numWorkers items = .ok () := hsaved ▸ (c25_tuple_inputs_refused numWorkers items).1.2 ht
  have later : ∀ (runs : List (List CkUpload)) (files : LocalFiles CkText) (g : Nat → Option Ckpt), files (ckPath base "config.json".toList) = some (.config numWorkers items) →
      (∀ i, files (ckPath base (ckptName i)) = (g i).map .ckpt) → (∀ run ∈ runs, ∀ u ∈ run, u.uuid.length = 32 ∧ '/' ∉ u.uuid) →
      ∃ files', interruptedLocal (outputOf base slash) cacheDir numWorkers items runs files = .ok files' ∧
        files' (ckPath base "config.json".toList) = some (.config numWorkers items) ∧
        ∀ i, files' (ckPath base (ckptName i)) = ((lastUpload runs.flatten i).or (g i)).map .ckpt := by
    intro runs
    induction runs with
    | nil => exact fun files g h1 h2 _ => ⟨files, rfl, h1, fun i => by simpa [lastUpload] using h2 i⟩
    | cons run runs ih =>
      intro files g h1 h2 hl
      have hbegin : ∃ files1, beginLocal (outputOf base slash) files numWorkers items = .ok ((List.range numWorkers).map fun i => (g i).getD ⟨[], 0⟩, files1) ∧
          files1 (ckPath base "config.json".toList) = some (.config numWorkers items) ∧ ∀ i, files1 (ckPath base (ckptName i)) = (g i).map .ckpt := by
        unfold beginLocal
        rw [hload files g h1 h2 numWorkers items, hcheck]
        refine ⟨_, rfl, ?_⟩
        split
        · exact hsave files g h2
        · exact ⟨h1, h2⟩
      obtain ⟨files1, e1, c1, k1⟩ := hbegin
      obtain ⟨c2, k2⟩ := copyCkpts_get base cacheDir slash hb he hc hce run (hl run (by simp)) files1
      obtain ⟨files3, e3, c3, k3⟩ := ih (copyCkpts (outputOf base slash) cacheDir run files1) (fun i => (lastUpload run i).or (g i)) (by rw [c2, c1])
        (fun i => by rw [k2, k1]; cases lastUpload run i <;> simp) (fun r hr' => hl r (by simp [hr']))
      refine ⟨files3, ?_, c3, ?_⟩
      · unfold interruptedLocal
        rw [e1]
        exact e3
      · intro i
        rw [k3, List.flatten_cons, lastUpload_append, Option.or_assoc]
  have hempty : loadLocal (outputOf base slash) files numWorkers items = .ok (List.replicate numWorkers ⟨[], 0⟩) := by
    unfold loadLocal loadFrom
    rw [hdir, joinPath_plain _ _ hd1 hd2 config_plain]
    have := hno "config.json".toList
    unfold ckPath at this
    rw [this]
  cases runs with
  | nil =>
    refine ⟨files, rfl, ?_, fun h => absurd rfl h⟩
    rw [hempty]
    congr 1
    simp only [List.flatten_nil, lastUpload, List.filter_nil, List.getLast?_nil, Option.map_none, Option.getD_none]
    rw [List.map_const', List.length_range]
  | cons run runs =>
    obtain ⟨c1, k1⟩ := hsave files (fun _ => none) (fun i => by rw [hno]; rfl)
    obtain ⟨c2, k2⟩ := copyCkpts_get base cacheDir slash hb he hc hce run (hruns run (by simp)) (saveLocal (outputOf base slash) files numWorkers items)
    obtain ⟨files3, e3, c3, k3⟩ := later runs (copyCkpts (outputOf base slash) cacheDir run (saveLocal (outputOf base slash) files numWorkers items)) (fun i => lastUpload run i)
      (by rw [c2, c1]) (fun i => by rw [k2, k1]; cases lastUpload run i <;> simp) (fun r hr' => hruns r (by simp [hr']))
    refine ⟨files3, ?_, ?_, ?_⟩
    · unfold interruptedLocal beginLocal
      rw [hempty]
      show interruptedLocal _ _ _ _ runs (copyCkpts _ _ run (if _ then _ else _)) = _
      rw [if_pos (by simp)]
      exact e3
    · rw [hload files3 _ c3 k3, hcheck]
      show Except.ok _ = _
      congr 1
      apply List.map_congr_left
      intro i _
      rw [List.flatten_cons, lastUpload_append]
    · intro _ n' items' hne
      rw [hload files3 _ c3 k3]
      unfold checkConfig
      by_cases h1 : numWorkers = n'
      · have h2 : items ≠ items' := by
          rintro rfl
          rcases hne with hne | hne
          · exact hne h1.symm
          · exact hne rfl
        rw [if_neg (by simpa using h1), if_pos h2]
        rfl
      · rw [if_pos h1]
        rfl

/-- With a checkpoint of every worker there is one object more than there are workers. -/
theorem CkSaved.page_full {o : Objects CkText} {bucket P : PathStr} {numWorkers : Nat} {items : List (List UserItem)} {g : Nat → Option Ckpt}
    (h : CkSaved o bucket P numWorkers items g) (hg : ∀ i < numWorkers, (g i).isSome) :
    numWorkers + 1 ≤ (o.filter fun e => e.1.1 == bucket && (ckKey P []).isPrefixOf e.1.2).length := by
  have hnd : ((bucket, ckKey P "config.json".toList) :: (List.range numWorkers).map fun i => (bucket, ckKey P (ckptName i))).Nodup := by
    rw [List.nodup_cons]
    constructor
    · intro hm
      obtain ⟨i, -, hi⟩ := List.mem_map.1 hm
      injection hi with _ hi
      exact ckptName_config i (ckKey_inj hi)
    · rw [List.nodup_iff_pairwise_ne, List.pairwise_map]
      have := List.nodup_range (n := numWorkers)
      rw [List.nodup_iff_pairwise_ne] at this
      refine this.imp fun hne heq => hne ?_
      injection heq with _ heq
      exact ckptName_inj (ckKey_inj heq)
  have hin : ∀ rel x, ((bucket, ckKey P rel), x) ∈ o → (bucket, ckKey P rel) ∈ (o.filter fun e => e.1.1 == bucket && (ckKey P []).isPrefixOf e.1.2).map (·.1) := by
    intro rel x hm
    refine List.mem_map.2 ⟨_, List.mem_filter.2 ⟨hm, ?_⟩, rfl⟩
    simp only [beq_self_eq_true, Bool.true_and, List.isPrefixOf_iff_prefix]
    exact ⟨rel, by simp [ckKey]⟩
  have := nodup_length_le' hnd (m := (o.filter fun e => e.1.1 == bucket && (ckKey P []).isPrefixOf e.1.2).map (·.1)) (by
    intro k hk
    rcases List.mem_cons.1 hk with rfl | hk
    · exact hin _ _ h.config
    · obtain ⟨i, hi, rfl⟩ := List.mem_map.1 hk
      have hi := List.mem_range.1 hi
      have h1 := h.ckpts i hi
      obtain ⟨c, hc⟩ := Option.isSome_iff_exists.1 (hg i hi)
      rw [hc] at h1
      exact hin _ _ (o.mem_of_get h1))
  simpa using this

/-- **C68, fails: many workers, from the start.** A run of 1000 workers or more in S3, each of which has uploaded a checkpoint: the next run with the same settings and
inputs gets none of them. -/
theorem c68_many_run (o : Objects CkText) (bucket P tmp cacheDir : PathStr) (slash : Bool) (hr : RemoteDir bucket P tmp) (files : LocalFiles CkText)
    (hfresh : ∀ p, files (tmp ++ '/' :: p) = none) (hcwd : files "./config.json".toList = none) (hc : cacheDir ≠ []) (hce : cacheDir.getLast? ≠ some '/')
    (hn : (o.map (·.1)).Nodup) (hno : ∀ rel x, ((bucket, ckKey P rel), x) ∉ o) (numWorkers : Nat) (hmany : 1000 ≤ numWorkers) (items : List (List UserItem))
    (run : List CkUpload) (hrun : ∀ u ∈ run, u.rank < numWorkers ∧ u.uuid.length = 32 ∧ '/' ∉ u.uuid) (hall : ∀ i < numWorkers, ∃ u ∈ run, u.rank = i) :
    ∃ o', interruptedRuns .s3 (outputOf (objectUrl .s3 bucket P) slash) tmp cacheDir files numWorkers items [run] o = .ok o' ∧
      loadRemote .s3 o' (outputOf (objectUrl .s3 bucket P) slash) tmp files numWorkers items = .ok (List.replicate numWorkers ⟨[], 0⟩) := by
  have s1 : CkSaved (saveRemote .s3 o (outputOf (objectUrl .s3 bucket P) slash) numWorkers items) bucket P numWorkers items fun _ => none :=
    save_saved .s3 o bucket P tmp slash hr numWorkers items _ hn (fun rel x hm => absurd hm (hno rel x))
      (fun i _ => by rw [o.get_none (hno (ckptName i))]; rfl)
  obtain ⟨o', e, s2⟩ := uploadCkpts_saved .s3 bucket P tmp cacheDir slash hr numWorkers items hc hce run hrun _ _ s1
  refine ⟨o', ?_, ?_⟩
  · unfold interruptedRuns beginRemote
    rw [(c68_nothing_partial .s3 o bucket P tmp slash hr files hno numWorkers items).2 hcwd]
    show (uploadCkpts _ _ _ _ (if _ then _ else _)).bind _ = _
    rw [if_pos (by simp), e]
    rfl
  · refine c68_many_workers o' bucket P tmp slash hr files hfresh numWorkers items _ s2 ?_ numWorkers items
    have := s2.page_full (by
      intro i hi
      obtain ⟨u, hu, hui⟩ := hall i hi
      have hne : run.filter (fun u => u.rank == i) ≠ [] := List.ne_nil_of_mem (List.mem_filter.2 ⟨hu, by simpa using hui⟩)
      unfold lastUpload
      cases hl : (run.filter fun u => u.rank == i).getLast? with
      | none => exact absurd (List.getLast?_eq_none_iff.1 hl) hne
      | some c => rfl)
    omega

/-! Concrete cases. -/

theorem dataDir : RemoteDir "bucket".toList "data/train".toList "/tmp/x".toList :=
  ⟨by unfold BucketName; decide, by unfold UrlKey; decide, by unfold CleanKey; decide, by decide, by decide⟩

/-- Two interrupted runs of two workers: the second worker has uploaded in both, the first only in the first. -/
example : ∃ o', interruptedRuns .s3 (outputOf (objectUrl .s3 "bucket".toList "data/train".toList) true) "/tmp/x".toList "/cache".toList (fun _ => none) 2
      [[.int 0, .int 1], [.str "a"]] [[⟨0, List.replicate 32 'a', ⟨[], 1⟩⟩, ⟨1, List.replicate 32 'b', ⟨[], 1⟩⟩], [⟨1, List.replicate 32 'c', ⟨[], 2⟩⟩]] [] = .ok o' ∧
    loadRemote .s3 o' (outputOf (objectUrl .s3 "bucket".toList "data/train".toList) true) "/tmp/x".toList (fun _ => none) 2 [[.int 0, .int 1], [.str "a"]] =
      .ok [⟨[], 1⟩, ⟨[], 2⟩] := by
  obtain ⟨o', h1, h2, -⟩ := c68_resume_partial .s3 [] _ _ _ "/cache".toList true dataDir (fun _ => none) (fun _ => rfl) rfl (by decide) (by decide) (by simp) (by simp) 2 (by decide)
    [[.int 0, .int 1], [.str "a"]] (by simp [NoTuples, NoTuple])
    [[⟨0, List.replicate 32 'a', ⟨[], 1⟩⟩, ⟨1, List.replicate 32 'b', ⟨[], 1⟩⟩], [⟨1, List.replicate 32 'c', ⟨[], 2⟩⟩]] (by decide)
  exact ⟨o', h1, h2⟩

/-- 1200 workers. -/
example := c68_many_run [] _ _ _ "/cache".toList false dataDir (fun _ => none) (fun _ => rfl) rfl (by decide) (by decide) (by simp) (by simp) 1200 (by decide) []
  ((List.range 1200).map fun i => ⟨i, List.replicate 32 'a', ⟨[], 7⟩⟩)
  (by
    intro u hu
    obtain ⟨i, hi, rfl⟩ := List.mem_map.1 hu
    exact ⟨List.mem_range.1 hi, List.length_replicate, by simp⟩)
  (fun i hi => ⟨_, List.mem_map.2 ⟨i, List.mem_range.2 hi, rfl⟩, rfl⟩)

/-- A file `config.json` of the program itself. -/
example : loadRemote .gcp [] (outputOf (objectUrl .gcp "bucket".toList "data/train".toList) false) "/tmp/x".toList
    (fun p => if p = "./config.json".toList then some .other else none) 2 [] = .error .keyError :=
  (c68_current_folder .gcp [] _ _ _ false dataDir _ (by simp) 2 []).1 rfl

/-- Inputs `(path, label)`. -/
example : ∃ cs o', beginRemote .s3 [] (outputOf (objectUrl .s3 "bucket".toList "data/train".toList) false) "/tmp/x".toList (fun _ => none) 1 [[.tuple [.str "a", .int 1]]] = .ok (cs, o') ∧
    beginRemote .s3 o' (outputOf (objectUrl .s3 "bucket".toList "data/train".toList) false) "/tmp/x".toList (fun _ => none) 1 [[.tuple [.str "a", .int 1]]] = .error .valueError :=
  c68_tuples .s3 [] _ _ _ false dataDir _ (fun _ => rfl) rfl (by simp) (by simp) 1 (by decide) _ ⟨_, List.mem_cons_self, by simp [NoTuples, NoTuple]⟩

/-- Two nodes with one worker each. -/
example := c68_nodes .s3 [] _ _ _ false dataDir (fun _ => none) (fun _ => rfl) (by simp) (by simp) 1 (by decide) [[.int 0]] [[.int 1]] (by simp) (by simp [NoTuples, NoTuple])

/-- After the first checkpoint a run without a mode is refused. -/
example := c68_refused .s3 [(("bucket".toList, ckKey "data/train".toList "config.json".toList), .config 1 [])] _ _ _ false dataDir (fun _ => none) 1 [] ".checkpoints/config.json".toList
  (.config 1 []) (by simp [ckKey])

example := c68_overwrite .s3 [(("bucket".toList, ckKey "data/train".toList "config.json".toList), .config 1 [])] _ _ _ false false dataDir (fun _ => none) rfl 1 [] (by
  intro _
  exact Nat.le_trans (List.length_filter_le _ _) (by decide))

example := c68_cleanup_partial .s3 [(("bucket".toList, ckKey "data/train".toList "config.json".toList), .config 1 [])] _ _ _ false dataDir (by
  intro _
  exact Nat.le_trans (List.length_filter_le _ _) (by decide))

/-- Two runs with a local output. -/
example : ∃ files', interruptedLocal (outputOf "/out".toList false) "/cache".toList 2 [[.int 0], [.int 1]] [[⟨0, List.replicate 32 'a', ⟨[], 1⟩⟩], [⟨1, List.replicate 32 'c', ⟨[], 1⟩⟩]]
      (fun _ => none) = .ok files' ∧ loadLocal (outputOf "/out".toList false) files' 2 [[.int 0], [.int 1]] = .ok [⟨[], 1⟩, ⟨[], 1⟩] := by
  obtain ⟨f, h1, h2, -⟩ := c68_local_partial "/out".toList "/cache".toList false (by decide) (by decide) (by decide) (by decide) (fun _ => none) (fun _ => rfl) 2 [[.int 0], [.int 1]]
    (by simp [NoTuples, NoTuple]) [[⟨0, List.replicate 32 'a', ⟨[], 1⟩⟩], [⟨1, List.replicate 32 'c', ⟨[], 1⟩⟩]] (by decide)
  exact ⟨f, h1, h2⟩

end LitData.Props
