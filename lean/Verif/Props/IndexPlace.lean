import Verif.Model.IndexPlace
import Verif.Props.CacheDir
import Verif.Props.ParquetIndex

/-!
**C95.** The index that `index_parquet_dataset` writes is the one that a dataset opened over the same place loads: for a local directory indexed in place, for a directory in the cloud
and for one on Hugging Face. A local directory that is indexed into another directory is not found, whatever `index_path` says.
-/

namespace LitData.Props

open LitData

/-- The file found under a name. -/
private theorem put_find (fs : LocalFs) (p : List String) (b : Bytes) : (fs.put p b).find? (fun e => e.1 == p) = some (p, b) := by
  unfold LocalFs.put
  rw [List.find?_append]
  have : (fs.filter fun e => e.1 != p).find? (fun e => e.1 == p) = none := by
    rw [List.find?_eq_none]
    intro e he
    have := (List.mem_filter.1 he).2
    simpa using this
  rw [this]
  simp

private theorem put_isFile (fs : LocalFs) (p : List String) (b : Bytes) : (fs.put p b).isFile p = true := by
  unfold LocalFs.put LocalFs.isFile
  simp

private theorem put_mem (fs : LocalFs) (p : List String) (b : Bytes) (e : List String × Bytes) : e ∈ fs.put p b ↔ (e ∈ fs ∧ e.1 ≠ p) ∨ e = (p, b) := by
  unfold LocalFs.put
  simp

/-- **C95, a local directory.** Without `cache_dir` the index is written into the directory itself, in the place of one that may be there, and a dataset over the directory loads it;
all other files are as before. -/
theorem c95_local (env : CacheDirEnv) (stamp : Bytes → Option String) (dflt path : List String) (there : List String → Bool) (index : Bytes) (st : IndexPlace)
    (inputDir : String) (cacheDir indexPath : Option (List String)) :
    ∃ st', writePqIndex .local dflt (some path) none there index st = .ok st' ∧
      openIndex env stamp (some path) none inputDir cacheDir indexPath st' = .ok (index, st'.fs) ∧ st'.remote = st.remote ∧
      ∀ e, e.1 ≠ path ++ ["index.json"] → (e ∈ st'.fs ↔ e ∈ st.fs) := by
  refine ⟨⟨st.fs.put (path ++ ["index.json"]) index, st.remote⟩, rfl, ?_, rfl, ?_⟩
  · simp only [openIndex, indexDir, Except.bind, fetchIndex, put_isFile, if_true, put_find]
  · intro e he
    rw [put_mem]
    constructor
    · rintro (h | h)
      · exact h.1
      · exact absurd (congrArg Prod.fst h) he
    · exact fun h => .inl ⟨h, he⟩

/-- What a process that opens a version which is not in the cache loads: the index that it copies or downloads. -/
private theorem open_fresh (env : CacheDirEnv) (stamp : Bytes → Option String) (url inputDir v : String) (cacheDir indexPath : Option (List String)) (st : IndexPlace)
    (index : Bytes) (hsrc : ∀ fs : LocalFs, (∀ e, ¬ env.top cacheDir (some url) <+: e.1 → (e ∈ fs ↔ e ∈ st.fs)) → indexSource indexPath st.remote fs = .ok index)
    (hst : stamp index = some v) (hv : v ≠ "0")
    (hnew : ∀ e ∈ st.fs, e.1 ≠ env.top cacheDir (some url) ∧ ¬ env.top cacheDir (some url) ++ [v] <+: e.1) :
    ∃ fs, openIndex env stamp none (some url) inputDir cacheDir indexPath st = .ok (index, fs) := by
  have hver : env.version (some inputDir) v = v := by simp [CacheDirEnv.version, hv]
  have hok : ∃ fs', tryCreateCacheDir env cacheDir (some inputDir) (some url) v st.fs = .ok (env.top cacheDir (some url) ++ [v], fs') := by
    unfold tryCreateCacheDir clearIfUpdated
    rw [hver]
    split
    · split
      · exact ⟨_, rfl⟩
      · unfold LocalFs.rmtree
        have : st.fs.isFile (env.top cacheDir (some url)) = false := by
          unfold LocalFs.isFile
          rw [List.any_eq_false]
          intro e he
          simpa using (hnew e he).1
        rw [this]
        exact ⟨_, rfl⟩
    · exact ⟨_, rfl⟩
  obtain ⟨fs', hfs'⟩ := hok
  obtain ⟨-, h2, h3, -⟩ := c58_create env cacheDir (some inputDir) (some url) v st.fs fs' _ hfs'
  have h1 := hsrc st.fs (fun _ _ => Iff.rfl)
  have h1' := hsrc fs' h2
  have hno : fs'.isFile (env.top cacheDir (some url) ++ [v] ++ ["index.json"]) = false := by
    unfold LocalFs.isFile
    rw [List.any_eq_false]
    intro e he hc
    have hc : e.1 = env.top cacheDir (some url) ++ [v] ++ ["index.json"] := by simpa using hc
    have hp : env.top cacheDir (some url) ++ [v] <+: e.1 := hc ▸ List.prefix_append _ _
    have hm := (h3 e he ((List.prefix_append _ [v]).trans hp) (by
      intro h
      have := congrArg List.length (hc.symm.trans h)
      simp at this)).2
    exact (hnew e hm).2 hp
  have hfind : fs'.find? (fun e => e.1 == env.top cacheDir (some url) ++ [v] ++ ["index.json"]) = none := by
    rw [List.find?_eq_none]
    intro e he hc
    have := List.any_eq_false.1 hno e he
    exact this hc
  refine ⟨fs' ++ [(env.top cacheDir (some url) ++ [v] ++ ["index.json"], index)], ?_⟩
  simp only [openIndex, indexDir, readUpdatedAt, h1, Except.map, Option.isSome, if_true, hst, Option.getD, Except.bind, hfs', fetchIndex, hno, Bool.false_eq_true, if_false, h1',
    List.find?_append, hfind]
  simp

/-- **C95, a directory in the cloud.** The index arrives under the URL as it was written, no local copy is left, and a dataset over the URL whose cache does not have this version yet
loads it. `updated_at` is the time of the indexing. -/
theorem c95_cloud (env : CacheDirEnv) (stamp : Bytes → Option String) (dflt : List String) (path given : Option (List String)) (there : List String → Bool) (index : Bytes)
    (st : IndexPlace) (url inputDir v : String) (cacheDir : Option (List String)) (hg : ∀ c, given = some c → there c = true)
    (hst : stamp index = some v) (hv : v ≠ "0")
    (hnew : ∀ e ∈ st.fs, e.1 ≠ env.top cacheDir (some url) ∧ ¬ env.top cacheDir (some url) ++ [v] <+: e.1) :
    ∃ st' fs, writePqIndex .cloud dflt path given there index st = .ok st' ∧ st'.remote = some index ∧
      (∀ e, e ∈ st'.fs ↔ e ∈ st.fs ∧ e.1 ≠ given.getD dflt ++ ["index.json"]) ∧
      openIndex env stamp none (some url) inputDir cacheDir none st' = .ok (index, fs) := by
  have hw : writePqIndex .cloud dflt path given there index st =
      .ok ⟨(st.fs.put (given.getD dflt ++ ["index.json"]) index).filter (fun e => e.1 != given.getD dflt ++ ["index.json"]), some index⟩ := by
    have hp := c55_uploaded 4096 (by omega) index index.length (Nat.le_refl _)
    cases given with
    | none => simp [writePqIndex, pqCachePath, LocalFs.remove, put_isFile, Except.map, hp]
    | some c => simp [writePqIndex, pqCachePath, LocalFs.remove, put_isFile, Except.map, hp, hg c rfl]
  have hmem : ∀ e, e ∈ (st.fs.put (given.getD dflt ++ ["index.json"]) index).filter (fun e => e.1 != given.getD dflt ++ ["index.json"]) ↔
      e ∈ st.fs ∧ e.1 ≠ given.getD dflt ++ ["index.json"] := by
    intro e
    rw [List.mem_filter, put_mem]
    constructor
    · rintro ⟨h | h, h'⟩
      · exact h
      · rw [h] at h'; simp at h'
    · exact fun h => ⟨.inl h, by simpa using h.2⟩
  obtain ⟨fs, hfs⟩ := open_fresh env stamp url inputDir v cacheDir none
    ⟨(st.fs.put (given.getD dflt ++ ["index.json"]) index).filter (fun e => e.1 != given.getD dflt ++ ["index.json"]), some index⟩ index
    (fun _ _ => rfl) hst hv (fun e he => hnew e ((hmem e).1 he).1)
  exact ⟨_, fs, hw, rfl, hmem, hfs⟩

/-- **C95, Hugging Face.** The index stays in the directory that was given or made, and a dataset that is told this directory, as `index_hf_dataset` does, loads it, if its cache does
not have this version yet and does not contain that directory. -/
theorem c95_hf (env : CacheDirEnv) (stamp : Bytes → Option String) (dflt : List String) (path given : Option (List String)) (there : List String → Bool) (index : Bytes)
    (st : IndexPlace) (url inputDir v : String) (cacheDir : Option (List String)) (hg : ∀ c, given = some c → there c = true)
    (hst : stamp index = some v) (hv : v ≠ "0") (hdir : ∀ b, (given.getD dflt, b) ∉ st.fs)
    (hout : ¬ env.top cacheDir (some url) <+: given.getD dflt ++ ["index.json"])
    (hnew : ∀ e ∈ st.fs, e.1 ≠ env.top cacheDir (some url) ∧ ¬ env.top cacheDir (some url) ++ [v] <+: e.1) :
    ∃ st' fs, writePqIndex .hf dflt path given there index st = .ok st' ∧ st'.remote = st.remote ∧ (given.getD dflt ++ ["index.json"], index) ∈ st'.fs ∧
      openIndex env stamp none (some url) inputDir cacheDir (some (given.getD dflt)) st' = .ok (index, fs) := by
  have hw : writePqIndex .hf dflt path given there index st = .ok ⟨st.fs.put (given.getD dflt ++ ["index.json"]) index, st.remote⟩ := by
    cases given with
    | none => simp [writePqIndex, pqCachePath]
    | some c => simp [writePqIndex, pqCachePath, hg c rfl]
  have hsrc : ∀ fs : LocalFs, (∀ e, ¬ env.top cacheDir (some url) <+: e.1 → (e ∈ fs ↔ e ∈ st.fs.put (given.getD dflt ++ ["index.json"]) index)) →
      indexSource (some (given.getD dflt)) st.remote fs = .ok index := by
    intro fs hfs
    have hin : (given.getD dflt ++ ["index.json"], index) ∈ fs := (hfs _ hout).2 ((put_mem ..).2 (.inr rfl))
    have hnd : ∀ e ∈ fs, e.1 = given.getD dflt ++ ["index.json"] → e.2 = index := by
      intro e he h
      have := (put_mem ..).1 ((hfs e (h ▸ hout)).1 he)
      rcases this with h' | h'
      · exact absurd h h'.2
      · rw [h']
    have hnf : fs.isFile (given.getD dflt) = false := by
      unfold LocalFs.isFile
      rw [List.any_eq_false]
      intro e he hc
      have hc : e.1 = given.getD dflt := by simpa using hc
      have hnt : ¬ env.top cacheDir (some url) <+: e.1 := fun h => hout ((hc ▸ h).trans (List.prefix_append _ _))
      rcases (put_mem ..).1 ((hfs e hnt).1 he) with h | h
      · exact hdir e.2 (hc ▸ h.1)
      · have := hc.symm.trans (congrArg Prod.fst h)
        have := congrArg List.length this
        simp at this
    have hhas : fs.has (given.getD dflt) = true := by
      unfold LocalFs.has
      rw [List.any_eq_true]
      exact ⟨_, hin, by simp⟩
    have hfind : ∃ e, fs.find? (fun e => e.1 == given.getD dflt ++ ["index.json"]) = some e ∧ e.2 = index := by
      cases hf : fs.find? (fun e => e.1 == given.getD dflt ++ ["index.json"]) with
      | none =>
        have := List.find?_eq_none.1 hf _ hin
        simp at this
      | some e =>
        refine ⟨e, rfl, hnd e (List.mem_of_find?_eq_some hf) ?_⟩
        have := List.find?_some hf
        simpa using this
    obtain ⟨e, he, hx⟩ := hfind
    simp only [indexSource, copyIndex, hhas, hnf, Bool.not_false, Bool.and_self, if_true, he, hx]
  obtain ⟨fs, hfs⟩ := open_fresh env stamp url inputDir v cacheDir (some (given.getD dflt)) ⟨st.fs.put (given.getD dflt ++ ["index.json"]) index, st.remote⟩ index hsrc hst hv (by
    intro e he
    rcases (put_mem ..).1 he with h | h
    · exact hnew e h.1
    · constructor
      · rw [h]; intro h'; exact hout (h' ▸ List.prefix_refl _)
      · rw [h]; exact fun h' => hout ((List.prefix_append _ _).trans h'))
  exact ⟨_, fs, hw, rfl, (put_mem ..).2 (.inr rfl), hfs⟩

/-- **C95, `index_path` of a local directory.** A local directory indexed into another directory is not found: the dataset loads the index that was in the directory before, and raises if
there was none, whatever `index_path` is. -/
theorem c95_local_elsewhere (env : CacheDirEnv) (stamp : Bytes → Option String) (dflt path c : List String) (there : List String → Bool) (index : Bytes) (st : IndexPlace)
    (inputDir : String) (cacheDir indexPath : Option (List String)) (hc : c ≠ path) (ht : there c = true) :
    ∃ st', writePqIndex .local dflt (some path) (some c) there index st = .ok st' ∧ (c ++ ["index.json"], index) ∈ st'.fs ∧
      (∀ old, st.fs.find? (fun e => e.1 == path ++ ["index.json"]) = some (path ++ ["index.json"], old) →
        openIndex env stamp (some path) none inputDir cacheDir indexPath st' = .ok (old, st'.fs)) ∧
      ((∀ b, (path ++ ["index.json"], b) ∉ st.fs) → ∃ e, openIndex env stamp (some path) none inputDir cacheDir indexPath st' = .error e) := by
  have hne : path ++ ["index.json"] ≠ c ++ ["index.json"] := fun h => hc (List.append_cancel_right h).symm
  have hfind : (st.fs.put (c ++ ["index.json"]) index).find? (fun e => e.1 == path ++ ["index.json"]) = st.fs.find? (fun e => e.1 == path ++ ["index.json"]) := by
    unfold LocalFs.put
    rw [List.find?_append, List.find?_filter]
    have h1 : ([(c ++ ["index.json"], index)] : LocalFs).find? (fun e => e.1 == path ++ ["index.json"]) = none := by
      rw [List.find?_eq_none]
      intro e he
      rw [List.mem_singleton.1 he]
      simpa using fun h => hc h
    rw [h1, Option.or_none]
    apply congrFun
    apply congrArg
    funext e
    by_cases h : e.1 = path ++ ["index.json"]
    · simp [h, hne]
    · simp [h]
  refine ⟨⟨st.fs.put (c ++ ["index.json"]) index, st.remote⟩, ?_, (put_mem ..).2 (.inr rfl), ?_, ?_⟩
  · simp [writePqIndex, pqCachePath, ht]
  · intro old ho
    have hf : (st.fs.put (c ++ ["index.json"]) index).isFile (path ++ ["index.json"]) = true := by
      unfold LocalFs.isFile
      rw [List.any_eq_true]
      exact ⟨_, List.mem_of_find?_eq_some (hfind.trans ho), by simp⟩
    simp only [openIndex, indexDir, Except.bind, fetchIndex, hf, if_true, hfind, ho]
  · intro hno
    have hf : (st.fs.put (c ++ ["index.json"]) index).isFile (path ++ ["index.json"]) = false := by
      unfold LocalFs.isFile
      rw [List.any_eq_false]
      intro e he h
      have h : e.1 = path ++ ["index.json"] := by simpa using h
      rcases (put_mem ..).1 he with h' | h'
      · exact hno e.2 (h ▸ h'.1)
      · exact hne (h.symm.trans (congrArg Prod.fst h'))
    simp only [openIndex, indexDir, Except.bind, fetchIndex, hf, Bool.false_eq_true, if_false, Option.isSome]
    by_cases hh : (st.fs.put (c ++ ["index.json"]) index).has path = true
    · exact ⟨.valueError, by simp only [hh, if_true]⟩
    · exact ⟨.fileNotFound, by simp only [hh]; rfl⟩

/-- **C95, a directory that does not exist.** `cache_dir` is not created: nothing is written, whatever the directory is. -/
theorem c95_missing_directory (kind : PqKind) (dflt c : List String) (path : Option (List String)) (there : List String → Bool) (index : Bytes) (st : IndexPlace) :
    writePqIndex kind dflt path (some c) there index st = .error .fileNotFound ↔ there c = false := by
  simp only [writePqIndex, pqCachePath, Option.isSome, Bool.true_and]
  cases h : there c with
  | false => simp
  | true =>
    simp only [Bool.not_true, Bool.false_eq_true, if_false]
    split
    · simp [LocalFs.remove, put_isFile, Except.map]
    · simp

/-- **C95, an index that was there.** Indexing a directory in the cloud with a `cache_dir` removes an `index.json` of another dataset that is in it. -/
theorem c95_cloud_removes (dflt c : List String) (path : Option (List String)) (there : List String → Bool) (index : Bytes) (st st' : IndexPlace)
    (h : writePqIndex .cloud dflt path (some c) there index st = .ok st') : ∀ b, (c ++ ["index.json"], b) ∉ st'.fs := by
  intro b hb
  have ht : there c = true := by
    cases ht : there c with
    | true => rfl
    | false => rw [(c95_missing_directory .cloud dflt c path there index st).2 ht] at h; cases h
  simp only [writePqIndex, pqCachePath, Option.isSome, ht, Bool.not_true, Bool.and_false, Bool.false_eq_true, if_false, if_true, LocalFs.remove, put_isFile, Except.map] at h
  cases h
  simp at hb

/-- **C95, the scheme `local:`.** The files of the directory are not indexed: without parquet files in the working directory the index is empty, with them the indexing fails. -/
theorem c95_local_scheme (env : PqEnv R) (cwd : List PqEntry) :
    (indexLocalAt env none cwd = .ok ([], []) ↔ ∀ e ∈ cwd, strEndsWith e.name ".parquet" = false) ∧
    ((∃ e ∈ cwd, strEndsWith e.name ".parquet" = true) → indexLocalAt env none cwd = .error .assertion) ∧
    ∀ d, indexLocalAt env (some d) cwd = indexParquet env .local d := by
  have hl : pqListing .local cwd = [] ↔ ∀ e ∈ cwd, strEndsWith e.name ".parquet" = false := by
    unfold pqListing
    simp
  refine ⟨?_, ?_, fun d => rfl⟩
  · rw [← hl]
    unfold indexLocalAt
    split <;> simp_all
  · rintro ⟨e, he, h⟩
    have : pqListing .local cwd ≠ [] := fun h0 => by have := hl.1 h0 e he; simp_all
    simp [indexLocalAt, this]

/-- **C95, the scheme `local:` without a `cache_dir`.** No index is written. -/
theorem c95_local_scheme_nowhere (dflt : List String) (there : List String → Bool) (index : Bytes) (st : IndexPlace) :
    writePqIndex .local dflt none none there index st = .error .assertion := rfl

/-- A directory in the cloud, indexed with an old version of it in the cache. -/
example : let st : IndexPlace := ⟨[(["home", "s3://d", "1", "index.json"], [1])], some [1]⟩
    (∀ e ∈ st.fs, e.1 ≠ (CacheDirEnv.mk id false ["home"] ["st"]).top none (some "s3://d") ∧
      ¬ (CacheDirEnv.mk id false ["home"] ["st"]).top none (some "s3://d") ++ ["2"] <+: e.1) ∧
    ((writePqIndex .cloud ["pq"] none none (fun _ => false) [2] st).bind fun st' =>
      openIndex ⟨id, false, ["home"], ["st"]⟩ (fun b => if b = [1] then some "1" else some "2") none (some "s3://d") "s3://d" none none st') =
        .ok ([2], [(["home", "s3://d", "2", "index.json"], [2])]) := by
  refine ⟨by decide, by rfl⟩

/-- A directory on Hugging Face. -/
example : let st : IndexPlace := ⟨[(["home", "hf://d", "1", "index.json"], [1])], none⟩
    (∀ b, (["pq"], b) ∉ st.fs) ∧ ¬ (CacheDirEnv.mk id false ["home"] ["st"]).top none (some "hf://d") <+: ["pq", "index.json"] ∧
    ((writePqIndex .hf ["pq"] none none (fun _ => false) [2] st).bind fun st' =>
      openIndex ⟨id, false, ["home"], ["st"]⟩ (fun b => if b = [1] then some "1" else some "2") none (some "hf://d") "hf://d" none (some ["pq"]) st') =
        .ok ([2], [(["pq", "index.json"], [2]), (["home", "hf://d", "2", "index.json"], [2])]) := by
  refine ⟨by simp, by decide, by rfl⟩

/-- A local directory indexed into another one: the old index is loaded. -/
example : ((writePqIndex .local [] (some ["d"]) (some ["c"]) (fun _ => true) [2] ⟨[(["d", "index.json"], [1])], none⟩).bind fun st' =>
    openIndex ⟨id, false, ["home"], ["st"]⟩ (fun _ => none) (some ["d"]) none "d" none (some ["c"]) st') =
      .ok ([1], [(["d", "index.json"], [1]), (["c", "index.json"], [2])]) := by rfl

/-- **C95, an index inside the cache is lost.** If `index_path` lies in the cache directory of the dataset, as that of a version read before, and the directory holds anything but
the version that this index names, the directory is cleared before the index is copied: opening the dataset fails, and the index is gone. -/
theorem c95_index_in_cache (env : CacheDirEnv) (stamp : Bytes → Option String) (url inputDir : String) (cacheDir : Option (List String)) (rest : List String)
    (st : IndexPlace) (b : Bytes) (hb : copyIndex st.fs (env.top cacheDir (some url) ++ rest) = .ok b)
    (hfile : st.fs.isFile (env.top cacheDir (some url)) = false)
    (hold : st.fs.listdir (env.top cacheDir (some url)) ≠ [env.version (some inputDir) ((stamp b).getD "0")]) :
    openIndex env stamp none (some url) inputDir cacheDir (some (env.top cacheDir (some url) ++ rest)) st = .error .fileNotFound ∧
    ∀ r, indexDir env stamp none (some url) inputDir cacheDir (some (env.top cacheDir (some url) ++ rest)) st = .ok r →
      ∀ e ∈ r.2, (env.top cacheDir (some url)).isPrefixOf e.1 = false := by
  obtain ⟨top, ht⟩ : ∃ top, top = env.top cacheDir (some url) := ⟨_, rfl⟩
  rw [← ht] at hb hfile hold ⊢
  have hhas : st.fs.has top = true := by
    unfold copyIndex at hb
    simp only at hb
    split at hb
    · rename_i e he
      have hm := List.mem_of_find?_eq_some he
      have hq := List.find?_some he
      simp only [beq_iff_eq] at hq
      unfold LocalFs.has
      rw [List.any_eq_true]
      refine ⟨e, hm, ?_⟩
      rw [hq, List.isPrefixOf_iff_prefix]
      split
      · exact ⟨rest ++ ["index.json"], by simp⟩
      · exact ⟨rest, rfl⟩
    · cases hb
  have hdir : indexDir env stamp none (some url) inputDir cacheDir (some (top ++ rest)) st =
      .ok (top ++ [env.version (some inputDir) ((stamp b).getD "0")], st.fs.filter fun e => !top.isPrefixOf e.1) := by
    unfold indexDir indexSource
    simp only [hb, Except.map, readUpdatedAt, Option.isSome_some, if_true, Except.bind]
    unfold tryCreateCacheDir clearIfUpdated LocalFs.rmtree
    rw [← ht, if_pos hhas, if_neg hold, hfile]
    rfl
  have hno : ∀ (q : List String) (e : List String × Bytes), e ∈ st.fs.filter (fun e => !top.isPrefixOf e.1) → (top ++ q).isPrefixOf e.1 = false := by
    intro q e he
    rw [List.mem_filter] at he
    cases hc : (top ++ q).isPrefixOf e.1 with
    | false => rfl
    | true =>
      rw [List.isPrefixOf_iff_prefix] at hc
      have : top.isPrefixOf e.1 = true := List.isPrefixOf_iff_prefix.2 ((List.prefix_append top q).trans hc)
      rw [this] at he
      cases he.2
  have hne : ∀ (q : List String) (e : List String × Bytes), e ∈ st.fs.filter (fun e => !top.isPrefixOf e.1) → (e.1 == top ++ q) = false := by
    intro q e he
    cases hc : e.1 == top ++ q with
    | false => rfl
    | true =>
      have := hno q e he
      rw [beq_iff_eq] at hc
      rw [hc, List.isPrefixOf_iff_prefix.2 (List.prefix_refl _)] at this
      cases this
  refine ⟨?_, ?_⟩
  · unfold openIndex
    rw [hdir]
    simp only [Except.bind, Option.isSome_some]
    have hcopy : indexSource (some (top ++ rest)) st.remote (st.fs.filter fun e => !top.isPrefixOf e.1) = .error .fileNotFound := by
      unfold indexSource copyIndex
      have h1 : LocalFs.has (st.fs.filter fun e => !top.isPrefixOf e.1) (top ++ rest) = false := by
        unfold LocalFs.has
        rw [List.any_eq_false]
        intro e he
        rw [hno rest e he]
        simp
      simp only [h1, Bool.false_and, Bool.false_eq_true, if_false]
      rw [List.find?_eq_none.2 (fun e he => by rw [hne rest e he]; simp)]
    rw [hcopy]
    unfold fetchIndex
    rw [if_neg (by
      unfold LocalFs.isFile
      rw [Bool.not_eq_true, List.any_eq_false]
      intro e he
      rw [List.append_assoc, hne _ e he]
      simp)]
    rfl
  · intro r hr e he
    rw [hdir] at hr
    cases hr
    have := hno [] e he
    rwa [List.append_nil] at this

/-- The index of version 1 in the cache names a version 2, and the cache holds the directory of version 1. -/
example := c95_index_in_cache ⟨id, false, ["home"], ["st"]⟩ (fun _ => some "2") "s3://d" "s3://d" none ["1"] ⟨[(["home", "s3://d", "1", "index.json"], [1])], some [1]⟩ [1] rfl rfl (by decide)

end LitData.Props
