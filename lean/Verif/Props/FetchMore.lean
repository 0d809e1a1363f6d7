import Verif.Props.Fetch

/-!
C75, more: what happens when something is missing. A chunk that is not there stops the download of the dataset at that chunk, the index of a dataset comes from the cache alone if there
is no folder or if the folder is one of the Hub, and a URL of a bucket without a path is an IndexError in GCS.
-/

namespace LitData.Props

open LitData

/-- **C75, a URL without a path.** With `gs://bucket` the downloader of GCS raises IndexError (`key[0]` of an empty text), and no file is changed. -/
theorem c75_bucket_only (cfg : S3Settings) (r : RemoteFiles) (files : LocalFiles Bytes) (bucket loc : PathStr) (hb : BucketName bucket) (hno : files loc = none) :
    fetchFile .gcp cfg r false files ("gs://".toList ++ bucket) loc = (files, some .indexError) := by
  have hu : urlParse ("gs://".toList ++ bucket) = ⟨"gs".toList, bucket, []⟩ := by
    have e : "gs://".toList ++ bucket = "gs".toList ++ ':' :: ('/' :: '/' :: bucket) := rfl
    unfold urlParse
    rw [e, urlScheme_wanted .gcp _ rfl]
    simp only
    have hw := List.takeWhile_append_of_pos (p := fun c => c != '/' && inPath c) (l₁ := bucket) (l₂ := []) (by
      intro c hc
      obtain ⟨h1, h2, h3⟩ := hb c hc
      simp [inPath, h1, h2, h3])
    have hd := List.dropWhile_append_of_pos (p := fun c => c != '/' && inPath c) (l₁ := bucket) (l₂ := []) (by
      intro c hc
      obtain ⟨h1, h2, h3⟩ := hb c hc
      simp [inPath, h1, h2, h3])
    rw [List.append_nil] at hw hd
    rw [hw, hd]
    simp
  rw [fetchFile_store .gcp _ rfl cfg r files _ loc (by rw [hu]) hno]
  unfold fetchNow fetchKey
  simp only [hu]

/-- **C75, a missing chunk.** A chunk that is not in the folder raises, and no file is changed (S3 and GCS; for Azure see `c75_azure_empty`). -/
theorem c75_chunk_missing {r : RemoteFiles} {d : BuiltinDownloader} {scheme : PathStr} {o : Objects Bytes} (h : StoreOf r d scheme o) (ha : d ≠ .azure) (cfg : S3Settings)
    (files : LocalFiles Bytes) (bucket dir slash cacheDir name : PathStr) (hb : BucketName bucket) (hk : UrlKey dir) (hd : CleanKey dir) (hs : slash = [] ∨ slash = ['/'])
    (hc : cacheDir ≠ []) (hcl : cacheDir.getLast? ≠ some '/') (hn : DataFile name)
    (hp : S5Plain d cfg (schemeUrl scheme bucket (dir ++ '/' :: name)) (cacheDir ++ '/' :: name))
    (hno : files (cacheDir ++ '/' :: name) = none) (hx : o.get (bucket, dir ++ '/' :: name) = none) :
    ∃ e, fetchChunk cfg r false (schemeUrl scheme bucket dir ++ slash) cacheDir files name = (files, some e) := by
  have hdl : getDownloader .local builtinTable (String.ofList (schemeUrl scheme bucket dir ++ slash)) = d := by
    have := h.downloader (bucket ++ '/' :: dir ++ slash)
    rw [← this]
    simp [schemeUrl]
  unfold fetchChunk
  rw [hdl, joinPath_remote scheme bucket dir slash name hd hs hn, joinPath_rel cacheDir name hc hcl hn.head]
  refine c75_missing_partial h ha cfg files bucket (dir ++ '/' :: name) (cacheDir ++ '/' :: name) hb ?_ ?_ hp hno hx
  · rw [show dir ++ '/' :: name = dir ++ (['/'] ++ name) by simp, UrlKey.append, UrlKey.append]
    exact ⟨hk, by unfold UrlKey; decide, hn.2.2⟩
  · have := hd.head
    cases dir with
    | nil => exact absurd rfl hd.ne
    | cons c dir => simpa using this

/-- **C75, a dataset with a missing chunk.** The download of the chunks of a dataset stops with an error at the first one that is not in the folder: the chunks before it are in the cache
and nothing else is changed. -/
theorem c75_first_failure {r : RemoteFiles} {d : BuiltinDownloader} {scheme : PathStr} {o : Objects Bytes} (h : StoreOf r d scheme o) (ha : d ≠ .azure) (cfg : S3Settings)
    (files : LocalFiles Bytes) (bucket dir slash cacheDir : PathStr) (l : List (PathStr × Bytes)) (name : PathStr) (more : List PathStr) (hb : BucketName bucket) (hk : UrlKey dir)
    (hd : CleanKey dir) (hs : slash = [] ∨ slash = ['/']) (hc : cacheDir ≠ []) (hcl : cacheDir.getLast? ≠ some '/') (hn : ∀ e ∈ l, DataFile e.1) (hn' : DataFile name)
    (hnd : (l.map (·.1)).Nodup)
    (hp : ∀ f ∈ name :: l.map (·.1), S5Plain d cfg (schemeUrl scheme bucket (dir ++ '/' :: f)) (cacheDir ++ '/' :: f))
    (hno : ∀ f ∈ name :: l.map (·.1), files (cacheDir ++ '/' :: f) = none) (hx : ∀ e ∈ l, o.get (bucket, dir ++ '/' :: e.1) = some e.2)
    (hmiss : o.get (bucket, dir ++ '/' :: name) = none) :
    ∃ files' e, fetchChunks cfg r (schemeUrl scheme bucket dir ++ slash) cacheDir files (l.map (·.1) ++ name :: more) = (files', some e) ∧
      (∀ e ∈ l, files' (cacheDir ++ '/' :: e.1) = some e.2) ∧ ∀ p, (∀ e ∈ l, p ≠ cacheDir ++ '/' :: e.1) → files' p = files p := by
  have happ : ∀ (fs gs : List PathStr) (files : LocalFiles Bytes), fetchChunks cfg r (schemeUrl scheme bucket dir ++ slash) cacheDir files (fs ++ gs) =
      match fetchChunks cfg r (schemeUrl scheme bucket dir ++ slash) cacheDir files fs with
      | (files, some e) => (files, some e)
      | (files, none) => fetchChunks cfg r (schemeUrl scheme bucket dir ++ slash) cacheDir files gs := by
    intro fs gs
    induction fs with
    | nil => intro files; rfl
    | cons f fs ih =>
      intro files
      rw [List.cons_append, fetchChunks, fetchChunks]
      rcases fetchChunk cfg r false (schemeUrl scheme bucket dir ++ slash) cacheDir files f with ⟨f1, _ | e⟩
      · exact ih f1
      · rfl
  have hnl : ∀ e ∈ l, cacheDir ++ '/' :: name ≠ cacheDir ++ '/' :: e.1 := by
    intro e he heq
    have : name = e.1 := (List.cons.inj (List.append_cancel_left heq)).2
    have hg := hx e he
    rw [← this, hmiss] at hg
    cases hg
  obtain ⟨f1, k1, k2, k3⟩ := c75_dataset h cfg files bucket dir slash cacheDir l hb hk hd hs hc hcl hn hnd (fun e he => hp e.1 (List.mem_cons_of_mem _ (List.mem_map_of_mem he)))
    (fun e he => hno e.1 (List.mem_cons_of_mem _ (List.mem_map_of_mem he))) hx
  obtain ⟨e, he⟩ := c75_chunk_missing h ha cfg f1 bucket dir slash cacheDir name hb hk hd hs hc hcl hn' (hp name (by simp)) (by rw [k3 _ hnl]; exact hno name (by simp)) hmiss
  refine ⟨f1, e, ?_, k2, k3⟩
  rw [happ, k1]
  show fetchChunks cfg r _ cacheDir f1 (name :: more) = _
  rw [fetchChunks, he]

/-- **C75, the index.** Without a folder, and for a folder of the Hub, the index is the one in the cache: without a folder none may be there, for the Hub this raises RuntimeError. -/
theorem c75_index_cached (cfg : S3Settings) (r : RemoteFiles) (busy : Bool) (cacheDir rest : PathStr) (files : LocalFiles Bytes) (hc : cacheDir ≠ []) (hcl : cacheDir.getLast? ≠ some '/') :
    loadIndex cfg r busy none cacheDir files = (files, .ok (files (cacheDir ++ "/index.json".toList))) ∧
    loadIndex cfg r busy (some ("hf://".toList ++ rest)) cacheDir files =
      (files, match files (cacheDir ++ "/index.json".toList) with | none => .error .runtimeError | some x => .ok (some x)) := by
  have hj : joinPath cacheDir indexName = cacheDir ++ "/index.json".toList := joinPath_rel cacheDir "index.json".toList hc hcl (by decide)
  constructor
  · unfold loadIndex
    simp only [hj]
  · unfold loadIndex
    simp only [hj]
    rw [if_pos (by rw [List.isPrefixOf_iff_prefix]; exact List.prefix_append "hf://".toList rest)]
    cases files (cacheDir ++ "/index.json".toList) <;> rfl

/-- **C75, the index of a folder.** The index of a folder of S3 or GCS that has none raises, and leaves the files as they are. -/
theorem c75_index_missing {r : RemoteFiles} {d : BuiltinDownloader} {scheme : PathStr} {o : Objects Bytes} (h : StoreOf r d scheme o) (ha : d ≠ .azure) (cfg : S3Settings)
    (files : LocalFiles Bytes) (bucket dir slash cacheDir : PathStr) (hb : BucketName bucket) (hk : UrlKey dir) (hd : CleanKey dir) (hs : slash = [] ∨ slash = ['/'])
    (hc : cacheDir ≠ []) (hcl : cacheDir.getLast? ≠ some '/')
    (hp : S5Plain d cfg (schemeUrl scheme bucket (dir ++ "/index.json".toList)) (cacheDir ++ "/index.json".toList))
    (hno : files (cacheDir ++ "/index.json".toList) = none) (hx : o.get (bucket, dir ++ "/index.json".toList) = none) :
    ∃ e, loadIndex cfg r false (some (schemeUrl scheme bucket dir ++ slash)) cacheDir files = (files, .error e) := by
  have hidx : DataFile "index.json".toList := ⟨by decide, by decide, by unfold UrlKey; decide⟩
  obtain ⟨e, he⟩ := c75_chunk_missing h ha cfg files bucket dir slash cacheDir "index.json".toList hb hk hd hs hc hcl hidx hp hno hx
  refine ⟨e, ?_⟩
  unfold loadIndex
  simp only
  rw [if_neg, show fetchChunk cfg r false (schemeUrl scheme bucket dir ++ slash) cacheDir files indexName = (files, some e) from he]
  cases h <;> simp [schemeUrl]

example := c75_bucket_only (someS3 false) someRemote noFiles "b".toList "/cache/x".toList (by unfold BucketName; decide) rfl

example (s5 : Bool) := c75_first_failure (.s3 (r := someRemote)) (by decide) (someS3 s5) noFiles "b".toList "d".toList [] "/cache".toList [("chunk-0-0.bin".toList, [1, 2])]
  "chunk-0-1.bin".toList ["chunk-0-2.bin".toList] (by unfold BucketName; decide) (by unfold UrlKey; decide) (by unfold CleanKey; decide) (by decide) (by decide) (by decide)
  (by unfold DataFile UrlKey; decide) (by unfold DataFile UrlKey; decide) (by decide) (fun f hf _ _ => by
    simp only [List.map_cons, List.map_nil, List.mem_cons, List.not_mem_nil, or_false] at hf
    rcases hf with rfl | rfl <;> exact ⟨⟨by decide, by decide⟩, ⟨by decide, by decide⟩⟩) (fun _ _ => rfl) (by decide) (by decide)

example := c75_index_missing (.gs (r := someRemote)) (by decide) (someS3 false) noFiles "b".toList "d".toList "/".toList "/cache".toList (by unfold BucketName; decide) (by unfold UrlKey; decide)
  (by unfold CleanKey; decide) (by decide) (by decide) (by decide) (fun h => by cases h) rfl (by decide)

end LitData.Props
