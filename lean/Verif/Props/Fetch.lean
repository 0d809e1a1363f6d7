import Verif.Lemmas.Fetch
import Verif.Props.FsProvider
import Verif.Props.InputFiles
import Verif.Props.Registry

/-! Property C75: a downloader fetches the object that its URL names into the cache, and nothing else. -/

namespace LitData.Props
open LitData

/-- The object stores, with the scheme of their URLs and their objects. -/
inductive StoreOf (r : RemoteFiles) : BuiltinDownloader → PathStr → Objects Bytes → Prop
  | s3 : StoreOf r .s3 "s3".toList r.s3
  | gs : StoreOf r .gcp "gs".toList r.gs
  | azure : StoreOf r .azure "azure".toList r.azure

/-- If s5cmd is used, neither the URL nor the path has a character that a shell would interpret, nor a space. -/
def S5Plain (d : BuiltinDownloader) (cfg : S3Settings) (remote loc : PathStr) : Prop := d = .s3 → cfg.s5cmd = true → PlainPath remote ∧ PlainPath loc

theorem StoreOf.wanted {r d scheme o} (h : StoreOf r d scheme o) : d.wanted = some scheme := by cases h <;> rfl

theorem StoreOf.parse {r d scheme o} (h : StoreOf r d scheme o) (bucket key : PathStr) (hb : BucketName bucket) (hk : UrlKey key) :
    urlParse (schemeUrl scheme bucket key) = ⟨scheme, bucket, '/' :: key⟩ := by
  rw [urlParse_schemeUrl scheme bucket key (urlScheme_wanted d scheme h.wanted) hb, urlKey_takeWhile hk]

theorem StoreOf.fetchKey {r d scheme o} (h : StoreOf r d scheme o) (bucket key : PathStr) (hb : BucketName bucket) (hk : UrlKey key) (hh : key.head? ≠ some '/') :
    LitData.fetchKey d (schemeUrl scheme bucket key) = .ok (bucket, key) := by
  unfold LitData.fetchKey
  rw [h.parse bucket key hb hk]
  cases h <;> simp only [lstripSlash_one key hh, if_true]

theorem fetchFile_store (d : BuiltinDownloader) (scheme : PathStr) (hw : d.wanted = some scheme) (cfg : S3Settings) (r : RemoteFiles) (files : LocalFiles Bytes) (remote loc : PathStr)
    (hs : (urlParse remote).scheme = scheme) (hno : files loc = none) : fetchFile d cfg r false files remote loc = fetchNow d cfg r files remote loc := by
  unfold fetchFile
  rw [hw]
  simp only
  rw [if_neg (by simp [hs]), if_neg (by simp [hno]), if_neg (by simp)]

theorem s5cmdRun_four (o : Objects Bytes) (files : LocalFiles Bytes) (a c src dst : PathStr) : s5cmdRun o files [a, c, src, dst] =
    if c = "cp".toList then (s5cmdKey src).bind fun k => (o.get k).map fun x => fun p => if p = dst then some x else files p else none := rfl

theorem s5cmdRun_five (o : Objects Bytes) (files : LocalFiles Bytes) (a s c src dst : PathStr) : s5cmdRun o files [a, s, c, src, dst] =
    if s = "--no-sign-request".toList ∧ c = "cp".toList then (s5cmdKey src).bind fun k => (o.get k).map fun x => fun p => if p = dst then some x else files p else none := rfl

theorem s5cmd_fetch (cfg : S3Settings) (r : RemoteFiles) (files : LocalFiles Bytes) (bucket key loc : PathStr) (h5 : cfg.s5cmd = true) (hb : BucketName bucket)
    (hr : PlainPath (schemeUrl "s3".toList bucket key)) (hl : PlainPath loc) :
    fetchNow .s3 cfg r files (schemeUrl "s3".toList bucket key) loc =
      match r.s3.get (bucket, key) with
      | none => (files, some .runtimeError)
      | some x => (fun p => if p = loc then some x else files p, none) := by
  unfold fetchNow
  simp only [h5, if_true]
  rw [s5cmdLine_words cfg.noSign _ _ hr hl]
  simp only
  have hrun : s5cmdRun r.s3 files (if cfg.noSign then ["s5cmd".toList, "--no-sign-request".toList, "cp".toList, schemeUrl "s3".toList bucket key, loc]
      else ["s5cmd".toList, "cp".toList, schemeUrl "s3".toList bucket key, loc]) = (r.s3.get (bucket, key)).map fun x => fun p => if p = loc then some x else files p := by
    have hk := s5cmdKey_object bucket key hb
    generalize schemeUrl "s3".toList bucket key = u at hk
    cases cfg.noSign with
    | true =>
      simp only [if_true]
      rw [s5cmdRun_five, if_pos ⟨rfl, rfl⟩, hk]
      rfl
    | false =>
      rw [if_neg (by decide)]
      rw [s5cmdRun_four, if_pos rfl, hk]
      rfl
  rw [hrun]
  cases r.s3.get (bucket, key) <;> rfl

/-- **C75, fetching.** With an object store, whatever the client, the object of the bucket and the key of the URL is put at the local path with its content, and every other file is as before. -/
theorem c75_fetch {r : RemoteFiles} {d : BuiltinDownloader} {scheme : PathStr} {o : Objects Bytes} (h : StoreOf r d scheme o) (cfg : S3Settings) (files : LocalFiles Bytes)
    (bucket key loc : PathStr) (x : Bytes) (hb : BucketName bucket) (hk : UrlKey key) (hh : key.head? ≠ some '/') (hp : S5Plain d cfg (schemeUrl scheme bucket key) loc)
    (hno : files loc = none) (hx : o.get (bucket, key) = some x) :
    ∃ files', fetchFile d cfg r false files (schemeUrl scheme bucket key) loc = (files', none) ∧ files' loc = some x ∧ ∀ p, p ≠ loc → files' p = files p := by
  refine ⟨fun p => if p = loc then some x else files p, ?_, by simp, fun p hpl => by simp [hpl]⟩
  rw [fetchFile_store d scheme h.wanted cfg r files _ loc (by rw [h.parse bucket key hb hk]) hno]
  have hkey := h.fetchKey bucket key hb hk hh
  cases h with
  | gs =>
    unfold fetchNow
    simp only [hkey, hx]
  | azure =>
    unfold fetchNow
    simp only [hkey, hx]
  | s3 =>
    cases h5 : cfg.s5cmd with
    | true =>
      obtain ⟨h1, h2⟩ := hp rfl h5
      rw [s5cmd_fetch cfg r files bucket key loc h5 hb h1 h2, hx]
    | false =>
      unfold fetchNow
      simp only [h5, Bool.false_eq_true, if_false]
      rw [hkey]
      simp only [hx]

/-- **C75, a missing object.** It is an error and, for S3 and GCS, no file is made or changed. -/
theorem c75_missing_partial {r : RemoteFiles} {d : BuiltinDownloader} {scheme : PathStr} {o : Objects Bytes} (h : StoreOf r d scheme o) (hd : d ≠ .azure) (cfg : S3Settings)
    (files : LocalFiles Bytes) (bucket key loc : PathStr) (hb : BucketName bucket) (hk : UrlKey key) (hh : key.head? ≠ some '/')
    (hp : S5Plain d cfg (schemeUrl scheme bucket key) loc) (hno : files loc = none) (hx : o.get (bucket, key) = none) :
    ∃ e, fetchFile d cfg r false files (schemeUrl scheme bucket key) loc = (files, some e) := by
  rw [fetchFile_store d scheme h.wanted cfg r files _ loc (by rw [h.parse bucket key hb hk]) hno]
  have hkey := h.fetchKey bucket key hb hk hh
  cases h with
  | gs =>
    unfold fetchNow
    simp only [hkey, hx]
    exact ⟨_, rfl⟩
  | azure => exact absurd rfl hd
  | s3 =>
    cases h5 : cfg.s5cmd with
    | true =>
      obtain ⟨h1, h2⟩ := hp rfl h5
      rw [s5cmd_fetch cfg r files bucket key loc h5 hb h1 h2, hx]
      exact ⟨_, rfl⟩
    | false =>
      unfold fetchNow
      simp only [h5, Bool.false_eq_true, if_false]
      rw [hkey]
      simp only [hx]
      exact ⟨_, rfl⟩

/-- **C75, fails: Azure.** A blob that is missing leaves an empty file. The next call, when the blob may be there, finds the file and raises nothing: the chunk stays empty. -/
theorem c75_azure_empty (cfg : S3Settings) (r r' : RemoteFiles) (files : LocalFiles Bytes) (bucket key loc : PathStr) (busy : Bool) (hb : BucketName bucket) (hk : UrlKey key)
    (hh : key.head? ≠ some '/') (hno : files loc = none) (hx : r.azure.get (bucket, key) = none) :
    ∃ files' e, fetchFile .azure cfg r false files (schemeUrl "azure".toList bucket key) loc = (files', some e) ∧ files' loc = some [] ∧
      fetchFile .azure cfg r' busy files' (schemeUrl "azure".toList bucket key) loc = (files', none) := by
  have h : StoreOf r .azure "azure".toList r.azure := .azure
  refine ⟨fun p => if p = loc then some [] else files p, .exception, ?_, by simp, ?_⟩
  · rw [fetchFile_store .azure _ rfl cfg r files _ loc (by rw [h.parse bucket key hb hk]) hno]
    unfold fetchNow
    simp only [h.fetchKey bucket key hb hk hh, hx]
  · unfold fetchFile
    simp only [BuiltinDownloader.wanted, h.parse bucket key hb hk]
    simp

/-- **C75, nothing to do.** A file that is there is left as it is, whatever its content; so are all files if another process holds the lock: the call returns although there may be no file. -/
theorem c75_kept (d : BuiltinDownloader) (scheme : PathStr) (hd : (d, scheme) ∈ [(BuiltinDownloader.s3, "s3".toList), (.gcp, "gs".toList), (.azure, "azure".toList), (.hf, "hf".toList)])
    (cfg : S3Settings) (r : RemoteFiles) (busy : Bool) (files : LocalFiles Bytes) (bucket key loc : PathStr) (hb : BucketName bucket)
    (h : (files loc).isSome = true ∨ busy = true) :
    fetchFile d cfg r busy files (schemeUrl scheme bucket key) loc = (files, none) := by
  have hw : d.wanted = some scheme := by
    simp only [List.mem_cons, Prod.mk.injEq, List.not_mem_nil, or_false] at hd
    rcases hd with ⟨rfl, rfl⟩ | ⟨rfl, rfl⟩ | ⟨rfl, rfl⟩ | ⟨rfl, rfl⟩ <;> rfl
  unfold fetchFile
  rw [hw]
  simp only
  rw [urlParse_schemeUrl scheme bucket key (urlScheme_wanted d scheme hw) hb, if_neg (by simp)]
  split
  · rfl
  · rename_i h1
    rw [if_pos (h.resolve_left h1)]

/-- **C75, the scheme.** A URL of another scheme, and a path without a scheme, is refused with a `ValueError`, and no file is changed. -/
theorem c75_scheme (d : BuiltinDownloader) (hd : d ∈ [BuiltinDownloader.s3, .gcp, .azure, .hf]) (scheme rest path loc : PathStr) (h0 : scheme ≠ []) (hl : ∀ c ∈ scheme, c.isLower = true)
    (hne : (d, scheme) ∉ [(BuiltinDownloader.s3, "s3".toList), (.gcp, "gs".toList), (.azure, "azure".toList), (.hf, "hf".toList)])
    (hp : ':' ∉ path) (cfg : S3Settings) (r : RemoteFiles) (busy : Bool) (files : LocalFiles Bytes) :
    fetchFile d cfg r busy files (scheme ++ ':' :: rest) loc = (files, some .valueError) ∧ fetchFile d cfg r busy files path loc = (files, some .valueError) := by
  obtain ⟨s, hw, hs, hs'⟩ : ∃ s, d.wanted = some s ∧ scheme ≠ s ∧ ([] : PathStr) ≠ s := by
    simp only [List.mem_cons, List.not_mem_nil, or_false] at hd
    rcases hd with rfl | rfl | rfl | rfl
    all_goals
      refine ⟨_, rfl, ?_, by decide⟩
      rintro rfl
      exact hne (by simp)
  have hsch : (urlParse (scheme ++ ':' :: rest)).scheme = scheme := by
    unfold urlParse
    rw [urlScheme_lower scheme rest h0 hl]
    split <;> rename_i h <;> exact (congrArg Prod.fst h).symm
  unfold fetchFile
  rw [hw]
  simp only [hsch, urlParse_no_colon path hp]
  rw [if_pos hs, if_pos hs']
  exact ⟨rfl, rfl⟩

theorem fetchNow_frame (d : BuiltinDownloader) (cfg : S3Settings) (r : RemoteFiles) (files : LocalFiles Bytes) (remote loc : PathStr) (hp : S5Plain d cfg remote loc) :
    (∀ p, p ≠ loc → p ≠ loc ++ ".tmp".toList → (fetchNow d cfg r files remote loc).1 p = files p) ∧
    ((fetchNow d cfg r files remote loc).2 = none → ((fetchNow d cfg r files remote loc).1 loc).isSome = true) := by
  cases d with
  | s3 =>
    cases h5 : cfg.s5cmd with
    | true =>
      obtain ⟨h1, h2⟩ := hp rfl h5
      unfold fetchNow
      simp only [h5, if_true]
      rw [s5cmdLine_words cfg.noSign _ _ h1 h2]
      simp only
      have hrun : ∀ words files', (words = ["s5cmd".toList, "--no-sign-request".toList, "cp".toList, remote, loc] ∨ words = ["s5cmd".toList, "cp".toList, remote, loc]) →
          s5cmdRun r.s3 files words = some files' → ∃ x, files' = fun p => if p = loc then some x else files p := by
        rintro words files' (rfl | rfl) hr <;> simp only [s5cmdRun_four, s5cmdRun_five] at hr <;> split at hr <;> first | cases hr | skip
        all_goals
          rw [Option.bind_eq_some_iff] at hr
          obtain ⟨k, -, hr⟩ := hr
          rw [Option.map_eq_some_iff] at hr
          obtain ⟨x, -, hr⟩ := hr
          exact ⟨x, hr.symm⟩
      generalize hw : (if cfg.noSign then ["s5cmd".toList, "--no-sign-request".toList, "cp".toList, remote, loc] else ["s5cmd".toList, "cp".toList, remote, loc]) = words
      have hw' : words = ["s5cmd".toList, "--no-sign-request".toList, "cp".toList, remote, loc] ∨ words = ["s5cmd".toList, "cp".toList, remote, loc] := by
        cases hn : cfg.noSign <;> rw [hn] at hw
        · exact Or.inr hw.symm
        · exact Or.inl hw.symm
      cases hr : s5cmdRun r.s3 files words with
      | none => exact ⟨fun _ _ _ => rfl, fun h => by cases h⟩
      | some files' =>
        obtain ⟨x, rfl⟩ := hrun words files' hw' hr
        exact ⟨fun p h _ => by simp [h], fun _ => by simp⟩
    | false =>
      unfold fetchNow
      simp only [h5, Bool.false_eq_true, if_false]
      split
      · exact ⟨fun _ _ _ => rfl, fun h => by cases h⟩
      · split
        · exact ⟨fun _ _ _ => rfl, fun h => by cases h⟩
        · exact ⟨fun p h _ => by simp [h], fun _ => by simp⟩
  | gcp =>
    unfold fetchNow
    simp only
    split
    · exact ⟨fun _ _ _ => rfl, fun h => by cases h⟩
    · split
      · exact ⟨fun _ _ _ => rfl, fun h => by cases h⟩
      · exact ⟨fun p h _ => by simp [h], fun _ => by simp⟩
  | azure =>
    unfold fetchNow
    simp only
    split
    · exact ⟨fun _ _ _ => rfl, fun h => by cases h⟩
    · split
      · exact ⟨fun p h _ => by simp [h], fun h => by cases h⟩
      · exact ⟨fun p h _ => by simp [h], fun _ => by simp⟩
  | hf =>
    unfold fetchNow
    simp only
    split
    · exact ⟨fun _ _ _ => rfl, fun h => by cases h⟩
    · split
      · exact ⟨fun _ _ _ => rfl, fun h => by cases h⟩
      · exact ⟨fun p h h' => by simp only [if_neg h, if_neg h'], fun _ => by simp⟩
  | localCache =>
    unfold fetchNow
    simp only
    split
    · exact ⟨fun _ _ _ => rfl, fun h => by cases h⟩
    · exact ⟨fun p h h' => by simp only [if_neg h, if_neg h'], fun _ => by simp⟩
  | «local» =>
    unfold fetchNow
    simp only
    split
    · exact ⟨fun _ _ _ => rfl, fun h => by cases h⟩
    · exact ⟨fun p h h' => by simp only [if_neg h, if_neg h'], fun _ => by simp⟩

/-- **C75, no other file.** Whatever the downloader, the URL and the state of the store, no file is changed but the one at the local path and the temporary file beside it; a file at the local path
is left as it is; and a call that raises nothing, while no other process holds the lock, leaves a file there. -/
theorem c75_frame (d : BuiltinDownloader) (cfg : S3Settings) (r : RemoteFiles) (busy : Bool) (files : LocalFiles Bytes) (remote loc : PathStr) (hp : S5Plain d cfg remote loc) :
    (∀ p, p ≠ loc → p ≠ loc ++ ".tmp".toList → (fetchFile d cfg r busy files remote loc).1 p = files p) ∧
    ((files loc).isSome = true → (fetchFile d cfg r busy files remote loc).1 = files) ∧
    (busy = false → (fetchFile d cfg r busy files remote loc).2 = none → ((fetchFile d cfg r busy files remote loc).1 loc).isSome = true) := by
  unfold fetchFile
  split
  · split
    · exact ⟨fun _ _ _ => rfl, fun _ => rfl, fun _ h => by cases h⟩
    · split
      · rename_i h
        exact ⟨fun _ _ _ => rfl, fun _ => rfl, fun _ _ => h⟩
      · rename_i h
        split
        · rename_i hbusy
          exact ⟨fun _ _ _ => rfl, fun _ => rfl, fun hb _ => by rw [hbusy] at hb; cases hb⟩
        · obtain ⟨f1, f2⟩ := fetchNow_frame d cfg r files remote loc hp
          exact ⟨f1, fun hs => absurd hs h, fun _ he => f2 he⟩
  · rename_i hw
    simp only
    generalize hsrc : (if d = .localCache then pyReplace "local:".toList [] 0 remote else remote) = src
    split
    · exact ⟨fun _ _ _ => rfl, fun _ => rfl, fun _ h => by cases h⟩
    · rename_i hex
      split
      · rename_i hbusy
        exact ⟨fun _ _ _ => rfl, fun _ => rfl, fun hb _ => by rw [hbusy] at hb; cases hb⟩
      · split
        · rename_i h
          refine ⟨fun _ _ _ => rfl, fun _ => rfl, fun _ _ => ?_⟩
          rcases h with rfl | h
          · cases hf : files src with
            | none => rw [hf] at hex; exact absurd rfl hex
            | some y => simp only [hf, Option.isSome_some]
          · exact h
        · rename_i h
          have hp' : S5Plain d cfg src loc := by
            intro hd
            rw [hd] at hw
            cases hw
          obtain ⟨f1, f2⟩ := fetchNow_frame d cfg r files src loc hp'
          exact ⟨f1, fun hs => absurd (Or.inr hs) h, fun _ he => f2 he⟩

/-- **C75, the Hugging Face Hub.** `hf://datasets/org/name/path` is the file at `path` of the data set `org/name`. -/
theorem c75_hub (cfg : S3Settings) (r : RemoteFiles) (files : LocalFiles Bytes) (kind org name path loc : PathStr) (hk : BucketName kind) (ho : '/' ∉ org) (hn : '/' ∉ name)
    (hno : files loc = none) :
    (∀ x, r.hub.get (org ++ '/' :: name, path) = some x → ∃ files', fetchFile .hf cfg r false files (schemeUrl "hf".toList kind (org ++ '/' :: (name ++ '/' :: path))) loc = (files', none) ∧
      files' loc = some x ∧ ∀ p, p ≠ loc → p ≠ loc ++ ".tmp".toList → files' p = files p) ∧
    (r.hub.get (org ++ '/' :: name, path) = none → ∃ e, fetchFile .hf cfg r false files (schemeUrl "hf".toList kind (org ++ '/' :: (name ++ '/' :: path))) loc = (files, some e)) := by
  have hkey : hubKey (schemeUrl "hf".toList kind (org ++ '/' :: (name ++ '/' :: path))) = .ok (org ++ '/' :: name, path) := by
    have e : schemeUrl "hf".toList kind (org ++ '/' :: (name ++ '/' :: path)) = "hf:".toList ++ '/' :: ([] ++ '/' :: (kind ++ '/' :: (org ++ '/' :: (name ++ '/' :: path)))) := by
      simp [schemeUrl]
    unfold hubKey
    rw [e, splitSlash_word 4 _ _ (by decide), splitSlash_word 3 _ _ (by simp), splitSlash_word 2 _ _ (fun h => (hk _ h).1 rfl), splitSlash_word 1 _ _ ho, splitSlash_word 0 _ _ hn, splitSlash]
  rw [fetchFile_store .hf _ rfl cfg r files _ loc (by rw [urlParse_schemeUrl _ _ _ (urlScheme_wanted .hf _ rfl) hk]) hno]
  unfold fetchNow
  simp only [hkey]
  constructor
  · intro x hx
    simp only [hx]
    exact ⟨_, rfl, by simp, fun p h h' => by simp only [if_neg h, if_neg h']⟩
  · intro hx
    simp only [hx]
    exact ⟨_, rfl⟩

/-- **C75, fails: data sets of the Hub without an organisation.** `hf://datasets/name/file` is a `ValueError`, and `hf://datasets/name/dir/file` asks for the file of the data set `name/dir`, though
the Hub has data sets without an organisation. -/
theorem c75_hub_no_org (cfg : S3Settings) (r : RemoteFiles) (files : LocalFiles Bytes) (name dir file loc : PathStr) (hn : '/' ∉ name) (hd : '/' ∉ dir) (hf : '/' ∉ file)
    (hno : files loc = none) :
    fetchFile .hf cfg r false files (schemeUrl "hf".toList "datasets".toList (name ++ '/' :: file)) loc = (files, some .valueError) ∧
    (r.hub.get (name ++ '/' :: dir, file) = none →
      ∃ e, fetchFile .hf cfg r false files (schemeUrl "hf".toList "datasets".toList (name ++ '/' :: (dir ++ '/' :: file))) loc = (files, some e)) := by
  have hb : BucketName "datasets".toList := by unfold BucketName; decide
  constructor
  · rw [fetchFile_store .hf _ rfl cfg r files _ loc (by rw [urlParse_schemeUrl _ _ _ (urlScheme_wanted .hf _ rfl) hb]) hno]
    have hkey : hubKey (schemeUrl "hf".toList "datasets".toList (name ++ '/' :: file)) = .error .valueError := by
      have e : schemeUrl "hf".toList "datasets".toList (name ++ '/' :: file) = "hf:".toList ++ '/' :: ([] ++ '/' :: ("datasets".toList ++ '/' :: (name ++ '/' :: file))) := by
        simp [schemeUrl]
      unfold hubKey
      rw [e, splitSlash_word 4 _ _ (by decide), splitSlash_word 3 _ _ (by simp), splitSlash_word 2 _ _ (by decide), splitSlash_word 1 _ _ hn, splitSlash_end 1 _ hf]
    unfold fetchNow
    simp only [hkey]
  · exact (c75_hub cfg r files "datasets".toList name dir file loc hb hn hd hno).2

theorem pyReplace_local (a b : PathStr) (ha : ':' ∉ a) : pyReplace "local:".toList [] 0 (a ++ "local:".toList ++ b) = a ++ pyReplace "local:".toList [] 0 b := by
  induction a with
  | nil =>
    have : pyReplace "local:".toList [] 0 ("local:".toList ++ b) = [] ++ pyReplace "local:".toList [] 5 ("ocal:".toList ++ b) := by
      show pyReplace _ _ 0 ('l' :: ("ocal:".toList ++ b)) = _
      rw [pyReplace, if_pos (by rw [List.isPrefixOf_iff_prefix]; exact List.prefix_append "local:".toList b)]
      rfl
    rw [List.nil_append, this, List.nil_append, show (5 : Nat) = "ocal:".toList.length from rfl, pyReplace_skip, List.nil_append]
  | cons c a ih =>
    simp only [List.mem_cons, not_or] at ha
    rw [List.cons_append, List.cons_append, pyReplace, if_neg, ih ha.2, List.cons_append]
    rw [List.isPrefixOf_iff_prefix]
    rintro ⟨t, ht⟩
    have h5 := congrArg (fun l : PathStr => l[5]?) ht
    obtain ⟨ha1, ha⟩ := ha
    rcases a with _ | ⟨a1, _ | ⟨a2, _ | ⟨a3, _ | ⟨a4, _ | ⟨a5, a⟩⟩⟩⟩⟩ <;> simp at h5
    simp only [List.mem_cons, not_or] at ha
    exact ha.2.2.2.2.1 h5

/-- **C75, local files.** A file is copied; a missing one is a `FileNotFoundError`. With the prefix `local:` the path is what follows it. -/
theorem c75_local (cfg : S3Settings) (r : RemoteFiles) (files : LocalFiles Bytes) (path loc : PathStr) (hl : ∀ a b, path ≠ a ++ "local:".toList ++ b) (hno : files loc = none)
    (d : BuiltinDownloader) (remote : PathStr) (hd : (d = .local ∧ remote = path) ∨ (d = .localCache ∧ remote = "local:".toList ++ path)) :
    (∀ x, files path = some x → ∃ files', fetchFile d cfg r false files remote loc = (files', none) ∧ files' loc = some x ∧
      ∀ p, p ≠ loc → p ≠ loc ++ ".tmp".toList → files' p = files p) ∧
    (∀ busy, files path = none → fetchFile d cfg r busy files remote loc = (files, some .fileNotFound)) := by
  have hw : d.wanted = none := by rcases hd with ⟨rfl, -⟩ | ⟨rfl, -⟩ <;> rfl
  have hsrc : (if d = .localCache then pyReplace "local:".toList [] 0 remote else remote) = path := by
    rcases hd with ⟨rfl, rfl⟩ | ⟨rfl, rfl⟩
    · rfl
    · rw [if_pos rfl]
      have := pyReplace_local [] path (by simp)
      rw [List.nil_append, List.nil_append] at this
      rw [this, pyReplace_none _ _ _ hl]
  have hlr : ∀ (s : PathStr) x, files s = some x → fetchNow d cfg r files s loc = (fun p => if p = loc then some x else if p = loc ++ ".tmp".toList then none else files p, none) := by
    intro s x hx
    unfold fetchNow
    rcases hd with ⟨rfl, -⟩ | ⟨rfl, -⟩ <;> simp only [hx]
  unfold fetchFile
  rw [hw]
  simp only [hsrc]
  constructor
  · intro x hx
    have hne : path ≠ loc := by
      rintro rfl
      rw [hx] at hno
      cases hno
    rw [if_neg (by simp [hx]), if_neg (by simp), if_neg (by simp [hne, hno]), hlr path x hx]
    exact ⟨_, rfl, by simp, fun p h h' => by simp only [if_neg h, if_neg h']⟩
  · intro busy hx
    rw [if_pos (by simp [hx])]

/-- **C75, fails: `local:` in a path.** Every `local:` is dropped, not only the prefix: for a folder whose name has one the file of another folder is copied. -/
theorem c75_local_inside (cfg : S3Settings) (r : RemoteFiles) (files : LocalFiles Bytes) (a b loc : PathStr) (x : Bytes) (ha : ':' ∉ a) (hb : ∀ a' b', b ≠ a' ++ "local:".toList ++ b')
    (hno : files loc = none) (hx : files (a ++ b) = some x) :
    ∃ files', fetchFile .localCache cfg r false files ("local:".toList ++ (a ++ "local:".toList ++ b)) loc = (files', none) ∧ files' loc = some x := by
  have hsrc : pyReplace "local:".toList [] 0 ("local:".toList ++ (a ++ "local:".toList ++ b)) = a ++ b := by
    have := pyReplace_local [] (a ++ "local:".toList ++ b) (by simp)
    rw [List.nil_append, List.nil_append] at this
    rw [this, pyReplace_local a b ha, pyReplace_none _ _ _ hb]
  have hne : a ++ b ≠ loc := by
    rintro rfl
    rw [hx] at hno
    cases hno
  unfold fetchFile
  simp only [BuiltinDownloader.wanted, if_true, hsrc]
  rw [if_neg (by rw [hx]; exact Bool.false_ne_true), if_neg (by decide), if_neg (by rw [hno]; simp [hne])]
  unfold fetchNow
  simp only [hx]
  exact ⟨_, rfl, by simp⟩

theorem getDownloader_cons {D : Type} (l : D) (k : String) (d : D) (t : DownloaderTable D) (rest : PathStr) :
    getDownloader l ((k, d) :: t) (String.ofList rest) = if k.toList.isPrefixOf rest then d else getDownloader l t (String.ofList rest) := by
  simp only [getDownloader, strStartsWith, String.toList_ofList]

theorem StoreOf.downloader {r d scheme o} (h : StoreOf r d scheme o) (rest : PathStr) :
    getDownloader .local builtinTable (String.ofList (scheme ++ "://".toList ++ rest)) = d := by
  have hp : ∀ (p s : PathStr), p.isPrefixOf (p ++ s) = true := fun p s => by rw [List.isPrefixOf_iff_prefix]; exact List.prefix_append _ _
  unfold builtinTable
  simp only [getDownloader_cons]
  cases h with
  | s3 => exact if_pos (hp "s3://".toList rest)
  | gs => rw [if_neg (by simp)]; exact if_pos (hp "gs://".toList rest)
  | azure => rw [if_neg (by simp), if_neg (by simp)]; exact if_pos (hp "azure://".toList rest)

/-- The name of a file of a dataset. -/
def DataFile (name : PathStr) : Prop := name ≠ [] ∧ '/' ∉ name ∧ UrlKey name

theorem DataFile.head {name : PathStr} (h : DataFile name) : name.head? ≠ some '/' := by
  cases name with
  | nil => simp
  | cons c n =>
    intro e
    simp only [List.head?_cons, Option.some.injEq] at e
    exact h.2.1 (by simp [e])

theorem joinPath_remote (scheme bucket dir slash name : PathStr) (hd : CleanKey dir) (hs : slash = [] ∨ slash = ['/']) (hn : DataFile name) :
    joinPath (schemeUrl scheme bucket dir ++ slash) name = schemeUrl scheme bucket (dir ++ '/' :: name) := by
  unfold joinPath
  rw [if_neg hn.head]
  rcases hs with rfl | rfl
  · rw [List.append_nil, if_neg]
    · simp [schemeUrl]
    · rintro (h | h)
      · simp [schemeUrl] at h
      · have := getLast?_append_slash (scheme ++ "://".toList ++ bucket) dir hd.last hd.ne
        exact this h
  · rw [if_pos (Or.inr (by simp))]
    simp [schemeUrl]

/-- **C75, chunks.** A chunk of a dataset in a folder of a bucket, given with or without a slash at the end, is fetched from the object below the folder to the file below the cache. -/
theorem c75_chunk {r : RemoteFiles} {d : BuiltinDownloader} {scheme : PathStr} {o : Objects Bytes} (h : StoreOf r d scheme o) (cfg : S3Settings) (files : LocalFiles Bytes)
    (bucket dir slash cacheDir name : PathStr) (x : Bytes) (hb : BucketName bucket) (hk : UrlKey dir) (hd : CleanKey dir) (hs : slash = [] ∨ slash = ['/']) (hc : cacheDir ≠ [])
    (hcl : cacheDir.getLast? ≠ some '/') (hn : DataFile name) (hp : S5Plain d cfg (schemeUrl scheme bucket (dir ++ '/' :: name)) (cacheDir ++ '/' :: name))
    (hno : files (cacheDir ++ '/' :: name) = none) (hx : o.get (bucket, dir ++ '/' :: name) = some x) :
    ∃ files', fetchChunk cfg r false (schemeUrl scheme bucket dir ++ slash) cacheDir files name = (files', none) ∧ files' (cacheDir ++ '/' :: name) = some x ∧
      ∀ p, p ≠ cacheDir ++ '/' :: name → files' p = files p := by
  unfold fetchChunk
  have hdl : getDownloader .local builtinTable (String.ofList (schemeUrl scheme bucket dir ++ slash)) = d := by
    have := h.downloader (bucket ++ '/' :: dir ++ slash)
    rw [← this]
    simp [schemeUrl]
  rw [hdl, joinPath_remote scheme bucket dir slash name hd hs hn, joinPath_rel cacheDir name hc hcl hn.head]
  refine c75_fetch h cfg files bucket (dir ++ '/' :: name) (cacheDir ++ '/' :: name) x hb ?_ ?_ hp hno hx
  · rw [show dir ++ '/' :: name = dir ++ (['/'] ++ name) by simp, UrlKey.append, UrlKey.append]
    exact ⟨hk, by unfold UrlKey; decide, hn.2.2⟩
  · have := hd.head
    cases dir with
    | nil => exact absurd rfl hd.ne
    | cons c dir => simpa using this

/-- **C75, datasets.** All files of a dataset are fetched, each with its content, and no other file is changed. -/
theorem c75_dataset {r : RemoteFiles} {d : BuiltinDownloader} {scheme : PathStr} {o : Objects Bytes} (h : StoreOf r d scheme o) (cfg : S3Settings) (files : LocalFiles Bytes)
    (bucket dir slash cacheDir : PathStr) (l : List (PathStr × Bytes)) (hb : BucketName bucket) (hk : UrlKey dir) (hd : CleanKey dir) (hs : slash = [] ∨ slash = ['/']) (hc : cacheDir ≠ [])
    (hcl : cacheDir.getLast? ≠ some '/') (hn : ∀ e ∈ l, DataFile e.1) (hnd : (l.map (·.1)).Nodup)
    (hp : ∀ e ∈ l, S5Plain d cfg (schemeUrl scheme bucket (dir ++ '/' :: e.1)) (cacheDir ++ '/' :: e.1))
    (hno : ∀ e ∈ l, files (cacheDir ++ '/' :: e.1) = none) (hx : ∀ e ∈ l, o.get (bucket, dir ++ '/' :: e.1) = some e.2) :
    ∃ files', fetchChunks cfg r (schemeUrl scheme bucket dir ++ slash) cacheDir files (l.map (·.1)) = (files', none) ∧ (∀ e ∈ l, files' (cacheDir ++ '/' :: e.1) = some e.2) ∧
      ∀ p, (∀ e ∈ l, p ≠ cacheDir ++ '/' :: e.1) → files' p = files p := by
  induction l generalizing files with
  | nil => exact ⟨files, rfl, by simp, fun _ _ => rfl⟩
  | cons e l ih =>
    simp only [List.map_cons, List.nodup_cons, List.mem_map, not_exists, not_and] at hnd
    obtain ⟨f1, g1, g2, g3⟩ := c75_chunk h cfg files bucket dir slash cacheDir e.1 e.2 hb hk hd hs hc hcl (hn e (by simp)) (hp e (by simp)) (hno e (by simp)) (hx e (by simp))
    have hne : ∀ e' ∈ l, cacheDir ++ '/' :: e'.1 ≠ cacheDir ++ '/' :: e.1 := by
      intro e' he' heq
      exact hnd.1 e' he' (by simpa using heq)
    obtain ⟨f2, k1, k2, k3⟩ := ih f1 (fun e' he' => hn e' (by simp [he'])) hnd.2 (fun e' he' => hp e' (by simp [he']))
      (fun e' he' => by rw [g3 _ (hne e' he')]; exact hno e' (by simp [he'])) (fun e' he' => hx e' (by simp [he']))
    refine ⟨f2, ?_, ?_, ?_⟩
    · rw [List.map_cons, fetchChunks, g1]
      exact k1
    · intro e' he'
      rcases List.mem_cons.1 he' with rfl | he'
      · rw [k3 _ (fun e'' he'' heq => hne e'' he'' heq.symm), g2]
      · exact k2 e' he'
    · intro p hpp
      rw [k3 p (fun e' he' => hpp e' (by simp [he'])), g3 p (hpp e (by simp))]

/-- **C75, what was uploaded is what is streamed.** The files of a dataset, with its index, that were uploaded to a folder of S3 or GCS are, when the dataset is opened and its chunks are
downloaded into an empty cache, the content of the index and the files in the cache. -/
theorem c75_uploaded (st : ObjStore) (cfg : S3Settings) (r : RemoteFiles) (o : Objects Bytes) (files : LocalFiles Bytes) (bucket dir slash cacheDir : PathStr) (index : Bytes)
    (l : List (PathStr × Bytes)) (hb : BucketName bucket) (hk : UrlKey dir) (hd : CleanKey dir) (hs : slash = [] ∨ slash = ['/']) (hc : cacheDir ≠ [])
    (hcl : cacheDir.getLast? ≠ some '/') (hn : ∀ e ∈ l, DataFile e.1) (hnd : (l.map (·.1)).Nodup) (hni : "index.json".toList ∉ l.map (·.1))
    (hp : st = .s3 → cfg.s5cmd = true → PlainPath (schemeUrl st.scheme bucket dir) ∧ PlainPath cacheDir ∧ ∀ e ∈ l, PlainPath e.1)
    (hno : files (cacheDir ++ '/' :: "index.json".toList) = none ∧ ∀ e ∈ l, files (cacheDir ++ '/' :: e.1) = none) :
    ∃ o', uploadAll st bucket (((l ++ [("index.json".toList, index)])).map fun e => (dir ++ '/' :: e.1, e.2)) o = .ok o' ∧
      ((match st with | .s3 => r.s3 | .gcp => r.gs) = o' → ∃ files1 files2,
        loadIndex cfg r false (some (schemeUrl st.scheme bucket dir ++ slash)) cacheDir files = (files1, .ok (some index)) ∧
        fetchChunks cfg r (schemeUrl st.scheme bucket dir ++ slash) cacheDir files1 (l.map (·.1)) = (files2, none) ∧
        files2 (cacheDir ++ '/' :: "index.json".toList) = some index ∧ ∀ e ∈ l, files2 (cacheDir ++ '/' :: e.1) = some e.2) := by
  have hidx : DataFile "index.json".toList := ⟨by decide, by decide, by unfold UrlKey; decide⟩
  have hall : ∀ e ∈ l ++ [("index.json".toList, index)], DataFile e.1 := by
    intro e he
    rcases List.mem_append.1 he with he | he
    · exact hn e he
    · rw [List.mem_singleton] at he
      rw [he]
      exact hidx
  have hkey : ∀ name, DataFile name → UrlKey (dir ++ '/' :: name) := by
    intro name hname
    rw [show dir ++ '/' :: name = dir ++ (['/'] ++ name) by simp, UrlKey.append, UrlKey.append]
    exact ⟨hk, by unfold UrlKey; decide, hname.2.2⟩
  obtain ⟨o', hu, hget, -⟩ := c67_upload_all st bucket hb ((l ++ [("index.json".toList, index)]).map fun e => (dir ++ '/' :: e.1, e.2)) o (by
      intro e he
      obtain ⟨e', he', rfl⟩ := List.mem_map.1 he
      exact hkey _ (hall e' he')) (by
      rw [List.map_map]
      have : ((l ++ [("index.json".toList, index)]).map (·.1)).Nodup := by
        rw [List.map_append, List.nodup_append]
        exact ⟨hnd, by simp, fun a ha b hb' heq => by simp only [List.map_cons, List.map_nil, List.mem_singleton] at hb'; exact hni (hb' ▸ heq ▸ ha)⟩
      rw [List.nodup_iff_pairwise_ne, List.pairwise_map] at this ⊢
      exact this.imp (fun hne heq => hne (by simpa using heq)))
  refine ⟨o', hu, ?_⟩
  intro hr
  obtain ⟨d, hst⟩ : ∃ d, StoreOf r d st.scheme o' ∧ (d = .s3 → st = .s3) := by
    subst hr
    cases st with
    | s3 => exact ⟨.s3, .s3, fun _ => rfl⟩
    | gcp => exact ⟨.gcp, .gs, fun h => by cases h⟩
  obtain ⟨hst, hds⟩ := hst
  have hobj : ∀ e ∈ l ++ [("index.json".toList, index)], o'.get (bucket, dir ++ '/' :: e.1) = some e.2 := by
    intro e he
    have := hget (dir ++ '/' :: e.1, e.2) (List.mem_map_of_mem (f := fun e => (dir ++ '/' :: e.1, e.2)) he)
    simp only [ObjStore.download, bucketAndPath_object st bucket _ hb (hkey _ (hall e he))] at this
    simp only [bind, Except.bind] at this
    cases hg : o'.get (bucket, dir ++ '/' :: e.1) with
    | none => rw [hg] at this; cases this
    | some y => rw [hg] at this; injection this with this; rw [this]
  have hplain : ∀ e ∈ l ++ [("index.json".toList, index)], S5Plain d cfg (schemeUrl st.scheme bucket (dir ++ '/' :: e.1)) (cacheDir ++ '/' :: e.1) := by
    intro e he hd3 h5
    obtain ⟨p1, p2, p3⟩ := hp (hds hd3) h5
    have pe : PlainPath e.1 := by
      rcases List.mem_append.1 he with he | he
      · exact p3 e he
      · rw [List.mem_singleton] at he
        rw [he]
        show PlainPath "index.json".toList
        exact ⟨by decide, by decide⟩
    have hcat : ∀ a b, PlainPath a → PlainPath b → PlainPath (a ++ '/' :: b) := by
      intro a b ha hb'
      refine ⟨by simp, ?_⟩
      intro c hc'
      simp only [List.mem_append, List.mem_cons] at hc'
      rcases hc' with hc' | rfl | hc'
      · exact ha.2 c hc'
      · decide
      · exact hb'.2 c hc'
    refine ⟨?_, hcat _ _ p2 pe⟩
    have := hcat _ _ p1 pe
    have e2 : schemeUrl st.scheme bucket (dir ++ '/' :: e.1) = schemeUrl st.scheme bucket dir ++ '/' :: e.1 := by simp [schemeUrl]
    rw [e2]
    exact this
  obtain ⟨f1, g1, g2, g3⟩ := c75_chunk hst cfg files bucket dir slash cacheDir "index.json".toList index hb hk hd hs hc hcl hidx (hplain ("index.json".toList, index) (by simp)) hno.1
    (hobj ("index.json".toList, index) (by simp))
  have hne : ∀ e ∈ l, cacheDir ++ '/' :: e.1 ≠ cacheDir ++ '/' :: "index.json".toList := by
    intro e he heq
    exact hni (List.mem_map.2 ⟨e, he, List.cons.inj (List.append_cancel_left heq) |>.2⟩)
  obtain ⟨f2, k1, k2, k3⟩ := c75_dataset hst cfg f1 bucket dir slash cacheDir l hb hk hd hs hc hcl hn hnd (fun e he => hplain e (by simp [he]))
    (fun e he => by rw [g3 _ (hne e he)]; exact hno.2 e he) (fun e he => hobj e (by simp [he]))
  refine ⟨f1, f2, ?_, k1, ?_, k2⟩
  · unfold loadIndex
    simp only
    rw [if_neg, show fetchChunk cfg r false (schemeUrl st.scheme bucket dir ++ slash) cacheDir files indexName = (f1, none) from g1]
    · simp only
      rw [show joinPath cacheDir indexName = cacheDir ++ '/' :: "index.json".toList from joinPath_rel cacheDir _ hc hcl hidx.head, g2]
    · cases st <;> simp [schemeUrl, ObjStore.scheme]
  · rw [k3 _ (fun e he heq => hne e he heq.symm), g2]

/-- **C75, fails: a folder that begins with a slash.** What is uploaded to `s3://bucket//dir/...` is under a key that begins with a slash. The S3 client is asked for the key without it and raises;
s5cmd finds the object. -/
theorem c75_double_slash (cfg : S3Settings) (r : RemoteFiles) (o : Objects Bytes) (files : LocalFiles Bytes) (bucket key loc : PathStr) (x : Bytes) (hb : BucketName bucket)
    (hk : UrlKey key) (hh : key.head? ≠ some '/') (hno : files loc = none) (hmiss : o.get (bucket, key) = none) :
    ∃ o', ObjStore.s3.upload o (objectUrl .s3 bucket ('/' :: key)) x = .ok o' ∧ (r.s3 = o' →
      (cfg.s5cmd = false → fetchFile .s3 cfg r false files (objectUrl .s3 bucket ('/' :: key)) loc = (files, some .exception)) ∧
      (cfg.s5cmd = true → PlainPath (objectUrl .s3 bucket ('/' :: key)) → PlainPath loc →
        ∃ files', fetchFile .s3 cfg r false files (objectUrl .s3 bucket ('/' :: key)) loc = (files', none) ∧ files' loc = some x)) := by
  have hk' : UrlKey ('/' :: key) := by
    intro c hc
    rcases List.mem_cons.1 hc with rfl | hc
    · decide
    · exact hk c hc
  have hst : StoreOf r .s3 "s3".toList r.s3 := .s3
  refine ⟨o.put (bucket, '/' :: key) x, ?_, ?_⟩
  · simp only [ObjStore.upload, bucketAndPath_object .s3 bucket _ hb hk']
    rfl
  intro hr
  have hurl : objectUrl .s3 bucket ('/' :: key) = schemeUrl "s3".toList bucket ('/' :: key) := rfl
  rw [hurl, fetchFile_store .s3 _ rfl cfg r files _ loc (by rw [hst.parse bucket _ hb hk']) hno]
  constructor
  · intro h5
    unfold fetchNow
    have hkey : fetchKey .s3 (schemeUrl "s3".toList bucket ('/' :: key)) = .ok (bucket, key) := by
      unfold fetchKey
      rw [hst.parse bucket _ hb hk']
      simp only
      rw [show '/' :: '/' :: key = List.replicate 2 '/' ++ key from rfl, lstripSlash_more 2 key hh]
    simp only [h5, Bool.false_eq_true, if_false, hkey]
    rw [hr, Objects.get_put, if_neg (by simp [Ne.symm (List.cons_ne_self '/' key)]), hmiss]
  · intro h5 p1 p2
    rw [s5cmd_fetch cfg r files bucket _ loc h5 hb p1 p2, hr, Objects.get_put, if_pos rfl]
    exact ⟨_, rfl, by simp⟩

/-- **C75, fails: spaces.** The command of s5cmd is not quoted: with a space in the URL it has one argument too many, and raises although the object is there. -/
theorem c75_space (cfg : S3Settings) (r : RemoteFiles) (files : LocalFiles Bytes) (a b loc : PathStr) (h5 : cfg.s5cmd = true) (ha : PlainPath a) (hb : PlainPath b) (hl : PlainPath loc)
    (hs : (urlParse (a ++ ' ' :: b)).scheme = "s3".toList) (hno : files loc = none) :
    fetchFile .s3 cfg r false files (a ++ ' ' :: b) loc = (files, some .runtimeError) := by
  rw [fetchFile_store .s3 _ rfl cfg r files _ loc hs hno]
  have hpl : ∀ p, PlainPath p → (p.all fun c => plainShellChar c || c == ' ') = true := by
    intro p hp
    rw [List.all_eq_true]
    intro c hc
    rw [hp.2 c hc]
    rfl
  have e1 : "s5cmd ".toList = "s5cmd".toList ++ [' '] := rfl
  have e2 : "cp ".toList = "cp".toList ++ [' '] := rfl
  have e3 : "--no-sign-request ".toList = "--no-sign-request".toList ++ [' '] := rfl
  have hne : ∀ p, PlainPath p → decide (p ≠ []) = true := fun p hp => by simpa using hp.1
  have hsplit : splitChar ' ' (a ++ ' ' :: (b ++ ' ' :: loc)) = [a, b, loc] := by
    rw [splitChar_both, splitChar_both, splitChar_word ' ' a ha.space, splitChar_word ' ' b hb.space, splitChar_word ' ' loc hl.space]
    rfl
  have hall : ((s5cmdLine cfg.noSign (a ++ ' ' :: b) loc).all fun c => plainShellChar c || c == ' ') = true := by
    unfold s5cmdLine
    rw [List.all_append, List.all_append, List.all_append, List.all_append, List.all_cons, List.all_append, List.all_cons, hpl a ha, hpl b hb, hpl loc hl]
    cases cfg.noSign <;> decide
  have hwords : shellWords (s5cmdLine cfg.noSign (a ++ ' ' :: b) loc) =
      some (if cfg.noSign then ["s5cmd".toList, "--no-sign-request".toList, "cp".toList, a, b, loc] else ["s5cmd".toList, "cp".toList, a, b, loc]) := by
    unfold shellWords
    rw [if_pos hall]
    cases cfg.noSign with
    | false =>
      have e : s5cmdLine false (a ++ ' ' :: b) loc = "s5cmd".toList ++ ' ' :: ("cp".toList ++ ' ' :: (a ++ ' ' :: (b ++ ' ' :: loc))) := by
        unfold s5cmdLine
        rw [e1, e2, if_neg (by decide)]
        simp only [List.append_assoc, List.nil_append, List.cons_append]
      rw [e, splitChar_both, splitChar_both, hsplit]
      show some (List.filter _ ["s5cmd".toList, "cp".toList, a, b, loc]) = _
      simp only [List.filter_cons, hne a ha, hne b hb, hne loc hl, if_true, List.filter_nil]
      rfl
    | true =>
      have e : s5cmdLine true (a ++ ' ' :: b) loc = "s5cmd".toList ++ ' ' :: ("--no-sign-request".toList ++ ' ' :: ("cp".toList ++ ' ' :: (a ++ ' ' :: (b ++ ' ' :: loc)))) := by
        unfold s5cmdLine
        rw [e1, e2, e3, if_pos rfl]
        simp only [List.append_assoc, List.nil_append, List.cons_append]
      rw [e, splitChar_both, splitChar_both, splitChar_both, hsplit]
      show some (List.filter _ ["s5cmd".toList, "--no-sign-request".toList, "cp".toList, a, b, loc]) = _
      simp only [List.filter_cons, hne a ha, hne b hb, hne loc hl, if_true, List.filter_nil]
      rfl
  unfold fetchNow
  simp only [h5, if_true]
  rw [hwords]
  cases cfg.noSign with
  | false =>
    simp only [Bool.false_eq_true, if_false]
    have : s5cmdRun r.s3 files ["s5cmd".toList, "cp".toList, a, b, loc] = none := by
      rw [s5cmdRun_five, if_neg]
      rintro ⟨h, -⟩
      exact absurd h (by decide)
    rw [this]
  | true => rfl

/-- A dataset of one chunk and its index in each store, and a data set of the Hub. -/
def someRemote : RemoteFiles where
  s3 := [(("b".toList, "d/chunk-0-0.bin".toList), [1, 2]), (("b".toList, "d/index.json".toList), [3])]
  gs := [(("b".toList, "d/chunk-0-0.bin".toList), [4])]
  azure := [(("c".toList, "d/chunk-0-0.bin".toList), [5])]
  hub := [(("org/name".toList, "data/part-0.parquet".toList), [6])]

/-- An empty file system, and settings in which a shell does nothing with a command that it has to interpret. -/
def noFiles : LocalFiles Bytes := fun _ => none

/-- The S3 downloader with s5cmd, or without. -/
def someS3 (s5 : Bool) : S3Settings := ⟨s5, false, fun _ files => (files, some .runtimeError)⟩

example (s5 : Bool) := c75_fetch (.s3 (r := someRemote)) (someS3 s5) noFiles "b".toList "d/chunk-0-0.bin".toList "/cache/chunk-0-0.bin".toList [1, 2] (by unfold BucketName; decide)
  (by unfold UrlKey; decide) (by decide) (fun _ _ => ⟨⟨by decide, by decide⟩, ⟨by decide, by decide⟩⟩) rfl (by decide)

example := c75_azure_empty (someS3 false) someRemote someRemote noFiles "c".toList "d/chunk-0-1.bin".toList "/cache/chunk-0-1.bin".toList false (by unfold BucketName; decide)
  (by unfold UrlKey; decide) (by decide) rfl (by decide)

example := c75_scheme .gcp (by decide) "azure".toList "//c/d".toList "/data/d".toList "/cache/x".toList (by decide) (by decide) (by decide) (by decide) (someS3 false) someRemote false noFiles

example := (c75_hub (someS3 false) someRemote noFiles "datasets".toList "org".toList "name".toList "data/part-0.parquet".toList "/cache/part-0.parquet".toList (by unfold BucketName; decide)
  (by decide) (by decide) rfl).1 [6] (by decide)

example (s5 : Bool) (r : RemoteFiles) := c75_uploaded .s3 (someS3 s5) r [] noFiles "b".toList "d".toList "/".toList "/cache".toList [3] [("chunk-0-0.bin".toList, [1, 2]), ("chunk-0-1.bin".toList, [7])]
  (by unfold BucketName; decide) (by unfold UrlKey; decide) (by unfold CleanKey; decide) (by decide) (by decide) (by decide) (by unfold DataFile UrlKey; decide) (by decide) (by decide)
  (by unfold PlainPath; intro _ _; decide) ⟨rfl, fun _ _ => rfl⟩

example (files : LocalFiles Bytes) (h : files "/data/x/f".toList = some [1]) (h' : files "/c/f".toList = none) :=
  c75_local_inside (someS3 false) someRemote files "/data/".toList "x/f".toList "/c/f".toList [1] (by decide) (by
    intro a b h
    have := congrArg List.length h
    simp at this
    omega) h' h

example := c75_space (someS3 true) someRemote noFiles "s3://b/my".toList "data/x".toList "/cache/x".toList rfl ⟨by decide, by decide⟩ ⟨by decide, by decide⟩ ⟨by decide, by decide⟩ (by decide +kernel) rfl

example (r : RemoteFiles) := c75_double_slash (someS3 true) r [] noFiles "b".toList "d/x".toList "/cache/x".toList [1] (by unfold BucketName; decide) (by unfold UrlKey; decide) (by decide) rfl rfl

end LitData.Props
