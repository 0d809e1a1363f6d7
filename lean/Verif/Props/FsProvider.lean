import Verif.Lemmas.FsProvider

/-! Property C67: what is put into an object store under a URL is what is read back under it. -/

namespace LitData.Props
open LitData

/-- **C67, which store.** A URL of an object is handled by its own store, and is refused by the functions of the other. -/
theorem c67_store (st st' : ObjStore) (bucket key : PathStr) (hb : BucketName bucket) :
    fsProvider (objectUrl st bucket key) = .ok st ∧ (st ≠ st' → bucketAndPath (objectUrl st bucket key) st'.scheme = .error .valueError) := by
  constructor
  · unfold fsProvider
    rw [urlParse_object st bucket key hb]
    cases st <;> rfl
  · intro h
    unfold bucketAndPath
    rw [urlParse_object st bucket key hb]
    rw [if_pos]
    cases st <;> cases st' <;> first | exact absurd rfl h | (simp only; decide)

/-- **C67, no other store.** A URL of another scheme, and a text without a scheme, is handled by no store. -/
theorem c67_other_scheme (scheme rest : PathStr) (h0 : scheme ≠ []) (hs : ∀ c ∈ scheme, c.isLower = true) (h1 : scheme ≠ "s3".toList) (h2 : scheme ≠ "gs".toList)
    (path : PathStr) (hp : ':' ∉ path) :
    fsProvider (scheme ++ ':' :: rest) = .error .valueError ∧ fsProvider path = .error .valueError := by
  have hlow : ∀ c : Char, c.isLower = true → c ≠ ':' ∧ c.isAlpha = true ∧ c.isAlphanum = true ∧ c.toLower = c := by
    intro c hc
    refine ⟨?_, ?_, ?_, ?_⟩
    · rintro rfl; exact absurd hc (by decide)
    · simp [Char.isAlpha, hc]
    · simp [Char.isAlphanum, Char.isAlpha, hc]
    · have hnu : ¬ (c.val ≥ 'A'.val ∧ c.val ≤ 'Z'.val) := by
        simp only [Char.isLower, Bool.and_eq_true, decide_eq_true_eq, ge_iff_le, UInt32.le_iff_toNat_le] at hc ⊢
        have h97 : 'a'.val.toNat = 97 := rfl
        have h90 : 'Z'.val.toNat = 90 := rfl
        omega
      unfold Char.toLower
      rw [dif_neg hnu]
  have htw : ∀ l : PathStr, (∀ c ∈ l, c ≠ ':') → ∀ r, (l ++ ':' :: r).takeWhile (· != ':') = l ∧ (l ++ ':' :: r).dropWhile (· != ':') = ':' :: r := by
    intro l
    induction l with
    | nil => intro _ r; simp
    | cons a l ih =>
      intro h r
      have ha : (a != ':') = true := by simpa using h a List.mem_cons_self
      obtain ⟨i1, i2⟩ := ih (fun c hc => h c (List.mem_cons_of_mem _ hc)) r
      simp only [List.cons_append, List.takeWhile_cons, List.dropWhile_cons, ha, if_true, i1, i2, and_self]
  have hsch : ∀ u : PathStr, (urlParse u).scheme = (urlScheme u).1 := by
    intro u
    unfold urlParse
    split <;> rename_i h <;> rw [h]
  constructor
  · have hu : urlScheme (scheme ++ ':' :: rest) = (scheme, rest) := by
      unfold urlScheme
      obtain ⟨i1, i2⟩ := htw scheme (fun c hc => (hlow c (hs c hc)).1) rest
      rw [i1, i2]
      simp only
      rw [if_pos]
      · have : scheme.map Char.toLower = scheme := by
          rw [List.map_congr_left (g := id) (fun c hc => (hlow c (hs c hc)).2.2.2), List.map_id]
        rw [this]
      · rw [Bool.and_eq_true]
        constructor
        · cases scheme with
          | nil => exact absurd rfl h0
          | cons a l => simpa using (hlow a (hs a List.mem_cons_self)).2.1
        · rw [List.all_eq_true]
          intro c hc
          simp [schemeChar, (hlow c (hs c hc)).2.2.1]
    unfold fsProvider
    rw [hsch, hu, if_neg h2, if_neg h1]
  · have hu : (urlScheme path).1 = [] := by
      unfold urlScheme
      have : path.dropWhile (· != ':') = [] := by
        have h := List.dropWhile_append_of_pos (p := (· != ':')) (l₁ := path) (l₂ := []) (by
          intro c hc
          simp only [bne_iff_ne, ne_eq]
          rintro rfl
          exact hp hc)
        simpa using h
      rw [this]
    unfold fsProvider
    rw [hsch, hu, if_neg (by decide), if_neg (by decide)]

example : fsProvider "azure://container/a".toList = .error .valueError ∧ fsProvider "/data/a".toList = .error .valueError := by decide +kernel

/-- **C67, which object.** A URL stands for the object of its bucket and key; different URLs stand for different objects. -/
theorem c67_object (st : ObjStore) (bucket key bucket' key' : PathStr) (hb : BucketName bucket) (hk : UrlKey key) (hb' : BucketName bucket') (hk' : UrlKey key') :
    bucketAndPath (objectUrl st bucket key) st.scheme = .ok (bucket, key) ∧
    (bucketAndPath (objectUrl st bucket key) st.scheme = bucketAndPath (objectUrl st bucket' key') st.scheme ↔
      objectUrl st bucket key = objectUrl st bucket' key') := by
  refine ⟨bucketAndPath_object st bucket key hb hk, ?_⟩
  constructor
  · intro h
    rw [bucketAndPath_object st bucket key hb hk, bucketAndPath_object st bucket' key' hb' hk'] at h
    injection h with h
    injection h with h1 h2
    rw [h1, h2]
  · intro h
    rw [h]

/-- **C67, upload.** A file that was uploaded exists and is downloaded with its content, and every other object is as before. -/
theorem c67_upload {α : Type} (st : ObjStore) (o : Objects α) (bucket key : PathStr) (x : α) (hb : BucketName bucket) (hk : UrlKey key) :
    ∃ o', st.upload o (objectUrl st bucket key) x = .ok o' ∧ st.download o' (objectUrl st bucket key) = .ok x ∧
      st.existsObj o' (objectUrl st bucket key) = .ok true ∧
      ∀ bucket' key', BucketName bucket' → UrlKey key' → objectUrl st bucket' key' ≠ objectUrl st bucket key →
        st.download o' (objectUrl st bucket' key') = st.download o (objectUrl st bucket' key') := by
  refine ⟨o.put (bucket, key) x, ?_, ?_, ?_, ?_⟩
  · simp only [ObjStore.upload, bucketAndPath_object st bucket key hb hk]
    rfl
  · simp only [ObjStore.download, bucketAndPath_object st bucket key hb hk]
    show (match (o.put (bucket, key) x).get (bucket, key) with | some x => Except.ok x | none => Except.error Err.exception) = _
    rw [Objects.get_put, if_pos rfl]
  · simp only [ObjStore.existsObj, bucketAndPath_object st bucket key hb hk]
    show Except.ok ((o.put (bucket, key) x).get (bucket, key)).isSome = _
    rw [Objects.get_put, if_pos rfl]
    rfl
  · intro b' k' hb' hk' hne
    simp only [ObjStore.download, bucketAndPath_object st b' k' hb' hk']
    show (match (o.put (bucket, key) x).get (b', k') with | some x => Except.ok x | none => Except.error Err.exception) =
      (match o.get (b', k') with | some x => Except.ok x | none => Except.error Err.exception)
    rw [Objects.get_put, if_neg]
    rintro h
    injection h with h1 h2
    exact hne (by rw [h1, h2])

/-- Uploads one after the other. -/
def uploadAll {α : Type} (st : ObjStore) (bucket : PathStr) : List (PathStr × α) → Objects α → Py (Objects α)
  | [], o => .ok o
  | (key, x) :: l, o => (st.upload o (objectUrl st bucket key) x).bind fun o => uploadAll st bucket l o

/-- **C67, a whole dataset.** After uploading any number of files under different keys every one of them is downloaded with its content, and objects with other keys are
as before. -/
theorem c67_upload_all {α : Type} (st : ObjStore) (bucket : PathStr) (hb : BucketName bucket) (l : List (PathStr × α)) (o : Objects α)
    (hk : ∀ e ∈ l, UrlKey e.1) (hn : (l.map (·.1)).Nodup) :
    ∃ o', uploadAll st bucket l o = .ok o' ∧ (∀ e ∈ l, st.download o' (objectUrl st bucket e.1) = .ok e.2) ∧
      ∀ bucket' key', BucketName bucket' → UrlKey key' → (∀ e ∈ l, objectUrl st bucket' key' ≠ objectUrl st bucket e.1) →
        st.download o' (objectUrl st bucket' key') = st.download o (objectUrl st bucket' key') := by
  induction l generalizing o with
  | nil => exact ⟨o, rfl, by simp, fun _ _ _ _ _ => rfl⟩
  | cons e l ih =>
    obtain ⟨key, x⟩ := e
    obtain ⟨o1, h1, h2, -, h4⟩ := c67_upload st o bucket key x hb (hk (key, x) (by simp))
    simp only [List.map_cons, List.nodup_cons] at hn
    obtain ⟨o2, g1, g2, g3⟩ := ih o1 (fun e he => hk e (by simp [he])) hn.2
    refine ⟨o2, ?_, ?_, ?_⟩
    · unfold uploadAll
      rw [h1]
      exact g1
    · intro e he
      rcases List.mem_cons.1 he with rfl | he
      · rw [g3 bucket key hb (hk (key, x) (by simp)) ?_]
        · exact h2
        · intro e he heq
          apply hn.1
          have : key = e.1 := by simpa [objectUrl] using heq
          rw [this]
          exact List.mem_map_of_mem he
      · exact g2 e he
    · intro b' k' hb' hk' hne
      rw [g3 b' k' hb' hk' fun e he => hne e (by simp [he])]
      exact h4 b' k' hb' hk' (hne (key, x) (by simp))

/-- A key that does not begin with a slash, or a store for which this makes no difference. -/
def CopyKey (st : ObjStore) (key : PathStr) : Prop := UrlKey key ∧ (st = .s3 → key.head? ≠ some '/')

theorem copyKey_object (st : ObjStore) (bucket key : PathStr) (hb : BucketName bucket) (hk : CopyKey st key) :
    st.copyKey (objectUrl st bucket key) = .ok (bucket, key) := by
  cases st with
  | gcp => exact bucketAndPath_object .gcp bucket key hb hk.1
  | s3 =>
    unfold ObjStore.copyKey
    rw [urlParse_object .s3 bucket key hb, urlKey_takeWhile hk.1]
    have := hk.2 rfl
    cases key with
    | nil => rfl
    | cons c k =>
      simp only [List.head?_cons, ne_eq, Option.some.injEq] at this
      simp [lstripSlash, this]

/-- **C67, copy.** A copy has the content of its source and changes no other object; without the source nothing is changed and an error is raised. -/
theorem c67_copy {α : Type} (st : ObjStore) (o : Objects α) (bucket key bucket' key' : PathStr) (hb : BucketName bucket) (hk : CopyKey st key)
    (hb' : BucketName bucket') (hk' : CopyKey st key') :
    (∀ x, st.download o (objectUrl st bucket key) = .ok x → ∃ o', st.copy o (objectUrl st bucket key) (objectUrl st bucket' key') = .ok o' ∧
      st.download o' (objectUrl st bucket' key') = .ok x ∧
      ∀ b k, BucketName b → UrlKey k → objectUrl st b k ≠ objectUrl st bucket' key' → st.download o' (objectUrl st b k) = st.download o (objectUrl st b k)) ∧
    (st.existsObj o (objectUrl st bucket key) = .ok false →
      st.copy o (objectUrl st bucket key) (objectUrl st bucket' key') = .error (if st = .gcp then .fileNotFound else .exception)) := by
  constructor
  · intro x hx
    have hget : o.get (bucket, key) = some x := by
      simp only [ObjStore.download, bucketAndPath_object st bucket key hb hk.1] at hx
      replace hx : (match o.get (bucket, key) with | some x => Except.ok x | none => Except.error Err.exception) = .ok x := hx
      cases hg : o.get (bucket, key) with
      | none => rw [hg] at hx; cases hx
      | some y => rw [hg] at hx; injection hx with hx; rw [hx]
    obtain ⟨o', h1, h2, -, h4⟩ := c67_upload st o bucket' key' x hb' hk'.1
    refine ⟨o', ?_, h2, h4⟩
    rw [← h1]
    simp only [ObjStore.copy, ObjStore.upload, copyKey_object st bucket key hb hk, copyKey_object st bucket' key' hb' hk', bucketAndPath_object st bucket' key' hb' hk'.1]
    show (match o.get (bucket, key) with | some x => Except.ok (o.put (bucket', key') x) | none => .error _) = _
    rw [hget]
    rfl
  · intro hx
    have hget : o.get (bucket, key) = none := by
      simp only [ObjStore.existsObj, bucketAndPath_object st bucket key hb hk.1] at hx
      replace hx : Except.ok (o.get (bucket, key)).isSome = (Except.ok false : Py Bool) := hx
      injection hx with hx
      simpa using hx
    simp only [ObjStore.copy, copyKey_object st bucket key hb hk, copyKey_object st bucket' key' hb' hk']
    show (match o.get (bucket, key) with | some x => Except.ok (o.put (bucket', key') x) | none => .error _) = _
    rw [hget]
    cases st <;> rfl

/-- **C67, fails: a `?` or `#` in the path.** All files whose URL goes on after a question mark or a number sign are one object: each upload replaces the one before. -/
theorem c67_fragment {α : Type} (st : ObjStore) (o : Objects α) (bucket dir : PathStr) (c : Char) (hc : c = '?' ∨ c = '#') (rest rest' : PathStr) (x y : α)
    (hb : BucketName bucket) (hd : UrlKey dir) :
    ∃ o1 o2, st.upload o (objectUrl st bucket (dir ++ c :: rest)) x = .ok o1 ∧ st.upload o1 (objectUrl st bucket (dir ++ c :: rest')) y = .ok o2 ∧
      st.download o2 (objectUrl st bucket (dir ++ c :: rest)) = .ok y := by
  have hkey : ∀ r, bucketAndPath (objectUrl st bucket (dir ++ c :: r)) st.scheme = .ok (bucket, dir) := by
    intro r
    unfold bucketAndPath
    rw [urlParse_object st bucket _ hb, (takeWhile_stop inPath dir c r (fun d h => by simp [inPath, hd d h]) (by rcases hc with rfl | rfl <;> decide)).1]
    simp
  refine ⟨o.put (bucket, dir) x, (o.put (bucket, dir) x).put (bucket, dir) y, ?_, ?_, ?_⟩
  · simp only [ObjStore.upload, hkey]
    rfl
  · simp only [ObjStore.upload, hkey]
    rfl
  · simp only [ObjStore.download, hkey]
    show (match ((o.put (bucket, dir) x).put (bucket, dir) y).get (bucket, dir) with | some x => Except.ok x | none => Except.error Err.exception) = _
    rw [Objects.get_put, if_pos rfl]

/-- **C67, fails: S3 keys that begin with a slash.** `copy` means another object than `upload_file` and `download_file`: a file that can be downloaded cannot be copied. -/
theorem c67_copy_slash {α : Type} (o : Objects α) (bucket key : PathStr) (x : α) (dst : PathStr) (hb : BucketName bucket) (hk : UrlKey key)
    (hs : key.head? ≠ some '/') (hno : o.get (bucket, key) = none) :
    ∃ o', ObjStore.s3.upload o (objectUrl .s3 bucket ('/' :: key)) x = .ok o' ∧ ObjStore.s3.download o' (objectUrl .s3 bucket ('/' :: key)) = .ok x ∧
      ObjStore.s3.copy o' (objectUrl .s3 bucket ('/' :: key)) dst = .error .exception := by
  have hk' : UrlKey ('/' :: key) := by
    intro c hc
    rcases List.mem_cons.1 hc with rfl | hc
    · decide
    · exact hk c hc
  obtain ⟨o', h1, h2, -, h4⟩ := c67_upload .s3 o bucket ('/' :: key) x hb hk'
  refine ⟨o', h1, h2, ?_⟩
  have hsrc : ObjStore.s3.copyKey (objectUrl .s3 bucket ('/' :: key)) = .ok (bucket, key) := by
    unfold ObjStore.copyKey
    rw [urlParse_object .s3 bucket _ hb, urlKey_takeWhile hk']
    cases key with
    | nil => rfl
    | cons c k =>
      simp only [List.head?_cons, ne_eq, Option.some.injEq] at hs
      simp [lstripSlash, hs]
  have ho : o' = o.put (bucket, '/' :: key) x := by
    simp only [ObjStore.upload, bucketAndPath_object .s3 bucket _ hb hk'] at h1
    injection h1 with h1
    exact h1.symm
  simp only [ObjStore.copy, hsrc]
  show (match o'.get (bucket, key) with | some x => Except.ok _ | none => .error _) = _
  rw [ho, Objects.get_put, if_neg (by simp [Ne.symm (List.cons_ne_self '/' key)]), hno]

/-- **C67, a missing bucket path.** The URL of a bucket alone raises `IndexError`. -/
theorem c67_bucket_only (st : ObjStore) (bucket : PathStr) (hb : BucketName bucket) :
    bucketAndPath (st.scheme ++ "://".toList ++ bucket) st.scheme = .error .indexError := by
  have e : st.scheme ++ "://".toList ++ bucket = st.scheme ++ ':' :: ('/' :: '/' :: bucket) := by simp
  have hp : ∀ c ∈ bucket, (c != '/' && inPath c) = true := by
    intro c hc
    obtain ⟨h1, h2, h3⟩ := hb c hc
    simp [inPath, h1, h2, h3]
  have hdrop : bucket.dropWhile (fun c => c != '/' && inPath c) = [] := by
    rw [← List.append_nil bucket, List.dropWhile_append_of_pos hp]
    rfl
  unfold bucketAndPath urlParse
  rw [e, urlScheme_object]
  simp only [hdrop, List.takeWhile_nil, ne_eq, not_true_eq_false, if_false]

/-- What a folder is on the local side: the key, for GCS without its first part. -/
def localPart (st : ObjStore) (first rest : PathStr) : PathStr :=
  match st with
  | .s3 => first ++ '/' :: rest
  | .gcp => rest

theorem folder_last (st : ObjStore) (first pre dir D rel : PathStr) (hD : dir ++ '/' :: localPart st first pre = D ++ ['/']) (he : dir.getLast? ≠ some '/')
    (hc : CleanKey (first ++ '/' :: (pre ++ rel))) : D.getLast? ≠ some '/' := by
  have hfc : CleanKey first := (CleanKey.both.1 hc).1
  rcases List.eq_nil_or_concat pre with rfl | ⟨q, c, rfl⟩
  · cases st with
    | s3 =>
      have : D = dir ++ '/' :: first := by
        have : (dir ++ '/' :: first) ++ ['/'] = D ++ ['/'] := by rw [← hD]; simp [localPart]
        exact (List.append_cancel_right this).symm
      rw [this]
      exact getLast?_append_slash dir first hfc.last hfc.ne
    | gcp =>
      have : D = dir := by
        have : dir ++ ['/'] = D ++ ['/'] := hD
        exact (List.append_cancel_right this).symm
      rw [this]
      exact he
  · have hc' : c = '/' := by
      have := congrArg List.getLast? hD
      cases st <;> simpa [localPart, List.getLast?_append, List.getLast?_cons] using this
    subst hc'
    have hq : CleanKey (first ++ '/' :: q) ∧ CleanKey q := by
      have : first ++ '/' :: (q ++ ['/'] ++ rel) = (first ++ '/' :: q) ++ '/' :: rel := by simp
      rw [List.concat_eq_append, this] at hc
      have h := (CleanKey.both.1 hc).1
      exact ⟨h, (CleanKey.both.1 h).2⟩
    cases st with
    | s3 =>
      have : D = dir ++ '/' :: (first ++ '/' :: q) := by
        have : (dir ++ '/' :: (first ++ '/' :: q)) ++ ['/'] = D ++ ['/'] := by rw [← hD]; simp [localPart]
        exact (List.append_cancel_right this).symm
      rw [this]
      exact getLast?_append_slash dir _ hq.1.last hq.1.ne
    | gcp =>
      have : D = dir ++ '/' :: q := by
        have : (dir ++ '/' :: q) ++ ['/'] = D ++ ['/'] := by rw [← hD]; simp [localPart]
        exact (List.append_cancel_right this).symm
      rw [this]
      exact getLast?_append_slash dir _ hq.2.last hq.2.ne

/-- **C67, folders.** All objects below a prefix, that lies below a first folder, arrive as files below the local folder, at the place of their key (for GCS without the
first folder), with their content; nothing else is written. If the prefix is a folder without folders in it, the folder of the files is returned. For S3 the number of
objects is at most 1000. -/
theorem c67_download_directory_partial {α : Type} (st : ObjStore) (o : Objects α) (hn : (o.map (·.1)).Nodup) (bucket first pre dir : PathStr) (hb : BucketName bucket)
    (hk : UrlKey (first ++ '/' :: pre)) (hf : '/' ∉ first) (hd : dir ≠ []) (he : dir.getLast? ≠ some '/') (files : LocalFiles α)
    (hclean : ∀ rel x, ((bucket, first ++ '/' :: (pre ++ rel)), x) ∈ o → rel ≠ [] ∧ CleanKey (first ++ '/' :: (pre ++ rel)))
    (hpage : st = .s3 → (o.filter fun e => e.1.1 == bucket && (first ++ '/' :: pre).isPrefixOf e.1.2).length ≤ 1000) :
    ∃ saved files', st.downloadDir o (objectUrl st bucket (first ++ '/' :: pre)) dir files = .ok (saved, files') ∧
      (∀ rel x, ((bucket, first ++ '/' :: (pre ++ rel)), x) ∈ o → files' (dir ++ '/' :: localPart st first (pre ++ rel)) = some x) ∧
      (∀ p, (∀ rel x, ((bucket, first ++ '/' :: (pre ++ rel)), x) ∈ o → p ≠ dir ++ '/' :: localPart st first (pre ++ rel)) → files' p = files p) ∧
      ∀ D, dir ++ '/' :: localPart st first pre = D ++ ['/'] → (∀ rel x, ((bucket, first ++ '/' :: (pre ++ rel)), x) ∈ o → '/' ∉ rel) →
        (∃ rel x, ((bucket, first ++ '/' :: (pre ++ rel)), x) ∈ o) → saved = D := by
  have hmem := list_mem st o bucket (first ++ '/' :: pre) hpage
  have hkeys : ∀ e ∈ st.list o bucket (first ++ '/' :: pre), ∃ rel, e.1 = first ++ '/' :: (pre ++ rel) ∧ ((bucket, e.1), e.2) ∈ o := by
    intro e hm
    obtain ⟨h1, rel, hrel⟩ := (hmem e.1 e.2).1 hm
    refine ⟨rel, ?_, h1⟩
    rw [← hrel]
    simp
  have hname : ∀ e ∈ st.list o bucket (first ++ '/' :: pre), ∀ rel, e.1 = first ++ '/' :: (pre ++ rel) →
      st.localName dir e.1 = dir ++ '/' :: localPart st first (pre ++ rel) := by
    intro e hm rel hrel
    obtain ⟨rel', hrel', hmo⟩ := hkeys e hm
    rw [hrel] at hmo ⊢
    rw [localName_eq st dir first _ hd he hf (hclean rel e.2 hmo).2]
    cases st <;> rfl
  have hinj : ((st.list o bucket (first ++ '/' :: pre)).map fun e => st.localName dir e.1).Nodup := by
    have hnod := list_nodup st o bucket (first ++ '/' :: pre) hn
    rw [List.nodup_iff_pairwise_ne, List.pairwise_map] at hnod ⊢
    refine hnod.imp_of_mem ?_
    intro a b ha hb' hne heq
    apply hne
    obtain ⟨ra, hra, -⟩ := hkeys a ha
    obtain ⟨rb, hrb, -⟩ := hkeys b hb'
    rw [hname a ha ra hra, hname b hb' rb hrb] at heq
    rw [hra, hrb]
    have hpart : localPart st first (pre ++ ra) = localPart st first (pre ++ rb) := by simpa using heq
    cases st with
    | s3 => exact hpart
    | gcp =>
      have : pre ++ ra = pre ++ rb := hpart
      rw [this]
  have hfetch : ∀ e ∈ st.list o bucket (first ++ '/' :: pre), Fetched st (first ++ '/' :: pre) dir e.1 := by
    intro e hm
    obtain ⟨rel, hrel, hmo⟩ := hkeys e hm
    rw [hrel] at hmo ⊢
    obtain ⟨hne, hc⟩ := hclean rel e.2 hmo
    refine fetched_clean st _ dir first _ hd he hf hc ?_
    intro h
    have := congrArg List.length h
    simp at this
    exact hne this
  obtain ⟨files', hrun, hin, hout⟩ := fetchAll_spec st (first ++ '/' :: pre) dir _ ".".toList files hfetch hinj
  refine ⟨((st.list o bucket (first ++ '/' :: pre)).getLast?.map fun e => (osSplit (st.localName dir e.1)).1).getD ".".toList, files', ?_, ?_, ?_, ?_⟩
  · simp only [ObjStore.downloadDir, bucketAndPath_object st bucket _ hb hk]
    exact hrun
  · intro rel x hm
    have hl : (first ++ '/' :: (pre ++ rel), x) ∈ st.list o bucket (first ++ '/' :: pre) := (hmem _ _).2 ⟨hm, rel, by simp⟩
    have := hin _ hl
    rwa [hname _ hl rel rfl] at this
  · intro p hp
    apply hout
    intro e hm
    obtain ⟨rel, hrel, hmo⟩ := hkeys e hm
    rw [hname e hm rel hrel]
    rw [hrel] at hmo
    exact hp rel e.2 hmo
  · intro D hD hflat ⟨rel0, x0, hm0⟩
    have hl0 : (first ++ '/' :: (pre ++ rel0), x0) ∈ st.list o bucket (first ++ '/' :: pre) := (hmem _ _).2 ⟨hm0, rel0, by simp⟩
    cases hlast : (st.list o bucket (first ++ '/' :: pre)).getLast? with
    | none =>
      rw [List.getLast?_eq_none_iff.1 hlast] at hl0
      simp at hl0
    | some e =>
      have hem := List.mem_of_getLast? hlast
      obtain ⟨rel, hrel, hmo⟩ := hkeys e hem
      rw [hrel] at hmo
      simp only [Option.map_some, Option.getD_some]
      rw [hname e hem rel hrel]
      have hsplit : dir ++ '/' :: localPart st first (pre ++ rel) = D ++ '/' :: rel := by
        have : dir ++ '/' :: localPart st first (pre ++ rel) = (dir ++ '/' :: localPart st first pre) ++ rel := by
          cases st <;> simp [localPart]
        rw [this, hD]
        simp
      obtain ⟨hrne, hc⟩ := hclean rel e.2 hmo
      rw [hsplit]
      refine dirname_slash D rel ?_ ?_ (hflat rel e.2 hmo)
      · rintro rfl
        have := congrArg List.length hD
        cases dir with
        | nil => exact hd rfl
        | cons c d => simp at this
      · exact folder_last st first pre dir D rel hD he hc

theorem fetchAll_marker {α : Type} (prefixKey dir key : PathStr) (x : α) (hkey : key.getLast? = some '/') (l : List (PathStr × α)) (h : (key, x) ∈ l) (saved : PathStr)
    (files : LocalFiles α) : ObjStore.s3.fetchAll prefixKey dir l saved files = .error .exception := by
  induction l generalizing saved files with
  | nil => simp at h
  | cons e l ih =>
    obtain ⟨k, y⟩ := e
    simp only [ObjStore.fetchAll]
    rw [if_neg (by simp)]
    split
    · rfl
    · rename_i hno
      rcases List.mem_cons.1 h with heq | h
      · exfalso
        injection heq with h1 h2
        subst h1
        apply hno
        refine Or.inl ?_
        show (joinPath dir key).getLast? = _
        obtain ⟨ys, rfl⟩ := List.getLast?_eq_some_iff.1 hkey
        unfold joinPath
        split
        · exact hkey
        · split
          · rw [← List.append_assoc]; simp
          · rw [show dir ++ '/' :: (ys ++ ['/']) = (dir ++ '/' :: ys) ++ ['/'] by simp, List.getLast?_append]; rfl
      · exact ih h _ _

/-- **C67, fails: folders made by a console.** An object whose key ends in a slash, as the S3 console makes them for folders, makes `download_directory` raise
(if it is on the first page). -/
theorem c67_folder_marker {α : Type} (o : Objects α) (bucket pre dir key : PathStr) (x : α) (hb : BucketName bucket) (hk : UrlKey pre) (files : LocalFiles α)
    (hkey : key.getLast? = some '/') (hmem : ((bucket, key), x) ∈ o) (hpre : pre <+: key)
    (hpage : (o.filter fun e => e.1.1 == bucket && pre.isPrefixOf e.1.2).length ≤ 1000) :
    ObjStore.s3.downloadDir o (objectUrl .s3 bucket pre) dir files = .error .exception := by
  simp only [ObjStore.downloadDir, bucketAndPath_object .s3 bucket _ hb hk]
  exact fetchAll_marker pre dir key x hkey _ ((list_mem .s3 o bucket pre (fun _ => hpage) key x).2 ⟨hmem, hpre⟩) _ _

theorem fetchAll_skip {α : Type} (prefixKey dir : PathStr) (l : List (PathStr × α)) (saved : PathStr) (files : LocalFiles α) :
    ObjStore.gcp.fetchAll prefixKey dir l saved files =
      ObjStore.gcp.fetchAll prefixKey dir (l.filter fun e => e.1.getLast? != some '/' && e.1 != prefixKey) saved files := by
  induction l generalizing saved files with
  | nil => rfl
  | cons e l ih =>
    obtain ⟨k, y⟩ := e
    by_cases h : k.getLast? = some '/' ∨ k = prefixKey
    · simp only [ObjStore.fetchAll]
      rw [if_pos ⟨trivial, h⟩, List.filter_cons, if_neg (by simpa [Classical.not_and_iff_not_or_not] using fun hn => (h.resolve_left hn))]
      exact ih _ _
    · rw [List.filter_cons, if_pos (by simpa using h)]
      simp only [ObjStore.fetchAll, h, and_false, if_false, ih]

/-- For GCS such objects, and an object at the prefix itself, make no difference. -/
theorem c67_gcs_markers {α : Type} (o : Objects α) (bucket pre dir : PathStr) (hb : BucketName bucket) (hk : UrlKey pre) (files : LocalFiles α) :
    ObjStore.gcp.downloadDir o (objectUrl .gcp bucket pre) dir files =
      ObjStore.gcp.fetchAll pre dir ((ObjStore.gcp.list o bucket pre).filter fun e => e.1.getLast? != some '/' && e.1 != pre) ".".toList files := by
  rw [← fetchAll_skip]
  simp only [ObjStore.downloadDir, bucketAndPath_object .gcp bucket _ hb hk]
  rfl

/-- Two chunks of a dataset in a bucket, with another dataset beside it. -/
def twoChunks : Objects Nat :=
  [(("b".toList, "data/x/chunk-0-0.bin".toList), 7), (("b".toList, "data/x/chunk-0-1.bin".toList), 8), (("b".toList, "data/y/chunk-0-0.bin".toList), 9)]

example := c67_upload_all .s3 "b".toList (by unfold BucketName; decide) [("d/chunk-0-0.bin".toList, 1), ("d/index.json".toList, 2)] twoChunks (by unfold UrlKey; decide) (by decide)

example := c67_copy .s3 twoChunks "b".toList "data/x/chunk-0-0.bin".toList "c".toList "z/chunk-0-0.bin".toList (by unfold BucketName; decide)
  ⟨by unfold UrlKey; decide, by decide⟩ (by unfold BucketName; decide) ⟨by unfold UrlKey; decide, by decide⟩

example : (ObjStore.s3.copy twoChunks "s3://b/data/x/chunk-0-0.bin".toList "s3://c/z".toList).toOption.bind (·.get ("c".toList, "z".toList)) = some 7 := by decide

example (files : LocalFiles Nat) := c67_download_directory_partial .gcp twoChunks (by decide) "b".toList "data".toList "x/".toList "/tmp".toList (by unfold BucketName; decide)
  (by unfold UrlKey; decide) (by decide) (by decide) (by decide) files (by
    intro rel x h
    have : rel = "chunk-0-0.bin".toList ∨ rel = "chunk-0-1.bin".toList := by
      simp only [twoChunks, List.mem_cons, Prod.mk.injEq, List.not_mem_nil, or_false] at h
      rcases h with ⟨⟨-, h⟩, -⟩ | ⟨⟨-, h⟩, -⟩ | ⟨⟨-, h⟩, -⟩
      · left; simpa using h
      · right; simpa using h
      · simp at h
    rcases this with rfl | rfl
    · exact ⟨by decide, by unfold CleanKey; decide⟩
    · exact ⟨by decide, by unfold CleanKey; decide⟩) (by simp)

end LitData.Props
