import Verif.Model.FsProvider
import Verif.Props.Upload
import Verif.Lemmas.Names
import Verif.Props.Modes

/-! Lemmas on URLs, tables of objects and the local names of objects. -/

namespace LitData

theorem splitChar_ne (c : Char) (a : List Char) : splitChar c a ≠ [] := by
  cases a with
  | nil => simp [splitChar]
  | cons d r =>
    unfold splitChar
    split
    · simp
    · split <;> simp

theorem splitChar_both (c : Char) (a b : List Char) : splitChar c (a ++ c :: b) = splitChar c a ++ splitChar c b := by
  induction a with
  | nil => simp [splitChar]
  | cons d a ih =>
    by_cases h : d = c
    · simp [splitChar, h, ih]
    · simp only [List.cons_append, splitChar, if_neg h, ih]
      cases hs : splitChar c a with
      | nil => exact absurd hs (splitChar_ne c a)
      | cons x xs => simp

theorem splitChar_join (c : Char) (r : List Char) : (splitChar c r).flatMap (c :: ·) = c :: r := by
  induction r with
  | nil => simp [splitChar]
  | cons d r ih =>
    by_cases h : d = c
    · simp [splitChar, h, ih]
    · simp only [splitChar, if_neg h]
      cases hs : splitChar c r with
      | nil => exact absurd hs (splitChar_ne c r)
      | cons x xs =>
        rw [hs] at ih
        simp only [List.flatMap_cons, List.cons_append, List.cons.injEq, true_and] at ih ⊢
        rw [ih]

theorem splitChar_not_mem (c : Char) (r : List Char) : ∀ p ∈ splitChar c r, c ∉ p := by
  induction r with
  | nil => simp [splitChar]
  | cons d r ih =>
    by_cases h : d = c
    · simp only [splitChar, if_pos h, List.mem_cons]
      rintro p (rfl | hp)
      · simp
      · exact ih p hp
    · simp only [splitChar, if_neg h]
      cases hs : splitChar c r with
      | nil => exact absurd hs (splitChar_ne c r)
      | cons x xs =>
        rw [hs] at ih
        simp only [List.mem_cons]
        rintro p (rfl | hp)
        · simp only [List.mem_cons, not_or]
          exact ⟨fun e => h e.symm, ih x (by simp)⟩
        · exact ih p (by simp [hp])

/-- A key of which no part between slashes is empty. -/
def CleanKey (k : PathStr) : Prop := ∀ p ∈ splitChar '/' k, p ≠ []

theorem CleanKey.both {a b : PathStr} : CleanKey (a ++ '/' :: b) ↔ CleanKey a ∧ CleanKey b := by
  unfold CleanKey
  rw [splitChar_both]
  simp only [List.mem_append]
  constructor
  · intro h
    exact ⟨fun p hp => h p (Or.inl hp), fun p hp => h p (Or.inr hp)⟩
  · rintro ⟨h1, h2⟩ p (hp | hp)
    · exact h1 p hp
    · exact h2 p hp

theorem CleanKey.ne {k : PathStr} (h : CleanKey k) : k ≠ [] := by
  rintro rfl
  exact h [] (by simp [splitChar]) rfl

theorem CleanKey.head {k : PathStr} (h : CleanKey k) : k.head? ≠ some '/' := by
  intro e
  cases k with
  | nil => simp at e
  | cons c k =>
    simp only [List.head?_cons, Option.some.injEq] at e
    subst e
    exact (CleanKey.both (a := []).1 h).1.ne rfl

theorem CleanKey.last {k : PathStr} (h : CleanKey k) : k.getLast? ≠ some '/' := by
  intro e
  obtain ⟨ys, rfl⟩ := List.getLast?_eq_some_iff.1 e
  exact (CleanKey.both (a := ys) (b := []).1 h).2.ne rfl

theorem joinPath_rel (dir key : PathStr) (hd : dir ≠ []) (he : dir.getLast? ≠ some '/') (hk : key.head? ≠ some '/') :
    joinPath dir key = dir ++ '/' :: key := by
  unfold joinPath
  rw [if_neg hk, if_neg (by rintro (h | h); exact hd h; exact he h)]

/-- The URL of an object. -/
def objectUrl (st : ObjStore) (bucket key : PathStr) : PathStr := st.scheme ++ "://".toList ++ bucket ++ '/' :: key

/-- The name of a bucket: without the characters that end it in a URL. -/
def BucketName (b : PathStr) : Prop := ∀ c ∈ b, c ≠ '/' ∧ c ≠ '?' ∧ c ≠ '#'

/-- A key that can be part of a URL. -/
def UrlKey (k : PathStr) : Prop := ∀ c ∈ k, c ≠ '?' ∧ c ≠ '#'

theorem UrlKey.append {a b : PathStr} : UrlKey (a ++ b) ↔ UrlKey a ∧ UrlKey b := by
  unfold UrlKey
  simp only [List.mem_append]
  constructor
  · intro h
    exact ⟨fun c hc => h c (Or.inl hc), fun c hc => h c (Or.inr hc)⟩
  · rintro ⟨h1, h2⟩ c (hc | hc)
    · exact h1 c hc
    · exact h2 c hc

theorem takeWhile_stop {α : Type} (p : α → Bool) (a : List α) (c : α) (b : List α) (ha : ∀ x ∈ a, p x = true) (hc : p c = false) :
    (a ++ c :: b).takeWhile p = a ∧ (a ++ c :: b).dropWhile p = c :: b := by
  induction a with
  | nil => simp [hc]
  | cons x a ih =>
    have := ih fun y hy => ha y (by simp [hy])
    simp only [List.cons_append, List.takeWhile, List.dropWhile, ha x (by simp)]
    exact ⟨by rw [this.1], this.2⟩

theorem takeWhile_whole {α : Type} (p : α → Bool) (a : List α) (ha : ∀ x ∈ a, p x = true) : a.takeWhile p = a := by
  induction a with
  | nil => rfl
  | cons x a ih => simp [List.takeWhile, ha x (by simp), ih fun y hy => ha y (by simp [hy])]

theorem urlScheme_object (st : ObjStore) (rest : PathStr) : urlScheme (st.scheme ++ ':' :: rest) = (st.scheme, rest) := by
  unfold urlScheme
  have := takeWhile_stop (fun c : Char => c != ':') st.scheme ':' rest (by cases st <;> decide) (by decide)
  rw [this.1, this.2]
  cases st <;> rfl

/-- The parts of the URL of an object, whatever comes after its path. -/
theorem urlParse_object (st : ObjStore) (bucket rest : PathStr) (hb : BucketName bucket) :
    urlParse (objectUrl st bucket rest) = ⟨st.scheme, bucket, '/' :: rest.takeWhile inPath⟩ := by
  have e : objectUrl st bucket rest = st.scheme ++ ':' :: ('/' :: '/' :: (bucket ++ '/' :: rest)) := by simp [objectUrl]
  unfold urlParse
  rw [e, urlScheme_object]
  simp only
  have := takeWhile_stop (fun c => c != '/' && inPath c) bucket '/' rest (by
    intro c hc
    obtain ⟨h1, h2, h3⟩ := hb c hc
    simp [inPath, h1, h2, h3]) (by decide)
  rw [this.1, this.2]
  rfl

theorem urlKey_takeWhile {k : PathStr} (h : UrlKey k) : k.takeWhile inPath = k :=
  takeWhile_whole _ _ fun c hc => by simp [inPath, h c hc]

theorem bucketAndPath_object (st : ObjStore) (bucket key : PathStr) (hb : BucketName bucket) (hk : UrlKey key) :
    bucketAndPath (objectUrl st bucket key) st.scheme = .ok (bucket, key) := by
  unfold bucketAndPath
  rw [urlParse_object st bucket key hb, urlKey_takeWhile hk]
  simp

theorem Objects.get_put {α : Type} (o : Objects α) (k k' : PathStr × PathStr) (x : α) :
    (o.put k x).get k' = if k' = k then some x else o.get k' := by
  unfold Objects.get Objects.put
  by_cases h : k' = k
  · simp [h]
  · rw [if_neg h, List.lookup_cons]
    have : (k' == k) = false := by simpa using h
    rw [this]
    show List.lookup k' (List.filter (fun e => e.1 != k) o) = _
    induction o with
    | nil => rfl
    | cons e o ih =>
      obtain ⟨a, b⟩ := e
      by_cases ha : a = k
      · have hka : (k' == a) = false := by simp [ha, h]
        simp only [List.filter_cons, ha, bne_self_eq_false, Bool.false_eq_true, if_false, List.lookup_cons]
        rw [ha] at hka
        rw [hka]
        exact ih
      · simp only [List.filter_cons, bne_iff_ne, ne_eq, ha, not_false_eq_true, if_true, List.lookup_cons]
        rw [ih]

theorem dirname_slash (d n : PathStr) (hd : d ≠ []) (he : d.getLast? ≠ some '/') (hn : '/' ∉ n) : (osSplit (d ++ '/' :: n)).1 = d := by
  have h1 : (d ++ '/' :: n).reverse = n.reverse ++ '/' :: d.reverse := by simp
  have h2 : ((d ++ '/' :: n).reverse.dropWhile (· != '/')).reverse = d ++ ['/'] := by
    rw [h1, (takeWhile_stop (fun c : Char => c != '/') n.reverse '/' d.reverse (by
      intro c hc
      simp only [List.mem_reverse] at hc
      simp only [bne_iff_ne, ne_eq]
      rintro rfl
      exact hn hc) (by decide)).2]
    simp
  have h3 : rstripSlash (d ++ ['/']) = d := by
    have := Props.rstripSlash_eq he
    unfold rstripSlash at this ⊢
    simpa using this
  unfold osSplit
  simp only [h2, h3, if_neg hd]

/-- `download_directory` stores an object as a file. -/
def Fetched (st : ObjStore) (prefixKey dir key : PathStr) : Prop :=
  ¬ (st = .gcp ∧ (key.getLast? = some '/' ∨ key = prefixKey)) ∧ ¬ ((st.localName dir key).getLast? = some '/' ∨ st.localName dir key = dir)

theorem fetchAll_spec {α : Type} (st : ObjStore) (prefixKey dir : PathStr) (l : List (PathStr × α)) (saved : PathStr) (files : LocalFiles α)
    (h : ∀ e ∈ l, Fetched st prefixKey dir e.1) (hinj : (l.map fun e => st.localName dir e.1).Nodup) :
    ∃ files', st.fetchAll prefixKey dir l saved files = .ok ((l.getLast?.map fun e => (osSplit (st.localName dir e.1)).1).getD saved, files') ∧
      (∀ e ∈ l, files' (st.localName dir e.1) = some e.2) ∧ ∀ p, (∀ e ∈ l, p ≠ st.localName dir e.1) → files' p = files p := by
  induction l generalizing saved files with
  | nil => exact ⟨files, rfl, by simp, fun p _ => rfl⟩
  | cons e l ih =>
    obtain ⟨key, x⟩ := e
    obtain ⟨hf1, hf2⟩ := h (key, x) (by simp)
    simp only [List.map_cons, List.nodup_cons, List.mem_map, not_exists, not_and] at hinj
    obtain ⟨files', hrun, hin, hout⟩ := ih (osSplit (st.localName dir key)).1 (fun p => if p = st.localName dir key then some x else files p)
      (fun e he => h e (by simp [he])) hinj.2
    refine ⟨files', ?_, ?_, ?_⟩
    · simp only [ObjStore.fetchAll, if_neg hf1, if_neg hf2, hrun]
      cases hl : l.getLast? with
      | none => simp [List.getLast?_eq_none_iff.1 hl]
      | some e =>
        rw [List.getLast?_cons, hl]
        rfl
    · intro e he
      rcases List.mem_cons.1 he with rfl | he
      · rw [hout _ (fun e' he' heq => hinj.1 e' he' heq.symm)]
        simp
      · exact hin e he
    · intro p hp
      rw [hout p fun e he => hp e (by simp [he])]
      rw [if_neg (hp (key, x) (by simp))]

/-- Where an object below a first folder is put. -/
theorem localName_eq (st : ObjStore) (dir first rest : PathStr) (hd : dir ≠ []) (he : dir.getLast? ≠ some '/') (hf : '/' ∉ first)
    (hc : CleanKey (first ++ '/' :: rest)) :
    st.localName dir (first ++ '/' :: rest) = dir ++ '/' :: (match st with | .s3 => first ++ '/' :: rest | .gcp => rest) := by
  cases st with
  | s3 => exact joinPath_rel _ _ hd he hc.head
  | gcp =>
    show joinPaths dir ((splitChar '/' (first ++ '/' :: rest)).drop 1) = _
    rw [Props.splitChar_append '/' first rest hf]
    simp only [List.drop_succ_cons, List.drop_zero]
    have hr : CleanKey rest := (CleanKey.both.1 hc).2
    rw [Props.joinPaths_plain dir _ hd he (fun p hp => ⟨hr p hp, splitChar_not_mem '/' rest p hp⟩), splitChar_join]

theorem getLast?_append_slash (a b : PathStr) (hb : b.getLast? ≠ some '/') (hne : b ≠ []) : (a ++ '/' :: b).getLast? ≠ some '/' := by
  rw [List.getLast?_append, List.getLast?_cons]
  cases h : b.getLast? with
  | none => exact absurd (List.getLast?_eq_none_iff.1 h) hne
  | some c =>
    rw [h] at hb
    simpa using hb

theorem fetched_clean (st : ObjStore) (prefixKey dir first rest : PathStr) (hd : dir ≠ []) (he : dir.getLast? ≠ some '/') (hf : '/' ∉ first)
    (hc : CleanKey (first ++ '/' :: rest)) (hne : first ++ '/' :: rest ≠ prefixKey) : Fetched st prefixKey dir (first ++ '/' :: rest) := by
  refine ⟨?_, ?_⟩
  · rintro ⟨-, h | h⟩
    · exact hc.last h
    · exact hne h
  · rw [localName_eq st dir first rest hd he hf hc]
    have hr : CleanKey rest := (CleanKey.both.1 hc).2
    rintro (h | h)
    · cases st with
      | s3 => exact getLast?_append_slash dir _ hc.last hc.ne h
      | gcp => exact getLast?_append_slash dir _ hr.last hr.ne h
    · have := congrArg List.length h
      simp at this

/-- The objects below a prefix, in their order. -/
theorem list_mem {α : Type} (st : ObjStore) (o : Objects α) (bucket pre : PathStr)
    (hpage : st = .s3 → (o.filter fun e => e.1.1 == bucket && pre.isPrefixOf e.1.2).length ≤ 1000) (k : PathStr) (x : α) :
    (k, x) ∈ st.list o bucket pre ↔ ((bucket, k), x) ∈ o ∧ pre <+: k := by
  have hfull : st.list o bucket pre = sortBy (fun a b => lexLe a.1 b.1) ((o.filter fun e => e.1.1 == bucket && pre.isPrefixOf e.1.2).map fun e => (e.1.2, e.2)) := by
    unfold ObjStore.list
    cases st with
    | gcp => rfl
    | s3 =>
      apply List.take_of_length_le
      rw [(sortBy_perm _ _).length_eq, List.length_map]
      exact hpage rfl
  rw [hfull, (sortBy_perm _ _).mem_iff]
  simp only [List.mem_map, List.mem_filter, Bool.and_eq_true, beq_iff_eq, List.isPrefixOf_iff_prefix, Prod.mk.injEq]
  constructor
  · rintro ⟨⟨⟨b, k'⟩, x'⟩, ⟨hmem, hb, hp⟩, rfl, rfl⟩
    simp only at hb hp
    subst hb
    exact ⟨hmem, hp⟩
  · rintro ⟨hmem, hp⟩
    exact ⟨((bucket, k), x), ⟨hmem, rfl, hp⟩, rfl, rfl⟩

theorem list_nodup {α : Type} (st : ObjStore) (o : Objects α) (bucket pre : PathStr) (hn : (o.map (·.1)).Nodup) :
    ((st.list o bucket pre).map (·.1)).Nodup := by
  have hall : ((sortBy (fun a b => lexLe a.1 b.1) ((o.filter fun e => e.1.1 == bucket && pre.isPrefixOf e.1.2).map fun e => (e.1.2, e.2))).map (·.1)).Nodup := by
    rw [((sortBy_perm _ _).map _).nodup_iff, List.map_map]
    have hsub : ((o.filter fun e => e.1.1 == bucket && pre.isPrefixOf e.1.2).map (·.1)).Nodup := hn.sublist (List.filter_sublist.map _)
    have hb : ∀ e ∈ o.filter (fun e => e.1.1 == bucket && pre.isPrefixOf e.1.2), e.1.1 = bucket := by
      intro e he
      have := (List.mem_filter.1 he).2
      simp only [Bool.and_eq_true, beq_iff_eq] at this
      exact this.1
    generalize o.filter (fun e => e.1.1 == bucket && pre.isPrefixOf e.1.2) = l at hsub hb
    rw [List.nodup_iff_pairwise_ne, List.pairwise_map] at hsub ⊢
    refine hsub.imp_of_mem ?_
    intro a b ha hb' hne heq
    apply hne
    have h1 := hb a ha
    have h2 := hb b hb'
    exact Prod.ext (h1.trans h2.symm) heq
  unfold ObjStore.list
  cases st with
  | gcp => exact hall
  | s3 =>
    refine hall.sublist ?_
    exact (List.take_sublist _ _).map _

end LitData
