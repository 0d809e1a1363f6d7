import Verif.Model.Registry

/-! Property C44: the downloader is chosen by the registration table. -/

namespace LitData.Props
open LitData

variable {D : Type}

/-- The class registered for a prefix. -/
def Registered (t : DownloaderTable D) (p : String) (d : D) : Prop := (p, d) ∈ t

theorem keys_tablePut (p : String) (d : D) (t : DownloaderTable D) :
    (tablePut p d t).map (·.1) = if p ∈ t.map (·.1) then t.map (·.1) else t.map (·.1) ++ [p] := by
  induction t with
  | nil => simp [tablePut]
  | cons e t ih =>
    obtain ⟨k, e⟩ := e
    unfold tablePut
    by_cases h : k = p
    · simp [h]
    · simp only [h, if_false, List.map_cons, ih, List.mem_cons]
      by_cases h2 : p ∈ t.map (·.1)
      · simp [h2]
      · have : ¬ (p = k ∨ p ∈ t.map (·.1)) := by
          rintro (h3 | h3)
          · exact h h3.symm
          · exact h2 h3
        rw [if_neg h2, if_neg this]; rfl

theorem any_key (t : DownloaderTable D) (p : String) : (t.any fun e => e.1 == p) = true ↔ p ∈ t.map (·.1) := by
  simp [List.any_eq_true, List.mem_map]

/-- The result of `del`. -/
theorem keys_filter (t : DownloaderTable D) (p : String) : (t.filter fun e => e.1 != p).map (·.1) = (t.map (·.1)).filter fun k => k != p := by
  rw [List.filter_map]; rfl

/-- Every sequence of calls. -/
def applyOps (t : DownloaderTable D) (ops : List (TableOp D)) : DownloaderTable D := ops.foldl applyOp t

/-- **C44.** After any sequence of calls each prefix occurs once in the table. -/
theorem c44_prefixes_once (t : DownloaderTable D) (ops : List (TableOp D)) (h : (t.map (·.1)).Nodup) : ((applyOps t ops).map (·.1)).Nodup := by
  induction ops generalizing t with
  | nil => exact h
  | cons op ops ih =>
    refine ih _ ?_
    cases op with
    | register p d o =>
      simp only [applyOp, registerDownloader]
      split
      · exact h
      · rw [keys_tablePut]
        split
        · exact h
        · rename_i hp
          exact List.nodup_append.2 ⟨h, by simp, by intro a ha b hb; simp only [List.mem_singleton] at hb; subst hb; exact fun e => hp (e ▸ ha)⟩
    | unregister p =>
      simp only [applyOp, unregisterDownloader]
      split
      · rw [keys_filter]; exact h.filter _
      · exact h

theorem mem_tablePut (p : String) (d : D) : ∀ (t : DownloaderTable D), (t.map (·.1)).Nodup → ∀ k e, (k, e) ∈ tablePut p d t ↔ (k = p ∧ e = d) ∨ (k ≠ p ∧ (k, e) ∈ t)
  | [], _, k, e => by simp [tablePut]
  | (k', e') :: t, h, k, e => by
    simp only [List.map_cons, List.nodup_cons] at h
    have ih := mem_tablePut p d t h.2 k e
    unfold tablePut
    by_cases hk : k' = p
    · subst hk
      simp only [if_true, List.mem_cons, Prod.mk.injEq]
      constructor
      · rintro (⟨rfl, rfl⟩ | hm)
        · exact Or.inl ⟨rfl, rfl⟩
        · refine Or.inr ⟨?_, Or.inr hm⟩
          rintro rfl
          exact h.1 (List.mem_map.2 ⟨_, hm, rfl⟩)
      · rintro (⟨rfl, rfl⟩ | ⟨hne, ⟨rfl, _⟩ | hm⟩)
        · exact Or.inl ⟨rfl, rfl⟩
        · exact absurd rfl hne
        · exact Or.inr hm
    · simp only [hk, if_false, List.mem_cons, Prod.mk.injEq, ih]
      constructor
      · rintro (⟨rfl, rfl⟩ | h1 | h1)
        · exact Or.inr ⟨hk, Or.inl ⟨rfl, rfl⟩⟩
        · exact Or.inl h1
        · exact Or.inr ⟨h1.1, Or.inr h1.2⟩
      · rintro (h1 | ⟨h1, h2 | h2⟩)
        · exact Or.inr (Or.inl h1)
        · exact Or.inl h2
        · exact Or.inr (Or.inr ⟨h1, h2⟩)

/-- **C44.** Registering a prefix that is there, without `overwrite`, raises `ValueError` and leaves the table as
it was. -/
theorem c44_register_refused (t : DownloaderTable D) (p : String) (d : D) (h : p ∈ t.map (·.1)) :
    registerDownloader t p d false = (t, .error .valueError) := by
  unfold registerDownloader
  rw [(any_key t p).2 h]; rfl

/-- **C44.** Otherwise it succeeds: the prefix has the new class, all others keep theirs, and the order of the prefixes is
kept (a new one comes last). -/
theorem c44_register (t : DownloaderTable D) (ht : (t.map (·.1)).Nodup) (p : String) (d : D) (overwrite : Bool)
    (h : p ∉ t.map (·.1) ∨ overwrite = true) :
    (registerDownloader t p d overwrite).2 = .ok () ∧
    (∀ k e, Registered (registerDownloader t p d overwrite).1 k e ↔ (k = p ∧ e = d) ∨ (k ≠ p ∧ Registered t k e)) ∧
    (registerDownloader t p d overwrite).1.map (·.1) = if p ∈ t.map (·.1) then t.map (·.1) else t.map (·.1) ++ [p] := by
  have hc : ((t.any fun e => e.1 == p) && !overwrite) = false := by
    rcases h with h | h
    · cases ha : (t.any fun e => e.1 == p) with
      | false => rfl
      | true => exact absurd ((any_key t p).1 ha) h
    · simp [h]
  unfold registerDownloader
  rw [hc]
  exact ⟨rfl, fun k e => mem_tablePut p d t ht k e, keys_tablePut p d t⟩

/-- **C44.** Unregistering removes the prefix and keeps the others; for an unknown prefix it raises `KeyError`
and leaves the table as it was. -/
theorem c44_unregister (t : DownloaderTable D) (p : String) :
    (p ∈ t.map (·.1) → (unregisterDownloader t p).2 = .ok () ∧ ∀ k e, Registered (unregisterDownloader t p).1 k e ↔ k ≠ p ∧ Registered t k e) ∧
    (p ∉ t.map (·.1) → unregisterDownloader t p = (t, .error .keyError)) := by
  constructor
  · intro h
    unfold unregisterDownloader
    rw [if_pos ((any_key t p).2 h)]
    refine ⟨rfl, ?_⟩
    intro k e
    simp only [Registered, List.mem_filter, bne_iff_ne, ne_eq]
    exact And.comm
  · intro h
    unfold unregisterDownloader
    rw [if_neg (fun h1 => h ((any_key t p).1 h1))]

/-- **C44.** The first registered prefix of the remote directory decides. -/
theorem c44_first_prefix (other : D) (t : DownloaderTable D) (remote : String) :
    (∃ l k d r, t = l ++ (k, d) :: r ∧ k.toList <+: remote.toList ∧ (∀ e ∈ l, ¬ e.1.toList <+: remote.toList) ∧ getDownloader other t remote = d) ∨
    ((∀ e ∈ t, ¬ e.1.toList <+: remote.toList) ∧ getDownloader other t remote = other) := by
  induction t with
  | nil => right; exact ⟨by simp, rfl⟩
  | cons e t ih =>
    obtain ⟨k, d⟩ := e
    unfold getDownloader
    by_cases hk : k.toList <+: remote.toList
    · left
      refine ⟨[], k, d, t, rfl, hk, by simp, ?_⟩
      rw [if_pos]
      exact List.isPrefixOf_iff_prefix.2 hk
    · have hf : ¬ strStartsWith remote k = true := fun h => hk (List.isPrefixOf_iff_prefix.1 h)
      rw [if_neg hf]
      rcases ih with ⟨l, k', d', r, h1, h2, h3, h4⟩ | ⟨h1, h2⟩
      · left
        refine ⟨(k, d) :: l, k', d', r, by rw [h1]; rfl, h2, ?_, h4⟩
        intro e he
        rcases List.mem_cons.1 he with rfl | he
        · exact hk
        · exact h3 e he
      · right
        refine ⟨?_, h2⟩
        intro e he
        rcases List.mem_cons.1 he with rfl | he
        · exact hk
        · exact h1 e he

/-- **C44.** A newly registered prefix is used for the directories that begin with it and with no prefix that was there; so a
prefix that extends an older one, such as `s3://my-bucket`, is never used. -/
theorem c44_new_prefix (other : D) (t : DownloaderTable D) (p remote : String) (d : D) (hp : p ∉ t.map (·.1)) :
    getDownloader other (registerDownloader t p d false).1 remote =
      if (∃ e ∈ t, e.1.toList <+: remote.toList) then getDownloader other t remote
      else if p.toList <+: remote.toList then d else other := by
  have hc : ((t.any fun e => e.1 == p) && !false) = false := by
    cases ha : (t.any fun e => e.1 == p) with
    | false => rfl
    | true => exact absurd ((any_key t p).1 ha) hp
  unfold registerDownloader
  rw [hc]
  simp only [Bool.false_eq_true, if_false]
  clear hc
  induction t with
  | nil =>
    simp only [tablePut, getDownloader, List.not_mem_nil, false_and, exists_false, if_false]
    by_cases hk : p.toList <+: remote.toList
    · rw [if_pos hk, if_pos]; exact List.isPrefixOf_iff_prefix.2 hk
    · rw [if_neg hk, if_neg]; exact fun h => hk (List.isPrefixOf_iff_prefix.1 h)
  | cons e t ih =>
    obtain ⟨k, d'⟩ := e
    simp only [List.map_cons, List.mem_cons, not_or] at hp
    unfold tablePut
    rw [if_neg (fun h => hp.1 h.symm)]
    by_cases hk : k.toList <+: remote.toList
    · have hs : strStartsWith remote k = true := List.isPrefixOf_iff_prefix.2 hk
      rw [if_pos ⟨_, List.mem_cons_self, hk⟩]
      simp [getDownloader, hs]
    · have hs : ¬ strStartsWith remote k = true := fun h => hk (List.isPrefixOf_iff_prefix.1 h)
      simp only [getDownloader, hs, if_false, Bool.false_eq_true]
      rw [ih hp.2]
      have : (∃ e ∈ (k, d') :: t, e.1.toList <+: remote.toList) ↔ ∃ e ∈ t, e.1.toList <+: remote.toList := by
        simp [hk]
      simp only [this]

/-- The built-in table: `s3://my-bucket/` is registered, and the S3 downloader is used all the same. -/
example : (registerDownloader builtinTable "s3://my-bucket/" .local false).2 = .ok () ∧
    getDownloader .local (registerDownloader builtinTable "s3://my-bucket/" .hf false).1 "s3://my-bucket/data" = .s3 := by decide +kernel

example : (builtinTable.map (·.1)).Nodup ∧ getDownloader .local builtinTable "gs://b/d" = .gcp ∧ getDownloader .local builtinTable "/data" = .local ∧
    registerDownloader builtinTable "gs://" .s3 false = (builtinTable, .error .valueError) ∧
    getDownloader .local (unregisterDownloader builtinTable "gs://").1 "gs://b/d" = .local ∧
    getDownloader .local (registerDownloader builtinTable "gs://" .s3 true).1 "gs://b/d" = .s3 := by decide +kernel

/-- **C44, the built-in table.** A path with one of the five prefixes gets the class of its own prefix, whatever follows; every other path gets the local
downloader. -/
theorem c44_builtin (remote : String) :
    ("s3://".toList <+: remote.toList → getDownloader .local builtinTable remote = .s3) ∧
    ("gs://".toList <+: remote.toList → getDownloader .local builtinTable remote = .gcp) ∧
    ("azure://".toList <+: remote.toList → getDownloader .local builtinTable remote = .azure) ∧
    ("hf://".toList <+: remote.toList → getDownloader .local builtinTable remote = .hf) ∧
    ("local:".toList <+: remote.toList → getDownloader .local builtinTable remote = .localCache) ∧
    ((∀ p ∈ ["s3://", "gs://", "azure://", "hf://", "local:"], ¬ p.toList <+: remote.toList) → getDownloader .local builtinTable remote = .local) := by
  have hno : ∀ (p q : String), (q.toList).head? ≠ p.toList.head? → p.toList ≠ [] → q.toList ≠ [] → p.toList <+: remote.toList → ¬ q.toList <+: remote.toList := by
    intro p q hne hp hq h1 h2
    obtain ⟨a, ha⟩ := h1
    obtain ⟨b, hb⟩ := h2
    have e1 : remote.toList.head? = p.toList.head? := by
      rw [← ha]; cases hp' : p.toList with | nil => exact absurd hp' hp | cons c l => simp
    have e2 : remote.toList.head? = q.toList.head? := by
      rw [← hb]; cases hq' : q.toList with | nil => exact absurd hq' hq | cons c l => simp
    exact hne (e2.symm.trans e1)
  have hs : ∀ k : String, strStartsWith remote k = true ↔ k.toList <+: remote.toList := fun k => List.isPrefixOf_iff_prefix
  simp only [getDownloader, builtinTable, hs]
  refine ⟨fun h => ?_, fun h => ?_, fun h => ?_, fun h => ?_, fun h => ?_, fun h => ?_⟩
  · rw [if_pos h]
  · rw [if_neg (hno _ _ (by decide) (by decide) (by decide) h), if_pos h]
  · rw [if_neg (hno _ _ (by decide) (by decide) (by decide) h), if_neg (hno _ _ (by decide) (by decide) (by decide) h), if_pos h]
  · rw [if_neg (hno _ _ (by decide) (by decide) (by decide) h), if_neg (hno _ _ (by decide) (by decide) (by decide) h),
      if_neg (hno _ _ (by decide) (by decide) (by decide) h), if_pos h]
  · rw [if_neg (hno _ _ (by decide) (by decide) (by decide) h), if_neg (hno _ _ (by decide) (by decide) (by decide) h),
      if_neg (hno _ _ (by decide) (by decide) (by decide) h), if_neg (hno _ _ (by decide) (by decide) (by decide) h), if_pos h]
  · rw [if_neg (h _ (by simp)), if_neg (h _ (by simp)), if_neg (h _ (by simp)), if_neg (h _ (by simp)), if_neg (h _ (by simp))]

example : getDownloader .local builtinTable "hf://datasets/a/b/c" = .hf := (c44_builtin _).2.2.2.1 (by decide)

end LitData.Props
