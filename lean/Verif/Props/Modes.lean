import Verif.Model.Modes

/-! C36: what is removed when `optimize` starts, for each `mode`. -/

namespace LitData.Props

open LitData

/-- A file that belongs to a dataset written in the directory `d`: the index, a chunk, or a file of the
checkpoints. -/
def DatasetFile (d p : List String) : Prop :=
  p = d ++ ["index.json"] ∨ (∃ n, isBin n = true ∧ p = d ++ [n]) ∨ ∃ rest, p = d ++ ".checkpoints" :: rest

theorem remove_ok {fs fs' : LocalFs} {p : List String} (h : fs.remove p = .ok fs') :
    fs' = fs.filter fun e => e.1 != p := by
  unfold LocalFs.remove at h
  split at h
  · cases h; rfl
  · split at h <;> cases h

theorem removeBins_spec (d : List String) (names : List String) (fs : LocalFs) :
    (removeBins d names fs).2.Sublist fs ∧
    (∀ e ∈ fs, (∀ n, isBin n = true → e.1 ≠ d ++ [n]) → e ∈ (removeBins d names fs).2) ∧
    ((removeBins d names fs).1 = .ok () →
      ∀ e ∈ (removeBins d names fs).2, ∀ n ∈ names, isBin n = true → e.1 ≠ d ++ [n]) := by
  induction names generalizing fs with
  | nil => exact ⟨List.Sublist.refl _, fun e he _ => he, by simp [removeBins]⟩
  | cons f names ih =>
    unfold removeBins
    by_cases hb : isBin f = true
    · rw [if_pos hb]
      cases hr : fs.remove (d ++ [f]) with
      | error e => exact ⟨List.Sublist.refl _, fun e he _ => he, by simp⟩
      | ok fs' =>
        have hf := remove_ok hr
        obtain ⟨h1, h2, h3⟩ := ih fs'
        refine ⟨h1.trans (hf ▸ List.filter_sublist), ?_, ?_⟩
        · intro e he hne
          refine h2 e ?_ hne
          rw [hf, List.mem_filter]
          exact ⟨he, by simpa using hne f hb⟩
        · intro hok e he n hn hbn
          rcases List.mem_cons.1 hn with rfl | hn
          · have := h1.subset he
            rw [hf, List.mem_filter] at this
            simpa using this.2
          · exact h3 hok e he n hn hbn
    · rw [if_neg hb]
      obtain ⟨h1, h2, h3⟩ := ih fs
      refine ⟨h1, h2, ?_⟩
      intro hok e he n hn hbn
      rcases List.mem_cons.1 hn with rfl | hn
      · exact absurd hbn hb
      · exact h3 hok e he n hn hbn

theorem mem_listdir {fs : LocalFs} {d : List String} {n : String} {e : List String × Bytes} (he : e ∈ fs)
    (hp : e.1 = d ++ [n]) : n ∈ fs.listdir d := by
  unfold LocalFs.listdir
  rw [List.mem_eraseDups, List.mem_filterMap]
  refine ⟨e, he, ?_⟩
  rw [if_pos (by rw [hp]; exact List.isPrefixOf_iff_prefix.2 (List.prefix_append _ _)), hp]
  simp

theorem rmtree_ok {fs fs' : LocalFs} {p : List String} (h : fs.rmtree p = .ok fs') :
    fs' = fs.filter fun e => !p.isPrefixOf e.1 := by
  unfold LocalFs.rmtree at h
  split at h
  · cases h
  · cases h; rfl

theorem clearLocal_spec (d : List String) (fs : LocalFs) :
    (clearLocal d fs).2.Sublist fs ∧
    (∀ e ∈ fs, ¬ DatasetFile d e.1 → e ∈ (clearLocal d fs).2) ∧
    ((clearLocal d fs).1 = .ok () → ∀ e ∈ (clearLocal d fs).2,
      (∀ n, isBin n = true → e.1 ≠ d ++ [n]) ∧ ∀ rest, e.1 ≠ d ++ ".checkpoints" :: rest) := by
  obtain ⟨h1, h2, h3⟩ := removeBins_spec d (fs.listdir d) fs
  unfold clearLocal
  generalize hr : removeBins d (fs.listdir d) fs = r at *
  obtain ⟨r1, r2⟩ := r
  cases r1 with
  | error e => exact ⟨h1, fun e he hn => h2 e he fun n hb hp => hn (Or.inr (Or.inl ⟨n, hb, hp⟩)), by simp⟩
  | ok u =>
    simp only at *
    cases hm : LocalFs.rmtree r2 (d ++ [".checkpoints"]) with
    | error e => exact ⟨h1, fun e he hn => h2 e he fun n hb hp => hn (Or.inr (Or.inl ⟨n, hb, hp⟩)), by simp⟩
    | ok fs'' =>
      have hf := rmtree_ok hm
      refine ⟨(hf ▸ List.filter_sublist).trans h1, ?_, ?_⟩
      · intro e he hn
        simp only [hf, List.mem_filter]
        refine ⟨h2 e he fun n hb hp => hn (Or.inr (Or.inl ⟨n, hb, hp⟩)), ?_⟩
        simp only [Bool.not_eq_true', Bool.eq_false_iff]
        intro hp
        obtain ⟨rest, hrest⟩ := List.isPrefixOf_iff_prefix.1 hp
        exact hn (Or.inr (Or.inr ⟨rest, by rw [← hrest]; simp⟩))
      · intro _ e he
        simp only [hf, List.mem_filter] at he
        refine ⟨fun n hb hp => h3 trivial e he.1 n (mem_listdir (h1.subset he.1) hp) hb hp, ?_⟩
        intro rest hp
        have : (d ++ [".checkpoints"]).isPrefixOf e.1 = true :=
          List.isPrefixOf_iff_prefix.2 ⟨rest, by rw [hp]; simp⟩
        simp [this] at he

/-- Every part of `_assert_dir_has_index_file` keeps the files that are not part of a dataset in the
directory, and creates none. -/
theorem assertDirLocal_spec (d : List String) (mode : OptMode) (ck : Bool) (fs : LocalFs) :
    (assertDirLocal d mode ck fs).2.Sublist fs ∧
    (∀ e ∈ fs, ¬ DatasetFile d e.1 → e ∈ (assertDirLocal d mode ck fs).2) := by
  have key : ∀ m : OptMode, ((match (if fs.has (d ++ ["index.json"]) then fs.remove (d ++ ["index.json"]) else .ok fs) with
        | .error e => ((.error e, fs) : Py Unit × LocalFs)
        | .ok fs' => if clears m ck then clearLocal d fs' else (.ok (), fs')).2.Sublist fs) ∧
      ∀ e ∈ fs, ¬ DatasetFile d e.1 → e ∈ ((match (if fs.has (d ++ ["index.json"]) then fs.remove (d ++ ["index.json"]) else .ok fs) with
        | .error e => ((.error e, fs) : Py Unit × LocalFs)
        | .ok fs' => if clears m ck then clearLocal d fs' else (.ok (), fs')).2) := by
    intro m
    cases hr : (if fs.has (d ++ ["index.json"]) then fs.remove (d ++ ["index.json"]) else .ok fs) with
    | error e => exact ⟨List.Sublist.refl _, fun e he _ => he⟩
    | ok fs' =>
      have h : fs'.Sublist fs ∧ ∀ e ∈ fs, ¬ DatasetFile d e.1 → e ∈ fs' := by
        split at hr
        · have hf := remove_ok hr
          refine ⟨hf ▸ List.filter_sublist, fun e he hn => ?_⟩
          rw [hf, List.mem_filter]
          exact ⟨he, by simpa using fun hp => hn (Or.inl hp)⟩
        · cases hr; exact ⟨List.Sublist.refl _, fun e he _ => he⟩
      simp only
      split
      · obtain ⟨h1, h2, _⟩ := clearLocal_spec d fs'
        exact ⟨h1.trans h.1, fun e he hn => h2 e (h.2 e he hn) hn⟩
      · exact h
  cases mode with
  | other s => exact ⟨List.Sublist.refl _, fun e he _ => he⟩
  | append => exact ⟨List.Sublist.refl _, fun e he _ => he⟩
  | none =>
    simp only [assertDirLocal]
    split
    · split
      · exact ⟨List.Sublist.refl _, fun e he _ => he⟩
      · exact key .none
    · exact ⟨List.Sublist.refl _, fun e he _ => he⟩
  | overwrite =>
    simp only [assertDirLocal]
    split
    · split
      · exact ⟨List.Sublist.refl _, fun e he _ => he⟩
      · exact key .overwrite
    · exact ⟨List.Sublist.refl _, fun e he _ => he⟩

theorem has_of_mem {fs : LocalFs} {p : List String} {e : List String × Bytes} (he : e ∈ fs) (h : p <+: e.1) :
    fs.has p = true := by
  unfold LocalFs.has
  rw [List.any_eq_true]
  exact ⟨e, he, List.isPrefixOf_iff_prefix.2 h⟩

/-- **C36, `mode=None`.** If the local output directory holds an index, the call raises and every file of
the file system is left as it was, whatever `use_checkpoint` is. -/
theorem c36_none_refuses (d : List String) (ck : Bool) (fs : LocalFs) (b : Bytes)
    (h : (d ++ ["index.json"], b) ∈ fs) : assertDirLocal d .none ck fs = (.error .runtimeError, fs) := by
  have h1 : fs.has d = true := has_of_mem h (List.prefix_append _ _)
  have h2 : fs.has (d ++ ["index.json"]) = true := has_of_mem h (List.prefix_refl _)
  simp [assertDirLocal, h1, h2]

/-- **C36, every mode.** Nothing is created or changed, and only the index, the `.bin` files and the
checkpoints that lie in the output directory itself may be removed – also if the call raises half way. -/
theorem c36_only_dataset (d : List String) (mode : OptMode) (ck : Bool) (fs : LocalFs) :
    (∀ e ∈ (assertDirLocal d mode ck fs).2, e ∈ fs) ∧
    ∀ e ∈ fs, e ∉ (assertDirLocal d mode ck fs).2 →
      e.1 = d ++ ["index.json"] ∨ (∃ n, isBin n = true ∧ e.1 = d ++ [n]) ∨ ∃ rest, e.1 = d ++ ".checkpoints" :: rest := by
  obtain ⟨h1, h2⟩ := assertDirLocal_spec d mode ck fs
  refine ⟨fun e he => h1.subset he, fun e he hn => ?_⟩
  exact Classical.byContradiction fun hc => hn (h2 e he hc)

/-- **C36, `append`, resuming, unknown modes.** Nothing is removed: in append mode, when an unfinished run is
resumed from its checkpoints, and when the mode is refused. -/
theorem c36_kept (d : List String) (ck : Bool) (fs : LocalFs) (st : ObjStore) (path : List Char)
    (refuse : Bool) (b : Bucket) :
    assertDirLocal d .append ck fs = (.ok (), fs) ∧
    assertDirRemote st path .append ck refuse b = (.ok (), b) ∧
    (∀ s, assertDirLocal d (.other s) ck fs = (.error .valueError, fs)) ∧
    (∀ s, assertDirRemote st path (.other s) ck refuse b = (.error .valueError, b)) ∧
    (assertDirLocal d .none true fs).2 = fs ∧
    (assertDirRemote st path .none true refuse b).2 = b := by
  refine ⟨rfl, rfl, fun _ => rfl, fun _ => rfl, ?_, ?_⟩
  · simp only [assertDirLocal]
    by_cases h1 : fs.has d = true
    · by_cases h2 : fs.has (d ++ ["index.json"]) = true
      · simp [h1, h2]
      · simp [h1, h2, clears]
    · simp [h1]
  · simp only [assertDirRemote, clears]
    by_cases h1 : st.isEmpty b path = true
    · simp [h1]
    · by_cases h2 : hasIndexFile b refuse path = true
      · simp [h1, h2]
      · simp [h1, h2]

/-- **C36, `overwrite`.** When the call returns, no file of the earlier dataset is left in the directory: no
index, no chunk and no checkpoint that the new run could take for its own. -/
theorem c36_overwrite_clears (d : List String) (ck : Bool) (fs : LocalFs)
    (h : (assertDirLocal d .overwrite ck fs).1 = .ok ()) :
    ∀ e ∈ (assertDirLocal d .overwrite ck fs).2,
      e.1 ≠ d ++ ["index.json"] ∧ (∀ n, isBin n = true → e.1 ≠ d ++ [n]) ∧ ∀ rest, e.1 ≠ d ++ ".checkpoints" :: rest := by
  intro e
  by_cases h1 : fs.has d = true
  · simp only [assertDirLocal, h1, if_true, clears, beq_self_eq_true, Bool.true_or] at h ⊢
    rw [if_neg (by simp)] at h ⊢
    by_cases h2 : fs.has (d ++ ["index.json"]) = true
    · rw [if_pos h2] at h ⊢
      cases hr : fs.remove (d ++ ["index.json"]) with
      | error e' => rw [hr] at h; cases h
      | ok fs' =>
        rw [hr] at h
        simp only at h ⊢
        intro he
        obtain ⟨g1, _, g3⟩ := clearLocal_spec d fs'
        refine ⟨?_, g3 h e he⟩
        have := g1.subset he
        rw [remove_ok hr, List.mem_filter] at this
        simpa using this.2
    · rw [if_neg h2] at h ⊢
      simp only at h ⊢
      intro he
      obtain ⟨g1, _, g3⟩ := clearLocal_spec d fs
      exact ⟨fun hp => h2 (has_of_mem (g1.subset he) (hp ▸ List.prefix_refl _)), g3 h e he⟩
  · simp only [assertDirLocal, h1, Bool.false_eq_true, if_false]
    intro he
    refine ⟨?_, ?_, ?_⟩
    · exact fun hp => h1 (has_of_mem he (hp ▸ List.prefix_append _ _))
    · exact fun n _ hp => h1 (has_of_mem he (hp ▸ List.prefix_append _ _))
    · exact fun n hp => h1 (has_of_mem he (hp ▸ List.prefix_append _ _))

theorem nodup_eraseDups {α : Type} [BEq α] [LawfulBEq α] (n : Nat) (l : List α) (h : l.length ≤ n) :
    l.eraseDups.Nodup := by
  induction n generalizing l with
  | zero => rw [List.length_eq_zero_iff.1 (Nat.le_zero.1 h)]; simp
  | succ n ih =>
    cases l with
    | nil => simp
    | cons a l =>
      rw [List.eraseDups_cons, List.nodup_cons]
      refine ⟨?_, ih _ ?_⟩
      · rw [List.mem_eraseDups, List.mem_filter]
        simp
      · have := List.length_filter_le (fun b => !b == a) l
        simp only [List.length_cons] at h
        omega

/-- **C36, `overwrite` succeeds.** The call returns when no directory is named like a chunk or like the
index, and no file is named `.checkpoints`. -/
theorem c36_overwrite_returns (d : List String) (ck : Bool) (fs : LocalFs)
    (hdir : ∀ e ∈ fs, ∀ n rest, e.1 = d ++ n :: rest → isBin n = true ∨ n = "index.json" → rest = [])
    (hck : ∀ e ∈ fs, e.1 ≠ d ++ [".checkpoints"]) :
    (assertDirLocal d .overwrite ck fs).1 = .ok () := by
  have hfile : ∀ fs' : LocalFs, (∀ e ∈ fs', e ∈ fs) → ∀ n, isBin n = true ∨ n = "index.json" →
      fs'.has (d ++ [n]) = true → fs'.isFile (d ++ [n]) = true := by
    intro fs' hsub n hn hh
    unfold LocalFs.has at hh
    obtain ⟨e, he, hp⟩ := List.any_eq_true.1 hh
    obtain ⟨rest, hr⟩ := List.isPrefixOf_iff_prefix.1 hp
    have := hdir e (hsub e he) n rest (by rw [← hr]; simp) hn
    subst this
    exact List.any_eq_true.2 ⟨e, he, by simp [← hr]⟩
  have hloop : ∀ (names : List String) (fs' : LocalFs), names.Nodup → (∀ e ∈ fs', e ∈ fs) →
      (∀ n ∈ names, isBin n = true → fs'.has (d ++ [n]) = true) → (removeBins d names fs').1 = .ok () := by
    intro names
    induction names with
    | nil => intros; rfl
    | cons f names ih =>
      intro fs' hnd hsub hin
      have hnd' := List.nodup_cons.1 hnd
      unfold removeBins
      by_cases hb : isBin f = true
      · rw [if_pos hb]
        have hf := hfile fs' hsub f (Or.inl hb) (hin f (by simp) hb)
        have hr : fs'.remove (d ++ [f]) = .ok (fs'.filter fun e => e.1 != d ++ [f]) := by
          simp only [LocalFs.remove, hf, if_true]
        rw [hr]
        refine ih _ hnd'.2 (fun e he => hsub e ((List.mem_filter.1 he).1)) ?_
        intro n hn hbn
        obtain ⟨e, he, hp⟩ := List.any_eq_true.1 (hin n (by simp [hn]) hbn)
        refine List.any_eq_true.2 ⟨e, List.mem_filter.2 ⟨he, ?_⟩, hp⟩
        have hne : n ≠ f := fun hnf => hnd'.1 (hnf ▸ hn)
        obtain ⟨rest, hr⟩ := List.isPrefixOf_iff_prefix.1 hp
        simp only [bne_iff_ne, ne_eq]
        rw [← hr]
        intro hcc
        rw [List.append_assoc] at hcc
        have := List.append_cancel_left hcc
        simp at this
        exact hne this.1
      · rw [if_neg hb]
        exact ih fs' hnd'.2 hsub fun n hn hbn => hin n (by simp [hn]) hbn
  have hclear : ∀ fs' : LocalFs, (∀ e ∈ fs', e ∈ fs) → (clearLocal d fs').1 = .ok () := by
    intro fs' hsub
    have h1 := hloop (fs'.listdir d) fs' (nodup_eraseDups _ _ (Nat.le_refl _)) hsub (by
      intro n hn hb
      unfold LocalFs.listdir at hn
      rw [List.mem_eraseDups, List.mem_filterMap] at hn
      obtain ⟨e, he, hn⟩ := hn
      by_cases hp : d.isPrefixOf e.1 = true
      · rw [if_pos hp] at hn
        obtain ⟨rest, hr⟩ := List.isPrefixOf_iff_prefix.1 hp
        rw [← hr] at hn
        simp only [List.drop_left'] at hn
        cases rest with
        | nil => simp at hn
        | cons x rest =>
          simp at hn
          subst hn
          exact has_of_mem he ⟨rest, by rw [← hr]; simp⟩
      · rw [if_neg hp] at hn; cases hn)
    have h2 := (removeBins_spec d (fs'.listdir d) fs').1
    unfold clearLocal
    generalize removeBins d (fs'.listdir d) fs' = r at *
    obtain ⟨r1, r2⟩ := r
    simp only at h1 h2
    subst h1
    have hf : LocalFs.isFile r2 (d ++ [".checkpoints"]) = false := by
      rw [Bool.eq_false_iff]
      intro hc
      obtain ⟨e, he, hp⟩ := List.any_eq_true.1 hc
      exact hck e (hsub e (h2.subset he)) (by simpa using hp)
    simp [LocalFs.rmtree, hf]
  by_cases h1 : fs.has d = true
  · simp only [assertDirLocal, h1, if_true, clears, beq_self_eq_true, Bool.true_or]
    rw [if_neg (by simp)]
    by_cases h2 : fs.has (d ++ ["index.json"]) = true
    · rw [if_pos h2]
      have hf := hfile fs (fun _ h => h) _ (Or.inr rfl) h2
      have hr : fs.remove (d ++ ["index.json"]) = .ok (fs.filter fun e => e.1 != d ++ ["index.json"]) := by
        simp only [LocalFs.remove, hf, if_true]
      rw [hr]
      exact hclear _ fun e he => (List.mem_filter.1 he).1
    · rw [if_neg h2]
      exact hclear _ fun e he => he
  · simp [assertDirLocal, h1]

/-- Without a slash at the end there is nothing to strip. -/
theorem rstripSlash_eq {p : List Char} (h : p.getLast? ≠ some '/') : rstripSlash p = p := by
  unfold rstripSlash
  cases hr : p.reverse with
  | nil => simp_all
  | cons c r =>
    have : p.getLast? = some c := by
      rw [List.getLast?_eq_head?_reverse, hr]; rfl
    rw [this] at h
    rw [List.dropWhile_cons_of_neg (by simpa using fun hc => h (by rw [hc])), ← hr, List.reverse_reverse]

/-- **C36, `mode=None`, remote.** If the store holds the index of a dataset at the URL (written without a
slash at the end) and answers the request for it, the call raises and no object is removed. -/
theorem c36_remote_none_refuses (st : ObjStore) (path : List Char) (ck : Bool) (b : Bucket) (x : Bytes)
    (h1 : path.head? ≠ some '/') (h2 : path.getLast? ≠ some '/')
    (h : (path ++ "/index.json".toList, x) ∈ b) :
    assertDirRemote st path .none ck false b = (.error .runtimeError, b) := by
  have he : st.isEmpty b path = false := by
    have hl : lstripSlash path = path := by
      unfold lstripSlash
      cases path with
      | nil => rfl
      | cons c p => rw [List.dropWhile_cons_of_neg (by simpa using h1)]
    cases st with
    | s3 =>
      simp only [ObjStore.isEmpty, Bool.not_eq_false', hl, rstripSlash_eq h2]
      refine List.any_eq_true.2 ⟨_, h, List.isPrefixOf_iff_prefix.2 ⟨"index.json".toList, ?_⟩⟩
      simp
    | gcp =>
      simp only [ObjStore.isEmpty, Bool.not_eq_false']
      exact List.any_eq_true.2 ⟨_, h, List.isPrefixOf_iff_prefix.2 (List.prefix_append _ _)⟩
  simp [assertDirRemote, he, hasIndexFile, ObjStore.exists]

/-- **C36, remote, any mode.** No object is created, and only objects whose key begins with the path of the
URL may be removed. If the URL ends with a slash, these are the objects in the output directory. Without the
slash this is less than claimed: see `c36_sibling_removed`. -/
theorem c36_remote_prefix_partial (st : ObjStore) (path : List Char) (mode : OptMode) (ck refuse : Bool) (b : Bucket) :
    (∀ o ∈ (assertDirRemote st path mode ck refuse b).2, o ∈ b) ∧
    ∀ o ∈ b, o ∉ (assertDirRemote st path mode ck refuse b).2 → path <+: o.1 := by
  have hdel : (∀ o ∈ st.delete b path, o ∈ b) ∧ ∀ o ∈ b, o ∉ st.delete b path → path <+: o.1 := by
    refine ⟨fun o ho => (List.mem_filter.1 ho).1, fun o ho hn => ?_⟩
    have hm : o.1 ∈ st.listing b path := by
      refine Classical.byContradiction fun hc => hn (List.mem_filter.2 ⟨ho, ?_⟩)
      simp only [Bool.not_eq_true', Bool.eq_false_iff]
      simpa using hc
    have hm' : o.1 ∈ (b.filter fun o => path.isPrefixOf o.1).map (·.1) := by
      cases st with
      | s3 => exact List.mem_of_mem_take hm
      | gcp => exact hm
    obtain ⟨o', ho', he⟩ := List.mem_map.1 hm'
    rw [← he]
    exact List.isPrefixOf_iff_prefix.1 (List.mem_filter.1 ho').2
  have hid : (∀ o ∈ b, o ∈ b) ∧ ∀ o ∈ b, o ∉ b → path <+: o.1 := ⟨fun _ h => h, fun _ h h' => absurd h h'⟩
  cases mode with
  | other s => exact hid
  | append => exact hid
  | none =>
    simp only [assertDirRemote]
    split
    · exact hid
    · split
      · exact hid
      · split
        · exact hdel
        · exact hid
  | overwrite =>
    simp only [assertDirRemote]
    split
    · exact hid
    · split
      · exact hid
      · split
        · exact hdel
        · exact hid

/-- **C36, remote `overwrite`.** Of up to 1000 objects (any number with Google's store) none is left at the
URL. -/
theorem c36_remote_overwrite_clears (st : ObjStore) (path : List Char) (ck refuse : Bool) (b : Bucket)
    (hn : st = .s3 → (b.filter fun o => path.isPrefixOf o.1).length ≤ 1000)
    (hne : st.isEmpty b path = false) :
    (assertDirRemote st path .overwrite ck refuse b).1 = .ok () ∧
    ∀ o ∈ (assertDirRemote st path .overwrite ck refuse b).2, ¬ path <+: o.1 := by
  have hl : st.listing b path = (b.filter fun o => path.isPrefixOf o.1).map (·.1) := by
    cases st with
    | s3 =>
      simp only [ObjStore.listing]
      exact List.take_of_length_le (by simpa using hn rfl)
    | gcp => rfl
  have hst : assertDirRemote st path .overwrite ck refuse b = (.ok (), st.delete b path) := by
    simp [assertDirRemote, hne, clears]
  rw [hst]
  refine ⟨rfl, fun o ho hp => ?_⟩
  simp only [ObjStore.delete, hl] at ho
  have ho' := List.mem_filter.1 ho
  have : o.1 ∈ (b.filter fun o => path.isPrefixOf o.1).map (·.1) :=
    List.mem_map.2 ⟨o, List.mem_filter.2 ⟨ho'.1, List.isPrefixOf_iff_prefix.2 hp⟩, rfl⟩
  have := ho'.2
  simp_all

/-- **C36, refuted for a URL without a slash at the end.** `optimize(output_dir="s3://bucket/data",
mode="overwrite")` removes the dataset `s3://bucket/data-old` as well. -/
theorem c36_sibling_removed :
    assertDirRemote .s3 "data".toList .overwrite false false
      [("data/index.json".toList, []), ("data-old/chunk-0-0.bin".toList, [1]), ("data-old/index.json".toList, [])]
      = (.ok (), []) := by decide +kernel

/-- **C36, refuted for `mode=None` when the request for the index is refused.** An exception while asking for
the index (no permission to read the object, say) counts as "no index", and the dataset is removed. -/
theorem c36_refused_request_removes :
    assertDirRemote .s3 "data/".toList .none false true
      [("data/index.json".toList, []), ("data/chunk-0-0.bin".toList, [1])] = (.ok (), []) := by decide +kernel

/-- **C36, too strict for `mode=None`.** A remote directory with any object in it is refused although it holds
no index, since the answer of `exists` is not used. -/
theorem c36_no_index_refused :
    (assertDirRemote .s3 "data".toList .none false false [("data/readme.md".toList, [])]).1 = .error .runtimeError ∧
    (assertDirRemote .gcp "data".toList .none false false [("data-old/index.json".toList, [])]).1
      = .error .runtimeError := by decide +kernel

/-- **C36, refuted for more than 1000 objects on S3.** With the index listed after 1000 chunks it is left in
place by `overwrite`. -/
theorem c36_second_page_kept (chunks : List (List Char × Bytes)) (x : Bytes) (ck refuse : Bool)
    (hlen : chunks.length = 1000) (hpre : ∀ o ∈ chunks, "data/chunk-".toList <+: o.1) :
    ("data/index.json".toList, x) ∈
      (assertDirRemote .s3 "data/".toList .overwrite ck refuse (chunks ++ [("data/index.json".toList, x)])).2 := by
  have hne : ObjStore.isEmpty .s3 (chunks ++ [("data/index.json".toList, x)]) "data/".toList = false := by
    simp only [ObjStore.isEmpty, Bool.not_eq_false']
    refine List.any_eq_true.2 ⟨("data/index.json".toList, x), List.mem_append_right _ (List.mem_singleton.2 rfl), ?_⟩
    exact (by decide +kernel : ("data".toList ++ ['/']).isPrefixOf "data/index.json".toList = true)
  have hst : assertDirRemote .s3 "data/".toList .overwrite ck refuse (chunks ++ [("data/index.json".toList, x)])
      = (.ok (), ObjStore.delete .s3 (chunks ++ [("data/index.json".toList, x)]) "data/".toList) := by
    simp only [assertDirRemote, hne, clears]
    simp
  rw [hst]
  have hall : (chunks ++ [("data/index.json".toList, x)]).filter (fun o => "data/".toList.isPrefixOf o.1)
      = chunks ++ [("data/index.json".toList, x)] := by
    rw [List.filter_eq_self]
    intro o ho
    rcases List.mem_append.1 ho with ho | ho
    · refine List.isPrefixOf_iff_prefix.2 (List.IsPrefix.trans ?_ (hpre o ho))
      exact ⟨"chunk-".toList, by decide +kernel⟩
    · rw [List.mem_singleton.1 ho]
      exact (by decide +kernel : "data/".toList.isPrefixOf "data/index.json".toList = true)
  simp only [ObjStore.delete, ObjStore.listing, hall]
  refine List.mem_filter.2 ⟨List.mem_append_right _ (by simp), ?_⟩
  simp only [Bool.not_eq_true', Bool.eq_false_iff]
  intro hc
  rw [List.contains_iff_mem] at hc
  rw [List.map_append, List.take_left' (by simpa using hlen)] at hc
  obtain ⟨o, ho, he⟩ := List.mem_map.1 hc
  have := hpre o ho
  rw [he] at this
  exact absurd (List.isPrefixOf_iff_prefix.2 this) (by decide +kernel)

/-- **C36.** `map` checks only that a remote output directory is empty; it never removes anything, and a
local output directory is not checked at all. -/
theorem c36_map_check (st : ObjStore) (path : List Char) (b : Bucket) :
    assertDirEmpty none = .ok () ∧
    (assertDirEmpty (some (st, path, b)) = .ok () ↔ st.isEmpty b path = true) := by
  refine ⟨rfl, ?_⟩
  simp only [assertDirEmpty]
  split <;> simp_all

/-- A directory with a dataset, an unrelated file, and files outside. -/
def modesDemo : LocalFs :=
  [(["o", "index.json"], [1]), (["o", "chunk-0-0.bin"], [2]), (["o", "notes.txt"], [3]),
   (["o", ".checkpoints", "config.json"], [4]), (["o2", "chunk-0-0.bin"], [5]), (["o", "sub", "x.bin"], [6])]

example : assertDirLocal ["o"] .overwrite false modesDemo =
    (.ok (), [(["o", "notes.txt"], [3]), (["o2", "chunk-0-0.bin"], [5]), (["o", "sub", "x.bin"], [6])]) := by
  decide +kernel

example : (["o"] ++ ["index.json"], [1]) ∈ modesDemo := by decide

example : (∀ e ∈ modesDemo, ∀ n rest, e.1 = ["o"] ++ n :: rest → isBin n = true ∨ n = "index.json" → rest = []) ∧
    ∀ e ∈ modesDemo, e.1 ≠ ["o"] ++ [".checkpoints"] := by
  constructor
  · intro e he n rest h1 h2
    simp only [modesDemo, List.mem_cons, List.not_mem_nil, or_false] at he
    rcases he with rfl | rfl | rfl | rfl | rfl | rfl <;> simp at h1 <;> obtain ⟨rfl, rfl⟩ := h1 <;>
      revert h2 <;> decide +kernel
  · decide +kernel

example : let b : Bucket := [("data/index.json".toList, []), ("data/chunk-0-0.bin".toList, [1])]
    ("data".toList ++ "/index.json".toList, []) ∈ b ∧ "data".toList.head? ≠ some '/' ∧
    "data".toList.getLast? ≠ some '/' ∧ ObjStore.isEmpty .s3 b "data".toList = false := by decide +kernel

example : ∃ chunks : List (List Char × Bytes), chunks.length = 1000 ∧ ∀ o ∈ chunks, "data/chunk-".toList <+: o.1 :=
  ⟨List.replicate 1000 ("data/chunk-".toList, []), List.length_replicate, by
    intro o ho; rw [List.eq_of_mem_replicate ho]; exact List.prefix_refl _⟩

end LitData.Props
