import Verif.Model.InputFiles

/-! C49: processing leaves the user's files alone and works on copies of them. -/

namespace LitData.Props

open LitData

/-- A path of an input that belongs to the input directory and does not look like the cache. -/
structure Proper (cfg : InputCfg) (p : PathStr) : Prop where
  under : ∃ rest, p = cfg.inputDir ++ rest
  notCache : cfg.cacheDir.isPrefixOf p = false

theorem pyReplace_skip (old new a s : PathStr) : pyReplace old new a.length (a ++ s) = pyReplace old new 0 s := by
  induction a with
  | nil => rfl
  | cons c a ih => simp only [List.cons_append, List.length_cons, pyReplace, ih]

/-- The copy of an input is in the cache directory. -/
theorem localCopy_under (cfg : InputCfg) (rest : PathStr) (h : cfg.inputDir ≠ []) :
    ∃ r, localCopy cfg (cfg.inputDir ++ rest) = cfg.cacheDir ++ r := by
  unfold localCopy
  cases hd : cfg.inputDir with
  | nil => exact absurd hd h
  | cons c d =>
    refine ⟨pyReplace (c :: d) cfg.cacheDir 0 rest, ?_⟩
    have hp : (c :: d).isPrefixOf ((c :: d) ++ rest) = true := by simp
    rw [List.cons_append, pyReplace, ← List.cons_append, if_pos hp]
    congr 1
    exact pyReplace_skip _ _ d rest

theorem isPrefixOf_iff (a b : PathStr) : a.isPrefixOf b = true ↔ ∃ r, b = a ++ r := by
  rw [List.isPrefixOf_iff_prefix]
  constructor
  · rintro ⟨r, h⟩; exact ⟨r, h.symm⟩
  · rintro ⟨r, h⟩; exact ⟨r, h.symm⟩

theorem localCopy_cache {cfg : InputCfg} {p : PathStr} (hi : cfg.inputDir ≠ []) (h : Proper cfg p) :
    cfg.cacheDir.isPrefixOf (localCopy cfg p) = true := by
  obtain ⟨rest, rfl⟩ := h.under
  exact (isPrefixOf_iff ..).2 (localCopy_under cfg rest hi)

theorem removeTarget_proper {cfg : InputCfg} {p : PathStr} (h : Proper cfg p) : removeTarget cfg p = localCopy cfg p := by
  simp [removeTarget, h.notCache]

theorem copyAll_other {cfg : InputCfg} (hi : cfg.inputDir ≠ []) {x : PathStr} (hx : cfg.cacheDir.isPrefixOf x = false)
    (paths : List PathStr) (h : ∀ p ∈ paths, Proper cfg p) (fs : InputFs) : (copyAll cfg fs paths).1 x = fs x := by
  induction paths generalizing fs with
  | nil => rfl
  | cons p paths ih =>
    have ih := ih fun q hq => h q (List.mem_cons_of_mem _ hq)
    simp only [copyAll]
    split
    · rfl
    · split
      · exact ih fs
      · split
        · rfl
        · rw [ih]
          simp only [InputFs.put]
          split
          · rename_i e
            rw [e, localCopy_cache hi (h p (List.mem_cons_self ..))] at hx
            cases hx
          · rfl

theorem removeItem_other {cfg : InputCfg} {x : PathStr} (paths : List PathStr) (h : ∀ p ∈ paths, removeTarget cfg p ≠ x)
    (fs : InputFs) : removeItem cfg fs paths x = fs x := by
  induction paths generalizing fs with
  | nil => rfl
  | cons p paths ih =>
    rw [removeItem, ih fun q hq => h q (List.mem_cons_of_mem _ hq)]
    simp only [InputFs.put]
    split
    · rename_i e
      exact absurd e.symm (h p (List.mem_cons_self ..))
    · rfl

/-- What a run may do: its inputs belong to the input directory, and what it uploads are files it made. -/
def InputOp.Allowed (cfg : InputCfg) (made : PathStr → Prop) : InputOp → Prop
  | .download paths => ∀ p ∈ paths, Proper cfg p
  | .remove paths => ∀ p ∈ paths, Proper cfg p
  | .uploaded file => made file
  | .write file _ => made file

theorem inputStep_other {cfg : InputCfg} (hi : cfg.inputDir ≠ []) {made : PathStr → Prop} {x : PathStr}
    (hx : cfg.cacheDir.isPrefixOf x = false) (hmade : ∀ f, made f → f ≠ x ∧ removeTarget cfg f ≠ x) (op : InputOp)
    (hop : InputOp.Allowed cfg made op) (fs : InputFs) : inputStep cfg fs op x = fs x := by
  cases op with
  | download paths =>
    simp only [inputStep, downloadItem]
    split
    · rfl
    · exact copyAll_other hi hx paths hop fs
  | remove paths =>
    refine removeItem_other paths (fun p hp e => ?_) fs
    have h1 := localCopy_cache hi (hop p hp)
    rw [← removeTarget_proper (hop p hp), e, hx] at h1
    cases h1
  | uploaded file =>
    refine removeItem_other [file] (fun p hp e => ?_) fs
    rcases List.mem_singleton.1 hp with rfl
    exact (hmade _ hop).2 e
  | write file content =>
    simp only [inputStep, InputFs.put]
    split
    · rename_i e; exact absurd e.symm (hmade _ hop).1
    · rfl

/-- C49. In every sequence of copies, removals, uploads and writes, a file outside the cache keeps its content, if the inputs
are in the input directory and do not look like the cache, and the file is none of those that the run makes. -/
theorem c49_user_files_partial (cfg : InputCfg) (hi : cfg.inputDir ≠ []) (made : PathStr → Prop) (x : PathStr)
    (hx : cfg.cacheDir.isPrefixOf x = false) (hmade : ∀ f, made f → f ≠ x ∧ removeTarget cfg f ≠ x) (ops : List InputOp)
    (hops : ∀ op ∈ ops, InputOp.Allowed cfg made op) (fs : InputFs) : inputRun cfg fs ops x = fs x := by
  induction ops generalizing fs with
  | nil => rfl
  | cons op ops ih =>
    rw [inputRun, List.foldl_cons]
    have := ih (fun o ho => hops o (List.mem_cons_of_mem _ ho)) (inputStep cfg fs op)
    rw [inputRun] at this
    rw [this, inputStep_other hi hx hmade op (hops op (List.mem_cons_self ..))]

/-- Every copy in the cache is a copy of its input. -/
def Coherent (cfg : InputCfg) (inputs : List PathStr) (fs : InputFs) : Prop :=
  ∀ p ∈ inputs, ∀ b, fs (localCopy cfg p) = some b → fs p = some b

theorem copyAll_coherent {cfg : InputCfg} (hi : cfg.inputDir ≠ []) {inputs : List PathStr} (hin : ∀ p ∈ inputs, Proper cfg p)
    (hinj : ∀ p ∈ inputs, ∀ q ∈ inputs, localCopy cfg p = localCopy cfg q → p = q) (paths : List PathStr)
    (hp : ∀ p ∈ paths, p ∈ inputs) (fs : InputFs) (h : Coherent cfg inputs fs) : Coherent cfg inputs (copyAll cfg fs paths).1 := by
  induction paths generalizing fs with
  | nil => exact h
  | cons p paths ih =>
    have ih := ih fun q hq => hp q (List.mem_cons_of_mem _ hq)
    have hpi := hp p (List.mem_cons_self ..)
    simp only [copyAll]
    split
    · exact h
    · rename_i content hc
      split
      · exact ih fs h
      · split
        · exact h
        · apply ih
          intro q hq b hb
          have hne : q ≠ localCopy cfg p := by
            intro e
            have h1 := localCopy_cache hi (hin p hpi)
            rw [← e, (hin q hq).notCache] at h1
            cases h1
          simp only [InputFs.put, if_neg hne]
          simp only [InputFs.put] at hb
          split at hb
          · rename_i e
            rw [hinj q hq p hpi e, hc]
            exact hb
          · exact h q hq b hb

theorem removeItem_coherent {cfg : InputCfg} {inputs : List PathStr}
    (paths : List PathStr) (hp : ∀ f ∈ paths, ∀ p ∈ inputs, removeTarget cfg f ≠ p) (fs : InputFs) (h : Coherent cfg inputs fs) :
    Coherent cfg inputs (removeItem cfg fs paths) := by
  induction paths generalizing fs with
  | nil => exact h
  | cons f paths ih =>
    rw [removeItem]
    apply ih (fun q hq => hp q (List.mem_cons_of_mem _ hq))
    intro q hq b hb
    simp only [InputFs.put] at hb ⊢
    split at hb
    · cases hb
    · rw [if_neg (fun e => hp f (List.mem_cons_self ..) q hq e.symm)]
      exact h q hq b hb

/-- C49, the copies: as long as distinct inputs have distinct copies, whatever is at the place of a copy has the content of its input. -/
theorem c49_copies_partial (cfg : InputCfg) (hi : cfg.inputDir ≠ []) (inputs : List PathStr) (hin : ∀ p ∈ inputs, Proper cfg p)
    (hinj : ∀ p ∈ inputs, ∀ q ∈ inputs, localCopy cfg p = localCopy cfg q → p = q) (made : PathStr → Prop)
    (hmade : ∀ f, made f → ∀ p ∈ inputs, f ≠ p ∧ f ≠ localCopy cfg p ∧ removeTarget cfg f ≠ p) (ops : List InputOp)
    (hops : ∀ op ∈ ops, match op with
      | .download paths => ∀ p ∈ paths, p ∈ inputs
      | .remove paths => ∀ p ∈ paths, p ∈ inputs
      | .uploaded f => made f
      | .write f _ => made f)
    (fs : InputFs) (h : Coherent cfg inputs fs) : Coherent cfg inputs (inputRun cfg fs ops) := by
  induction ops generalizing fs with
  | nil => exact h
  | cons op ops ih =>
    rw [inputRun, List.foldl_cons]
    apply ih fun o ho => hops o (List.mem_cons_of_mem _ ho)
    have hop := hops op (List.mem_cons_self ..)
    cases op with
    | download paths =>
      simp only [inputStep, downloadItem]
      split
      · exact h
      · exact copyAll_coherent hi hin hinj paths hop fs h
    | remove paths =>
      refine removeItem_coherent paths (fun f hf p hp e => ?_) fs h
      have h1 := localCopy_cache hi (hin f (hop f hf))
      rw [← removeTarget_proper (hin f (hop f hf)), e, (hin p hp).notCache] at h1
      cases h1
    | uploaded f =>
      refine removeItem_coherent [f] (fun g hg p hp e => ?_) fs h
      rcases List.mem_singleton.1 hg with rfl
      exact (hmade _ hop p hp).2.2 e
    | write f content =>
      intro p hp b hb
      have := hmade f hop p hp
      simp only [inputStep, InputFs.put] at hb ⊢
      rw [if_neg (fun e => this.2.1 e.symm)] at hb
      rw [if_neg (fun e => this.1 e.symm)]
      exact h p hp b hb

theorem put_same (fs : InputFs) (p : PathStr) (c : Option Bytes) : (fs.put p c) p = c := by simp [InputFs.put]

theorem copyAll_there {cfg : InputCfg} (hi : cfg.inputDir ≠ [])
    (paths : List PathStr) (h : ∀ p ∈ paths, Proper cfg p ∧ thisStudio.isPrefixOf p = false) (fs : InputFs)
    (hfs : ∀ p ∈ paths, fs p ≠ none) :
    (copyAll cfg fs paths).2 = none ∧ (∀ x, fs x ≠ none → (copyAll cfg fs paths).1 x ≠ none) ∧
      ∀ p ∈ paths, (copyAll cfg fs paths).1 (localCopy cfg p) ≠ none := by
  induction paths generalizing fs with
  | nil => exact ⟨rfl, fun _ h => h, fun p hp => by cases hp⟩
  | cons p paths ih =>
    obtain ⟨hp1, hp2⟩ := h p (List.mem_cons_self ..)
    simp only [copyAll]
    split
    · rename_i e
      exact absurd e (hfs p (List.mem_cons_self ..))
    · rename_i content hc
      have hne : localCopy cfg p ≠ p := by
        intro e
        have h1 := localCopy_cache hi hp1
        rw [e, hp1.notCache] at h1
        cases h1
      rw [hp2]
      simp only [Bool.false_eq_true, if_false, if_neg hne]
      have hkeep : ∀ x, fs x ≠ none → (fs.put (localCopy cfg p) (some content)) x ≠ none := by
        intro x hx
        simp only [InputFs.put]
        split
        · simp
        · exact hx
      obtain ⟨i1, i2, i3⟩ := ih (fun q hq => h q (List.mem_cons_of_mem _ hq)) (fs.put (localCopy cfg p) (some content))
        (fun q hq => hkeep q (hfs q (List.mem_cons_of_mem _ hq)))
      refine ⟨i1, fun x hx => i2 x (hkeep x hx), fun q hq => ?_⟩
      rcases List.mem_cons.1 hq with rfl | hq
      · exact i2 _ (by rw [put_same]; simp)
      · exact i3 q hq

/-- After the request for an item, without error, the worker finds at its paths the content of the inputs. -/
theorem c49_worker_reads (cfg : InputCfg) (hi : cfg.inputDir ≠ []) (hst : thisStudio.isPrefixOf cfg.inputDir = false)
    (inputs : List PathStr) (hin : ∀ p ∈ inputs, Proper cfg p)
    (hinj : ∀ p ∈ inputs, ∀ q ∈ inputs, localCopy cfg p = localCopy cfg q → p = q) (fs : InputFs) (h : Coherent cfg inputs fs)
    (paths : List PathStr) (hp : ∀ p ∈ paths, p ∈ inputs ∧ fs p ≠ none) (hps : ∀ p ∈ paths, thisStudio.isPrefixOf p = false) :
    (downloadItem cfg fs paths).2 = none ∧ ∀ p ∈ paths, (downloadItem cfg fs paths).1 (workerPath cfg p) = fs p := by
  have hproper : ∀ p ∈ paths, Proper cfg p ∧ thisStudio.isPrefixOf p = false :=
    fun p hpp => ⟨hin p (hp p hpp).1, hps p hpp⟩
  have hw : ∀ p, workerPath cfg p = localCopy cfg p := by simp [workerPath, hst]
  simp only [downloadItem]
  split
  · rename_i hall
    refine ⟨rfl, fun p hpp => ?_⟩
    rw [List.all_eq_true] at hall
    have := hall p hpp
    rw [hw]
    cases hc : fs (localCopy cfg p) with
    | none => simp [hc] at this
    | some b =>
      simp only [hc]
      exact (h p (hp p hpp).1 b hc).symm
  · obtain ⟨h1, _, h3⟩ := copyAll_there hi paths hproper fs fun p hpp => (hp p hpp).2
    refine ⟨h1, fun p hpp => ?_⟩
    rw [hw]
    have hcoh := copyAll_coherent hi hin hinj paths (fun q hq => (hp q hq).1) fs h
    cases hc : (copyAll cfg fs paths).1 (localCopy cfg p) with
    | none => exact absurd hc (h3 p hpp)
    | some b =>
      have := hcoh p (hp p hpp).1 b hc
      rw [← this, copyAll_other hi (hin p (hp p hpp).1).notCache paths (fun q hq => hin q (hp q hq).1)]

theorem pyReplace_none (old new s : PathStr) (h : ∀ a b, s ≠ a ++ old ++ b) : pyReplace old new 0 s = s := by
  induction s with
  | nil => rfl
  | cons c s ih =>
    rw [pyReplace, if_neg, ih]
    · intro a b e
      exact h (c :: a) b (by rw [e]; rfl)
    · intro hp
      obtain ⟨r, hr⟩ := (isPrefixOf_iff ..).1 hp
      exact h [] r hr

/-- Where the copy of an input is, if the path of the input directory does not occur again in the rest of the path; such inputs have
distinct copies. -/
theorem c49_copy_path (cfg : InputCfg) (hi : cfg.inputDir ≠ []) (rest : PathStr) (h : ∀ a b, rest ≠ a ++ cfg.inputDir ++ b) :
    localCopy cfg (cfg.inputDir ++ rest) = cfg.cacheDir ++ rest := by
  unfold localCopy
  cases hd : cfg.inputDir with
  | nil => exact absurd hd hi
  | cons c d =>
    have hp : (c :: d).isPrefixOf ((c :: d) ++ rest) = true := by simp
    rw [List.cons_append, pyReplace, ← List.cons_append, if_pos hp]
    congr 1
    rw [List.length_cons, Nat.add_sub_cancel, pyReplace_skip]
    rw [hd] at h
    exact pyReplace_none _ _ _ h

/-- After an item was processed its copies are removed, and nothing else. -/
theorem c49_removes_copies (cfg : InputCfg) (paths : List PathStr) (h : ∀ p ∈ paths, Proper cfg p) (fs : InputFs) (x : PathStr) :
    removeItem cfg fs paths x = if ∃ p ∈ paths, x = localCopy cfg p then none else fs x := by
  induction paths generalizing fs with
  | nil => simp [removeItem]
  | cons p paths ih =>
    rw [removeItem, ih (fun q hq => h q (List.mem_cons_of_mem _ hq)), removeTarget_proper (h p (List.mem_cons_self ..))]
    by_cases hx : ∃ q ∈ paths, x = localCopy cfg q
    · obtain ⟨q, hq, e⟩ := hx
      rw [if_pos ⟨q, hq, e⟩, if_pos ⟨q, List.mem_cons_of_mem _ hq, e⟩]
    · rw [if_neg hx]
      simp only [InputFs.put]
      by_cases e : x = localCopy cfg p
      · rw [if_pos e, if_pos ⟨p, List.mem_cons_self .., e⟩]
      · rw [if_neg e, if_neg]
        rintro ⟨q, hq, e'⟩
        rcases List.mem_cons.1 hq with rfl | hq
        · exact e e'
        · exact hx ⟨q, hq, e'⟩

/-- **Inputs next to the cache are deleted.** The remover compares paths as text: an input whose path merely begins with the characters of
the cache directory is taken for a copy and removed. -/
theorem c49_prefix_deleted (cfg : InputCfg) (p : PathStr) (h : cfg.cacheDir.isPrefixOf p = true) (fs : InputFs) :
    inputRun cfg fs [.download [p], .remove [p]] p = none := by
  simp [inputRun, inputStep, removeItem, removeTarget, h, InputFs.put]

/-- With the default cache directory `/tmp/data` this happens to every input in `/tmp/dataset`. -/
theorem c49_tmp_dataset_deleted (fs : InputFs) (b : Bytes) (h : fs "/tmp/dataset/a.jpg".toList = some b) :
    inputRun ⟨"/tmp/dataset".toList, "/tmp/data".toList⟩ fs
      [.download ["/tmp/dataset/a.jpg".toList], .remove ["/tmp/dataset/a.jpg".toList]] "/tmp/dataset/a.jpg".toList = none ∧
    inputRun ⟨"/tmp/dataset".toList, "/tmp/data".toList⟩ fs [.download ["/tmp/dataset/a.jpg".toList]] "/tmp/dataset/a.jpg".toList
      = some b := by
  refine ⟨c49_prefix_deleted ⟨"/tmp/dataset".toList, "/tmp/data".toList⟩ "/tmp/dataset/a.jpg".toList (by decide +kernel) fs, ?_⟩
  have h1 : localCopy ⟨"/tmp/dataset".toList, "/tmp/data".toList⟩ "/tmp/dataset/a.jpg".toList = "/tmp/data/a.jpg".toList := by
    decide +kernel
  have h2 : ("/tmp/data/a.jpg".toList = "/tmp/dataset/a.jpg".toList) = False := by
    simp only [eq_iff_iff, iff_false]; decide +kernel
  have h3 : ("/tmp/dataset/a.jpg".toList = "/tmp/data/a.jpg".toList) = False := by
    simp only [eq_iff_iff, iff_false]; decide +kernel
  have h4 : thisStudio.isPrefixOf "/tmp/dataset/a.jpg".toList = false := by decide +kernel
  simp only [inputRun, List.foldl_cons, List.foldl_nil, inputStep, downloadItem]
  split
  · exact h
  · simp only [copyAll, h, h4, h1, h2, if_false, Bool.false_eq_true, InputFs.put, h3]

/-- **Inputs elsewhere are deleted.** An input in whose path the input directory does not occur (a file outside it, or a link
in it that leads outside, which `_to_path` resolves) has no copy: the request succeeds, the worker reads the file itself, and the
remover deletes it. -/
theorem c49_outside_deleted (cfg : InputCfg) (p : PathStr) (h : ∀ a b, p ≠ a ++ cfg.inputDir ++ b) (fs : InputFs) (b : Bytes)
    (hb : fs p = some b) : downloadItem cfg fs [p] = (fs, none) ∧ workerPath cfg p = p ∧
    inputRun cfg fs [.download [p], .remove [p]] p = none := by
  have hl : localCopy cfg p = p := pyReplace_none _ _ _ h
  refine ⟨by simp [downloadItem, hl, hb], by simp [workerPath, hl], ?_⟩
  simp [inputRun, inputStep, removeItem, removeTarget, hl, InputFs.put]

/-- If such an input comes with one that has still to be copied, the downloader dies of a `SameFileError`. -/
theorem c49_mixed_fails (cfg : InputCfg) (p q : PathStr) (hq : localCopy cfg q = q) (fs : InputFs)
    (hfq : fs q ≠ none) (hcopy : fs (localCopy cfg p) = none) (hs : thisStudio.isPrefixOf q = false) :
    (downloadItem cfg fs [q, p]).2 = some .exception := by
  simp only [downloadItem, List.all_cons, hcopy, Option.isSome_none, Bool.false_and, Bool.and_false, Bool.false_eq_true, if_false,
    copyAll]
  cases h : fs q with
  | none => exact absurd h hfq
  | some b => simp only [hs, hq, Bool.false_eq_true, if_false, if_true]

/-- **Two inputs, one copy**: every occurrence of the input directory is replaced, so that inputs may share their copy. -/
theorem c49_shared_copy : localCopy ⟨"/d".toList, "/c".toList⟩ "/d/x/d/y".toList = "/c/x/c/y".toList ∧
    localCopy ⟨"/d".toList, "/c".toList⟩ "/d/x/c/y".toList = "/c/x/c/y".toList := by decide +kernel

/-- The assumptions of the theorems above, for a usual case. -/
example : Proper ⟨"/data/in".toList, "/tmp/data".toList⟩ "/data/in/a.jpg".toList := ⟨⟨"/a.jpg".toList, by decide +kernel⟩, by decide +kernel⟩

example : localCopy ⟨"/data/in".toList, "/tmp/data".toList⟩ "/data/in/a.jpg".toList = "/tmp/data/a.jpg".toList := by decide +kernel

end LitData.Props
