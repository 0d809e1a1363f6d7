import Verif.Model.Upload
import Verif.Props.InputFiles
import Verif.Props.CacheSize
import Verif.Props.Resolver

/-!
C60: the uploaded files are where the dataset is read from.
-/

namespace LitData.Props

open LitData

/-- A part without slashes is in one of the two pieces around a slash. -/
theorem strContains_slash (part a b : PathStr) (hp : '/' ∉ part) (h : strContains part (a ++ '/' :: b) = true) :
    strContains part a = true ∨ strContains part b = true := by
  obtain ⟨x, y, h⟩ := (strContains_iff ..).1 h
  rw [List.append_assoc] at h
  rcases List.append_eq_append_iff.1 h with ⟨r, h1, h2⟩ | ⟨r, h1, h2⟩
  · cases r with
    | nil =>
      cases part with
      | nil => exact .inl ((strContains_iff ..).2 ⟨a, [], by simp⟩)
      | cons c part =>
        rw [List.nil_append, List.cons_append] at h2
        injection h2 with h2 _
        exact absurd (h2 ▸ List.mem_cons_self) hp
    | cons c r =>
      rw [List.cons_append] at h2
      injection h2 with _ h2
      exact .inr ((strContains_iff ..).2 ⟨r, y, by rw [h2, List.append_assoc]⟩)
  · rcases List.append_eq_append_iff.1 h2 with ⟨q, h3, h4⟩ | ⟨q, h3, h4⟩
    · exact .inl ((strContains_iff ..).2 ⟨x, q, by rw [h1, h3, List.append_assoc]⟩)
    · cases q with
      | nil => exact .inl ((strContains_iff ..).2 ⟨x, [], by rw [h1, h3]; simp⟩)
      | cons c q =>
        injection h4 with h4 _
        exact absurd (by rw [h3, ← h4]; simp) hp

theorem checkpoints_plain : '/' ∉ ".checkpoints".toList := by decide

theorem baseName_slash (a n : PathStr) (hn : '/' ∉ n) : baseName (a ++ '/' :: n) = n := by
  have h : ∀ l r : List Char, '/' ∉ l → (l ++ '/' :: r).takeWhile (· != '/') = l := by
    intro l
    induction l with
    | nil => intro r _; simp
    | cons c l ih =>
      intro r hc
      have h1 : c ≠ '/' := fun e => hc (e ▸ List.mem_cons_self)
      rw [List.cons_append, List.takeWhile_cons_of_pos (by simpa using h1), ih r fun h => hc (List.mem_cons_of_mem _ h)]
  unfold baseName
  rw [List.reverse_append, List.reverse_cons, List.append_assoc, List.singleton_append, h _ _ (by simpa using hn), List.reverse_reverse]

/-- The folder for the output, with or without a slash at its end. -/
def outputOf (base : PathStr) (slash : Bool) : PathStr := base ++ if slash then ['/'] else []

/-- A path below the output: neither empty nor absolute. -/
structure Below (rel : PathStr) : Prop where
  ne : rel ≠ []
  rel : rel.head? ≠ some '/'

theorem join_output (base : PathStr) (slash : Bool) (hb : base ≠ []) (he : base.getLast? ≠ some '/') (rel : PathStr) (hr : rel.head? ≠ some '/') :
    joinPath (outputOf base slash) rel = base ++ '/' :: rel := by
  unfold joinPath outputOf
  rw [if_neg hr]
  cases slash with
  | true => rw [if_pos (by simp)]; simp
  | false =>
    rw [if_neg]
    · simp
    · simp [hb, he]

theorem uploadSource_absolute (cacheDir file : PathStr) (h : file.head? = some '/') : uploadSource cacheDir file = file := by
  unfold uploadSource
  split
  · rfl
  · unfold joinPath
    rw [if_pos h]

theorem uploadSource_inside (cacheDir rest : PathStr) : uploadSource cacheDir (cacheDir ++ rest) = cacheDir ++ rest := by
  unfold uploadSource
  rw [if_pos (by simp)]

theorem removeUuid_plain (p : PathStr) (h : strContains ".checkpoints".toList p = false) : removeUuid p = p := by
  unfold removeUuid
  rw [h]
  rfl

theorem not_contains {a b : PathStr} (ha : strContains ".checkpoints".toList a = false) (hb : strContains ".checkpoints".toList b = false) :
    strContains ".checkpoints".toList (a ++ '/' :: b) = false := by
  cases h : strContains ".checkpoints".toList (a ++ '/' :: b) with
  | false => rfl
  | true =>
    rcases strContains_slash _ _ _ checkpoints_plain h with h | h
    · rw [ha] at h; cases h
    · rw [hb] at h; cases h

/-- The text `.checkpoints` is not in a path. -/
def NoCheckpoints (p : PathStr) : Prop := ∀ a b, p ≠ a ++ ".checkpoints".toList ++ b

theorem NoCheckpoints.eq {p : PathStr} (h : NoCheckpoints p) : strContains ".checkpoints".toList p = false := by
  cases hc : strContains ".checkpoints".toList p with
  | false => rfl
  | true =>
    obtain ⟨a, b, e⟩ := (strContains_iff ..).1 hc
    exact absurd e (h a b)

/-- **C60, one file of `optimize`.** A file of the cache folder goes to the output under its own name. -/
theorem c60_chunk (cacheDir base name : PathStr) (slash : Bool) (hb : base ≠ []) (he : base.getLast? ≠ some '/') (hn : '/' ∉ name)
    (h1 : NoCheckpoints cacheDir) (h2 : NoCheckpoints base) (h3 : NoCheckpoints name) :
    uploadTarget cacheDir (outputOf base slash) none (cacheDir ++ '/' :: name) = base ++ '/' :: name := by
  have hr : name.head? ≠ some '/' := fun h => hn (List.mem_of_mem_head? h)
  unfold uploadTarget
  simp only
  rw [uploadSource_inside, not_contains h1.eq h3.eq, if_neg (by decide), baseName_slash _ _ hn, join_output base slash hb he name hr,
    removeUuid_plain _ (not_contains h2.eq h3.eq)]

/-- A temporary folder that is found only once in the path of a file. -/
structure TmpOnce (tmp rel : PathStr) : Prop where
  absolute : tmp.head? = some '/'
  once : ∀ a b, '/' :: rel ≠ a ++ tmp ++ b

theorem pyReplace_tmp (tmp rel : PathStr) (h : TmpOnce tmp rel) : pyReplace tmp [] 0 (tmp ++ '/' :: rel) = '/' :: rel := by
  cases ht : tmp with
  | nil => have := h.absolute; rw [ht] at this; cases this
  | cons c d =>
    have hp : (c :: d).isPrefixOf (c :: (d ++ '/' :: rel)) = true := by
      rw [← List.cons_append]; simp
    have ho := h.once
    rw [ht] at ho
    rw [List.cons_append, pyReplace, if_pos hp, List.nil_append]
    show pyReplace (c :: d) [] d.length _ = _
    rw [pyReplace_skip, pyReplace_none _ _ _ ho]

/-- **C60, one file of `map`.** A file that the user's function left in its temporary folder goes to the same place below the output. -/
theorem c60_map (cacheDir base tmp rel : PathStr) (slash : Bool) (hb : base ≠ []) (he : base.getLast? ≠ some '/') (hr : Below rel) (ho : TmpOnce tmp rel)
    (h1 : NoCheckpoints tmp) (h2 : NoCheckpoints base) (h3 : NoCheckpoints rel) :
    uploadSource cacheDir (tmp ++ '/' :: rel) = tmp ++ '/' :: rel ∧
    uploadTarget cacheDir (outputOf base slash) (some tmp) (tmp ++ '/' :: rel) = base ++ '/' :: rel := by
  have hs : uploadSource cacheDir (tmp ++ '/' :: rel) = tmp ++ '/' :: rel := by
    apply uploadSource_absolute
    have := ho.absolute
    cases tmp with
    | nil => cases this
    | cons c d => exact this
  refine ⟨hs, ?_⟩
  unfold uploadTarget
  simp only
  rw [hs, not_contains h1.eq h3.eq, if_neg (by decide), pyReplace_tmp tmp rel ho]
  simp only [List.drop_succ_cons, List.drop_zero]
  rw [join_output base slash hb he rel hr.rel, removeUuid_plain _ (not_contains h2.eq h3.eq)]

theorem checkpoints_last (a : PathStr) : (a ++ '/' :: ".checkpoints".toList).getLast? ≠ some '/' := by
  rw [List.getLast?_append]
  show (some 's').or _ ≠ _
  simp

/-- **C60, checkpoints.** A checkpoint of the writer with some rank goes to the folder of checkpoints under a name without the random part. -/
theorem c60_checkpoint (cacheDir base uuid : PathStr) (slash : Bool) (rank : Nat) (hb : base ≠ []) (he : base.getLast? ≠ some '/')
    (hc : cacheDir ≠ []) (hce : cacheDir.getLast? ≠ some '/') (hu : uuid.length = 32) (hus : '/' ∉ uuid) :
    uploadTarget cacheDir (outputOf base slash) none (checkpointFile cacheDir rank uuid) =
      base ++ "/.checkpoints/checkpoint-".toList ++ Nat.toDigits 10 rank ++ ".json".toList := by
  have hd : '/' ∉ Nat.toDigits 10 rank := by
    intro h
    have := Nat.isDigit_of_mem_toDigits (by decide) (by decide) h
    revert this
    decide
  generalize hdig : Nat.toDigits 10 rank = dig at *
  have hname : '/' ∉ "checkpoint-".toList ++ dig ++ '-' :: uuid ++ ".json".toList := by
    simp only [List.mem_append, List.mem_cons]
    rintro (((h | h) | (h | h)) | h)
    · revert h; decide
    · exact hd h
    · revert h; decide
    · exact hus h
    · revert h; decide
  have hfile : checkpointFile cacheDir rank uuid = (cacheDir ++ '/' :: ".checkpoints".toList) ++ '/' :: ("checkpoint-".toList ++ dig ++ '-' :: uuid ++ ".json".toList) := by
    unfold checkpointFile
    rw [hdig, joinPath_plain cacheDir _ hc hce checkpoints_plain, joinPath_plain _ _ (by simp) (checkpoints_last _) hname]
  have hcont : strContains ".checkpoints".toList (checkpointFile cacheDir rank uuid) = true := by
    rw [strContains_iff, hfile]
    exact ⟨cacheDir ++ ['/'], '/' :: ("checkpoint-".toList ++ dig ++ '-' :: uuid ++ ".json".toList), by simp⟩
  have hsrc : uploadSource cacheDir (checkpointFile cacheDir rank uuid) = checkpointFile cacheDir rank uuid := by
    rw [hfile, List.append_assoc]
    exact uploadSource_inside _ _
  unfold uploadTarget
  simp only
  rw [hsrc, hcont, if_pos rfl, join_output base slash hb he _ (by decide), hfile, baseName_slash _ _ hname, joinPath_plain _ _ (by simp) (checkpoints_last _) hname]
  unfold removeUuid
  rw [if_pos ((strContains_iff ..).2 ⟨base ++ ['/'], '/' :: ("checkpoint-".toList ++ dig ++ '-' :: uuid ++ ".json".toList), by simp⟩)]
  have e : base ++ '/' :: ".checkpoints".toList ++ '/' :: ("checkpoint-".toList ++ dig ++ '-' :: uuid ++ ".json".toList) =
      (base ++ "/.checkpoints/checkpoint-".toList ++ dig) ++ ('-' :: uuid ++ ".json".toList) := by
    simp
  have hl : ('-' :: uuid ++ ".json".toList).length = 38 := by
    simp [hu]
  rw [e, List.length_append, hl, Nat.add_sub_cancel, List.take_left]

/-- **C60, checkpoints are found by their writers.** The checkpoint that a worker with some number looks for is the one of the writer whose rank is that number, and
no other. -/
theorem c60_checkpoint_found (cacheDir base uuid : PathStr) (slash : Bool) (rank worker : Nat) (hb : base ≠ []) (he : base.getLast? ≠ some '/')
    (hc : cacheDir ≠ []) (hce : cacheDir.getLast? ≠ some '/') (hu : uuid.length = 32) (hus : '/' ∉ uuid) :
    uploadTarget cacheDir (outputOf base slash) none (checkpointFile cacheDir rank uuid) = checkpointRead (outputOf base slash) worker ↔ rank = worker := by
  have hd : '/' ∉ Nat.toDigits 10 worker := by
    intro h
    have := Nat.isDigit_of_mem_toDigits (by decide) (by decide) h
    revert this
    decide
  have hname : '/' ∉ "checkpoint-".toList ++ Nat.toDigits 10 worker ++ ".json".toList := by
    simp only [List.mem_append]
    rintro ((h | h) | h)
    · revert h; decide
    · exact hd h
    · revert h; decide
  rw [c60_checkpoint cacheDir base uuid slash rank hb he hc hce hu hus]
  unfold checkpointRead
  rw [join_output base slash hb he _ (by decide), joinPath_plain _ _ (by simp) (checkpoints_last _) hname]
  have e : base ++ '/' :: ".checkpoints".toList ++ '/' :: ("checkpoint-".toList ++ Nat.toDigits 10 worker ++ ".json".toList) =
      base ++ "/.checkpoints/checkpoint-".toList ++ Nat.toDigits 10 worker ++ ".json".toList := by
    simp
  rw [e, List.append_left_inj, List.append_right_inj]
  exact ⟨toDigits_inj _ _, fun h => by rw [h]⟩

/-- **C60, fails: checkpoints on several nodes.** The rank of a writer counts the workers of the nodes before it (`processing/data_processor.py:602`), the number with
which its checkpoint is looked for does not (`processing/data_processor.py:1434`): from the second node on no worker finds its checkpoint, and each gets the one of a
worker of the first node. -/
theorem c60_other_nodes (cacheDir base uuid : PathStr) (slash : Bool) (node workers worker : Nat) (hnode : 0 < node)
    (hb : base ≠ []) (he : base.getLast? ≠ some '/') (hc : cacheDir ≠ []) (hce : cacheDir.getLast? ≠ some '/') (hu : uuid.length = 32) (hus : '/' ∉ uuid) :
    (∀ w < workers, uploadTarget cacheDir (outputOf base slash) none (checkpointFile cacheDir (node * workers + worker) uuid) ≠
      checkpointRead (outputOf base slash) w) ∧
    uploadTarget cacheDir (outputOf base slash) none (checkpointFile cacheDir (0 * workers + worker) uuid) = checkpointRead (outputOf base slash) worker := by
  constructor
  · intro w hlt h
    have := (c60_checkpoint_found cacheDir base uuid slash _ w hb he hc hce hu hus).1 h
    have : workers ≤ node * workers := Nat.le_mul_of_pos_left _ hnode
    omega
  · exact (c60_checkpoint_found cacheDir base uuid slash _ worker hb he hc hce hu hus).2 (by omega)

theorem removeUuid_ne (p : PathStr) (h : strContains ".checkpoints".toList p = true) : removeUuid p ≠ p := by
  intro e
  unfold removeUuid at e
  rw [if_pos h] at e
  have hl := congrArg List.length e
  rw [List.length_append, List.length_take] at hl
  obtain ⟨a, b, hp⟩ := (strContains_iff ..).1 h
  have hlen := congrArg List.length hp
  simp only [List.length_append] at hlen
  have h5 : ".json".toList.length = 5 := rfl
  have h12 : ".checkpoints".toList.length = 12 := rfl
  omega

/-- **C60, fails: outputs whose path has the text `.checkpoints`.** No chunk arrives under its name. -/
theorem c60_output_with_checkpoints (cacheDir base name : PathStr) (slash : Bool) (hb : base ≠ []) (he : base.getLast? ≠ some '/') (hn : '/' ∉ name)
    (h1 : NoCheckpoints cacheDir) (h3 : NoCheckpoints name) (h2 : ∃ a b, base = a ++ ".checkpoints".toList ++ b) :
    uploadTarget cacheDir (outputOf base slash) none (cacheDir ++ '/' :: name) ≠ base ++ '/' :: name := by
  have hr : name.head? ≠ some '/' := fun h => hn (List.mem_of_mem_head? h)
  unfold uploadTarget
  simp only
  rw [uploadSource_inside, not_contains h1.eq h3.eq, if_neg (by decide), baseName_slash _ _ hn, join_output base slash hb he name hr]
  apply removeUuid_ne
  obtain ⟨a, b, rfl⟩ := h2
  exact (strContains_iff ..).2 ⟨a, b ++ '/' :: name, by simp⟩

/-- **C60, fails: outputs of `map` with the text `.checkpoints`.** Such a file does not arrive at its place. -/
theorem c60_map_with_checkpoints (cacheDir base tmp rel : PathStr) (slash : Bool) (hb : base ≠ []) (he : base.getLast? ≠ some '/') (hr : Below rel)
    (ho : TmpOnce tmp rel) (h3 : ∃ a b, rel = a ++ ".checkpoints".toList ++ b) :
    uploadTarget cacheDir (outputOf base slash) (some tmp) (tmp ++ '/' :: rel) ≠ base ++ '/' :: rel := by
  have hs : uploadSource cacheDir (tmp ++ '/' :: rel) = tmp ++ '/' :: rel := by
    apply uploadSource_absolute
    have := ho.absolute
    cases tmp with
    | nil => cases this
    | cons c d => exact this
  have hin : strContains ".checkpoints".toList (tmp ++ '/' :: rel) = true := by
    obtain ⟨a, b, rfl⟩ := h3
    exact (strContains_iff ..).2 ⟨tmp ++ '/' :: a, b, by simp⟩
  have hrel : rel.head? ≠ some '/' := hr.rel
  unfold uploadTarget
  simp only
  rw [hs, hin, if_pos rfl, pyReplace_tmp tmp rel ho]
  simp only [List.drop_succ_cons, List.drop_zero]
  rw [join_output base slash hb he _ (by decide)]
  have hj : joinPath (base ++ '/' :: ".checkpoints".toList) rel = base ++ '/' :: (".checkpoints/".toList ++ rel) := by
    unfold joinPath
    rw [if_neg hrel, if_neg]
    · simp
    · rintro (h | h)
      · simp at h
      · exact checkpoints_last _ h
  rw [hj]
  unfold removeUuid
  rw [if_pos ((strContains_iff ..).2 ⟨base ++ ['/'], '/' :: rel, by simp⟩)]
  intro e
  have hl := congrArg List.length e
  have h5 : ".json".toList.length = 5 := rfl
  have h13 : ".checkpoints/".toList.length = 13 := rfl
  have hrl : 12 ≤ rel.length := by
    obtain ⟨a, b, rfl⟩ := h3
    simp only [List.length_append]
    have h12 : ".checkpoints".toList.length = 12 := rfl
    omega
  simp only [List.length_append, List.length_take, List.length_cons] at hl
  omega

/-- **C60, fails: outputs of different inputs with the same name.** They go to the same file, so only one of them stays. -/
theorem c60_map_same_name (cacheDir base tmp tmp' rel : PathStr) (slash : Bool) (hb : base ≠ []) (he : base.getLast? ≠ some '/') (hr : Below rel)
    (ho : TmpOnce tmp rel) (ho' : TmpOnce tmp' rel) (h1 : NoCheckpoints tmp) (h1' : NoCheckpoints tmp') (h2 : NoCheckpoints base) (h3 : NoCheckpoints rel) :
    uploadTarget cacheDir (outputOf base slash) (some tmp) (tmp ++ '/' :: rel) = uploadTarget cacheDir (outputOf base slash) (some tmp') (tmp' ++ '/' :: rel) := by
  rw [(c60_map cacheDir base tmp rel slash hb he hr ho h1 h2 h3).2, (c60_map cacheDir base tmp' rel slash hb he hr ho' h1' h2 h3).2]

/-- After the uploads, a path that is no target is as before, and a target of one file has the content of that file. -/
theorem uploadFiles_spec (cacheDir output : PathStr) (read : PathStr → Bytes) (files : List (Option PathStr × PathStr)) (out : PathStr → Option Bytes) :
    (∀ p, (∀ f ∈ files, uploadTarget cacheDir output f.1 f.2 ≠ p) → uploadFiles cacheDir output read files out p = out p) ∧
    ((files.map fun f => uploadTarget cacheDir output f.1 f.2).Nodup → ∀ f ∈ files,
      uploadFiles cacheDir output read files out (uploadTarget cacheDir output f.1 f.2) = some (read (uploadSource cacheDir f.2))) := by
  induction files generalizing out with
  | nil => exact ⟨fun _ _ => rfl, fun _ f hf => by cases hf⟩
  | cons g files ih =>
    obtain ⟨t, g⟩ := g
    constructor
    · intro p hp
      unfold uploadFiles
      rw [(ih _).1 p fun f hf => hp f (List.mem_cons_of_mem _ hf), if_neg]
      exact fun e => hp (t, g) List.mem_cons_self e.symm
    · intro hnd f hf
      rw [List.map_cons, List.nodup_cons] at hnd
      unfold uploadFiles
      rcases List.mem_cons.1 hf with rfl | hf
      · rw [(ih _).1 _ fun f' hf' e => hnd.1 (List.mem_map.2 ⟨f', hf', e⟩), if_pos rfl]
      · exact (ih _).2 hnd.2 f hf

/-- **C60, `optimize`.** After the files of the cache folder were uploaded in any order, each is at the output under its name, and nothing else at the output has
changed. -/
theorem c60_optimize (cacheDir base : PathStr) (slash : Bool) (hb : base ≠ []) (he : base.getLast? ≠ some '/') (h1 : NoCheckpoints cacheDir)
    (h2 : NoCheckpoints base) (names : List PathStr) (hnd : names.Nodup) (hn : ∀ n ∈ names, '/' ∉ n ∧ NoCheckpoints n) (read : PathStr → Bytes)
    (out : PathStr → Option Bytes) :
    (∀ n ∈ names, uploadFiles cacheDir (outputOf base slash) read (names.map fun n => (none, cacheDir ++ '/' :: n)) out (base ++ '/' :: n) =
      some (read (cacheDir ++ '/' :: n))) ∧
    ∀ p, (∀ n ∈ names, p ≠ base ++ '/' :: n) →
      uploadFiles cacheDir (outputOf base slash) read (names.map fun n => (none, cacheDir ++ '/' :: n)) out p = out p := by
  have ht : ∀ n ∈ names, uploadTarget cacheDir (outputOf base slash) none (cacheDir ++ '/' :: n) = base ++ '/' :: n :=
    fun n hm => c60_chunk cacheDir base n slash hb he (hn n hm).1 h1 h2 (hn n hm).2
  have hspec := uploadFiles_spec cacheDir (outputOf base slash) read (names.map fun n => (none, cacheDir ++ '/' :: n)) out
  constructor
  · intro n hm
    have := hspec.2 (by
      rw [List.map_map]
      have e : names.map ((fun f : Option PathStr × PathStr => uploadTarget cacheDir (outputOf base slash) f.1 f.2) ∘ fun n => (none, cacheDir ++ '/' :: n)) =
          names.map fun n => base ++ '/' :: n := List.map_congr_left fun n hm => ht n hm
      rw [e]
      exact List.Pairwise.map _ (fun a b hab h => hab (by simpa using h)) hnd) (none, cacheDir ++ '/' :: n) (List.mem_map.2 ⟨n, hm, rfl⟩)
    simp only at this
    rw [ht n hm, uploadSource_inside] at this
    exact this
  · intro p hp
    apply hspec.1
    intro f hf
    obtain ⟨n, hm, rfl⟩ := List.mem_map.1 hf
    rw [ht n hm]
    exact fun e => hp n hm e.symm

/-- **C60, `map`.** If the files that the calls of the user's function left in their temporary folders have different places there, then after the uploads each is at its
place below the output, and nothing else at the output has changed. -/
theorem c60_map_all (cacheDir base : PathStr) (slash : Bool) (hb : base ≠ []) (he : base.getLast? ≠ some '/') (h2 : NoCheckpoints base)
    (files : List (PathStr × PathStr)) (hnd : (files.map Prod.snd).Nodup)
    (hf : ∀ f ∈ files, Below f.2 ∧ TmpOnce f.1 f.2 ∧ NoCheckpoints f.1 ∧ NoCheckpoints f.2) (read : PathStr → Bytes) (out : PathStr → Option Bytes) :
    (∀ f ∈ files, uploadFiles cacheDir (outputOf base slash) read (files.map fun f => (some f.1, f.1 ++ '/' :: f.2)) out (base ++ '/' :: f.2) =
      some (read (f.1 ++ '/' :: f.2))) ∧
    ∀ p, (∀ f ∈ files, p ≠ base ++ '/' :: f.2) →
      uploadFiles cacheDir (outputOf base slash) read (files.map fun f => (some f.1, f.1 ++ '/' :: f.2)) out p = out p := by
  have ht : ∀ f ∈ files, uploadSource cacheDir (f.1 ++ '/' :: f.2) = f.1 ++ '/' :: f.2 ∧
      uploadTarget cacheDir (outputOf base slash) (some f.1) (f.1 ++ '/' :: f.2) = base ++ '/' :: f.2 :=
    fun f hm => c60_map cacheDir base f.1 f.2 slash hb he (hf f hm).1 (hf f hm).2.1 (hf f hm).2.2.1 h2 (hf f hm).2.2.2
  have hspec := uploadFiles_spec cacheDir (outputOf base slash) read (files.map fun f => (some f.1, f.1 ++ '/' :: f.2)) out
  constructor
  · intro f hm
    have := hspec.2 (by
      rw [List.map_map]
      have e : files.map ((fun f : Option PathStr × PathStr => uploadTarget cacheDir (outputOf base slash) f.1 f.2) ∘
          fun f : PathStr × PathStr => (some f.1, f.1 ++ '/' :: f.2)) = (files.map Prod.snd).map fun n => base ++ '/' :: n := by
        rw [List.map_map]
        exact List.map_congr_left fun f hm => (ht f hm).2
      rw [e]
      exact List.Pairwise.map _ (fun a b hab h => hab (by simpa using h)) hnd) (some f.1, f.1 ++ '/' :: f.2) (List.mem_map.2 ⟨f, hm, rfl⟩)
    simp only at this
    rw [(ht f hm).2, (ht f hm).1] at this
    exact this
  · intro p hp
    apply hspec.1
    intro g hg
    obtain ⟨f, hm, rfl⟩ := List.mem_map.1 hg
    simp only
    rw [(ht f hm).2]
    exact fun e => hp f hm e.symm

theorem noCheckpoints_of {p : PathStr} (h : strContains ".checkpoints".toList p = false) : NoCheckpoints p := by
  intro a b e
  rw [(strContains_iff ..).2 ⟨a, b, e⟩] at h
  cases h

example : uploadTarget "/tmp/chunks".toList "s3://bucket/data/".toList none "/tmp/chunks/chunk-0-3.bin".toList = "s3://bucket/data/chunk-0-3.bin".toList :=
  c60_chunk "/tmp/chunks".toList "s3://bucket/data".toList "chunk-0-3.bin".toList true (by decide) (by decide) (by decide) (noCheckpoints_of (by decide))
    (noCheckpoints_of (by decide)) (noCheckpoints_of (by decide))

example : uploadTarget "/cache/chunks".toList "/data".toList (some "/tmp/tmpa1".toList) "/tmp/tmpa1/cats/1.jpg".toList = "/data/cats/1.jpg".toList := by decide

example : uploadTarget "/cache/chunks".toList "/data".toList none "/cache/chunks/.checkpoints/checkpoint-12-0123456789abcdef0123456789abcdef.json".toList =
    "/data/.checkpoints/checkpoint-12.json".toList := by decide

example : TmpOnce "/tmp/tmpa1".toList "cats/1.jpg".toList := by
  refine ⟨by decide, fun a b e => ?_⟩
  have := (strContains_iff "/tmp/tmpa1".toList ('/' :: "cats/1.jpg".toList)).2 ⟨a, b, e⟩
  revert this
  decide

/-- **C60, the calls of `map`.** Each call leaves some files in a temporary folder of its own. If no two of all these files have the same place in their folders, every one
is at its place below the output at the end. -/
theorem c60_map_calls (cacheDir base : PathStr) (slash : Bool) (hb : base ≠ []) (he : base.getLast? ≠ some '/') (h2 : NoCheckpoints base)
    (calls : List (PathStr × List PathStr)) (hnd : (calls.flatMap Prod.snd).Nodup)
    (hf : ∀ c ∈ calls, NoCheckpoints c.1 ∧ ∀ r ∈ c.2, Below r ∧ TmpOnce c.1 r ∧ NoCheckpoints r) (read : PathStr → Bytes) (out : PathStr → Option Bytes) :
    (∀ c ∈ calls, ∀ r ∈ c.2, uploadFiles cacheDir (outputOf base slash) read (calls.flatMap fun c => mapUploads c.1 c.2) out (base ++ '/' :: r) =
      some (read (c.1 ++ '/' :: r))) ∧
    ∀ p, (∀ c ∈ calls, ∀ r ∈ c.2, p ≠ base ++ '/' :: r) →
      uploadFiles cacheDir (outputOf base slash) read (calls.flatMap fun c => mapUploads c.1 c.2) out p = out p := by
  have e1 : (calls.flatMap fun c => c.2.map fun r => (c.1, r)).map Prod.snd = calls.flatMap Prod.snd := by
    rw [List.map_flatMap, List.flatMap_def, List.flatMap_def]
    congr 1
    apply List.map_congr_left
    intro c _
    rw [List.map_map]
    exact List.map_id _
  have e2 : (calls.flatMap fun c => c.2.map fun r => (c.1, r)).map (fun f : PathStr × PathStr => (some f.1, f.1 ++ '/' :: f.2)) =
      calls.flatMap fun c => mapUploads c.1 c.2 := by
    rw [List.map_flatMap, List.flatMap_def, List.flatMap_def]
    congr 1
    apply List.map_congr_left
    intro c _
    rw [List.map_map]
    rfl
  have hm : ∀ f ∈ calls.flatMap (fun c => c.2.map fun r => (c.1, r)), ∃ c ∈ calls, ∃ r ∈ c.2, f = (c.1, r) := by
    intro f hf
    obtain ⟨c, hc, hf⟩ := List.mem_flatMap.1 hf
    obtain ⟨r, hr, rfl⟩ := List.mem_map.1 hf
    exact ⟨c, hc, r, hr, rfl⟩
  have hall := c60_map_all cacheDir base slash hb he h2 (calls.flatMap fun c => c.2.map fun r => (c.1, r)) (e1 ▸ hnd) (by
    intro f hmem
    obtain ⟨c, hc, r, hr, rfl⟩ := hm f hmem
    obtain ⟨a, b⟩ := hf c hc
    exact ⟨(b r hr).1, (b r hr).2.1, a, (b r hr).2.2⟩) read out
  rw [e2] at hall
  refine ⟨?_, ?_⟩
  · intro c hc r hr
    exact hall.1 (c.1, r) (List.mem_flatMap.2 ⟨c, hc, List.mem_map.2 ⟨r, hr, rfl⟩⟩)
  · intro p hp
    refine hall.2 p ?_
    intro f hmem
    obtain ⟨c, hc, r, hr, rfl⟩ := hm f hmem
    exact hp c hc r hr

end LitData.Props
