import Verif.Props.CacheLoader
import Verif.Props.ParquetIndex
import Verif.Props.InputFiles
import Verif.Props.MergeDatasets
import Verif.Props.Validate
import Verif.Props.Resolver

/-!
What is refused, and other details that the main theorems take from the model without pinning them down.
-/

namespace LitData.Props

open LitData

/-- The bits of a NaN: all bits of the exponent are set and some of the mantissa. -/
def isNan (x : UInt64) : Prop := x.toNat / 2 ^ 52 % 2 ^ 11 = 2 ^ 11 - 1 ∧ x.toNat % 2 ^ 52 ≠ 0

/-- **C56, floats.** Two floats are taken for equal if neither is a NaN and they have the same bits or both are zeros, of any sign. -/
theorem c56_float_equal (a b : UInt64) :
    floatEqual a b = true ↔ ¬ isNan a ∧ ¬ isNan b ∧ (a = b ∨ (a.toNat % 2 ^ 63 = 0 ∧ b.toNat % 2 ^ 63 = 0)) := by
  have hnan : ∀ x : UInt64, isNan x ↔ 0x7FF0000000000000 < x.toNat % 2 ^ 63 := by
    intro x
    unfold isNan
    omega
  unfold floatEqual
  simp only [hnan]
  split
  · rename_i h
    constructor
    · intro h'; cases h'
    · rintro ⟨h1, h2, _⟩
      rcases h with h | h
      · exact absurd h h1
      · exact absurd h h2
  · rename_i h
    simp only [not_or] at h
    simp only [Bool.or_eq_true, Bool.and_eq_true, beq_iff_eq]
    exact ⟨fun g => ⟨h.1, h.2, g⟩, fun g => g.2.2⟩

example : floatEqual 0 0x8000000000000000 = true ∧ floatEqual 0x7FF8000000000000 0x7FF8000000000000 = false := by decide

/-- **C56, the check finds a difference.** If no other types of leaves are taken for equal than equal ones, and the samples hold no floats, arrays or truth values, then samples that pass the
check have the same leaves. -/
theorem c56_check_exact (other : LeafTree → LeafTree → Bool) (ho : ∀ a b, other a b = true → a = b) (x y : LeafTree)
    (hx : ∀ l ∈ (flatten Leaf.isJpeg x).1, (∀ f, l ≠ .leaf (.float f)) ∧ (∀ f, l ≠ .leaf (.bool f)))
    (h : equalItems other x y = true) : (flatten Leaf.isJpeg x).1 = (flatten Leaf.isJpeg y).1 := by
  unfold equalItems at h
  simp only at h
  generalize (flatten Leaf.isJpeg x).1 = a at *
  generalize (flatten Leaf.isJpeg y).1 = b at *
  split at h
  · cases h
  · rename_i hlen
    have hlen : a.length = b.length := Decidable.of_not_not hlen
    rw [List.all_eq_true] at h
    apply List.ext_getElem hlen
    intro i h1 h2
    have hz := h (a[i], b[i]) (by
      rw [List.mem_iff_getElem]
      exact ⟨i, by simp; omega, by simp⟩)
    have hl := hx a[i] (List.getElem_mem h1)
    simp only at hz
    revert hz hl
    generalize a[i] = p
    generalize b[i] = q
    intro hz hl
    unfold equalItem at hz
    split at hz
    · simp_all
    · exact absurd rfl (hl.2 _)
    · exact absurd rfl (hl.2 _)
    · simp_all
    · exact absurd rfl (hl.1 _)
    · simp_all
    · cases hz
    · cases hz
    · exact ho _ _ hz

/-- **C55, where files may be.** Exactly these schemes are known. -/
theorem c55_schemes (scheme : String) : (∃ k, pqClass scheme = .ok k) ↔ scheme ∈ ["", "local", "gs", "s3", "hf"] := by
  unfold pqClass
  by_cases h1 : scheme = "local" ∨ scheme = ""
  · rw [if_pos h1]
    rcases h1 with rfl | rfl <;> simp
  · rw [if_neg h1]
    simp only [not_or] at h1
    by_cases h2 : scheme = "gs" ∨ scheme = "s3"
    · rw [if_pos h2]
      rcases h2 with rfl | rfl <;> simp
    · rw [if_neg h2]
      simp only [not_or] at h2
      by_cases h3 : scheme = "hf"
      · rw [if_pos h3]; simp [h3]
      · rw [if_neg h3]
        simp [h1, h2, h3]

/-- **C55, truncated files.** A remote file that is shorter than the footer it declares is refused. -/
theorem c55_truncated (kind : PqKind) (hk : kind ≠ .local) (rest magic : Bytes) (n : Nat) (hn : n < 2 ^ 32) (hm : magic.length = 4)
    (hshort : rest.length < n) : pqFooter kind (rest ++ leBytes 4 n ++ magic) = .error .valueError := by
  have hl : ∀ k m, (leBytes k m).length = k := by
    intro k
    induction k with
    | zero => intro m; rfl
    | succ k ih => intro m; simp [leBytes, ih]
  have hlen : (rest ++ leBytes 4 n ++ magic).length = rest.length + 8 := by
    simp only [List.length_append, hl, hm]
  have hd : ((rest ++ leBytes 4 n ++ magic).drop ((rest ++ leBytes 4 n ++ magic).length - 8)).take 4 = leBytes 4 n := by
    rw [hlen, Nat.add_sub_cancel, List.append_assoc, List.drop_left, List.take_left' (hl 4 n)]
  have hn' : n % 256 ^ 4 = n := Nat.mod_eq_of_lt (by simpa using hn)
  unfold pqFooter
  rw [if_neg hk]
  simp only
  rw [hd, leNat_leBytes, hn', hlen, if_neg (by omega), if_pos (by omega)]

/-- **C55, the root directory.** The directory of a pattern at the top is the root. -/
theorem c55_root (name : PathStr) (h : '/' ∉ name) : osSplit ('/' :: name) = (['/'], name) := by
  have hrev : ∀ l : List Char, '/' ∉ l → (l ++ ['/']).dropWhile (· != '/') = ['/'] ∧ (l ++ ['/']).takeWhile (· != '/') = l := by
    intro l
    induction l with
    | nil => intro _; exact ⟨by decide, by decide⟩
    | cons c l ih =>
      intro hc
      have h1 : c ≠ '/' := fun e => hc (e ▸ List.mem_cons_self)
      have := ih fun h => hc (List.mem_cons_of_mem _ h)
      rw [List.cons_append, List.dropWhile_cons_of_pos (by simpa using h1), List.takeWhile_cons_of_pos (by simpa using h1)]
      exact ⟨this.1, by rw [this.2]⟩
  unfold osSplit
  simp only [List.reverse_cons]
  obtain ⟨h1, h2⟩ := hrev name.reverse (by simpa using h)
  rw [h1, h2]
  simp only [List.reverse_reverse]
  rfl

/-- **C49, the files of this Studio.** Inputs in the running Studio are neither copied nor renamed. -/
theorem c49_this_studio (cfg : InputCfg) (rest : PathStr) (hd : cfg.inputDir = "/teamspace/studios/this_studio".toList ++ rest) (paths : List PathStr)
    (hp : ∀ p ∈ paths, "/teamspace/studios/this_studio".toList <+: p) (fs : InputFs) (hf : ∀ p ∈ paths, fs p ≠ none) :
    downloadItem cfg fs paths = (fs, none) ∧ ∀ p ∈ paths, workerPath cfg p = p := by
  have hcopy : ∀ l : List PathStr, (∀ p ∈ l, p ∈ paths) → copyAll cfg fs l = (fs, none) := by
    intro l
    induction l with
    | nil => intro _; rfl
    | cons p l ih =>
      intro h
      have hpm := h p List.mem_cons_self
      rw [copyAll]
      cases hc : fs p with
      | none => exact absurd hc (hf p hpm)
      | some content =>
        simp only
        rw [if_pos (show thisStudio.isPrefixOf p = true from List.isPrefixOf_iff_prefix.2 (hp p hpm))]
        exact ih fun q hq => h q (List.mem_cons_of_mem _ hq)
  constructor
  · unfold downloadItem
    split
    · rfl
    · exact hcopy paths fun _ h => h
  · intro p _
    unfold workerPath
    rw [if_pos]
    rw [hd]
    exact List.isPrefixOf_iff_prefix.2 (List.prefix_append _ _)

/-- **C17, files that are not in the index.** A subsample that names a file without a chunk is refused. -/
theorem c17_missing_file (original : List ChunkInfo) (files : List String) (f : String) (hf : f ∈ files) (hno : ∀ c ∈ original, c.filename ≠ f) :
    ∃ e, loadSubsampledChunks original files = .error e := by
  induction files with
  | nil => cases hf
  | cons g files ih =>
    unfold loadSubsampledChunks
    cases hg : subsampledChunk original g with
    | none => exact ⟨_, rfl⟩
    | some c =>
      rcases List.mem_cons.1 hf with rfl | hf
      · exfalso
        unfold subsampledChunk at hg
        have h1 := List.mem_of_find?_eq_some hg
        have h2 := List.find?_some hg
        exact hno c (List.mem_reverse.1 h1) (by simpa using h2)
      · obtain ⟨e, he⟩ := ih hf
        exact ⟨e, by simp only [he]⟩

example : ∃ e, loadSubsampledChunks [⟨"a.bin", 1, 1, none⟩] ["a.bin", "b.bin"] = .error e :=
  c17_missing_file _ _ "b.bin" (by decide) (by decide)

/-- **C27, errors while merging.** If a file cannot be copied, merging datasets raises. -/
theorem c27_copy_error {O : Type} (loc : MDir → String) (out : MDir) (copies : List CopyInfo) (fs : MFs O) (c : CopyInfo) (hc : c ∈ copies)
    (hbad : ∀ fs' : MFs O, ∃ e, applyCopy loc out fs' c = .error e) : ∃ e, (runCopies loc out copies fs).1 = .error e := by
  induction copies generalizing fs with
  | nil => cases hc
  | cons d copies ih =>
    unfold runCopies
    cases hd : applyCopy loc out fs d with
    | error e => exact ⟨e, rfl⟩
    | ok fs' =>
      rcases List.mem_cons.1 hc with rfl | hc
      · obtain ⟨e, he⟩ := hbad fs
        rw [hd] at he
        cases he
      · exact ih fs' hc

/-- **C22, batches of size zero are refused.** -/
theorem c22_size_zero {α : Type} (l : List α) : chunkList l 0 = .error .valueError := rfl

/-- **C22, empty batches.** Leading empty batches are dropped and nothing else; without any sample there is an exception. -/
theorem c22_dropEmpty {α : Type} (l : List (List α)) :
    (∀ r, dropEmpty l = .ok r → r.head? ≠ some [] ∧ r ≠ [] ∧ ∃ k, l = List.replicate k [] ++ r) ∧
    ((∃ e, dropEmpty l = .error e) ↔ ∀ b ∈ l, b = []) := by
  induction l with
  | nil =>
    refine ⟨?_, ?_⟩
    · intro r h
      cases h
    · exact ⟨(fun _ b hb => by cases hb), fun _ => ⟨_, rfl⟩⟩
  | cons b l ih =>
    cases b with
    | nil =>
      have e : dropEmpty ([] :: l) = dropEmpty l := rfl
      rw [e]
      refine ⟨?_, ?_⟩
      · intro r hr
        obtain ⟨h1, h2, k, hk⟩ := ih.1 r hr
        exact ⟨h1, h2, k + 1, by rw [List.replicate_succ, List.cons_append, ← hk]⟩
      · rw [ih.2]
        simp
    | cons x b =>
      refine ⟨?_, ?_⟩
      · intro r hr
        cases hr
        exact ⟨by simp, by simp, 0, by simp⟩
      · constructor
        · rintro ⟨e, he⟩
          cases he
        · intro h
          have := h (x :: b) List.mem_cons_self
          cases this

/-- **C12, sizes of NumPy types.** The number of bits is in the name. -/
theorem c12_itemsizes : [NumpyDType.int8, .int16, .int32, .int64, .uint8, .uint16, .uint32, .uint64, .float16, .float32, .float64, .complex64, .complex128].map
    (fun d => 8 * d.size) = [8, 16, 32, 64, 8, 16, 32, 64, 16, 32, 64, 64, 128] := by
  decide

/-- **C12, bad text.** Bytes that are not the UTF-8 encoding of a text are refused, others give back the text. -/
theorem c12_bad_text (b : Bytes) : (∃ s, unUtf8 b = .ok s ∧ s.toUTF8.data.toList = b) ∨ (unUtf8 b = .error .valueError ∧ ∀ s : String, s.toUTF8.data.toList ≠ b) := by
  unfold unUtf8 String.fromUTF8?
  by_cases h : (⟨b.toArray⟩ : ByteArray).IsValidUTF8
  · rw [dif_pos h]
    exact .inl ⟨_, rfl, by simp [String.fromUTF8, String.toUTF8]⟩
  · rw [dif_neg h]
    refine .inr ⟨rfl, fun s hs => h ?_⟩
    have e : (⟨b.toArray⟩ : ByteArray) = s.toUTF8 := by
      rw [← hs, Array.toArray_toList]
    rw [e]
    exact s.isValidUTF8

/-- **C12, truncated lists of images.** A list whose table of sizes is cut off is refused. -/
theorem c12_jpeg_truncated (dec : Bytes → Py LeafTree) (n : Nat) (hn : n < 2 ^ 32) (rest : Bytes) (h : rest.length < 4 * n) :
    jpegArrayOf dec (le32 n ++ rest) = .error .valueError := by
  have h4 : (le32 n ++ rest).take 4 = le32 n ++ [] := by simp [le32]
  unfold jpegArrayOf
  rw [if_neg (by simp [le32]), h4, u32s_le32 n hn []]
  simp only [u32s, Except.map]
  by_cases h0 : n = 0
  · rw [if_pos h0]
  · rw [if_neg h0, if_pos]
    simp [le32]
    omega

/-- **C07, an empty path.** A state with an empty path is compared by its URL: it is accepted only if the dataset runs in the cache of that URL. -/
theorem c07_empty_path {L : Type} (env : PathEnv) (st : StateDict L) (he : env.shouldReplace (some "") = true) (h : st.inputDirPath = some "") :
    expectedPath env st = env.cachePath st.inputDirUrl st.cacheDirPath := by
  unfold expectedPath
  rw [h, he]
  rfl

end LitData.Props
