import Verif.Lemmas.Subsample
import Verif.Props.Config

/-! Properties C16 and C17: subsampling and splitting a dataset. -/

namespace LitData.Props
open LitData Spec

/-- **C16.** For a ratio `p / q` below 1, `subsample` keeps exactly `⌊N * p / q⌋` of the `N` samples: a
beginning of some order of all the samples, of the stored order itself if there is no shuffle. Chunks that
occur once give samples that occur once. -/
theorem c16_subsample {α : Type} (perm : Nat → Option (List Nat → List Nat)) (hp : Perms perm) (chunks : List α)
    (roi : List (Nat × Nat)) (p q : Nat) (hpq : p < q) (hne : chunks ≠ []) (hl : chunks.length = roi.length) (hwf : RoiWF roi) :
    ∃ (files : List α) (regions : List (Nat × Nat)) (order : List (α × Nat)), subsampleDataset perm chunks roi p q = .ok (files, regions) ∧
      files.length = regions.length ∧ order.Perm (regionSamples chunks roi) ∧
      regionSamples files regions = order.take ((regionSamples chunks roi).length * p / q) ∧
      (regionSamples files regions).length = (regionSamples chunks roi).length * p / q ∧
      (chunks.Nodup → (regionSamples files regions).Nodup) ∧
      ((∀ k, perm k = none) → order = regionSamples chunks roi) := by
  obtain ⟨fs, rs, copies, last, h1, h2, h3, h4, _, h6, h7⟩ := subsampleDataset_ok perm hp chunks roi p q (by omega) hne hl hwf
  rw [Nat.div_eq_of_lt hpq] at h4
  have hc : copies = [] := List.length_eq_zero_iff.1 h4
  subst hc
  rw [Nat.mod_eq_of_lt hpq, List.flatten_nil, List.nil_append] at h3
  refine ⟨fs, rs, last, h1, h2.1, h6, h3, ?_, ?_, fun hn => (h7 hn).1⟩
  · rw [h3, List.length_take, h6.length_eq]
    apply Nat.min_eq_left
    apply Nat.div_le_of_le_mul
    rw [Nat.mul_comm q]
    exact Nat.mul_le_mul_left _ (Nat.le_of_lt hpq)
  · intro hn
    rw [h3]
    exact (h6.nodup_iff.2 (regionSamples_nodup chunks roi hn)).sublist (List.take_sublist _ _)

/-- **C16, any ratio.** The dataset is repeated `⌊p / q⌋` times, each time completely, and then
`⌊N * (p mod q) / q⌋` more samples follow, none of them twice. -/
theorem c16_oversample {α : Type} (perm : Nat → Option (List Nat → List Nat)) (hp : Perms perm) (chunks : List α)
    (roi : List (Nat × Nat)) (p q : Nat) (hq : 0 < q) (hne : chunks ≠ []) (hl : chunks.length = roi.length) (hwf : RoiWF roi) :
    ∃ (files : List α) (regions : List (Nat × Nat)) (copies : List (List (α × Nat))) (rest : List (α × Nat)),
      subsampleDataset perm chunks roi p q = .ok (files, regions) ∧ regionSamples files regions = copies.flatten ++ rest ∧
      copies.length = p / q ∧ (∀ s ∈ copies, s.Perm (regionSamples chunks roi)) ∧
      rest.length = (regionSamples chunks roi).length * (p % q) / q ∧ (∃ t, (rest ++ t).Perm (regionSamples chunks roi)) := by
  obtain ⟨fs, rs, copies, last, h1, h2, h3, h4, h5, h6, h7⟩ := subsampleDataset_ok perm hp chunks roi p q hq hne hl hwf
  refine ⟨fs, rs, copies, _, h1, h3, h4, h5, ?_, last.drop ((regionSamples chunks roi).length * (p % q) / q), ?_⟩
  · rw [List.length_take, h6.length_eq]
    apply Nat.min_eq_left
    apply Nat.div_le_of_le_mul
    rw [Nat.mul_comm q]
    exact Nat.mul_le_mul_left _ (Nat.le_of_lt (Nat.mod_lt _ hq))
  · rw [List.take_append_drop]
    exact h6

/-- **C16, kept and left over.** `subsample_filenames_and_roi` cuts the samples after the first `count`:
what is kept and what is left over make up the whole. -/
theorem c16_cut {α : Type} (chunks : List α) (roi : List (Nat × Nat)) (count : Nat) (hl : chunks.length = roi.length)
    (hwf : RoiWF roi) (hc : count ≤ (regionSamples chunks roi).length) :
    ∃ (fs : List α) (rs : List (Nat × Nat)) (left : List α) (leftRoi : List (Nat × Nat)),
      subsampleRoi chunks roi count = .ok (fs, rs, left, leftRoi) ∧
      (regionSamples fs rs).length = count ∧ regionSamples fs rs ++ regionSamples left leftRoi = regionSamples chunks roi := by
  obtain ⟨fs, rs, left, leftRoi, h1, h2⟩ := subsampleRoi_ok chunks roi count hl hwf (by rw [← regionSamples_length _ _ hl]; exact hc)
  refine ⟨fs, rs, left, leftRoi, h1, ?_, ?_⟩
  · rw [h2.keptS, List.length_take, Nat.min_eq_left hc]
  · rw [h2.keptS, h2.restS, List.take_append_drop]

theorem subsampledChunk_found (original : List ChunkInfo) (hn : (original.map (·.filename)).Nodup) (c : ChunkInfo) (hc : c ∈ original) :
    subsampledChunk original c.filename = some c := by
  unfold subsampledChunk
  cases h : original.reverse.find? (fun x => x.filename == c.filename) with
  | none =>
    rw [List.find?_eq_none] at h
    have := h c (by simpa using hc)
    simp at this
  | some d =>
    have hd := List.mem_of_find?_eq_some h
    have he := List.find?_some h
    simp only [List.mem_reverse, beq_iff_eq] at hd he
    rw [List.nodup_iff_pairwise_ne, List.pairwise_map] at hn
    congr 1
    apply Classical.byContradiction
    intro hne
    obtain ⟨i, hi⟩ := List.getElem?_of_mem hd
    obtain ⟨j, hj⟩ := List.getElem?_of_mem hc
    obtain ⟨hil, hie⟩ := List.getElem?_eq_some_iff.1 hi
    obtain ⟨hjl, hje⟩ := List.getElem?_eq_some_iff.1 hj
    rw [List.pairwise_iff_getElem] at hn
    rcases Nat.lt_trichotomy i j with hij | hij | hij
    · have := hn i j hil hjl hij; rw [hie, hje] at this; exact this he
    · subst hij; exact hne (hie.symm.trans hje)
    · have := hn j i hjl hil hij; rw [hie, hje] at this; exact this he.symm

theorem loadSubsampledChunks_ok (original : List ChunkInfo) (hn : (original.map (·.filename)).Nodup) (fs : List ChunkInfo)
    (h : ∀ c ∈ fs, c ∈ original) : loadSubsampledChunks original (fs.map (·.filename)) = .ok fs := by
  induction fs with
  | nil => rfl
  | cons c fs ih =>
    simp only [List.map_cons, loadSubsampledChunks]
    rw [subsampledChunk_found original hn c (h c (by simp)), ih (fun d hd => h d (by simp [hd]))]

/-- The sample at a position of a chunk. -/
def sampleBytes (content : String → List Bytes) (s : ChunkInfo × Nat) : Bytes := (content s.1.filename).getD s.2 []

theorem roiItems_regionSamples (content : String → List Bytes) (fs : List ChunkInfo) (rs : List (Nat × Nat))
    (h : ∀ x ∈ fs.zip rs, x.2.1 ≤ x.2.2 ∧ x.2.2 ≤ (content x.1.filename).length) :
    roiItems (fs.map fun c => content c.filename) rs = (regionSamples fs rs).map (sampleBytes content) := by
  induction fs generalizing rs with
  | nil => simp [roiItems, regionSamples]
  | cons c fs ih =>
    cases rs with
    | nil => simp [roiItems, regionSamples]
    | cons r rs =>
      rw [regionSamples_cons, List.map_append, ← ih rs (fun x hx => h x (by simp [hx]))]
      have h0 := h (c, r) (by simp)
      simp only at h0
      simp only [roiItems, List.map_cons, List.zip_cons_cons, List.flatMap_cons]
      congr 1
      apply List.ext_getElem
      · simp; omega
      · intro i h1 h2
        simp only [List.length_map, List.length_range'] at h2
        simp only [List.getElem_take, List.getElem_drop, List.getElem_map, List.getElem_range', sampleBytes, Nat.one_mul]
        rw [List.getD_eq_getElem?_getD, List.getElem?_eq_getElem (by omega)]
        rfl

/-- **C16, down to the bytes.** A dataset with distinct file names is subsampled and read: the files are
found in the index, and the indices read the selected samples in the order of the selection. -/
theorem c16_reads (enc : Option Encryption) (hsound : ∀ e, enc = some e → Encryption.Sound e)
    (disk : String → Option Bytes) (join : String → String) (chunks : List ChunkInfo) (content : String → List Bytes)
    (hn : (chunks.map (·.filename)).Nodup) (hs : Stored enc disk join chunks (chunks.map fun c => content c.filename))
    (perm : Nat → Option (List Nat → List Nat)) (hp : Perms perm) (p q : Nat) (hq : 0 < q) (hne : chunks ≠ []) :
    ∃ (files : List ChunkInfo) (regions : List (Nat × Nat)) (ivs : List Interval),
      subsampleDataset perm chunks (generateRoi none chunks) p q = .ok (files, regions) ∧
      loadSubsampledChunks chunks (files.map (·.filename)) = .ok files ∧
      generateIntervals (some regions) 0 0 files = .ok ivs ∧
      ∀ is : List Nat, (∀ i ∈ is, i < (regionSamples files regions).length) →
        datasetGets disk join enc (enc.map Encryption.config) files ivs PyTreeState.init is =
          .ok (is.map fun i => ((regionSamples files regions).map (sampleBytes content)).getD i []) := by
  have hroi : (generateRoi none chunks).length = chunks.length := by simp [generateRoi]
  have hsize : ∀ c ∈ chunks, c.chunkSize = (content c.filename).length := by
    intro c hc
    obtain ⟨k, hk⟩ := List.getElem?_of_mem hc
    obtain ⟨_, _, h, _⟩ := hs.files k c (content c.filename) hk (by simp [hk])
    exact h
  have hwf : RoiWF (generateRoi none chunks) := by
    intro r hr
    simp only [generateRoi, List.mem_map] at hr
    obtain ⟨c, _, rfl⟩ := hr
    simp
  obtain ⟨fs, rs, copies, last, h1, h2, _⟩ := subsampleDataset_ok perm hp chunks _ p q hq hne hroi.symm hwf
  have hz : ∀ x ∈ fs.zip rs, x.1 ∈ chunks ∧ x.2.1 ≤ x.2.2 ∧ x.2.2 ≤ (content x.1.filename).length := by
    intro x hx
    obtain ⟨r, e1, e2, e3, e4⟩ := h2.2 x hx
    have hc := (List.of_mem_zip e1).1
    refine ⟨hc, e3, ?_⟩
    have hr : r = (0, x.1.chunkSize) := by
      simp only [generateRoi] at e1
      rw [List.zip_map_right, List.mem_map] at e1
      obtain ⟨y, hy, hye⟩ := e1
      have : y.1 = y.2 := by
        obtain ⟨k, hk⟩ := List.getElem?_of_mem hy
        rw [List.getElem?_zip_eq_some] at hk
        have := hk.1.symm.trans hk.2
        injection this
      simp only [Prod.map, id_eq, Prod.mk.injEq] at hye
      rw [← hye.2, ← hye.1, this]
    rw [hr] at e4
    rw [← hsize x.1 hc]
    exact e4
  have hmem : ∀ c ∈ fs, c ∈ chunks := by
    intro c hc
    obtain ⟨k, hk⟩ := List.getElem?_of_mem hc
    have hkl := (List.getElem?_eq_some_iff.1 hk).1
    have hkr : k < rs.length := by rw [← h2.1]; exact hkl
    exact (hz (c, rs[k]) (List.mem_of_getElem? (i := k) (by
      rw [List.getElem?_zip_eq_some]; exact ⟨hk, List.getElem?_eq_getElem hkr⟩))).1
  have hst : Stored enc disk join fs (fs.map fun c => content c.filename) := by
    refine ⟨by simp, fun k c l hk hl => ?_⟩
    rw [List.getElem?_map, hk] at hl
    injection hl with hl
    subst hl
    obtain ⟨j, hj⟩ := List.getElem?_of_mem (hmem c (List.mem_of_getElem? hk))
    exact hs.files j c _ hj (by simp [hj])
  obtain ⟨ivs, g1, _, g3⟩ := c15_reads enc hsound disk join fs _ hst rs h2.1.symm (by
    intro k l r hl hr
    rw [List.getElem?_map, Option.map_eq_some_iff] at hl
    obtain ⟨c, hc, rfl⟩ := hl
    exact (hz (c, r) (List.mem_of_getElem? (i := k) (by rw [List.getElem?_zip_eq_some]; exact ⟨hc, hr⟩))).2)
  have e := roiItems_regionSamples content fs rs (fun x hx => (hz x hx).2)
  refine ⟨fs, rs, ivs, h1, loadSubsampledChunks_ok chunks hn fs hmem, g1, ?_⟩
  intro is his
  rw [e] at g3
  exact g3 is (fun i hi => by rw [List.length_map]; exact his i hi)

/-- More samples than there are: the region reaches beyond the chunk although the check on the number of
samples passes (`np.argmax` of an all-false array is 0). -/
theorem c16_too_many_reaches_beyond : subsampleRoi ["a", "b"] [(0, 3), (0, 2)] 7 = .ok (["a"], [(0, 7)], ["a", "b"], [(7, 3), (0, 2)]) := by
  decide +kernel

-- a non-trivial case: 10 samples in three chunks, shuffled, ratio 1/2
example : ∃ fs rs, subsampleDataset (fun _ => some List.reverse) ["a", "b", "c"] [(0, 4), (0, 3), (0, 3)] 1 2 = .ok (fs, rs) ∧
    regionSamples fs rs = [("c", 0), ("c", 1), ("c", 2), ("b", 0), ("b", 1)] := ⟨_, _, rfl, by decide +kernel⟩
example : ∃ fs rs, subsampleDataset (fun _ => some List.reverse) ["a", "b"] [(0, 2), (0, 2)] 5 2 = .ok (fs, rs) ∧
    regionSamples fs rs = [("b", 0), ("b", 1), ("a", 0), ("a", 1), ("a", 0), ("a", 1), ("b", 0), ("b", 1), ("b", 0), ("b", 1)] :=
  ⟨_, _, rfl, by decide +kernel⟩

/-- **C17, any sample counts.** For numbers of samples that are available, the splits have these numbers
of samples and make up, one after the other, the beginning of the dataset. (This is the loop of
`train_test_split` after the shuffle, whatever rounding gave the counts.) -/
theorem c17_counts {α : Type} (counts : List Nat) (chunks : List α) (roi : List (Nat × Nat)) (hl : chunks.length = roi.length)
    (hwf : RoiWF roi) (hc : counts.sum ≤ (regionSamples chunks roi).length) :
    ∃ outs, splitLoop counts chunks roi = .ok outs ∧ outs.map (fun o => (regionSamples o.1 o.2).length) = counts ∧
      outs.flatMap (fun o => regionSamples o.1 o.2) = (regionSamples chunks roi).take counts.sum := by
  obtain ⟨outs, h1, h2, h3, _⟩ := splitLoop_ok counts chunks roi hl hwf (by rw [← regionSamples_length _ _ hl]; exact hc)
  exact ⟨outs, h1, h2, h3⟩

theorem filter_sublist_names (original sel : List ChunkInfo) (hn : (original.map (·.filename)).Nodup) (hs : sel.Sublist original) :
    original.filter (fun c => (sel.map (·.filename)).contains c.filename) = sel := by
  induction hs with
  | slnil => rfl
  | @cons l₁ l₂ a h ih =>
    simp only [List.map_cons, List.nodup_cons] at hn
    rw [List.filter_cons, if_neg, ih hn.2]
    simp only [List.contains_iff_mem, List.mem_map, not_exists, not_and]
    intro x hx he
    exact hn.1 (List.mem_map.2 ⟨x, h.subset hx, he⟩)
  | @cons_cons l₁ l₂ a h ih =>
    simp only [List.map_cons, List.nodup_cons] at hn
    rw [List.filter_cons, if_pos (by simp)]
    congr 1
    rw [← ih hn.2]
    apply List.filter_congr
    intro x hx
    have hne : x.filename ≠ a.filename := fun he => hn.1 (List.mem_map.2 ⟨x, hx, he⟩)
    rw [Bool.eq_iff_iff]
    simp only [List.map_cons, List.contains_iff_mem, List.mem_cons, hne, false_or]
    rw [ih hn.2]

theorem sum_div_le (N q : Nat) (hq : 0 < q) (l : List Nat) (h : l.sum ≤ q) : (l.map fun x => N * x / q).sum ≤ N := by
  have : (l.map fun x => N * x / q).sum * q ≤ N * l.sum := by
    clear h
    induction l with
    | nil => simp
    | cons a l ih =>
      simp only [List.map_cons, List.sum_cons, Nat.add_mul, Nat.mul_add]
      exact Nat.add_le_add (Nat.div_mul_le_self _ _) ih
  apply Nat.le_of_mul_le_mul_right _ hq
  exact Nat.le_trans this (Nat.mul_le_mul_left N h)

theorem sum_toNat (l : List Int) (h : ∀ x ∈ l, 0 ≤ x) : ((l.map Int.toNat).sum : Int) = l.sum := by
  induction l with
  | nil => rfl
  | cons a l ih =>
    simp only [List.map_cons, List.sum_cons, Int.natCast_add]
    rw [ih (fun x hx => h x (by simp [hx])), Int.toNat_of_nonneg (h a (by simp))]

/-- **C17.** A dataset made of some chunks of the index in index order with distinct names is split by
ratios in `[0, 1]` with sum at most 1: each split has `⌊N * r⌋` samples, no sample is in two splits or twice
in one, and together the splits are the beginning of a shuffled order of the dataset. -/
theorem c17_splits_partial (perm : List Nat → List Nat) (hp : ∀ l, (perm l).Perm l) (original sel : List ChunkInfo)
    (hn : (original.map (·.filename)).Nodup) (hsub : sel.Sublist original) (roi : List (Nat × Nat)) (hl : sel.length = roi.length)
    (hwf : RoiWF roi) (ratios : List SplitRatio) (q : Nat) (hq : 0 < q) (hf : ∀ r ∈ ratios, r.isFloat = true ∧ 0 ≤ r.num ∧ r.num ≤ q)
    (hsum : (ratios.map (·.num)).sum ≤ q) :
    ∃ outs order, trainTestSplit perm original (sel.map (·.filename)) roi ratios q = .ok outs ∧
      order.Perm (regionSamples sel roi) ∧
      outs.map (fun o => (regionSamples o.1 o.2).length) = ratios.map (fun r => (regionSamples sel roi).length * r.num.toNat / q) ∧
      outs.flatMap (fun o => regionSamples o.1 o.2) <+: order ∧ (outs.flatMap fun o => regionSamples o.1 o.2).Nodup := by
  unfold trainTestSplit
  rw [if_neg (by simp only [List.any_eq_true, not_exists, not_and, Bool.not_eq_true']; intro r hr; simp [(hf r hr).1])]
  rw [if_neg (by
    rw [Classical.not_not, List.all_eq_true]; intro r hr
    simp [(hf r hr).2.1, (hf r hr).2.2])]
  rw [if_neg (by omega), filter_sublist_names original sel hn hsub]
  obtain ⟨c, r, h1, h2, h3, h4, h5, h6⟩ := shuffleTogether_ok perm hp sel roi hl
  rw [h1]
  simp only
  have hN : (regionSamples sel roi).length = (roi.map roiSize).sum := regionSamples_length _ _ hl
  have hsum' : ((ratios.map fun x => x.num.toNat)).sum ≤ q := by
    have := sum_toNat (ratios.map (·.num)) (by simp only [List.mem_map]; rintro x ⟨r, hr, rfl⟩; exact (hf r hr).2.1)
    rw [List.map_map] at this
    have e : (ratios.map (Int.toNat ∘ fun x => x.num)) = ratios.map (fun x => x.num.toNat) := rfl
    rw [e] at this
    omega
  have hle : (ratios.map fun s => (roi.map roiSize).sum * s.num.toNat / q).sum ≤ (r.map roiSize).sum := by
    have := sum_div_le (roi.map roiSize).sum q hq _ hsum'
    rw [List.map_map] at this
    rw [sum_roiSize_perm h5]
    exact this
  obtain ⟨outs, g1, g2, g3, _⟩ := splitLoop_ok _ c r (by omega) (roiWF_perm h5 hwf) hle
  refine ⟨outs, regionSamples c r, g1, regionSamples_perm _ _ _ _ h6, ?_, ?_, ?_⟩
  · rw [g2, hN]
  · rw [g3]; exact List.take_prefix _ _
  · rw [g3]
    have hsn : sel.Nodup := by
      have := hsub.map (fun c : ChunkInfo => c.filename)
      have h := hn.sublist this
      rw [List.nodup_iff_pairwise_ne, List.pairwise_map] at h
      rw [List.nodup_iff_pairwise_ne]
      exact h.imp (fun h e => h (by rw [e]))
    exact ((regionSamples_perm _ _ _ _ h6).nodup_iff.2 (regionSamples_nodup sel roi hsn)).sublist (List.take_sublist _ _)

/-- **C17, bad ratios.** A ratio that is not a float, lies outside `[0, 1]`, or a sum above 1 raises
`ValueError`, whatever the dataset. -/
theorem c17_bad_ratios (perm : List Nat → List Nat) (original : List ChunkInfo) (files : List String) (roi : List (Nat × Nat))
    (ratios : List SplitRatio) (q : Nat)
    (h : (∃ r ∈ ratios, r.isFloat = false ∨ r.num < 0 ∨ (q : Int) < r.num) ∨ (q : Int) < (ratios.map (·.num)).sum) :
    trainTestSplit perm original files roi ratios q = .error .valueError := by
  unfold trainTestSplit
  split
  · rfl
  · rename_i h1
    split
    · rfl
    · rename_i h2
      split
      · rfl
      · rename_i h3
        exfalso
        rcases h with ⟨r, hr, hc⟩ | h
        · rw [Classical.not_not, List.all_eq_true] at h2
          have h2 := h2 r hr
          simp only [Bool.and_eq_true, decide_eq_true_eq] at h2
          simp only [List.any_eq_true, not_exists, not_and, Bool.not_eq_true'] at h1
          have h1 := h1 r hr
          rcases hc with hc | hc | hc
          · exact h1 hc
          · omega
          · omega
        · omega

/-- Two chunks of different sizes. -/
def splitDemo : List ChunkInfo := [⟨"a.bin", 5, 0, none⟩, ⟨"b.bin", 2, 0, none⟩]

/-- A dataset subsampled with a shuffle holds its chunks in another order than the index. `train_test_split`
pairs the regions with the chunks in index order: here it gives positions 2, 3, 4 of a chunk of 2 samples. -/
theorem c17_mispairs_shuffled : trainTestSplit id splitDemo ["b.bin", "a.bin"] [(0, 2), (0, 5)] [⟨true, 1⟩] 1 =
    .ok [(splitDemo, [(0, 2), (0, 5)])] := by decide +kernel

/-- A dataset with repeated chunks (subsample above 1) cannot be split. -/
theorem c17_repeated_refused : trainTestSplit id splitDemo ["a.bin", "b.bin", "a.bin"] [(0, 5), (0, 2), (0, 5)] [⟨true, 1⟩] 2 =
    .error .valueError := by decide +kernel

-- the hypotheses are met by a concrete dataset, with two splits
example : trainTestSplit List.reverse splitDemo (splitDemo.map (·.filename)) [(0, 5), (0, 2)] [⟨true, 3⟩, ⟨true, 1⟩] 4 =
    .ok [([⟨"b.bin", 2, 0, none⟩, ⟨"a.bin", 5, 0, none⟩], [(0, 2), (0, 3)]), ([⟨"a.bin", 5, 0, none⟩], [(3, 4)])] := by decide +kernel
example := c17_splits_partial List.reverse List.reverse_perm splitDemo splitDemo (by decide) (List.Sublist.refl _) [(0, 5), (0, 2)] rfl
  (by intro r hr; simp at hr; rcases hr with rfl | rfl <;> simp) [⟨true, 3⟩, ⟨true, 1⟩] 4 (by decide) (by simp) (by decide)

end LitData.Props
