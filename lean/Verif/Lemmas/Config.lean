import Verif.Model.Config
import Verif.Spec.Samples
import Verif.Lemmas.Assign

/-! Random access finds the sample with the given rank among the regions of interest. -/

namespace LitData
open Spec

theorem region_getElem (c a b j : Nat) (h : j < (region c a b).length) : (region c a b)[j] = (c, a + j) := by
  simp [region]

theorem searchChunk_found (ivs : List Interval) (k start j : Nat)
    (h : j < (datasetSamples (List.range' k ivs.length) ivs).length) :
    searchChunk ((start + j : Nat) : Int) k ((zeroBased start ivs).zip ivs) =
      .ok ((datasetSamples (List.range' k ivs.length) ivs)[j].2, (datasetSamples (List.range' k ivs.length) ivs)[j].1) := by
  induction ivs generalizing k start j with
  | nil => simp [datasetSamples] at h
  | cons iv ivs ih =>
    have e : datasetSamples (List.range' k (iv :: ivs).length) (iv :: ivs) =
        region k iv.roiStart iv.roiEnd ++ datasetSamples (List.range' (k + 1) ivs.length) ivs := by
      simp [datasetSamples, List.range'_succ]
    simp only [zeroBased, List.zip_cons_cons, searchChunk]
    have hl := region_length k iv.roiStart iv.roiEnd
    by_cases hj : j < iv.size
    · rw [if_pos (by omega)]
      have hj' : j < (region k iv.roiStart iv.roiEnd).length := by rw [hl]; exact hj
      simp only [e]
      rw [List.getElem_append_left hj', region_getElem]
      simp only [Except.ok.injEq, Prod.mk.injEq, and_true]
      omega
    · have hj' : ¬ j < (region k iv.roiStart iv.roiEnd).length := by rw [hl]; exact hj
      rw [if_neg (by omega)]
      have hlt : j - iv.size < (datasetSamples (List.range' (k + 1) ivs.length) ivs).length := by
        rw [e, List.length_append, hl] at h
        unfold Interval.size at hj ⊢
        omega
      have := ih (k + 1) (start + iv.size) (j - iv.size) hlt
      rw [show start + iv.size + (j - iv.size) = start + j by omega] at this
      simp only [e]
      rw [this, List.getElem_append_right (by omega)]
      simp only [hl]
      rfl

theorem searchChunk_missing (ivs : List Interval) (k start : Nat) (i : Int)
    (h : i < start ∨ ((start + (ivs.map Interval.size).sum : Nat) : Int) ≤ i) :
    searchChunk i k ((zeroBased start ivs).zip ivs) = .error .valueError := by
  induction ivs generalizing k start with
  | nil => rfl
  | cons iv ivs ih =>
    simp only [zeroBased, List.zip_cons_cons, searchChunk]
    simp only [List.map_cons, List.sum_cons] at h
    rw [if_neg (by omega)]
    apply ih
    omega

theorem datasetSamples_range_length (k : Nat) (ivs : List Interval) :
    (datasetSamples (List.range' k ivs.length) ivs).length = (ivs.map Interval.size).sum := by
  induction ivs generalizing k with
  | nil => rfl
  | cons iv ivs ih =>
    have e : datasetSamples (List.range' k (iv :: ivs).length) (iv :: ivs) =
        region k iv.roiStart iv.roiEnd ++ datasetSamples (List.range' (k + 1) ivs.length) ivs := by
      simp [datasetSamples, List.range'_succ]
    rw [e, List.length_append, region_length, ih, List.map_cons, List.sum_cons]
    rfl

theorem datasetSamples_chunk_ge (k : Nat) (ivs : List Interval) :
    ∀ s ∈ datasetSamples (List.range' k ivs.length) ivs, k ≤ s.1 := by
  induction ivs generalizing k with
  | nil => simp [datasetSamples]
  | cons iv ivs ih =>
    have e : datasetSamples (List.range' k (iv :: ivs).length) (iv :: ivs) =
        region k iv.roiStart iv.roiEnd ++ datasetSamples (List.range' (k + 1) ivs.length) ivs := by
      simp [datasetSamples, List.range'_succ]
    intro s hs
    rw [e] at hs
    rcases List.mem_append.mp hs with hs | hs
    · simp only [region, List.mem_map] at hs
      obtain ⟨j, _, rfl⟩ := hs
      exact Nat.le_refl _
    · exact Nat.le_of_succ_le (ih (k + 1) s hs)

theorem datasetSamples_range_nodup (k : Nat) (ivs : List Interval) :
    (datasetSamples (List.range' k ivs.length) ivs).Nodup := by
  induction ivs generalizing k with
  | nil => simp [datasetSamples]
  | cons iv ivs ih =>
    have e : datasetSamples (List.range' k (iv :: ivs).length) (iv :: ivs) =
        region k iv.roiStart iv.roiEnd ++ datasetSamples (List.range' (k + 1) ivs.length) ivs := by
      simp [datasetSamples, List.range'_succ]
    rw [e, List.nodup_append]
    refine ⟨?_, ih (k + 1), ?_⟩
    · unfold region
      rw [List.nodup_iff_pairwise_ne, List.pairwise_map]
      refine List.Pairwise.imp ?_ (List.nodup_range' (step := 1))
      intro a b hab h
      injection h
      contradiction
    · intro a ha b hb hab
      subst hab
      have h1 := datasetSamples_chunk_ge (k + 1) ivs a hb
      simp only [region, List.mem_map] at ha
      obtain ⟨j, _, rfl⟩ := ha
      simp only at h1
      omega

/-- The chunk of every sample exists. -/
theorem datasetSamples_mem (k : Nat) (ivs : List Interval) (s : Nat × Nat)
    (hs : s ∈ datasetSamples (List.range' k ivs.length) ivs) :
    ∃ iv, k ≤ s.1 ∧ ivs[s.1 - k]? = some iv ∧ iv.roiStart ≤ s.2 ∧ s.2 < iv.roiEnd := by
  induction ivs generalizing k with
  | nil => simp [datasetSamples] at hs
  | cons iv ivs ih =>
    have e : datasetSamples (List.range' k (iv :: ivs).length) (iv :: ivs) =
        region k iv.roiStart iv.roiEnd ++ datasetSamples (List.range' (k + 1) ivs.length) ivs := by
      simp [datasetSamples, List.range'_succ]
    rw [e] at hs
    rcases List.mem_append.mp hs with hs | hs
    · simp only [region, List.mem_map] at hs
      obtain ⟨j, hj, rfl⟩ := hs
      rw [List.mem_range'_1] at hj
      exact ⟨iv, Nat.le_refl _, by simp, hj.1, by omega⟩
    · obtain ⟨iv', h1, h2, h3⟩ := ih (k + 1) hs
      refine ⟨iv', by omega, ?_, h3⟩
      rw [show s.1 - k = (s.1 - (k + 1)) + 1 by omega]
      simpa using h2

/-- Number of samples before each chunk. -/
def chunkBegin (cs : List ChunkInfo) (k : Nat) : Nat := ((cs.take k).map (·.chunkSize)).sum

theorem generateIntervals_none (idx begin : Nat) (cs : List ChunkInfo) :
    generateIntervals none idx begin cs = .ok (cs.mapIdx fun k c =>
      ⟨begin + chunkBegin cs k, begin + chunkBegin cs k, begin + chunkBegin cs k + c.chunkSize,
        begin + chunkBegin cs k + c.chunkSize⟩) := by
  induction cs generalizing idx begin with
  | nil => rfl
  | cons c cs ih =>
    simp only [generateIntervals, ih, List.mapIdx_cons]
    congr 2
    · apply List.ext_getElem
      · simp
      · intro i h1 h2
        simp only [List.getElem_mapIdx]
        have : chunkBegin (c :: cs) (i + 1) = c.chunkSize + chunkBegin cs i := by
          simp [chunkBegin]
        rw [this]
        congr 1 <;> omega

theorem generateIntervals_some (l : List (Nat × Nat)) (idx begin : Nat) (cs : List ChunkInfo)
    (h : idx + cs.length ≤ l.length) :
    ∃ ivs, generateIntervals (some l) idx begin cs = .ok ivs ∧ ivs.length = cs.length ∧
      ∀ k c, cs[k]? = some c → ∀ r, l[idx + k]? = some r → ivs[k]? =
        some ⟨begin + chunkBegin cs k, begin + chunkBegin cs k + r.1, begin + chunkBegin cs k + r.2,
          begin + chunkBegin cs k + c.chunkSize⟩ := by
  induction cs generalizing idx begin with
  | nil => exact ⟨[], rfl, rfl, by simp⟩
  | cons c cs ih =>
    simp only [List.length_cons] at h
    obtain ⟨ivs, h1, h2, h3⟩ := ih (idx + 1) (begin + c.chunkSize) (by omega)
    have hlt : idx < l.length := by omega
    refine ⟨⟨begin, begin + l[idx].1, begin + l[idx].2, begin + c.chunkSize⟩ :: ivs, ?_, by simp [h2], ?_⟩
    · simp only [generateIntervals, List.getElem?_eq_getElem hlt, h1]
    · intro k c' hc r hr
      cases k with
      | zero =>
        simp only [List.getElem?_cons_zero, Option.some.injEq] at hc
        subst hc
        rw [Nat.add_zero, List.getElem?_eq_getElem hlt] at hr
        injection hr with hr
        subst hr
        simp [chunkBegin]
      | succ k =>
        simp only [List.getElem?_cons_succ] at hc ⊢
        rw [h3 k c' hc r (by rw [← hr]; congr 1; omega)]
        have : chunkBegin (c :: cs) (k + 1) = c.chunkSize + chunkBegin cs k := by
          simp [chunkBegin]
        rw [this]
        congr 2 <;> omega

end LitData
