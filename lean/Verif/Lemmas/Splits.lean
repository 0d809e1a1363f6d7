import Verif.Lemmas.Subsample

/-! The regions of the splits of a dataset lie in the regions of the dataset. -/

namespace LitData

theorem Within.refl {α : Type} (a : List α) (ra : List Roi) (hl : a.length = ra.length) (hwf : RoiWF ra) : Within a ra a ra :=
  Within.of_perm hl (List.Perm.refl _) hwf

theorem Within.trans {α : Type} {a b c : List α} {ra rb rc : List Roi} (h : Within a ra b rb) (h' : Within b rb c rc) : Within a ra c rc := by
  refine ⟨h.1, fun x hx => ?_⟩
  obtain ⟨r, h1, h2, h3, h4⟩ := h.2 x hx
  obtain ⟨r', g1, g2, g3, g4⟩ := h'.2 _ h1
  simp only at g1 g2 g3 g4
  exact ⟨r', g1, by omega, h3, by omega⟩

theorem zip_drop_mem {α β : Type} (a : List α) (b : List β) (n : Nat) (x : α × β) (h : x ∈ (a.drop n).zip (b.drop n)) : x ∈ a.zip b := by
  obtain ⟨k, hk⟩ := List.getElem?_of_mem h
  rw [List.getElem?_zip_eq_some, List.getElem?_drop, List.getElem?_drop] at hk
  exact List.mem_of_getElem? (i := n + k) (by rw [List.getElem?_zip_eq_some]; exact hk)

theorem subsampleRoi_left_within {α : Type} (chunks : List α) (roi : List Roi) (count : Nat) (hl : chunks.length = roi.length)
    (hwf : RoiWF roi) (hc : count ≤ (roi.map roiSize).sum) (fs : List α) (rs : List Roi) (left : List α) (leftRoi : List Roi)
    (h : subsampleRoi chunks roi count = .ok (fs, rs, left, leftRoi)) : Within left leftRoi chunks roi := by
  unfold subsampleRoi at h
  rw [if_neg (by omega)] at h
  by_cases h0 : count = 0
  · rw [if_pos h0] at h
    cases h
    exact Within.refl _ _ hl hwf
  · rw [if_neg h0] at h
    obtain ⟨m, g1, g2, g3, g4, g5⟩ := findIdx?_cumSizes roi 0 count (by omega) (by omega)
    simp only [Nat.zero_add] at g3 g4 g5
    have hm : argmaxGe (cumSizes 0 roi) count = m := by unfold argmaxGe; rw [g1]
    simp only [hm, g5, List.getElem?_eq_getElem g2] at h
    have hmc : m < chunks.length := by omega
    have hwfm := hwf roi[m] (List.getElem_mem g2)
    have htake : roi.take (m + 1) = roi.take m ++ [roi[m]] := List.take_succ_eq_append_getElem g2
    have hA : ((roi.take (m + 1)).map roiSize).sum = ((roi.take m).map roiSize).sum + roiSize roi[m] := by
      rw [htake, List.map_append, List.sum_append]
      simp
    have hsize : roiSize roi[m] = roi[m].2 - roi[m].1 := rfl
    split at h
    · cases h
    split at h
    · cases h
      refine ⟨by simp [hl], fun x hx => ?_⟩
      have hx' := zip_drop_mem _ _ _ _ hx
      exact ⟨x.2, hx', Nat.le_refl _, hwf _ (List.of_mem_zip hx').2, Nat.le_refl _⟩
    · cases h
      refine ⟨by simp [hl]; omega, fun x hx => ?_⟩
      rw [List.drop_eq_getElem_cons hmc, List.zip_cons_cons] at hx
      rcases List.mem_cons.1 hx with rfl | hx
      · refine ⟨roi[m], ?_, ?_, ?_, ?_⟩
        · apply List.mem_of_getElem? (i := m)
          rw [List.getElem?_zip_eq_some]
          exact ⟨List.getElem?_eq_getElem hmc, List.getElem?_eq_getElem g2⟩
        · simp only; omega
        · simp only; omega
        · simp only; omega
      · have hx' := zip_drop_mem _ _ _ _ hx
        exact ⟨x.2, hx', Nat.le_refl _, hwf _ (List.of_mem_zip hx').2, Nat.le_refl _⟩

theorem splitLoop_within {α : Type} (counts : List Nat) : ∀ (chunks : List α) (roi : List Roi), chunks.length = roi.length → RoiWF roi →
    counts.sum ≤ (roi.map roiSize).sum → ∀ outs, splitLoop counts chunks roi = .ok outs → ∀ o ∈ outs, Within o.1 o.2 chunks roi := by
  induction counts with
  | nil => intro chunks roi _ _ _ outs h o ho; cases h; cases ho
  | cons n ns ih =>
    intro chunks roi hl hwf hc outs h o ho
    rw [List.sum_cons] at hc
    obtain ⟨fs, rs, left, leftRoi, k1, k2⟩ := subsampleRoi_ok chunks roi n hl hwf (by omega)
    have hlen : (leftRoi.map roiSize).sum = (roi.map roiSize).sum - n := by
      rw [← regionSamples_length _ _ k2.lenLeft, k2.restS, List.length_drop, regionSamples_length _ _ hl]
    have hleft := subsampleRoi_left_within chunks roi n hl hwf (by omega) _ _ _ _ k1
    unfold splitLoop at h
    rw [k1] at h
    simp only at h
    split at h
    · cases h
    · rename_i rest hrest
      cases h
      rcases List.mem_cons.1 ho with rfl | ho
      · exact k2.within
      · exact (ih left leftRoi k2.lenLeft k2.wfLeft (by omega) rest hrest o ho).trans hleft

end LitData
