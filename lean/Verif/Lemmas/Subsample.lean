import Verif.Model.Subsample
import Verif.Spec.Regions

/-! Subsampling cuts the list of samples. -/

namespace LitData

theorem regionSamples_append {α : Type} (a b : List α) (ra rb : List Roi) (h : a.length = ra.length) :
    regionSamples (a ++ b) (ra ++ rb) = regionSamples a ra ++ regionSamples b rb := by
  unfold regionSamples
  rw [List.zip_append h, List.flatMap_append]

theorem regionSamples_cons {α : Type} (c : α) (cs : List α) (r : Roi) (rs : List Roi) :
    regionSamples (c :: cs) (r :: rs) = (List.range' r.1 (r.2 - r.1)).map (fun j => (c, j)) ++ regionSamples cs rs := by
  simp [regionSamples]

theorem regionSamples_length {α : Type} (cs : List α) (roi : List Roi) (h : cs.length = roi.length) :
    (regionSamples cs roi).length = (roi.map roiSize).sum := by
  induction cs generalizing roi with
  | nil => cases roi with
    | nil => rfl
    | cons => simp at h
  | cons c cs ih => cases roi with
    | nil => simp at h
    | cons r roi =>
      rw [regionSamples_cons, List.length_append, ih roi (by simpa using h), List.map_cons, List.sum_cons]
      simp [roiSize]

theorem cumSizes_length (acc : Nat) (roi : List Roi) : (cumSizes acc roi).length = roi.length := by
  induction roi generalizing acc with
  | nil => rfl
  | cons r roi ih => simp [cumSizes, ih]

theorem findIdx?_cumSizes (roi : List Roi) (acc count : Nat) (h1 : acc < count) (h2 : count ≤ acc + (roi.map roiSize).sum) :
    ∃ m, (cumSizes acc roi).findIdx? (fun x => decide (count ≤ x)) = some m ∧ m < roi.length ∧
      acc + ((roi.take m).map roiSize).sum < count ∧ count ≤ acc + ((roi.take (m + 1)).map roiSize).sum ∧
      (cumSizes acc roi)[m]? = some (acc + ((roi.take (m + 1)).map roiSize).sum) := by
  induction roi generalizing acc with
  | nil => simp at h2; omega
  | cons r roi ih =>
    simp only [List.map_cons, List.sum_cons] at h2
    simp only [cumSizes, List.findIdx?_cons]
    by_cases hc : count ≤ acc + roiSize r
    · rw [if_pos (by simpa using hc)]
      exact ⟨0, rfl, by simp, by simpa using h1, by simpa using hc, by simp⟩
    · rw [if_neg (by simpa using hc)]
      obtain ⟨m, g1, g2, g3, g4, g5⟩ := ih (acc + roiSize r) (by omega) (by omega)
      refine ⟨m + 1, by rw [g1]; rfl, by simpa using g2, ?_, ?_, ?_⟩
      · simp only [List.take_succ_cons, List.map_cons, List.sum_cons]; omega
      · simp only [List.take_succ_cons, List.map_cons, List.sum_cons] at g4 ⊢; omega
      · simp only [List.getElem?_cons_succ, g5, List.take_succ_cons, List.map_cons, List.sum_cons]
        congr 1
        omega

theorem take_range'_le (s n k : Nat) (h : k ≤ n) : (List.range' s n).take k = List.range' s k := by
  apply List.ext_getElem
  · simp; omega
  · intro i h1 h2
    simp

/-- A list of chunks is cut after `count` samples. -/
structure CutAt {α : Type} (chunks : List α) (roi : List Roi) (count : Nat) (fs : List α) (rs : List Roi)
    (left : List α) (leftRoi : List Roi) : Prop where
  lenKept : fs.length = rs.length
  lenLeft : left.length = leftRoi.length
  keptS : regionSamples fs rs = (regionSamples chunks roi).take count
  restS : regionSamples left leftRoi = (regionSamples chunks roi).drop count
  wfKept : RoiWF rs
  wfLeft : RoiWF leftRoi
  prefix_ : fs <+: chunks
  suffix_ : left <:+ chunks
  inside : ∀ (k : Nat) (r' : Roi), rs[k]? = some r' → ∃ r, roi[k]? = some r ∧ r.1 ≤ r'.1 ∧ r'.2 ≤ r.2

theorem subsampleRoi_ok {α : Type} (chunks : List α) (roi : List Roi) (count : Nat) (hl : chunks.length = roi.length)
    (hwf : RoiWF roi) (hc : count ≤ (roi.map roiSize).sum) :
    ∃ fs rs left leftRoi, subsampleRoi chunks roi count = .ok (fs, rs, left, leftRoi) ∧
      CutAt chunks roi count fs rs left leftRoi := by
  unfold subsampleRoi
  rw [if_neg (by omega)]
  by_cases h0 : count = 0
  · rw [if_pos h0]
    refine ⟨[], [], chunks, roi, rfl, ⟨rfl, hl, ?_, ?_, by intro r hr; simp at hr, hwf, List.nil_prefix, List.suffix_rfl, by simp⟩⟩
    · rw [h0]; rfl
    · rw [h0]; rfl
  · rw [if_neg h0]
    obtain ⟨m, g1, g2, g3, g4, g5⟩ := findIdx?_cumSizes roi 0 count (by omega) (by omega)
    simp only [Nat.zero_add] at g3 g4 g5
    have hm : argmaxGe (cumSizes 0 roi) count = m := by unfold argmaxGe; rw [g1]
    simp only [hm, g5, List.getElem?_eq_getElem g2]
    have hmc : m < chunks.length := by omega
    have hroi : roi = roi.take m ++ roi[m] :: roi.drop (m + 1) := by
      rw [← List.drop_eq_getElem_cons g2, List.take_append_drop]
    have hchunks : chunks = chunks.take m ++ chunks[m] :: chunks.drop (m + 1) := by
      rw [← List.drop_eq_getElem_cons hmc, List.take_append_drop]
    have htake : roi.take (m + 1) = roi.take m ++ [roi[m]] := List.take_succ_eq_append_getElem g2
    have htakec : chunks.take (m + 1) = chunks.take m ++ [chunks[m]] := List.take_succ_eq_append_getElem hmc
    have hwfm := hwf roi[m] (List.getElem_mem g2)
    have hlt : (chunks.take m).length = (roi.take m).length := by rw [List.length_take, List.length_take, hl]
    have hS : regionSamples chunks roi = regionSamples (chunks.take m) (roi.take m) ++
        ((List.range' roi[m].1 (roi[m].2 - roi[m].1)).map (fun j => (chunks[m], j)) ++
          regionSamples (chunks.drop (m + 1)) (roi.drop (m + 1))) := by
      conv => lhs; rw [hroi, hchunks]
      rw [regionSamples_append _ _ _ _ hlt, regionSamples_cons]
    have hn1 := regionSamples_length (chunks.take m) (roi.take m) hlt
    rw [htake, List.map_append, List.sum_append] at g4
    simp only [List.map_cons, List.map_nil, List.sum_cons, List.sum_nil, Nat.add_zero] at g4
    have hA : ((roi.take (m + 1)).map roiSize).sum = ((roi.take m).map roiSize).sum + roiSize roi[m] := by
      rw [htake, List.map_append, List.sum_append]
      simp
    generalize hA' : ((roi.take m).map roiSize).sum = A at *
    have hsize : roiSize roi[m] = roi[m].2 - roi[m].1 := rfl
    have hstop : roi[m].2 + count - ((roi.take (m + 1)).map roiSize).sum = roi[m].1 + (count - A) := by
      rw [hA, hsize]
      omega
    rw [hstop]
    have hkept : ((roi.take m ++ [(roi[m].1, roi[m].1 + (count - A))]).map roiSize).sum = count := by
      rw [List.map_append, List.sum_append, hA']
      simp only [List.map_cons, List.map_nil, List.sum_cons, List.sum_nil]
      rw [show roiSize (roi[m].1, roi[m].1 + (count - A)) = count - A by simp [roiSize]]
      omega
    rw [if_neg (by rw [hkept]; simp)]
    have hkeptS : regionSamples (chunks.take (m + 1)) (roi.take m ++ [(roi[m].1, roi[m].1 + (count - A))]) =
        (regionSamples chunks roi).take count := by
      rw [hS, List.take_append, hn1, List.take_of_length_le (show (regionSamples (chunks.take m) (roi.take m)).length ≤ count by omega), htakec, regionSamples_append _ _ _ _ hlt, regionSamples_cons]
      congr 1
      rw [List.take_append_of_le_length (by simp; omega), ← List.map_take, take_range'_le _ _ _ (by omega)]
      simp only [regionSamples, List.zip_nil_left, List.flatMap_nil, List.append_nil]
      congr 2
      omega
    have hwfk : RoiWF (roi.take m ++ [(roi[m].1, roi[m].1 + (count - A))]) := by
      intro r hr
      rcases List.mem_append.1 hr with hr | hr
      · exact hwf r (List.mem_of_mem_take hr)
      · simp only [List.mem_singleton] at hr
        rw [hr]; simp
    have hin : ∀ (k : Nat) (r' : Roi), (roi.take m ++ [(roi[m].1, roi[m].1 + (count - A))])[k]? = some r' →
        ∃ r, roi[k]? = some r ∧ r.1 ≤ r'.1 ∧ r'.2 ≤ r.2 := by
      intro k r' hk
      rw [List.getElem?_append, List.length_take, Nat.min_eq_left (by omega)] at hk
      split at hk
      · rename_i hkm
        rw [List.getElem?_take_of_lt hkm] at hk
        exact ⟨r', hk, Nat.le_refl _, Nat.le_refl _⟩
      · rename_i hkm
        have hk0 : k - m = 0 := by
          cases hh : k - m with
          | zero => rfl
          | succ n => rw [hh] at hk; simp at hk
        rw [hk0] at hk
        simp only [List.getElem?_cons_zero, Option.some.injEq] at hk
        subst hk
        have hkm' : k = m := by omega
        subst hkm'
        exact ⟨roi[k], List.getElem?_eq_getElem g2, Nat.le_refl _, by simp only; omega⟩
    by_cases he : ((roi.take (m + 1)).map roiSize).sum = count
    · rw [if_pos he]
      refine ⟨_, _, _, _, rfl, ⟨?_, ?_, hkeptS, ?_, hwfk, ?_, List.take_prefix _ _, List.drop_suffix _ _, hin⟩⟩
      · simp; omega
      · simp [hl]
      · rw [hS, List.drop_append, hn1, List.drop_of_length_le (show (regionSamples (chunks.take m) (roi.take m)).length ≤ count by omega), List.nil_append, List.drop_append,
          List.drop_of_length_le (show ((List.range' roi[m].1 (roi[m].2 - roi[m].1)).map (fun j => (chunks[m], j))).length ≤ count - A by
            simp; omega), List.nil_append]
        simp only [List.length_map, List.length_range']
        rw [show count - A - (roi[m].2 - roi[m].1) = 0 by omega]
        rfl
      · intro r hr; exact hwf r (List.mem_of_mem_drop hr)
    · rw [if_neg he]
      refine ⟨_, _, _, _, rfl, ⟨?_, ?_, hkeptS, ?_, hwfk, ?_, List.take_prefix _ _, List.drop_suffix _ _, hin⟩⟩
      · simp; omega
      · simp [hl]; omega
      · rw [hS, List.drop_append, hn1, List.drop_of_length_le (show (regionSamples (chunks.take m) (roi.take m)).length ≤ count by omega), List.nil_append, List.drop_append_of_le_length (by simp; omega),
          ← List.map_drop, List.drop_range', List.drop_eq_getElem_cons hmc, regionSamples_cons]
        congr 3
        · omega
        · omega
      · intro r hr
        rcases List.mem_cons.1 hr with rfl | hr
        · simp only; omega
        · exact hwf r (List.mem_of_mem_drop hr)

/-- Picking at all positions gives the list. -/
theorem pick_all {α : Type} (l : List α) : pick l (List.range l.length) = l := by
  unfold pick
  have : ∀ n, n ≤ l.length → (List.range n).filterMap (fun i => l[i]?) = l.take n := by
    intro n
    induction n with
    | zero => simp
    | succ n ih =>
      intro hn
      rw [List.range_succ, List.filterMap_append, ih (by omega)]
      simp only [List.filterMap_cons, List.filterMap_nil, List.getElem?_eq_getElem (show n < l.length by omega)]
      exact (List.take_succ_eq_append_getElem _).symm
  rw [this l.length (Nat.le_refl _), List.take_length]

/-- Picking at a permutation of all positions permutes. -/
theorem pick_perm {α : Type} (l : List α) (idx : List Nat) (h : idx.Perm (List.range l.length)) : (pick l idx).Perm l := by
  have h1 : (pick l idx).Perm (pick l (List.range l.length)) := h.filterMap (fun i => l[i]?)
  rw [pick_all] at h1
  exact h1

theorem pick_zip {α β : Type} (a : List α) (b : List β) (idx : List Nat) (h : a.length = b.length) :
    (pick a idx).zip (pick b idx) = pick (a.zip b) idx := by
  unfold pick
  induction idx with
  | nil => rfl
  | cons i idx ih =>
    by_cases hi : i < a.length
    · have hi' : i < b.length := by omega
      have hz : i < (a.zip b).length := by rw [List.length_zip]; omega
      simp only [List.filterMap_cons, List.getElem?_eq_getElem hi, List.getElem?_eq_getElem hi', List.getElem?_eq_getElem hz,
        List.zip_cons_cons, ih, List.getElem_zip]
    · have hz : ¬ i < (a.zip b).length := by rw [List.length_zip]; omega
      simp only [List.filterMap_cons, List.getElem?_eq_none (Nat.not_lt.1 hi), List.getElem?_eq_none (h ▸ Nat.not_lt.1 hi : b.length ≤ i),
        List.getElem?_eq_none (Nat.not_lt.1 hz), ih]

theorem shuffleTogether_ok {α : Type} (perm : List Nat → List Nat) (hp : ∀ l, (perm l).Perm l) (chunks : List α) (roi : List Roi)
    (h : chunks.length = roi.length) : ∃ c r, shuffleTogether perm chunks roi = .ok (c, r) ∧ c.length = chunks.length ∧ r.length = roi.length ∧
      c.Perm chunks ∧ r.Perm roi ∧ (c.zip r).Perm (chunks.zip roi) := by
  unfold shuffleTogether
  rw [if_neg (by omega)]
  have h1 := pick_perm chunks _ (hp (List.range chunks.length))
  have h2 := pick_perm roi (perm (List.range chunks.length)) (by rw [← h]; exact hp (List.range chunks.length))
  refine ⟨_, _, rfl, h1.length_eq, h2.length_eq, h1, h2, ?_⟩
  rw [pick_zip _ _ _ h]
  apply pick_perm
  rw [List.length_zip, ← h, Nat.min_self]
  exact hp _

theorem regionSamples_perm {α : Type} (c c' : List α) (r r' : List Roi) (h : (c.zip r).Perm (c'.zip r')) :
    (regionSamples c r).Perm (regionSamples c' r') := h.flatMap_right _

/-- Every use of the random generator is a permutation. -/
def Perms (perm : Nat → Option (List Nat → List Nat)) : Prop := ∀ (k : Nat) (f : List Nat → List Nat), perm k = some f → ∀ l, (f l).Perm l

theorem maybeShuffle_ok {α : Type} (perm : Option (List Nat → List Nat)) (hp : ∀ f, perm = some f → ∀ l, (f l).Perm l)
    (chunks : List α) (roi : List Roi) (h : chunks.length = roi.length) :
    ∃ c r, maybeShuffle perm chunks roi = .ok (c, r) ∧ c.length = r.length ∧ r.Perm roi ∧ (c.zip r).Perm (chunks.zip roi) ∧
      (perm = none → c = chunks ∧ r = roi) := by
  cases perm with
  | none => exact ⟨chunks, roi, rfl, h, List.Perm.refl _, List.Perm.refl _, fun _ => ⟨rfl, rfl⟩⟩
  | some f =>
    obtain ⟨c, r, h1, h2, h3, _, h5, h6⟩ := shuffleTogether_ok f (hp f rfl) chunks roi h
    exact ⟨c, r, h1, by omega, h5, h6, by simp⟩

/-- Chunks and regions taken from others. -/
def Within {α : Type} (fs : List α) (rs : List Roi) (chunks : List α) (roi : List Roi) : Prop :=
  fs.length = rs.length ∧ ∀ x ∈ fs.zip rs, ∃ r, (x.1, r) ∈ chunks.zip roi ∧ r.1 ≤ x.2.1 ∧ x.2.1 ≤ x.2.2 ∧ x.2.2 ≤ r.2

theorem Within.append {α : Type} {a b chunks : List α} {ra rb roi : List Roi} (h : Within a ra chunks roi) (h' : Within b rb chunks roi) :
    Within (a ++ b) (ra ++ rb) chunks roi := by
  refine ⟨by simp [h.1, h'.1], fun x hx => ?_⟩
  rw [List.zip_append h.1] at hx
  rcases List.mem_append.1 hx with hx | hx
  · exact h.2 x hx
  · exact h'.2 x hx

theorem Within.of_perm {α : Type} {a chunks : List α} {ra roi : List Roi} (hl : a.length = ra.length)
    (h : (a.zip ra).Perm (chunks.zip roi)) (hwf : RoiWF roi) : Within a ra chunks roi := by
  refine ⟨hl, fun x hx => ⟨x.2, h.mem_iff.1 hx, Nat.le_refl _, ?_, Nat.le_refl _⟩⟩
  exact hwf _ (List.of_mem_zip (h.mem_iff.1 hx)).2

theorem Within.trans_perm {α : Type} {fs a chunks : List α} {rs ra roi : List Roi} (hw : Within fs rs a ra)
    (h : (a.zip ra).Perm (chunks.zip roi)) : Within fs rs chunks roi := by
  refine ⟨hw.1, fun x hx => ?_⟩
  obtain ⟨r, h1, h2⟩ := hw.2 x hx
  exact ⟨r, h.mem_iff.1 h1, h2⟩

theorem CutAt.within {α : Type} {chunks fs left : List α} {roi rs leftRoi : List Roi} {count : Nat}
    (h : CutAt chunks roi count fs rs left leftRoi) : Within fs rs chunks roi := by
  refine ⟨h.lenKept, fun x hx => ?_⟩
  obtain ⟨k, hk⟩ := List.getElem?_of_mem hx
  rw [List.getElem?_zip_eq_some] at hk
  obtain ⟨r, h1, h2, h3⟩ := h.inside k x.2 hk.2
  refine ⟨r, ?_, h2, h.wfKept _ (List.mem_of_getElem? hk.2), h3⟩
  have hc : chunks[k]? = some x.1 := by
    obtain ⟨t, ht⟩ := h.prefix_
    rw [← ht, List.getElem?_append_left (List.getElem?_eq_some_iff.1 hk.1).1]
    exact hk.1
  apply List.mem_of_getElem? (i := k)
  rw [List.getElem?_zip_eq_some]
  exact ⟨hc, h1⟩

theorem roiWF_perm {r r' : List Roi} (h : r.Perm r') (hwf : RoiWF r') : RoiWF r := fun x hx => hwf x (h.mem_iff.1 hx)

theorem wholeCopies_ok {α : Type} (perm : Nat → Option (List Nat → List Nat)) (hp : Perms perm) (n : Nat) :
    ∀ (k : Nat) (chunks : List α) (roi : List Roi), chunks.length = roi.length → RoiWF roi →
    ∃ (fs : List α) (rs : List Roi) (chunks' : List α) (roi' : List Roi) (copies : List (List (α × Nat))), wholeCopies perm chunks roi k n = .ok (fs, rs, chunks', roi') ∧
      chunks'.length = roi'.length ∧ roi'.Perm roi ∧ (chunks'.zip roi').Perm (chunks.zip roi) ∧
      regionSamples fs rs = copies.flatten ∧ copies.length = n ∧ (∀ s ∈ copies, s.Perm (regionSamples chunks roi)) ∧
      Within fs rs chunks roi ∧
      ((∀ k, perm k = none) → chunks' = chunks ∧ roi' = roi ∧ ∀ s ∈ copies, s = regionSamples chunks roi) := by
  induction n with
  | zero =>
    intro k chunks roi hl hwf
    exact ⟨[], [], chunks, roi, [], rfl, hl, List.Perm.refl _, List.Perm.refl _, rfl, rfl, by simp, ⟨rfl, by simp⟩,
      fun _ => ⟨rfl, rfl, by simp⟩⟩
  | succ n ih =>
    intro k chunks roi hl hwf
    obtain ⟨c, r, h1, h2, h3, h4, h5⟩ := maybeShuffle_ok (perm k) (hp k) chunks roi hl
    obtain ⟨fs, rs, c', r', copies, g1, g2, g3, g4, g5, g6, g7, g8, g9⟩ := ih (k + 1) c r h2 (roiWF_perm h3 hwf)
    refine ⟨c ++ fs, r ++ rs, c', r', regionSamples c r :: copies, ?_, g2, g3.trans h3, g4.trans h4, ?_, by simp [g6], ?_, ?_, ?_⟩
    · unfold wholeCopies
      rw [h1]
      simp only [g1]
    · rw [regionSamples_append _ _ _ _ h2, g5]; rfl
    · intro s hs
      rcases List.mem_cons.1 hs with rfl | hs
      · exact regionSamples_perm _ _ _ _ h4
      · exact (g7 s hs).trans (regionSamples_perm _ _ _ _ h4)
    · exact (Within.of_perm h2 h4 hwf).append (g8.trans_perm h4)
    · intro hn
      obtain ⟨e1, e2⟩ := h5 (hn k)
      subst e1 e2
      obtain ⟨f1, f2, f3⟩ := g9 hn
      refine ⟨f1, f2, ?_⟩
      intro s hs
      rcases List.mem_cons.1 hs with rfl | hs
      · rfl
      · exact f3 s hs

theorem sum_roiSize_perm {r r' : List Roi} (h : r.Perm r') : (r.map roiSize).sum = (r'.map roiSize).sum :=
  (h.map roiSize).sum_nat

theorem subsampleDataset_ok {α : Type} (perm : Nat → Option (List Nat → List Nat)) (hp : Perms perm) (chunks : List α) (roi : List Roi)
    (p q : Nat) (hq : 0 < q) (hne : chunks ≠ []) (hl : chunks.length = roi.length) (hwf : RoiWF roi) :
    ∃ (fs : List α) (rs : List Roi) (copies : List (List (α × Nat))) (last : List (α × Nat)), subsampleDataset perm chunks roi p q = .ok (fs, rs) ∧ Within fs rs chunks roi ∧
      regionSamples fs rs = List.flatten copies ++ List.take ((regionSamples chunks roi).length * (p % q) / q) last ∧
      copies.length = p / q ∧ (∀ s ∈ copies, s.Perm (regionSamples chunks roi)) ∧ last.Perm (regionSamples chunks roi) ∧
      ((∀ k, perm k = none) → last = regionSamples chunks roi ∧ ∀ s ∈ copies, s = regionSamples chunks roi) := by
  unfold subsampleDataset
  rw [if_neg hne]
  by_cases hpq : p = q
  · rw [if_pos hpq]
    subst hpq
    refine ⟨chunks, roi, [regionSamples chunks roi], regionSamples chunks roi, rfl, Within.of_perm hl (List.Perm.refl _) hwf, ?_, ?_, ?_, List.Perm.refl _, ?_⟩
    · simp
    · simp [Nat.div_self hq]
    · simp
    · simp
  · rw [if_neg hpq]
    obtain ⟨fs, rs, c', r', copies, g1, g2, g3, g4, g5, g6, g7, g8, g9⟩ := wholeCopies_ok perm hp (p / q) 0 chunks roi hl hwf
    rw [g1]
    simp only
    by_cases hr : p % q = 0
    · rw [if_pos hr]
      refine ⟨fs, rs, copies, regionSamples chunks roi, rfl, g8, ?_, g6, g7, List.Perm.refl _, ?_⟩
      · rw [g5, hr]; simp
      · intro hn; exact ⟨rfl, (g9 hn).2.2⟩
    · rw [if_neg hr]
      obtain ⟨c, r, h1, h2, h3, h4, h5⟩ := maybeShuffle_ok (perm (p / q)) (hp _) c' r' g2
      rw [h1]
      simp only
      have hN : (r.map roiSize).sum = (regionSamples chunks roi).length := by
        rw [regionSamples_length _ _ hl, sum_roiSize_perm h3, sum_roiSize_perm g3]
      have hwf' : RoiWF r := roiWF_perm (h3.trans g3) hwf
      obtain ⟨fs', rs', left, leftRoi, k1, k2⟩ := subsampleRoi_ok c r ((r.map roiSize).sum * (p % q) / q) h2 hwf' (by
        apply Nat.div_le_of_le_mul
        rw [Nat.mul_comm q]
        exact Nat.mul_le_mul_left _ (Nat.le_of_lt (Nat.mod_lt _ hq)))
      rw [k1]
      simp only
      refine ⟨_, _, copies, regionSamples c r, rfl, g8.append (k2.within.trans_perm (h4.trans g4)), ?_, g6, g7,
        regionSamples_perm _ _ _ _ (h4.trans g4), ?_⟩
      · rw [regionSamples_append _ _ _ _ g8.1, g5, k2.keptS, hN]
      · intro hn
        obtain ⟨e1, e2⟩ := h5 (hn _)
        obtain ⟨f1, f2, f3⟩ := g9 hn
        rw [e1, e2, f1, f2]
        exact ⟨rfl, f3⟩

theorem splitLoop_ok {α : Type} (counts : List Nat) : ∀ (chunks : List α) (roi : List Roi), chunks.length = roi.length → RoiWF roi →
    counts.sum ≤ (roi.map roiSize).sum →
    ∃ outs, splitLoop counts chunks roi = .ok outs ∧ outs.map (fun o => (regionSamples o.1 o.2).length) = counts ∧
      outs.flatMap (fun o => regionSamples o.1 o.2) = (regionSamples chunks roi).take counts.sum ∧
      ∀ o ∈ outs, o.1.length = o.2.length ∧ ∀ c ∈ o.1, c ∈ chunks := by
  induction counts with
  | nil => intro chunks roi hl hwf hc; exact ⟨[], rfl, rfl, by simp, by simp⟩
  | cons n ns ih =>
    intro chunks roi hl hwf hc
    rw [List.sum_cons] at hc
    obtain ⟨fs, rs, left, leftRoi, k1, k2⟩ := subsampleRoi_ok chunks roi n hl hwf (by omega)
    have hlen : (leftRoi.map roiSize).sum = (roi.map roiSize).sum - n := by
      rw [← regionSamples_length _ _ k2.lenLeft, k2.restS, List.length_drop, regionSamples_length _ _ hl]
    obtain ⟨outs, g1, g2, g3, g4⟩ := ih left leftRoi k2.lenLeft k2.wfLeft (by omega)
    refine ⟨(fs, rs) :: outs, ?_, ?_, ?_, ?_⟩
    · unfold splitLoop
      rw [k1]
      simp only [g1]
    · simp only [List.map_cons, g2]
      rw [k2.keptS, List.length_take, regionSamples_length _ _ hl, Nat.min_eq_left (by omega)]
    · rw [List.flatMap_cons, g3, k2.restS]
      simp only
      rw [k2.keptS, List.sum_cons, List.take_add]
    · intro o ho
      rcases List.mem_cons.1 ho with rfl | ho
      · exact ⟨k2.lenKept, fun c hc => k2.prefix_.subset hc⟩
      · exact ⟨(g4 o ho).1, fun c hc => k2.suffix_.subset ((g4 o ho).2 c hc)⟩

theorem regionSamples_nodup {α : Type} (chunks : List α) (roi : List Roi) (h : chunks.Nodup) : (regionSamples chunks roi).Nodup := by
  induction chunks generalizing roi with
  | nil => simp [regionSamples]
  | cons c cs ih =>
    cases roi with
    | nil => simp [regionSamples]
    | cons r rs =>
      rw [regionSamples_cons, List.nodup_append]
      refine ⟨?_, ih rs (List.nodup_cons.1 h).2, ?_⟩
      · rw [List.nodup_iff_pairwise_ne, List.pairwise_map]
        exact (List.nodup_range' (step := 1)).imp (fun hne e => hne (by injection e))
      · intro x hx y hy he
        subst he
        simp only [List.mem_map] at hx
        obtain ⟨j, _, rfl⟩ := hx
        simp only [regionSamples, List.mem_flatMap, List.mem_map] at hy
        obtain ⟨z, hz, j', _, hj'⟩ := hy
        have := (List.of_mem_zip hz).1
        injection hj' with e1 e2
        rw [e1] at this
        exact (List.nodup_cons.1 h).1 this

end LitData
