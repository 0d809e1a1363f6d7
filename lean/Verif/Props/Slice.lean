import Verif.Model.Slice
import Verif.Spec.Slice
import Verif.Props.Config
import Verif.Props.Assign

/-! C48: slices of a dataset. -/

namespace LitData.Props

open LitData Spec

theorem eq_of_sorted {l m : List Nat} (hl : l.Pairwise (· < ·)) (hm : m.Pairwise (· < ·)) (h : ∀ i, i ∈ l ↔ i ∈ m) : l = m := by
  induction l generalizing m with
  | nil =>
    cases m with
    | nil => rfl
    | cons b m => exact absurd ((h b).2 (List.mem_cons_self ..)) (by simp)
  | cons a l ih =>
    cases m with
    | nil => exact absurd ((h a).1 (List.mem_cons_self ..)) (by simp)
    | cons b m =>
      obtain ⟨ha, hl2⟩ := List.pairwise_cons.1 hl
      obtain ⟨hb, hm2⟩ := List.pairwise_cons.1 hm
      have hab : a = b := by
        rcases List.mem_cons.1 ((h a).1 (List.mem_cons_self ..)) with e | e
        · exact e
        · rcases List.mem_cons.1 ((h b).2 (List.mem_cons_self ..)) with e' | e'
          · exact e'.symm
          · have := hb a e
            have := ha b e'
            omega
      subst hab
      congr 1
      apply ih hl2 hm2
      intro i
      constructor
      · intro hi
        rcases List.mem_cons.1 ((h i).1 (List.mem_cons_of_mem _ hi)) with e | e
        · have := ha i hi; omega
        · exact e
      · intro hi
        rcases List.mem_cons.1 ((h i).2 (List.mem_cons_of_mem _ hi)) with e | e
        · have := hb i hi; omega
        · exact e

/-- The positions of a slice upwards. -/
theorem pyRange_up (start stop step : Nat) (hs : 0 < step) :
    pyRange start stop step = ((List.range stop).filter fun i => start ≤ i && (i - start) % step == 0).map fun (i : Nat) => (i : Int) := by
  have hlen : rangeLength start stop step = (stop - start + step - 1) / step := by
    simp only [rangeLength]
    rw [if_pos (by omega)]
    by_cases h : start ≤ stop
    · rw [show (stop : Int) - start + step - 1 = ((stop - start + step - 1 : Nat) : Int) by omega]
      rw [← Int.natCast_ediv]
      exact Int.toNat_natCast _
    · rw [Nat.div_eq_of_lt (by omega)]
      have := Int.ediv_lt_of_lt_mul (a := (stop : Int) - start + step - 1) (b := 1) (c := step) (by omega) (by omega)
      omega
  have : (List.range (rangeLength start stop step)).map (fun k => start + k * step)
      = (List.range stop).filter fun i => start ≤ i && (i - start) % step == 0 := by
    apply eq_of_sorted
    · rw [List.pairwise_map]
      refine List.Pairwise.imp ?_ List.pairwise_lt_range
      intro a b hab
      have := Nat.mul_lt_mul_of_pos_right hab hs
      omega
    · exact List.Pairwise.filter _ List.pairwise_lt_range
    · intro i
      simp only [List.mem_map, List.mem_range, List.mem_filter, Bool.and_eq_true, decide_eq_true_eq, beq_iff_eq, hlen]
      constructor
      · rintro ⟨k, hk, rfl⟩
        have h1 := (Nat.le_div_iff_mul_le hs).1 hk
        refine ⟨?_, by omega, ?_⟩
        · rw [Nat.succ_mul] at h1
          omega
        · rw [Nat.add_sub_cancel_left, Nat.mul_mod_left]
      · rintro ⟨h1, h2, h3⟩
        refine ⟨(i - start) / step, ?_, ?_⟩
        · refine (Nat.le_div_iff_mul_le hs).2 ?_
          have := Nat.div_add_mod (i - start) step
          rw [h3, Nat.mul_comm] at this
          rw [Nat.succ_mul]
          omega
        · have := Nat.div_add_mod (i - start) step
          rw [h3, Nat.mul_comm] at this
          omega
  rw [← this]
  simp only [pyRange, List.map_map]
  apply List.map_congr_left
  intro k _
  simp

/-- The positions of a slice downwards, from `start` to `stop` inclusive. -/
theorem pyRange_down (start stop step n : Nat) (hs : 0 < step) (hn : start < n) :
    pyRange start ((stop : Int) - 1) (-(step : Int))
      = (((List.range n).filter fun i => i ≤ start && stop ≤ i && (start - i) % step == 0).reverse).map fun (i : Nat) => (i : Int) := by
  have hlen : rangeLength start ((stop : Int) - 1) (-(step : Int)) = (start + step - stop) / step := by
    simp only [rangeLength]
    rw [if_neg (by omega)]
    by_cases h : stop ≤ start + step
    · rw [show (start : Int) - ((stop : Int) - 1) + - -(step : Int) - 1 = ((start + step - stop : Nat) : Int) by omega]
      rw [Int.neg_neg, ← Int.natCast_ediv]
      exact Int.toNat_natCast _
    · rw [Nat.div_eq_of_lt (by omega)]
      have := Int.ediv_lt_of_lt_mul (a := (start : Int) - ((stop : Int) - 1) + - -(step : Int) - 1) (b := 1) (c := - -(step : Int))
        (by omega) (by omega)
      omega
  have hk : ∀ k, k < (start + step - stop) / step → k * step ≤ start ∧ stop + k * step ≤ start := by
    intro k hk
    have h1 := (Nat.le_div_iff_mul_le hs).1 hk
    rw [Nat.succ_mul] at h1
    omega
  have : ((List.range (rangeLength start ((stop : Int) - 1) (-(step : Int)))).map (fun k => start - k * step)).reverse
      = (List.range n).filter fun i => i ≤ start && stop ≤ i && (start - i) % step == 0 := by
    apply eq_of_sorted
    · rw [List.pairwise_reverse, List.pairwise_map, hlen]
      refine List.Pairwise.imp_of_mem ?_ List.pairwise_lt_range
      intro a b ha hb hab
      have := Nat.mul_lt_mul_of_pos_right hab hs
      have := hk b (List.mem_range.1 hb)
      omega
    · exact List.Pairwise.filter _ List.pairwise_lt_range
    · intro i
      simp only [List.mem_reverse, List.mem_map, List.mem_range, List.mem_filter, Bool.and_eq_true, decide_eq_true_eq, beq_iff_eq, hlen]
      constructor
      · rintro ⟨k, hk', rfl⟩
        have := hk k hk'
        refine ⟨by omega, ⟨by omega, by omega⟩, ?_⟩
        rw [show start - (start - k * step) = k * step by omega, Nat.mul_mod_left]
      · rintro ⟨h1, ⟨h2, h3⟩, h4⟩
        have := Nat.div_add_mod (start - i) step
        rw [h4, Nat.mul_comm] at this
        refine ⟨(start - i) / step, ?_, by omega⟩
        refine (Nat.le_div_iff_mul_le hs).2 ?_
        rw [Nat.succ_mul]
        omega
  rw [← this, List.reverse_reverse]
  simp only [pyRange, List.map_map]
  apply List.map_congr_left
  intro k hk'
  have := hk k (by rw [← hlen]; exact List.mem_range.1 hk')
  simp only [Function.comp_apply]
  rw [Int.mul_neg, ← Int.natCast_mul]
  omega

theorem boundOr_start_up (n : Nat) (a : Option Int) : ∃ p : Nat, boundOr 0 n 0 n a = p ∧
    ∀ i < n, (firstUp n a ≤ i ↔ p ≤ i) ∧ (p ≤ i → firstUp n a = p) := by
  cases a with
  | none => exact ⟨0, rfl, fun i _ => by simp [firstUp]⟩
  | some b =>
    refine ⟨(adjustBound n 0 n b).toNat, ?_, fun i hi => ?_⟩
    · simp only [boundOr, adjustBound]
      split <;> omega
    · simp only [adjustBound, firstUp, fromStart]
      split <;> omega

theorem boundOr_stop_up (n : Nat) (b : Option Int) : ∃ q : Nat, boundOr n n 0 n b = q ∧ q ≤ n ∧
    ∀ i < n, (isBefore n i b = true ↔ i < q) := by
  cases b with
  | none => exact ⟨n, rfl, Nat.le_refl _, fun i hi => by simp [isBefore, hi]⟩
  | some b =>
    refine ⟨(adjustBound n 0 n b).toNat, ?_, ?_, fun i hi => ?_⟩
    · simp only [boundOr, adjustBound]
      split <;> omega
    · simp only [adjustBound]
      split <;> omega
    · rw [show isBefore n i (some b) = decide ((i : Int) < fromStart n b) from rfl, decide_eq_true_eq]
      simp only [adjustBound, fromStart]
      split <;> omega

theorem boundOr_start_down (n : Nat) (a : Option Int) :
    boundOr ((n : Int) - 1) n (-1) ((n : Int) - 1) a = max (-1) (firstDown n a) ∧ firstDown n a < n := by
  cases a with
  | none => simp only [boundOr, firstDown]; omega
  | some b =>
    simp only [boundOr, adjustBound, firstDown, fromStart]
    split <;> omega

theorem boundOr_stop_down (n : Nat) (b : Option Int) : ∃ q : Nat, boundOr (-1) n (-1) ((n : Int) - 1) b = (q : Int) - 1 ∧
    ∀ i < n, (isAfter n i b = true ↔ q ≤ i) := by
  cases b with
  | none => exact ⟨0, rfl, fun i hi => by simp [isAfter]⟩
  | some b =>
    refine ⟨(adjustBound n (-1) ((n : Int) - 1) b + 1).toNat, ?_, fun i hi => ?_⟩
    · simp only [boundOr, adjustBound]
      split <;> omega
    · rw [show isAfter n i (some b) = decide (fromStart n b < (i : Int)) from rfl, decide_eq_true_eq]
      simp only [adjustBound, fromStart]
      split <;> omega

/-- The positions that `slice.indices` and `range` give are the selected ones. -/
theorem slice_positions (n : Nat) (s : PySlice) (h : s.step ≠ some 0) :
    ∃ start stop step, sliceIndices n s = .ok (start, stop, step) ∧
      pyRange start stop step = (if 0 < s.step.getD 1
        then (List.range n).filter (selectedUp n s.start s.stop (s.step.getD 1).toNat)
        else ((List.range n).filter (selectedDown n s.start s.stop (-(s.step.getD 1)).toNat)).reverse).map fun (i : Nat) => (i : Int) := by
  obtain ⟨a, b, c⟩ := s
  simp only [ne_eq] at h
  have hc : c.getD 1 ≠ 0 := by
    cases c with
    | none => decide
    | some c => intro e; apply h; simp only [Option.getD_some] at e; rw [e]
  simp only [sliceIndices, if_neg hc]
  generalize hg : c.getD 1 = step at *
  clear hg h
  refine ⟨_, _, _, rfl, ?_⟩
  by_cases hpos : 0 < step
  · simp only [if_pos hpos, if_neg (show ¬ step < 0 by omega)]
    obtain ⟨k, rfl⟩ : ∃ k : Nat, step = k := ⟨step.toNat, by omega⟩
    obtain ⟨p, hp, hp2⟩ := boundOr_start_up n a
    obtain ⟨q, hq, hqn, hq2⟩ := boundOr_stop_up n b
    rw [hp, hq, pyRange_up p q k (by omega)]
    congr 1
    apply eq_of_sorted (List.Pairwise.filter _ List.pairwise_lt_range) (List.Pairwise.filter _ List.pairwise_lt_range)
    intro i
    simp only [List.mem_filter, List.mem_range, Bool.and_eq_true, decide_eq_true_eq, beq_iff_eq, selectedUp, Int.toNat_natCast]
    by_cases hi : i < n
    · obtain ⟨h1, h2⟩ := hp2 i hi
      have h3 := hq2 i hi
      constructor
      · rintro ⟨g1, g2, g3⟩
        exact ⟨hi, ⟨h1.2 g2, h3.2 g1⟩, by rw [h2 g2]; exact g3⟩
      · rintro ⟨_, ⟨g1, g2⟩, g3⟩
        exact ⟨h3.1 g2, h1.1 g1, by rw [← h2 (h1.1 g1)]; exact g3⟩
    · constructor
      · rintro ⟨g1, _⟩; omega
      · rintro ⟨g1, _⟩; omega
  · have hneg : step < 0 := by omega
    simp only [if_neg hpos, if_pos hneg]
    obtain ⟨k, rfl⟩ : ∃ k : Nat, step = -(k : Int) := ⟨(-step).toNat, by omega⟩
    obtain ⟨hp, hpn⟩ := boundOr_start_down n a
    obtain ⟨q, hq, hq2⟩ := boundOr_stop_down n b
    rw [hp, hq]
    generalize hf : firstDown n a = f at *
    by_cases hf0 : f < 0
    · have e1 : (List.range n).filter (selectedDown n a b (- -(k : Int)).toNat) = [] := by
        rw [List.filter_eq_nil_iff]
        intro i _ hi
        simp only [selectedDown, Bool.and_eq_true, decide_eq_true_eq, hf] at hi
        omega
      rw [e1]
      have e2 : rangeLength (max (-1) f) ((q : Int) - 1) (-(k : Int)) = 0 := by
        simp only [rangeLength]
        rw [if_neg (by omega)]
        have := Int.ediv_lt_of_lt_mul (a := max (-1) f - ((q : Int) - 1) + - -(k : Int) - 1) (b := 1) (c := - -(k : Int))
          (by omega) (by omega)
        omega
      simp [pyRange, e2]
    · obtain ⟨p, rfl⟩ : ∃ p : Nat, f = p := ⟨f.toNat, by omega⟩
      rw [show max (-1) (p : Int) = p by omega, pyRange_down p q k n (by omega) (by omega)]
      congr 2
      apply List.filter_congr
      intro i hi
      have hi := hq2 i (List.mem_range.1 hi)
      simp only [selectedDown, hf, Int.neg_neg, Int.toNat_natCast]
      have : isAfter n i b = decide (q ≤ i) := by
        rw [Bool.eq_iff_iff, hi, decide_eq_true_eq]
      rw [this]
      simp

theorem mem_positions {n : Nat} {s : PySlice} {i : Nat} (h : i ∈ (if 0 < s.step.getD 1
        then (List.range n).filter (selectedUp n s.start s.stop (s.step.getD 1).toNat)
        else ((List.range n).filter (selectedDown n s.start s.stop (-(s.step.getD 1)).toNat)).reverse)) : i < n := by
  split at h
  · exact List.mem_range.1 (List.mem_filter.1 h).1
  · exact List.mem_range.1 (List.mem_filter.1 (List.mem_reverse.1 h)).1

/-- Locating everything first and then reading is the same as reading one index after the other, when every index is valid. -/
theorem readLocated_eq (fs : String → Option Bytes) (join : String → String) (enc : Option Encryption) (cfg : Option EncConfig)
    (chunks : List ChunkInfo) (ivs : List Interval) (is : List Nat) (h : ∀ i ∈ is, i < (ivs.map Interval.size).sum) :
    ∃ ps, locateAll ivs (is.map fun (i : Nat) => (i : Int)) = .ok ps ∧
      ∀ st, readLocated fs join enc cfg chunks ivs st ps = datasetGets fs join enc cfg chunks ivs st is := by
  induction is with
  | nil => exact ⟨[], rfl, fun _ => rfl⟩
  | cons i is ih =>
    obtain ⟨ps, h1, h2⟩ := ih fun j hj => h j (List.mem_cons_of_mem _ hj)
    have hi : i < (datasetSamples (List.range ivs.length) ivs).length := by
      rw [(c15_out_of_range ivs 0).1]
      exact h i (List.mem_cons_self ..)
    have hl := c15_lookup ivs i hi
    refine ⟨((datasetSamples (List.range ivs.length) ivs)[i].2, (datasetSamples (List.range ivs.length) ivs)[i].1) :: ps,
      by rw [List.map_cons, locateAll, hl]; simp only [h1], fun st => ?_⟩
    simp only [readLocated, datasetGets, datasetGet, hl]
    cases configGet join chunks ivs (datasetSamples (List.range ivs.length) ivs)[i].1 with
    | error e => rfl
    | ok c =>
      obtain ⟨path, b, size⟩ := c
      simp only
      cases loadItem fs cfg enc st path (datasetSamples (List.range ivs.length) ivs)[i].1
          (datasetSamples (List.range ivs.length) ivs)[i].2 b size with
      | error e => rfl
      | ok r =>
        obtain ⟨x, st'⟩ := r
        simp only [h2]
        cases datasetGets fs join enc cfg chunks ivs st' is <;> rfl

theorem filterMap_take {α : Type} [Inhabited α] (xs : List α) (L : Nat) (hL : L ≤ xs.length) (is : List Nat) (h : ∀ i ∈ is, i < L)
    (d : α) : (is.filterMap fun i => (xs.take L)[i]?) = is.map fun i => xs.getD i d := by
  induction is with
  | nil => rfl
  | cons i is ih =>
    have hi := h i (List.mem_cons_self ..)
    rw [List.filterMap_cons, List.map_cons, ih fun j hj => h j (List.mem_cons_of_mem _ hj)]
    rw [List.getElem?_take_of_lt hi, List.getElem?_eq_getElem (by omega)]
    simp [List.getD, List.getElem?_eq_getElem (show i < xs.length by omega)]

/-- C48. For a dataset on disk with any regions of interest: where `len(dataset)` is `L`, `dataset[start:stop:step]` is the Python slice
of the list of the first `L` samples, and a step of zero raises `ValueError`. -/
theorem c48_slice (enc : Option Encryption) (hsound : ∀ e, enc = some e → Encryption.Sound e)
    (fs : String → Option Bytes) (join : String → String) (chunks : List ChunkInfo) (items : List (List Bytes))
    (hs : Stored enc fs join chunks items) (roi : List (Nat × Nat)) (hlen : roi.length = chunks.length)
    (hroi : ∀ (k : Nat) (l : List Bytes) (r : Nat × Nat), items[k]? = some l → roi[k]? = some r → r.1 ≤ r.2 ∧ r.2 ≤ l.length) :
    ∃ ivs, generateIntervals (some roi) 0 0 chunks = .ok ivs ∧ (roiItems items roi).length = (ivs.map Interval.size).sum ∧
      ∀ (L : Nat) (s : PySlice), L ≤ (roiItems items roi).length →
        datasetSlice fs join enc (enc.map Encryption.config) chunks ivs PyTreeState.init L s =
          match pySlice ((roiItems items roi).take L) s.start s.stop (s.step.getD 1) with
          | none => .error .valueError
          | some xs => .ok xs := by
  obtain ⟨ivs, h1, h2, h3⟩ := c15_reads enc hsound fs join chunks items hs roi hlen hroi
  refine ⟨ivs, h1, h2, fun L s hL => ?_⟩
  by_cases h0 : s.step = some 0
  · simp [datasetSlice, sliceIndices, h0, pySlice]
  · obtain ⟨start, stop, step, e1, e2⟩ := slice_positions L s h0
    simp only [datasetSlice, e1, e2]
    have hmem := fun i => mem_positions (n := L) (s := s) (i := i)
    generalize hpos : (if 0 < s.step.getD 1
        then (List.range L).filter (selectedUp L s.start s.stop (s.step.getD 1).toNat)
        else ((List.range L).filter (selectedDown L s.start s.stop (-(s.step.getD 1)).toNat)).reverse) = is at *
    obtain ⟨ps, p1, p2⟩ := readLocated_eq fs join enc (enc.map Encryption.config) chunks ivs is
      (fun i hi => by rw [← h2]; exact Nat.lt_of_lt_of_le (hmem i hi) hL)
    have hlenT : ((roiItems items roi).take L).length = L := by rw [List.length_take]; omega
    have hsl : pySlice ((roiItems items roi).take L) s.start s.stop (s.step.getD 1)
        = some (is.map fun i => (roiItems items roi).getD i []) := by
      rw [← filterMap_take (roiItems items roi) L hL is hmem [], ← hpos]
      simp only [pySlice, hlenT]
      by_cases hp : 0 < s.step.getD 1
      · simp only [if_pos hp]
      · have hne : s.step.getD 1 ≠ 0 := by
          cases hst : s.step with
          | none => simp
          | some c => intro e; apply h0; rw [hst]; simp only [Option.getD_some] at e; rw [e]
        simp only [if_neg hp, if_pos (show s.step.getD 1 < 0 by omega)]
    rw [hsl, p1]
    simp only
    rw [p2]
    exact h3 is fun i hi => Nat.lt_of_lt_of_le (hmem i hi) hL

theorem filterMap_range' {α : Type} (xs : List α) (a m : Nat) :
    ((List.range' a m).filterMap fun i => xs[i]?) = (xs.drop a).take m := by
  induction m generalizing a with
  | zero => simp
  | succ m ih =>
    rw [List.range'_succ, List.filterMap_cons, ih]
    by_cases h : a < xs.length
    · rw [List.getElem?_eq_getElem h, List.drop_eq_getElem_cons h, List.take_succ_cons]
    · rw [List.getElem?_eq_none (by omega), List.drop_of_length_le (by omega), List.drop_of_length_le (by omega)]
      simp

/-- What the definition of a slice means in the usual cases: `xs[:]` is everything, `xs[a:b]` the part between, `xs[::-1]` the reverse. -/
theorem c48_usual {α : Type} (xs : List α) (a b : Nat) :
    pySlice xs none none 1 = some xs ∧ pySlice xs (some a) (some b) 1 = some ((xs.drop a).take (b - a)) ∧
    pySlice xs none none (-1) = some xs.reverse := by
  have hall : ((List.range xs.length).filterMap fun i => xs[i]?) = xs := by
    rw [List.range_eq_range', filterMap_range']
    simp
  refine ⟨?_, ?_, ?_⟩
  · simp only [pySlice, if_pos (show (0 : Int) < 1 by omega)]
    rw [List.filter_eq_self.2, hall]
    intro i _
    simp [selectedUp, firstUp, isBefore, Nat.mod_one]
  · simp only [pySlice, if_pos (show (0 : Int) < 1 by omega)]
    have : (List.range xs.length).filter (selectedUp xs.length (some a) (some b) (1 : Int).toNat)
        = List.range' a (min b xs.length - a) := by
      apply eq_of_sorted (List.Pairwise.filter _ List.pairwise_lt_range) List.pairwise_lt_range'
      intro i
      simp only [List.mem_filter, List.mem_range, selectedUp, Bool.and_eq_true, decide_eq_true_eq, isBefore,
        beq_iff_eq, List.mem_range'_1, Int.toNat_one, Nat.mod_one]
      simp only [firstUp, fromStart, show ¬ ((a : Int) < 0) by omega, show ¬ ((b : Int) < 0) by omega, if_false, Int.toNat_natCast, and_true]
      rcases Nat.le_total b xs.length with hb | hb
      · rw [Nat.min_eq_left hb]; omega
      · rw [Nat.min_eq_right hb]; omega
    rw [this, filterMap_range']
    congr 1
    by_cases hb : b ≤ xs.length
    · rw [Nat.min_eq_left hb]
    · rw [Nat.min_eq_right (by omega), List.take_of_length_le (by simp), List.take_of_length_le (by simp; omega)]
  · simp only [pySlice, if_neg (show ¬ (0 : Int) < -1 by omega), if_pos (show (-1 : Int) < 0 by omega)]
    rw [List.filter_eq_self.2, List.filterMap_reverse, hall]
    intro i hi
    have := List.mem_range.1 hi
    simp only [selectedDown, isAfter, Bool.and_true, Bool.and_eq_true, decide_eq_true_eq]
    simp only [firstDown]
    refine ⟨by omega, ?_⟩
    simp [Nat.mod_one]

example : pySlice [10, 11, 12, 13, 14] (some (-4)) none 2 = some [11, 13] := by decide
example : pySlice [10, 11, 12, 13, 14] (some 9) (some 0) (-3) = some [14, 11] := by decide
example : pySlice [10, 11, 12] (some 2) (some 1) 1 = some ([] : List Nat) := by decide

/-- Each rank of a distributed run slices the beginning of the dataset by its own length: with `W > 1` ranks, `dataset[:]` is not the
dataset but its first `L` samples, the same ones on every rank but the last; `dataset[i]` reaches all of it. -/
theorem c48_ranks (W : Nat) (idx : List Nat) (ivs : List Interval) (nw bs : Nat) (hW : 1 < W) (hnw : 0 < nw) (hbs : 0 < bs)
    (hlen : idx.length = ivs.length) (hpos : 0 < (datasetSamples idx ivs).length) (dl : Bool) :
    ∃ ws, associate W idx ivs dl nw bs = .ok ws ∧ ∀ r, r + 1 < W →
      shuffleLen ws r nw < (datasetSamples idx ivs).length ∧
      ∀ {α : Type} (xs : List α), pySlice (xs.take (shuffleLen ws r nw)) none none 1 = some (xs.take (shuffleLen ws r nw)) := by
  obtain ⟨ws, h1, h2⟩ := c41_len_closed_form W idx ivs dl nw bs (by omega) hnw hbs hlen
  refine ⟨ws, h1, fun r hr => ⟨?_, fun xs => (c48_usual _ 0 0).1⟩⟩
  have := h2 r (by omega)
  rw [this, if_neg (by omega)]
  generalize (datasetSamples idx ivs).length = n at *
  have h3 := Nat.div_mul_le_self n (bs * W)
  have h4 : bs * (n / (bs * W)) * W ≤ n := by
    calc bs * (n / (bs * W)) * W = n / (bs * W) * (bs * W) := by
          rw [Nat.mul_comm bs, Nat.mul_assoc]
      _ ≤ n := h3
  by_cases h5 : bs * (n / (bs * W)) = 0
  · omega
  · have := Nat.mul_le_mul_left (bs * (n / (bs * W))) hW
    omega

/-- The assumptions of `c48_slice` are met by the two chunks of `storedExample`; the reverse of all three samples. -/
example : datasetSlice storedFiles id none none storedChunks [⟨0, 0, 2, 2⟩, ⟨2, 2, 3, 3⟩] PyTreeState.init 3 ⟨none, none, some (-1)⟩
    = .ok [[4, 5, 6], [3], [1, 2]] := by decide +kernel

example := c48_slice none (fun _ h => by cases h) storedFiles id storedChunks storedItems storedExample [(0, 2), (0, 1)] rfl (by
  intro k l r hl hr
  match k with
  | 0 => cases hl; cases hr; decide
  | 1 => cases hl; cases hr; decide
  | k + 2 => cases hl)

end LitData.Props
