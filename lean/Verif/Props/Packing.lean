import Verif.Lemmas.Packing
import Verif.Props.LoaderIter

/-! Properties C23, C24, C40: how the inputs of `map` and `optimize` reach the workers. -/

namespace LitData.Props
open LitData

variable {α : Type}

theorem filter_range_between (n a b : Nat) (hb : b ≤ n) :
    (List.range n).filter (fun w => decide (a ≤ w) && decide (w < b)) = List.range' a (b - a) := by
  induction n generalizing b with
  | zero => have : b = 0 := by omega
            subst this; simp
  | succ n ih =>
    rw [List.range_succ, List.filter_append]
    by_cases h : b ≤ n
    · rw [ih b h]
      simp [List.filter_cons]; omega
    · have hbn : b = n + 1 := by omega
      subst hbn
      have hpre : (List.range n).filter (fun w => decide (a ≤ w) && decide (w < n + 1)) = List.range' a (n - a) := by
        rw [← ih n (Nat.le_refl _)]
        apply List.filter_congr
        intro w hw
        have := List.mem_range.1 hw
        have h1 : decide (w < n + 1) = decide (w < n) := by
          rw [decide_eq_decide]; omega
        rw [h1]
      rw [hpre]
      by_cases ha : a ≤ n
      · have : n + 1 - a = (n - a) + 1 := by omega
        rw [this, List.range'_concat]
        simp [ha]
      · have h1 : n - a = 0 := by omega
        have h2 : n + 1 - a = 0 := by omega
        simp [ha, h1, h2]

/-- The share of one worker. -/
theorem mapSequentially_eq (numNodes nodeRank numWorkers : Nat) (items : List α) (hn : 0 < numWorkers) (hr : nodeRank < numNodes) :
    mapSequentially numNodes nodeRank numWorkers items = .ok ((List.range' (nodeRank * numWorkers) numWorkers).map (fun w =>
      (items.take (((inputsPerWorker items.length (numNodes * numWorkers)).take (w + 1)).sum)).drop
        (((inputsPerWorker items.length (numNodes * numWorkers)).take w).sum))) := by
  have hws : 0 < numNodes * numWorkers := Nat.mul_pos (by omega) hn
  have hle : (nodeRank + 1) * numWorkers ≤ numNodes * numWorkers := Nat.mul_le_mul_right _ hr
  have hsub : (nodeRank + 1) * numWorkers - nodeRank * numWorkers = numWorkers := by rw [Nat.add_mul]; omega
  unfold mapSequentially
  simp only
  rw [if_neg (by omega), filter_range_between _ _ _ hle, hsub, if_neg (by simp)]
  congr 1
  apply List.map_congr_left
  intro w hw
  have hw' := List.mem_range'_1.1 hw
  have hlen := inputsPerWorker_length items.length (numNodes * numWorkers)
  have hwl : w < numNodes * numWorkers := by rw [Nat.add_mul] at hle; omega
  rw [cumsumFrom_getD _ 0 w (by simp [hlen]; omega), cumsumFrom_getD _ 0 (w + 1) (by simp [hlen]; omega)]
  simp

theorem flatten_eq_flatMap_range (outs : List (List α)) : outs.flatten = (List.range outs.length).flatMap (fun r => outs.getD r []) := by
  have : outs = (List.range outs.length).map (fun r => outs.getD r []) := by
    apply List.ext_getElem
    · simp
    · intro i h1 h2; simp [h1]
  rw [List.flatMap, ← this]

/-- **C23.** Without weights or reordering every node of the job succeeds with one share per worker; the shares
of all nodes in rank order, put together, are the inputs in their order; and two shares differ in size by at
most one. -/
theorem c23_sequential (numNodes numWorkers : Nat) (items : List α) (hn : 0 < numWorkers) :
    ∃ outs : List (List (List α)), outs.length = numNodes ∧
      (∀ (r : Nat) (o : List (List α)), outs[r]? = some o →
        mapSequentially numNodes r numWorkers items = .ok o ∧ o.length = numWorkers) ∧
      (0 < numNodes → outs.flatten.flatten = items) ∧
      (∀ a ∈ outs.flatten, ∀ b ∈ outs.flatten, a.length ≤ b.length + 1) := by
  let counts := inputsPerWorker items.length (numNodes * numWorkers)
  let share : Nat → List α := fun w => (items.take ((counts.take (w + 1)).sum)).drop ((counts.take w).sum)
  have hflat : ((List.range numNodes).map (fun r => (List.range' (r * numWorkers) numWorkers).map share)).flatten
      = (List.range (numNodes * numWorkers)).map share := by
    have h := rangeMul numWorkers (fun w => [share w]) numNodes
    rw [← List.flatMap_def]
    have h1 : (List.range (numNodes * numWorkers)).map share = (List.range (numNodes * numWorkers)).flatMap (fun w => [share w]) :=
      List.map_eq_flatMap
    rw [h1, h]
    rw [List.flatMap_def, List.flatMap_def]
    congr 1
    apply List.map_congr_left
    intro r _
    rw [← List.map_eq_flatMap, List.range'_eq_map_range, List.map_map]
    rfl
  have hlen := inputsPerWorker_length items.length (numNodes * numWorkers)
  refine ⟨(List.range numNodes).map (fun r => (List.range' (r * numWorkers) numWorkers).map share), by simp, ?_, ?_, ?_⟩
  · intro r o h
    rw [List.getElem?_map] at h
    by_cases hr : r < numNodes
    · rw [List.getElem?_range hr] at h
      simp only [Option.map_some, Option.some.injEq] at h
      subst h
      exact ⟨mapSequentially_eq numNodes r numWorkers items hn hr, by simp⟩
    · rw [List.getElem?_eq_none (by simpa using hr)] at h; cases h
  · intro h0
    have hws : 0 < numNodes * numWorkers := Nat.mul_pos h0 hn
    have hsum := inputsPerWorker_sum items.length _ hws
    have htake : counts.take (numNodes * numWorkers) = counts := List.take_of_length_le (l := counts) (by show (inputsPerWorker _ _).length ≤ _; omega)
    rw [hflat]
    have := shares_flatten items counts (numNodes * numWorkers) (by show _ ≤ (inputsPerWorker _ _).length; omega) (by rw [htake]; exact Nat.le_of_eq hsum)
    rw [htake] at this
    show ((List.range (numNodes * numWorkers)).map share).flatten = items
    refine this.trans ?_
    show items.take (inputsPerWorker _ _).sum = items
    rw [hsum]; simp
  · rw [hflat]
    have hsize : ∀ a ∈ (List.range (numNodes * numWorkers)).map share, a.length = items.length / (numNodes * numWorkers) ∨
        a.length = items.length / (numNodes * numWorkers) + 1 := by
      intro a ha
      obtain ⟨w, hw, rfl⟩ := List.mem_map.1 ha
      have hw' := List.mem_range.1 hw
      have hsum := inputsPerWorker_sum items.length (numNodes * numWorkers) (by omega)
      have hwc : w < counts.length := by show _ < (inputsPerWorker _ _).length; omega
      have hs1 : (counts.take (w + 1)).sum = (counts.take w).sum + counts[w] := by
        rw [List.take_succ_eq_append_getElem hwc, List.sum_append]; simp
      have hs2 : (counts.take (w + 1)).sum ≤ items.length := by
        have h := congrArg List.sum (List.take_append_drop (w + 1) counts)
        rw [List.sum_append] at h
        have : counts.sum = items.length := hsum
        omega
      have hl : (share w).length = counts[w] := by
        show ((items.take _).drop _).length = _
        rw [List.length_drop, List.length_take]; omega
      rw [hl]
      exact inputsPerWorker_mem _ _ _ (List.getElem_mem hwc)
    intro a ha b hb
    rcases hsize a ha with h | h <;> rcases hsize b hb with h' | h' <;> omega

/-- The hypotheses are met: seven inputs on two nodes of two workers. -/
example : mapSequentially 2 0 2 [10, 11, 12, 13, 14, 15, 16] = .ok [[10], [11, 12]] ∧
    mapSequentially 2 1 2 [10, 11, 12, 13, 14, 15, 16] = .ok [[13, 14], [15, 16]] := by decide +kernel

/-- **C23**, the error cases: no node or no worker divides by zero; a node outside the job is refused. -/
theorem c23_refused (numNodes nodeRank numWorkers : Nat) (items : List α) :
    (numNodes * numWorkers = 0 → mapSequentially numNodes nodeRank numWorkers items = .error .zeroDivision) ∧
    (0 < numNodes * numWorkers → numNodes ≤ nodeRank → mapSequentially numNodes nodeRank numWorkers items = .error .runtimeError) := by
  constructor
  · intro h; simp [mapSequentially, h]
  · intro h hr
    have hnw : 0 < numWorkers := Nat.pos_of_mul_pos_left h
    have hle : numNodes * numWorkers ≤ nodeRank * numWorkers := Nat.mul_le_mul_right _ hr
    unfold mapSequentially
    simp only
    rw [if_neg (by omega)]
    have : (List.range (numNodes * numWorkers)).filter
        (fun w => decide (nodeRank * numWorkers ≤ w) && decide (w < (nodeRank + 1) * numWorkers)) = [] := by
      rw [List.filter_eq_nil_iff]
      intro w hw
      have := List.mem_range.1 hw
      simp; omega
    rw [this, if_pos (by simp; omega)]

/-- **C24.** Packing positive weights into at least one bin: there is a way to read the result as bins of
weighted items in which every weighted input is in exactly one bin, each recorded weight is the sum of the
weights of the bin, and no bin exceeds another one by more than the weight of any single item it holds. -/
theorem c24_packing (items : List α) (weights : List Int) (numBins : Nat) (hl : items.length = weights.length)
    (hpos : ∀ w ∈ weights, 0 < w) (hb : 0 < numBins) :
    ∃ bins : List (List (α × Int)),
      packGreedily items weights numBins = .ok (bins.map fun b => (b.map (·.1), (b.map (·.2)).sum)) ∧
      bins.length = numBins ∧ bins.flatten.Perm (items.zip weights) ∧
      (∀ a ∈ bins, ∀ b ∈ bins, ∀ x ∈ a, (a.map (·.2)).sum ≤ (b.map (·.2)).sum + x.2) := by
  have hrep : (List.replicate numBins (([], 0) : List α × Int)) = (List.replicate numBins ([] : List (α × Int))).map binOf := by
    simp [binOf]
  have hperm := sortBy_perm heavierFirst (items.zip weights)
  obtain ⟨out, h1, h2, h3, h4⟩ := packLoop_spec (sortBy heavierFirst (items.zip weights)) (List.replicate numBins [])
    (by simpa using hb)
    (by
      intro x hx
      have hx' := hperm.mem_iff.1 hx
      exact hpos x.2 (List.of_mem_zip (a := x.1) (b := x.2) hx').2)
    (by
      have := sortBy_pairwise (heavierFirst (α := α)) (by intro a b; simp only [heavierFirst, decide_eq_true_eq]; omega)
        (by intro a b c; simp only [heavierFirst, decide_eq_true_eq]; omega) (items.zip weights)
      exact this.imp (by intro a b h; simpa [heavierFirst] using h))
    (by intro a ha x hx; simp only [List.mem_replicate] at ha; rw [ha.2] at hx; simp at hx)
    (by intro a ha b hb x hx; simp only [List.mem_replicate] at ha; rw [ha.2] at hx; simp at hx)
  refine ⟨out, ?_, by simpa using h2, ?_, h4⟩
  · unfold packGreedily
    rw [if_neg (by omega), if_neg (by
      intro h
      obtain ⟨w, hw, h⟩ := List.any_eq_true.1 h
      have := hpos w hw
      simp at h; omega), hrep, h1]
    rfl
  · have : (List.replicate numBins ([] : List (α × Int))).flatten = [] := by
      simp
    rw [this] at h3
    exact h3.trans (by simpa using hperm)

example : packGreedily ["A", "B", "C", "D", "E", "F", "G", "H", "I"] [4, 1, 2, 5, 8, 7, 3, 6, 9] 3
    = .ok [(["I", "A", "G"], 16), (["E", "D", "C"], 15), (["F", "H", "B"], 14)] := by decide +kernel

/-- The heaviest bin exceeds the lightest by at most the largest weight. -/
theorem c24_balanced (items : List α) (weights : List Int) (numBins : Nat) (hl : items.length = weights.length)
    (hpos : ∀ w ∈ weights, 0 < w) (hb : 0 < numBins) (top : Int) (htop : ∀ w ∈ weights, w ≤ top) (h0 : 0 ≤ top) :
    ∃ bins : List (List α × Int), packGreedily items weights numBins = .ok bins ∧ bins.length = numBins ∧
      (bins.flatMap (·.1)).Perm items ∧ (∀ a ∈ bins, ∀ b ∈ bins, a.2 ≤ b.2 + top) := by
  obtain ⟨bins, h1, h2, h3, h4⟩ := c24_packing items weights numBins hl hpos hb
  refine ⟨_, h1, by simpa using h2, ?_, ?_⟩
  · have hflat : (bins.map fun b => (b.map (·.1), (b.map (·.2)).sum)).flatMap (·.1) = bins.flatten.map (·.1) := by
      rw [List.flatMap_map, List.map_flatten, List.flatMap_def]
    rw [hflat]
    refine (h3.map (·.1)).trans ?_
    rw [List.map_fst_zip (by omega)]
  · intro a ha b hb
    obtain ⟨a', ha', rfl⟩ := List.mem_map.1 ha
    obtain ⟨b', hb', rfl⟩ := List.mem_map.1 hb
    have hmemw : ∀ c ∈ bins, ∀ x ∈ c, x.2 ∈ weights := by
      intro c hc x hx
      have := h3.mem_iff.1 (List.mem_flatten.2 ⟨c, hc, hx⟩)
      exact (List.of_mem_zip (a := x.1) (b := x.2) this).2
    have hnn : ∀ c ∈ bins, 0 ≤ (c.map (·.2)).sum := by
      intro c hc
      have : ∀ l : List (α × Int), (∀ x ∈ l, x.2 ∈ weights) → 0 ≤ (l.map (·.2)).sum := by
        intro l
        induction l with
        | nil => intro _; simp
        | cons x l ih =>
          intro h
          have h1 := hpos _ (h x List.mem_cons_self)
          have h2 := ih (fun y hy => h y (List.mem_cons_of_mem _ hy))
          simp only [List.map_cons, List.sum_cons]; omega
      exact this c (hmemw c hc)
    cases a' with
    | nil => have := hnn b' hb'; simp; omega
    | cons x a' =>
      have h := h4 (x :: a') ha' b' hb' x List.mem_cons_self
      have := htop _ (hmemw _ ha' x List.mem_cons_self)
      simp only at h ⊢
      omega

/-- **C24**, the refusals: lengths that differ and weights that are not positive. Packing something into no bins
at all fails with KeyError. -/
theorem c24_refused (items : List α) (weights : List Int) (numBins : Nat) :
    (items.length ≠ weights.length → packGreedily items weights numBins = .error .valueError) ∧
    ((∃ w ∈ weights, w ≤ 0) → packGreedily items weights numBins = .error .valueError) ∧
    (items.length = weights.length → (∀ w ∈ weights, 0 < w) → items ≠ [] → packGreedily items weights 0 = .error .keyError) := by
  refine ⟨?_, ?_, ?_⟩
  · intro h; simp [packGreedily, h]
  · rintro ⟨w, hw, h⟩
    unfold packGreedily
    split
    · rfl
    · rw [if_pos (List.any_eq_true.2 ⟨w, hw, by simpa using h⟩)]
  · intro hl hpos hne
    unfold packGreedily
    rw [if_neg (by omega), if_neg (by
      intro h
      obtain ⟨w, hw, h⟩ := List.any_eq_true.1 h
      have := hpos w hw
      simp at h; omega)]
    have hp := (sortBy_perm heavierFirst (items.zip weights)).length_eq
    have : 0 < items.length := List.length_pos_iff.2 hne
    cases hs : sortBy heavierFirst (items.zip weights) with
    | nil => rw [hs] at hp; simp at hp; omega
    | cons x l => simp [packLoop]

/-- **C24** over the nodes of a job: whatever permutations the nodes draw for their workers, every node succeeds
with one share per worker, and the shares of all nodes together are the inputs, each given to one worker. -/
theorem c24_nodes (numNodes numWorkers : Nat) (draw : Nat → Nat → List α → List α) (hdraw : ∀ r w l, (draw r w l).Perm l)
    (items : List α) (weights : List Int) (hl : items.length = weights.length) (hpos : ∀ w ∈ weights, 0 < w)
    (hN : 0 < numNodes) (hn : 0 < numWorkers) :
    ∃ outs : List (List (List α)), outs.length = numNodes ∧
      (∀ (r : Nat) (o : List (List α)), outs[r]? = some o →
        mapWeighted numNodes r numWorkers (draw r) items (some weights) = .ok o ∧ o.length = numWorkers) ∧
      outs.flatten.flatten.Perm items := by
  obtain ⟨bins, h1, h2, h3, _⟩ := c24_packing items weights (numNodes * numWorkers) hl hpos (Nat.mul_pos hN hn)
  let B := bins.map fun b => (b.map (·.1), (b.map (·.2)).sum)
  let share : Nat → Nat → List α := fun r w => draw r w (B.getD w ([], 0)).1
  refine ⟨(List.range numNodes).map (fun r => (List.range' (r * numWorkers) numWorkers).map (share r)), by simp, ?_, ?_⟩
  · intro r o h
    rw [List.getElem?_map] at h
    by_cases hr : r < numNodes
    · rw [List.getElem?_range hr] at h
      simp only [Option.map_some, Option.some.injEq] at h
      subst h
      refine ⟨?_, by simp⟩
      unfold mapWeighted
      simp only [Option.getD_some, h1, bind, Except.bind]
      rfl
    · rw [List.getElem?_eq_none (by simpa using hr)] at h; cases h
  · have hBlen : B.length = numNodes * numWorkers := by simpa [B] using h2
    have hB : (B.map (·.1)).flatten.Perm items := by
      have hflat : (B.map (·.1)).flatten = bins.flatten.map (·.1) := by
        simp [B, List.map_flatten, List.map_map, Function.comp_def]
      rw [hflat]
      refine (h3.map (·.1)).trans ?_
      rw [List.map_fst_zip (by omega)]
    refine List.Perm.trans ?_ hB
    have hBr : (B.map (·.1)).flatten = (List.range (numNodes * numWorkers)).flatMap (fun w => (B.getD w ([], 0)).1) := by
      rw [flatten_eq_flatMap_range]
      simp only [List.length_map, hBlen]
      rw [List.flatMap_def, List.flatMap_def]
      congr 1
      apply List.map_congr_left
      intro w _
      simp only [List.getD_eq_getElem?_getD, List.getElem?_map]
      cases B[w]? <;> rfl
    rw [hBr, rangeMul]
    have hl2 : ((List.range numNodes).map (fun r => (List.range' (r * numWorkers) numWorkers).map (share r))).flatten.flatten
        = (List.range numNodes).flatMap (fun r => (List.range numWorkers).flatMap (fun j => share r (r * numWorkers + j))) := by
      rw [← List.flatMap_def, ← List.flatMap_id, List.flatMap_assoc]
      rw [List.flatMap_def, List.flatMap_def]
      congr 1
      apply List.map_congr_left
      intro r _
      rw [List.range'_eq_map_range, List.map_map, List.flatMap_map]
      rfl
    rw [hl2]
    have hpt : ∀ (l : List Nat) (f g : Nat → List α), (∀ x, (f x).Perm (g x)) → (l.flatMap f).Perm (l.flatMap g) := by
      intro l f g h
      induction l with
      | nil => exact List.Perm.refl _
      | cons a l ih => simp only [List.flatMap_cons]; exact (h a).append ih
    exact hpt _ _ _ (fun r => hpt _ _ _ (fun j => hdraw r _ _))

example : mapWeighted 2 1 1 (fun _ l => l.reverse) ["a", "b", "c"] (some [5, 1, 2]) = .ok [["b", "c"]] := by decide +kernel

/-- With `reorder_files` the sizes of the files are the weights; an item whose leaves name no existing file has
weight zero, and the whole call fails with ValueError. -/
theorem c24_item_without_file_refused (numNodes r numWorkers : Nat) (draw : Nat → List α → List α) (leaves : α → List (Option Nat))
    (items : List α) (hok : ∀ x ∈ items, ∀ l ∈ leaves x, l ≠ some 0) (x : α) (hx : x ∈ items) (hno : ∀ l ∈ leaves x, l = none) :
    mapItems numNodes r numWorkers draw leaves items none true = .error .valueError := by
  have hbytes : ∀ (ls : List (Option Nat)) (acc : Int), (∀ l ∈ ls, l ≠ some 0) → ∃ v, ls.foldlM (m := Except Err) (fun acc l => match l with
      | none => .ok acc
      | some 0 => .error .runtimeError
      | some n => .ok (acc + (n : Int))) acc = .ok v ∧ ((∀ l ∈ ls, l = none) → v = acc) := by
    intro ls
    induction ls with
    | nil => intro acc _; exact ⟨acc, rfl, fun _ => rfl⟩
    | cons l ls ih =>
      intro acc h
      have h' : ∀ l ∈ ls, l ≠ some 0 := fun l hl => h l (List.mem_cons_of_mem _ hl)
      cases l with
      | none =>
        obtain ⟨v, h1, h2⟩ := ih acc h'
        refine ⟨v, ?_, fun hn => h2 (fun l hl => hn l (List.mem_cons_of_mem _ hl))⟩
        simp only [List.foldlM_cons, bind, Except.bind]; exact h1
      | some n =>
        cases n with
        | zero => exact absurd rfl (h _ List.mem_cons_self)
        | succ n =>
          obtain ⟨v, h1, h2⟩ := ih (acc + ((n + 1 : Nat) : Int)) h'
          refine ⟨v, ?_, fun hn => absurd (hn _ List.mem_cons_self) (by simp)⟩
          simp only [List.foldlM_cons, bind, Except.bind]; exact h1
  have hall : ∀ l : List α, (∀ y ∈ l, ∀ f ∈ leaves y, f ≠ some 0) → ∃ sizes : List Int, l.mapM (itemBytes leaves) = .ok sizes ∧
      sizes.length = l.length ∧ (x ∈ l → (0 : Int) ∈ sizes) := by
    intro l
    induction l with
    | nil => intro _; exact ⟨[], rfl, rfl, by simp⟩
    | cons y l ih =>
      intro h
      obtain ⟨v, h1, h2⟩ := hbytes (leaves y) 0 (h y List.mem_cons_self)
      obtain ⟨s, h3, h4, h5⟩ := ih (fun z hz => h z (List.mem_cons_of_mem _ hz))
      refine ⟨v :: s, ?_, by simp [h4], ?_⟩
      · rw [List.mapM_cons]
        have : itemBytes leaves y = .ok v := h1
        simp only [this, h3, bind, Except.bind, pure, Except.pure]
      · intro hm
        rcases List.mem_cons.1 hm with rfl | hm
        · rw [h2 hno]; exact List.mem_cons_self
        · exact List.mem_cons_of_mem _ (h5 hm)
  obtain ⟨sizes, h1, h2, h3⟩ := hall items hok
  unfold mapItems mapWeighted
  simp only [if_pos, h1, bind, Except.bind, Option.getD_some]
  rw [(c24_refused items sizes _).2.1 ⟨0, h3 hx, by omega⟩]

example : mapItems 1 0 2 (fun _ l => l) (fun x : String × Nat => [if x.2 = 0 then none else some x.2])
    [("a.txt", 4), ("no file", 0), ("b.txt", 2)] none true = .error .valueError := by decide +kernel

/-- Weights that do not match the inputs are refused. They are compared with the inputs after these were grouped
by `batch_size`, so that one weight per input is refused whenever grouping changes the number of inputs. -/
theorem c24_weights_length (numNodes r numWorkers : Nat) (draw : Nat → List α → List α) (leaves : α → List (Option Nat))
    (items : List α) (weights : List Int) (reorder : Bool) (h : weights.length ≠ items.length) :
    mapItems numNodes r numWorkers draw leaves items (some weights) reorder = .error .valueError := by
  simp [mapItems, h]

/-- **C40.** Grouping with a batch size above one: the groups put together are the inputs; group `j` holds the
inputs `j * b, ..., j * b + b - 1`; all groups but the last one have `b` inputs, and no group is empty. -/
theorem c40_groups (b : Nat) (hb : 1 < b) (inputs : List α) :
    ∃ groups : List (List α), batchInputs (some (b : Int)) inputs = .inr groups ∧
      groups.flatten = inputs ∧ groups.length = (inputs.length + b - 1) / b ∧
      (∀ (j : Nat) (g : List α), groups[j]? = some g → g ≠ [] ∧ g.length ≤ b ∧ (j + 1 < groups.length → g.length = b) ∧
        ∀ i, i < g.length → g[i]? = inputs[j * b + i]?) := by
  refine ⟨groupInputs b inputs, ?_, ?_, ?_, ?_⟩
  · unfold batchInputs
    have : (1 : Int) < (b : Int) := by omega
    simp [this]
  · have key : ∀ k, ((List.range k).map (fun p => (inputs.take (p * b + b)).drop (p * b))).flatten = inputs.take (k * b) := by
      intro k
      induction k with
      | zero => simp
      | succ k ih =>
        rw [List.range_succ, List.map_append, List.flatten_append, ih]
        simp only [List.map_cons, List.map_nil, List.flatten_cons, List.flatten_nil, List.append_nil]
        have h := List.take_append_drop (k * b) (inputs.take (k * b + b))
        rw [List.take_take, Nat.min_eq_left (by omega)] at h
        rw [h, Nat.add_mul, Nat.one_mul]
    unfold groupInputs rangeStep
    rw [List.map_map]
    refine (key _).trans ?_
    apply List.take_of_length_le
    have := Nat.div_add_mod (inputs.length + b - 1) b
    have hm := Nat.mod_lt (inputs.length + b - 1) (y := b) (by omega)
    rw [Nat.mul_comm] at this
    omega
  · simp [groupInputs, rangeStep]
  · intro j g hg
    unfold groupInputs rangeStep at hg
    rw [List.map_map, List.getElem?_map] at hg
    have hlen : (groupInputs b inputs).length = (inputs.length + b - 1) / b := by simp [groupInputs, rangeStep]
    have hd := Nat.div_add_mod (inputs.length + b - 1) b
    have hm := Nat.mod_lt (inputs.length + b - 1) (y := b) (by omega)
    generalize hQ : (inputs.length + b - 1) / b = Q at *
    by_cases hj : j < Q
    · rw [List.getElem?_range hj] at hg
      simp only [Option.map_some, Function.comp_apply, Option.some.injEq] at hg
      subst hg
      have hjb : (j + 1) * b ≤ Q * b := Nat.mul_le_mul_right _ hj
      rw [Nat.add_mul, Nat.one_mul] at hjb
      rw [Nat.mul_comm] at hd
      have hl : ((inputs.take (j * b + b)).drop (j * b)).length = min (j * b + b) inputs.length - j * b := by simp
      refine ⟨?_, by omega, ?_, ?_⟩
      · apply List.length_pos_iff.1; omega
      · intro h
        rw [hlen] at h
        have : (j + 2) * b ≤ Q * b := Nat.mul_le_mul_right _ h
        rw [Nat.add_mul] at this
        omega
      · intro i hi
        rw [hl] at hi
        rw [List.getElem?_drop, List.getElem?_take_of_lt (by omega)]
    · rw [List.getElem?_eq_none (by simpa using hj)] at hg; cases hg

/-- Without a batch size above one the inputs are handed on as they are. -/
theorem c40_no_groups (b : Option Int) (h : ∀ n, b = some n → n ≤ 1) (inputs : List α) : batchInputs b inputs = .inl inputs := by
  cases b with
  | none => rfl
  | some n => have := h n rfl; simp [batchInputs]; omega

example : batchInputs (some 3) [1, 2, 3, 4, 5, 6, 7] = .inr [[1, 2, 3], [4, 5, 6], [7]] := by decide +kernel

/-- `fast_dev_run=True` keeps a single input per worker, not the documented default of ten: `True` is an
integer in Python. -/
theorem c45_fast_dev_run_flag (workers : List (List α)) : fastDevRun (.flag true) workers = fastDevRun (.count 1) workers := rfl

/-- Every worker keeps a prefix of at most the given number of inputs, and all of them when it has no more. -/
theorem c45_fast_dev_run (n : Nat) (hn : 0 < n) (workers : List (List α)) :
    (fastDevRun (.count n) workers).length = workers.length ∧
    ∀ (i : Nat) (w k : List α), workers[i]? = some w → (fastDevRun (.count n) workers)[i]? = some k →
      k <+: w ∧ k.length = min n w.length := by
  cases n with
  | zero => omega
  | succ n =>
    refine ⟨by simp [fastDevRun], ?_⟩
    intro i w k h1 h2
    simp only [fastDevRun, List.getElem?_map, h1, Option.map_some, Option.some.injEq] at h2
    subst h2
    exact ⟨List.take_prefix _ _, by simp⟩

example : fastDevRun (.flag true) [[1, 2, 3], [4, 5]] = [[1], [4]] := by decide +kernel

end LitData.Props
