import Verif.Lemmas.Assign

namespace LitData
open Spec

/-- Closed form of the number of items given to worker `i` of rank `r`. -/
def quota (numItems worldSize numWorkers batchSize : Nat) (dropLast : Bool) (r i : Nat) : Nat :=
  let nb := numItems / (batchSize * worldSize)
  batchSize * (nb / numWorkers + (if i < nb % numWorkers then 1 else 0)) +
    (if dropLast = false ∧ r + 1 = worldSize ∧ i = nb % numWorkers then
      numItems - batchSize * nb * worldSize else 0)

theorem sum_share (n base rem : Nat) :
    ((List.range n).map fun i => base + (if i < rem then 1 else 0)).sum = n * base + min n rem := by
  induction n with
  | zero => simp
  | succ n ih =>
    rw [List.range_succ, List.map_append, List.sum_append, ih]
    simp only [List.map_cons, List.map_nil, List.sum_cons, List.sum_nil]
    rw [Nat.add_mul]
    split <;> omega

theorem sum_share_all (nb nw : Nat) (h : 0 < nw) :
    ((List.range nw).map fun i => nb / nw + (if i < nb % nw then 1 else 0)).sum = nb := by
  rw [sum_share, Nat.min_eq_right (Nat.le_of_lt (Nat.mod_lt _ h))]
  exact Nat.div_add_mod nb nw

theorem foldl_budget_prefix (N W nw bs : Nat) (dl : Bool) (m : Nat) (hm : m < W) (acc : List Nat) :
    (List.range m).foldl (budgetStep N W nw bs dl) acc =
      acc ++ (List.range m).flatMap fun _ =>
        (List.range nw).map fun i => N / bs / W / nw + (if i < N / bs / W % nw then 1 else 0) := by
  induction m with
  | zero => simp
  | succ m ih =>
    rw [List.range_succ, List.foldl_append, ih (by omega)]
    simp only [List.foldl_cons, List.foldl_nil, budgetStep]
    rw [if_neg (by omega)]
    simp

theorem sum_flatMap_const (m : Nat) (l : List Nat) :
    ((List.range m).flatMap fun _ => l).sum = m * l.sum := by
  induction m with
  | zero => simp
  | succ m ih => rw [List.range_succ, List.flatMap_append, List.sum_append, ih]; simp [Nat.add_mul]

theorem map_modify_range (n k : Nat) (f : Nat → Nat) (g : Nat → Nat) :
    ((List.range n).map f).modify k g = (List.range n).map fun i => if i = k then g (f i) else f i := by
  apply List.ext_getElem
  · simp
  · intro i h1 h2
    simp only [List.getElem_modify, List.getElem_map, List.getElem_range]
    by_cases h : k = i
    · simp [h]
    · simp [h, Ne.symm h]

theorem itemsPerWorker_eq (N W nw bs : Nat) (dl : Bool) (hW : 0 < W) (hnw : 0 < nw) (hbs : 0 < bs) :
    itemsPerWorker N W nw bs dl =
      (List.range W).flatMap fun r => (List.range nw).map fun i => quota N W nw bs dl r i := by
  obtain ⟨m, rfl⟩ : ∃ m, W = m + 1 := ⟨W - 1, by omega⟩
  unfold itemsPerWorker
  rw [List.range_succ, List.foldl_append, foldl_budget_prefix N (m+1) nw bs dl m (by omega)]
  simp only [List.nil_append, List.foldl_cons, List.foldl_nil]
  simp only [budgetStep, Nat.add_sub_cancel, ↓reduceIte]
  have hq : N / bs / (m + 1) = N / (bs * (m + 1)) := Nat.div_div_eq_div_mul _ _ _
  rw [hq]
  generalize hnb : N / (bs * (m + 1)) = nb
  generalize ht : ((List.range nw).map fun i => nb / nw + (if i < nb % nw then 1 else 0)) = tmp
  have hts : tmp.sum = nb := by rw [← ht]; exact sum_share_all nb nw hnw
  have hmul : ∀ l : List Nat, (if bs > 1 then l.map (· * bs) else l) = l.map (· * bs) := by
    intro l
    split
    · rfl
    · have : bs = 1 := by omega
      subst this; simp
  simp only [hmul]
  rw [sum_flatMap_const, hts, Nat.mod_eq_of_lt (Nat.mod_lt nb hnw)]
  have hleft : N - bs * (m * nb + nb) = N - bs * nb * (m + 1) := by
    congr 1
    grind
  rw [hleft]
  rw [List.flatMap_append]
  congr 1
  · rw [List.map_flatMap]
    simp only [List.flatMap_def]
    congr 1
    apply List.map_congr_left
    intro r hr
    have hr' : r < m := List.mem_range.mp hr
    rw [← ht, List.map_map]
    apply List.map_congr_left
    intro i _
    simp only [Function.comp, quota, hnb]
    rw [if_neg (c := dl = false ∧ _) (by omega), Nat.mul_comm]
    rfl
  · simp only [List.flatMap_cons, List.flatMap_nil, List.append_nil]
    rw [← ht, List.map_map]
    split
    · rename_i h
      simp only [Bool.and_eq_true, Bool.not_eq_true', decide_eq_true_eq] at h
      rw [map_modify_range]
      apply List.map_congr_left
      intro i _
      simp only [Function.comp, quota, hnb, h.1, true_and]
      split
      · rename_i hi; subst hi; simp [Nat.mul_comm]
      · simp [Nat.mul_comm]
    · rename_i h
      apply List.map_congr_left
      intro i _
      simp only [Function.comp, quota, hnb]
      have h0 : (if dl = false ∧ True ∧ i = nb % nw then N - bs * nb * (m + 1) else 0) = 0 := by
        split
        · rename_i hi
          simp only [hi.1] at h
          simp at h
          omega
        · rfl
      rw [h0, Nat.mul_comm]; rfl

end LitData
