import Verif.Model.Sampler
import Verif.Lemmas.Subsample

/-! Batches handed out to workers in turn. -/

namespace LitData

theorem le_sum_mem {l : List Nat} {a : Nat} (h : a ∈ l) : a ≤ l.sum := by
  induction l with
  | nil => simp at h
  | cons b l ih =>
    rw [List.sum_cons]
    rcases List.mem_cons.1 h with rfl | h
    · omega
    · have := ih h; omega

theorem filterMap_congr_mem {α β : Type} {f g : α → Option β} {l : List α} (h : ∀ a ∈ l, f a = g a) : l.filterMap f = l.filterMap g := by
  induction l with
  | nil => rfl
  | cons a l ih => rw [List.filterMap_cons, List.filterMap_cons, h a (by simp), ih (fun b hb => h b (by simp [hb]))]

theorem chunkListFrom_flatten {α : Type} (arr : List α) (size : Nat) (hs : 0 < size) : ∀ (fuel i : Nat), arr.length - i ≤ fuel →
    (chunkListFrom arr size fuel i).flatten = arr.drop i := by
  intro fuel
  induction fuel with
  | zero =>
    intro i h
    rw [List.drop_of_length_le (by omega)]
    rfl
  | succ fuel ih =>
    intro i h
    unfold chunkListFrom
    split
    · rw [List.flatten_cons, ih (i + size) (by omega), ← List.drop_drop, List.take_append_drop]
    · rw [List.drop_of_length_le (by omega)]
      rfl

theorem chunkListFrom_mem {α : Type} (arr : List α) (size : Nat) (hs : 0 < size) : ∀ (fuel i : Nat), ∀ b ∈ chunkListFrom arr size fuel i,
    b ≠ [] ∧ b.length ≤ size := by
  intro fuel
  induction fuel with
  | zero => intro i b h; simp [chunkListFrom] at h
  | succ fuel ih =>
    intro i b h
    unfold chunkListFrom at h
    split at h
    · rcases List.mem_cons.1 h with rfl | h
      · constructor
        · intro e
          have := congrArg List.length e
          simp at this
          omega
        · simp; omega
      · exact ih _ b h
    · simp at h

theorem chunkList_ok {α : Type} (arr : List α) (size : Nat) (hs : 0 < size) :
    ∃ l, chunkList arr size = .ok l ∧ l.flatten = arr ∧ ∀ b ∈ l, b ≠ [] ∧ b.length ≤ size := by
  refine ⟨chunkListFrom arr size arr.length 0, ?_, ?_, chunkListFrom_mem arr size hs _ _⟩
  · unfold chunkList; rw [if_neg (by omega)]
  · rw [chunkListFrom_flatten arr size hs _ _ (by omega), List.drop_zero]

/-- How many of the counters below `c` belong to worker `w`. -/
def visits (nw c w : Nat) : Nat := (c + nw - 1 - w) / nw

theorem visits_zero (nw w : Nat) (hw : w < nw) : visits nw 0 w = 0 := by
  unfold visits
  exact Nat.div_eq_of_lt (by omega)

theorem visits_lt (nw c w j : Nat) (hw : w < nw) : j < visits nw c w ↔ j * nw + w < c := by
  unfold visits
  rw [Nat.lt_iff_add_one_le, Nat.le_div_iff_mul_le (by omega), Nat.add_mul, Nat.one_mul]
  omega

theorem visits_succ (nw c w : Nat) (hw : w < nw) : visits nw (c + 1) w = visits nw c w + if c % nw = w then 1 else 0 := by
  have hc := Nat.div_add_mod c nw
  have hm := Nat.mod_lt c (show 0 < nw by omega)
  -- compare what is below both
  have key : ∀ j, j < visits nw (c + 1) w ↔ j < visits nw c w + if c % nw = w then 1 else 0 := by
    intro j
    rw [visits_lt _ _ _ _ hw]
    split
    · rename_i he
      rw [he] at hc hm
      have h1 := visits_lt nw c w (c / nw) hw
      have hv : visits nw c w = c / nw := by
        apply Nat.le_antisymm
        · apply Nat.le_of_not_lt
          intro h
          have := h1.1 h
          rw [Nat.mul_comm] at this
          omega
        · cases hcn : c / nw with
          | zero => omega
          | succ n =>
            have := (visits_lt nw c w n hw).2 (by rw [hcn, Nat.mul_add] at hc; rw [Nat.mul_comm]; omega)
            omega
      rw [hv]
      constructor
      · intro h
        apply Nat.lt_succ_of_le
        apply Nat.le_of_not_lt
        intro hlt
        have : (c / nw + 1) * nw ≤ j * nw := Nat.mul_le_mul_right _ hlt
        rw [Nat.add_mul, Nat.mul_comm] at this
        omega
      · intro h
        have : j * nw ≤ c / nw * nw := Nat.mul_le_mul_right _ (by omega)
        rw [Nat.mul_comm (c / nw)] at this
        omega
    · rename_i he
      rw [Nat.add_zero (visits nw c w), visits_lt _ _ _ _ hw]
      constructor
      · intro h
        apply Nat.lt_of_le_of_ne (by omega)
        intro e
        apply he
        rw [← e, Nat.mul_comm, Nat.mul_add_mod, Nat.mod_eq_of_lt hw]
      · omega
  apply Nat.le_antisymm
  · apply Nat.le_of_not_lt
    intro h
    exact absurd ((key _).1 h) (Nat.lt_irrefl _)
  · apply Nat.le_of_not_lt
    intro h
    exact absurd ((key _).2 h) (Nat.lt_irrefl _)

theorem visits_mod (nw c : Nat) (h : 0 < nw) : visits nw c (c % nw) = c / nw := by
  have hm := Nat.mod_lt c h
  have hc := Nat.div_add_mod c nw
  apply Nat.le_antisymm
  · apply Nat.le_of_not_lt
    intro hlt
    have := (visits_lt nw c (c % nw) (c / nw) hm).1 hlt
    rw [Nat.mul_comm] at this
    omega
  · cases hcn : c / nw with
    | zero => omega
    | succ n =>
      have := (visits_lt nw c (c % nw) n hm).2 (by rw [hcn, Nat.mul_add] at hc; rw [Nat.mul_comm]; omega)
      omega

/-- The lists of the workers after `c` turns. -/
def afterTurns {α : Type} (nw c : Nat) (L : List (List (List α))) : List (List (List α)) :=
  L.mapIdx fun w l => l.drop (visits nw c w)

theorem afterTurns_zero {α : Type} (nw : Nat) (L : List (List (List α))) (h : L.length = nw) : afterTurns nw 0 L = L := by
  unfold afterTurns
  apply List.ext_getElem
  · simp
  · intro i h1 h2
    simp [visits_zero nw i (by omega)]

/-- The batch handed out in turn `k`. -/
def turnBatch {α : Type} (nw : Nat) (L : List (List (List α))) (k : Nat) : List α := ((L.getD (k % nw) [])[k / nw]?).getD []

theorem afterTurns_succ {α : Type} (nw c : Nat) (L : List (List (List α))) (h : L.length = nw) (hn : 0 < nw) (rest : List (List α))
    (hr : rest = (L.getD (c % nw) []).drop (c / nw + 1)) : (afterTurns nw c L).set (c % nw) rest = afterTurns nw (c + 1) L := by
  unfold afterTurns
  apply List.ext_getElem
  · simp
  · intro i h1 h2
    simp only [List.length_set, List.length_mapIdx] at h1
    rw [List.getElem_set]
    have hi : i < nw := by omega
    have hm := Nat.mod_lt c hn
    split
    · rename_i e
      rw [List.getElem_mapIdx, visits_succ nw c i hi, if_pos e, hr]
      subst e
      rw [visits_mod nw c hn, List.getD_eq_getElem?_getD, List.getElem?_eq_getElem h1, Option.getD_some]
    · rename_i e
      rw [List.getElem_mapIdx, List.getElem_mapIdx, visits_succ nw c i hi, if_neg e, Nat.add_zero]

theorem sum_zero_iff {α : Type} (L : List (List α)) : (L.map List.length).sum = 0 ↔ ∀ l ∈ L, l = [] := by
  rw [List.sum_eq_zero_iff_forall_eq_nat]
  constructor
  · intro h l hl
    exact List.length_eq_zero_iff.1 (h _ (List.mem_map.2 ⟨l, hl, rfl⟩))
  · intro h x hx
    obtain ⟨l, hl, rfl⟩ := List.mem_map.1 hx
    rw [h l hl]; rfl

/-- The rotation hands out batch after batch until all lists are empty. -/
theorem rotate_ok {α : Type} (nw : Nat) (L : List (List (List α))) (h : L.length = nw) (hn : 0 < nw) : ∀ (fuel c : Nat),
    ∃ n, rotate nw fuel c (afterTurns nw c L) = (List.range' c n).map (turnBatch nw L) ∧ n ≤ fuel ∧
      (n < fuel → ((afterTurns nw (c + n) L).map List.length).sum = 0) ∧
      (∀ k, c ≤ k → k < c + n → ((afterTurns nw k L).map List.length).sum ≠ 0) := by
  intro fuel
  induction fuel with
  | zero => intro c; exact ⟨0, rfl, by omega, by omega, by omega⟩
  | succ fuel ih =>
    intro c
    unfold rotate
    by_cases h0 : ((afterTurns nw c L).map List.length).sum = 0
    · rw [if_pos h0]
      exact ⟨0, rfl, by omega, fun _ => by rw [Nat.add_zero]; exact h0, by omega⟩
    · rw [if_neg h0]
      have hm := Nat.mod_lt c hn
      have hget : (afterTurns nw c L)[c % nw]? = some ((L.getD (c % nw) []).drop (c / nw)) := by
        unfold afterTurns
        rw [List.getElem?_mapIdx, List.getElem?_eq_getElem (by omega), Option.map_some, visits_mod nw c hn,
          List.getD_eq_getElem?_getD, List.getElem?_eq_getElem (by omega), Option.getD_some]
      obtain ⟨n, g1, g2, g3, g4⟩ := ih (c + 1)
      rw [hget]
      refine ⟨n + 1, ?_, by omega, ?_, ?_⟩
      · rw [List.range'_succ, List.map_cons]
        cases hd : (L.getD (c % nw) []).drop (c / nw) with
        | cons b rest =>
          simp only
          have hb : turnBatch nw L c = b := by
            unfold turnBatch
            have := congrArg (fun l => l[0]?) hd
            simp only [List.getElem?_drop, List.getElem?_cons_zero, Nat.add_zero] at this
            rw [this, Option.getD_some]
          have hrest : rest = (L.getD (c % nw) []).drop (c / nw + 1) := by
            rw [← List.drop_drop, hd]; rfl
          rw [hb, afterTurns_succ nw c L h hn rest hrest, g1]
        | nil =>
          simp only
          have hb : turnBatch nw L c = [] := by
            unfold turnBatch
            have := congrArg (fun l => l[0]?) hd
            simp only [List.getElem?_drop, List.getElem?_nil, Nat.add_zero] at this
            rw [this]
            rfl
          have hs : afterTurns nw c L = afterTurns nw (c + 1) L := by
            rw [← afterTurns_succ nw c L h hn [] (by rw [← List.drop_drop, hd]; rfl)]
            apply List.ext_getElem?
            intro i
            rw [List.getElem?_set]
            split
            · rename_i e
              subst e
              rw [hget, hd, if_pos (by simp [afterTurns]; omega)]
            · rfl
          rw [hb, hs, g1]
      · intro hlt
        rw [show c + (n + 1) = c + 1 + n by omega]
        exact g3 (by omega)
      · intro k hk1 hk2
        by_cases hkc : k = c
        · rw [hkc]; exact h0
        · exact g4 k (by omega) (by omega)

theorem afterTurns_empty {α : Type} (nw n : Nat) (L : List (List (List α))) (h : ((afterTurns nw n L).map List.length).sum = 0)
    (w : Nat) (l : List (List α)) (hl : L[w]? = some l) : l.length ≤ visits nw n w := by
  rw [sum_zero_iff] at h
  have := h (l.drop (visits nw n w)) (List.mem_of_getElem? (i := w) (by
    unfold afterTurns; rw [List.getElem?_mapIdx, hl]; rfl))
  have := congrArg List.length this
  simp at this
  omega

theorem dropEmpty_ok {α : Type} (l : List (List α)) (b : List α) (hb : b ≠ []) : dropEmpty (b :: l) = .ok (b :: l) := by
  cases b with
  | nil => exact absurd rfl hb
  | cons x xs => rfl

/-- The batches in the order in which they are handed out: turn `k` serves worker `k % nw`, and every
batch of every worker gets its turn. -/
theorem rotateBatches_ok {α : Type} (nw : Nat) (L : List (List (List α))) (h : L.length = nw) (hn : 0 < nw)
    (hb : ∀ l ∈ L, ∀ b ∈ l, b ≠ []) (hne : (L.map List.length).sum ≠ 0) :
    ∃ n, rotateBatches nw L = .ok ((List.range n).map (turnBatch nw L)) ∧
      ∀ (w : Nat) (l : List (List α)), L[w]? = some l → l.length ≤ visits nw n w := by
  obtain ⟨n, g1, g2, g3, g4⟩ := rotate_ok nw L h hn ((L.map List.length).sum * nw) 0
  rw [afterTurns_zero nw L h] at g1
  simp only [Nat.zero_add] at g3 g4
  have hempty : ((afterTurns nw n L).map List.length).sum = 0 := by
    by_cases hlt : n < (L.map List.length).sum * nw
    · exact g3 hlt
    · have hn' : n = (L.map List.length).sum * nw := by omega
      rw [sum_zero_iff]
      intro l hl
      unfold afterTurns at hl
      rw [List.mem_mapIdx] at hl
      obtain ⟨w, hw, rfl⟩ := hl
      apply List.drop_of_length_le
      have hle : (L[w]).length ≤ (L.map List.length).sum := le_sum_mem (List.mem_map.2 ⟨L[w], List.getElem_mem hw, rfl⟩)
      apply Nat.le_of_not_lt
      intro hv
      have hlt2 : ¬ visits nw n w < visits nw n w := Nat.lt_irrefl _
      rw [visits_lt nw n w _ (by omega)] at hlt2
      have : (visits nw n w + 1) * nw ≤ (L.map List.length).sum * nw := Nat.mul_le_mul_right _ (by omega)
      rw [Nat.add_mul] at this
      omega
  have hlen := afterTurns_empty nw n L hempty
  refine ⟨n, ?_, hlen⟩
  unfold rotateBatches
  rw [g1, ← List.range_eq_range']
  cases n with
  | zero =>
    rw [afterTurns_zero nw L h] at hempty
    exact absurd hempty hne
  | succ n =>
    -- the last batch is not empty
    have hlast : turnBatch nw L n ≠ [] := by
      have hm := Nat.mod_lt n hn
      have hml : n % nw < L.length := by omega
      have h1 := g4 n (by omega) (by omega)
      rw [ne_eq, sum_zero_iff] at h1
      have h2 : n / nw < (L[n % nw]).length := by
        apply Nat.lt_of_not_le
        intro hle
        apply h1
        intro l hl
        unfold afterTurns at hl
        rw [List.mem_mapIdx] at hl
        obtain ⟨w, hw, rfl⟩ := hl
        apply List.drop_of_length_le
        have h3 := hlen w L[w] (List.getElem?_eq_getElem hw)
        rw [visits_succ nw n w (by omega)] at h3
        by_cases e : n % nw = w
        · subst e
          rw [visits_mod nw n hn]
          exact hle
        · rw [if_neg e] at h3
          exact h3
      unfold turnBatch
      rw [List.getD_eq_getElem?_getD, List.getElem?_eq_getElem hml, Option.getD_some, List.getElem?_eq_getElem h2, Option.getD_some]
      exact hb _ (List.getElem_mem hml) _ (List.getElem_mem h2)
    rw [List.range_succ, List.map_append, List.map_cons, List.map_nil, List.reverse_append, List.reverse_cons, List.reverse_nil,
      List.nil_append, List.cons_append, List.nil_append, dropEmpty_ok _ _ hlast]
    simp

theorem filter_mod (nw w : Nat) (hw : w < nw) (n : Nat) :
    (List.range n).filter (fun k => k % nw == w) = (List.range (visits nw n w)).map fun j => j * nw + w := by
  induction n with
  | zero => rw [visits_zero nw w hw]; rfl
  | succ n ih =>
    rw [List.range_succ, List.filter_append, ih, visits_succ nw n w hw]
    by_cases e : n % nw = w
    · rw [if_pos e, List.range_succ, List.map_append]
      congr 1
      simp only [List.filter_cons, List.filter_nil, beq_iff_eq, e, if_true, List.map_cons, List.map_nil]
      congr 1
      subst e
      rw [visits_mod nw n (by omega)]
      have := Nat.div_add_mod n nw
      rw [Nat.mul_comm] at this
      omega
    · rw [if_neg e, Nat.add_zero]
      simp [e]

theorem flatten_getD {α : Type} (l : List (List α)) : ∀ v, l.length ≤ v → ((List.range v).map fun j => (l[j]?).getD []).flatten = l.flatten := by
  intro v hv
  have : (List.range v).map (fun j => (l[j]?).getD []) = l ++ List.replicate (v - l.length) [] := by
    apply List.ext_getElem
    · simp; omega
    · intro i h1 h2
      simp only [List.length_map, List.length_range] at h1
      rw [List.getElem_append]
      split
      · rename_i hi
        simp [List.getElem?_eq_getElem hi]
      · rename_i hi
        simp [List.getElem?_eq_none (Nat.not_lt.1 hi)]
  rw [this, List.flatten_append]
  simp

/-- What the rotation hands to worker `w` is what the list of worker `w` holds. -/
theorem everyNth_rotate {α : Type} (nw : Nat) (L : List (List (List α))) (w n : Nat) (l : List (List α)) (hw : w < nw)
    (hl : L[w]? = some l) (hlen : l.length ≤ visits nw n w) :
    (everyNth nw w ((List.range n).map (turnBatch nw L))).flatten = l.flatten := by
  unfold everyNth
  rw [List.length_map, List.length_range, filter_mod nw w hw]
  have : ((List.range (visits nw n w)).map fun j => j * nw + w).filterMap (fun k => ((List.range n).map (turnBatch nw L))[k]?) =
      (List.range (visits nw n w)).map fun j => (l[j]?).getD [] := by
    rw [List.filterMap_map, ← List.filterMap_eq_map (f := fun j => (l[j]?).getD [])]
    apply filterMap_congr_mem
    intro j hj
    simp only [List.mem_range] at hj
    have hk := (visits_lt nw n w j hw).1 hj
    simp only [Function.comp_apply, List.getElem?_map, List.getElem?_range hk, Option.map_some]
    unfold turnBatch
    rw [Nat.mul_comm, Nat.mul_add_mod, Nat.mod_eq_of_lt hw, Nat.mul_add_div (by omega), Nat.div_eq_of_lt hw, Nat.add_zero,
      List.getD_eq_getElem?_getD, hl, Option.getD_some]
  rw [this, flatten_getD l _ hlen]

theorem mapM_chunkList {α : Type} (size : Nat) (hs : 0 < size) (ws : List (List α)) :
    ∃ L : List (List (List α)), (ws.mapM fun l => chunkList l size) = .ok L ∧ L.map List.flatten = ws ∧ ∀ l ∈ L, ∀ b ∈ l, b ≠ [] ∧ b.length ≤ size := by
  induction ws with
  | nil => exact ⟨[], rfl, rfl, by simp⟩
  | cons a ws ih =>
    obtain ⟨L, h1, h2, h3⟩ := ih
    obtain ⟨l, g1, g2, g3⟩ := chunkList_ok a size hs
    refine ⟨l :: L, ?_, by simp [g2, h2], ?_⟩
    · rw [List.mapM_cons, g1]
      simp only [bind, Except.bind, h1, pure, Except.pure]
    · intro x hx
      rcases List.mem_cons.1 hx with rfl | hx
      · exact g3
      · exact h3 x hx

/-- Batching the indices of the workers and handing them out: each worker gets its own indices back. -/
theorem batchWorkers_ok {α : Type} (nw size : Nat) (hn : 0 < nw) (hs : 0 < size) (ws : List (List α)) (hl : ws.length = nw)
    (hne : ∃ w ∈ ws, w ≠ []) :
    ∃ batches : List (List α), batchWorkers nw size ws = .ok batches ∧ (∀ (w : Nat) (l : List α), ws[w]? = some l → (everyNth nw w batches).flatten = l) ∧
      ∀ b ∈ batches, b.length ≤ size := by
  obtain ⟨L, h1, h2, h3⟩ := mapM_chunkList size hs ws
  have hLl : L.length = nw := by rw [← hl, ← h2, List.length_map]
  have hne' : (L.map List.length).sum ≠ 0 := by
    rw [ne_eq, sum_zero_iff]
    intro h
    obtain ⟨w, hw, hwne⟩ := hne
    rw [← h2] at hw
    obtain ⟨l, hl, rfl⟩ := List.mem_map.1 hw
    rw [h l hl] at hwne
    exact hwne rfl
  obtain ⟨n, g1, g2⟩ := rotateBatches_ok nw L hLl hn (fun l hl b hb => (h3 l hl b hb).1) hne'
  refine ⟨(List.range n).map (turnBatch nw L), ?_, ?_, ?_⟩
  · unfold batchWorkers
    rw [h1]
    exact g1
  · intro w l hw
    have hwl : w < L.length := by
      have := (List.getElem?_eq_some_iff.1 hw).1
      rw [hl] at this
      omega
    rw [everyNth_rotate nw L w n L[w] (by omega) (List.getElem?_eq_getElem hwl) (g2 w _ (List.getElem?_eq_getElem hwl))]
    rw [← h2, List.getElem?_map, List.getElem?_eq_getElem hwl] at hw
    simpa using hw
  · intro b hb
    obtain ⟨k, _, rfl⟩ := List.mem_map.1 hb
    unfold turnBatch
    cases hx : (L.getD (k % nw) [])[k / nw]? with
    | none => simp
    | some b =>
      have hm := Nat.mod_lt k hn
      have hml : k % nw < L.length := by omega
      rw [List.getD_eq_getElem?_getD, List.getElem?_eq_getElem hml, Option.getD_some] at hx
      exact (h3 _ (List.getElem_mem (by omega)) b (List.mem_of_getElem? hx)).2

/-- Every element is in exactly one of the `n` parts. -/
theorem everyNth_perm {α : Type} (n : Nat) (hn : 0 < n) (l : List α) : ((List.range n).flatMap fun w => everyNth n w l).Perm l := by
  have hidx : ((List.range n).flatMap fun w => (List.range l.length).filter fun k => k % n == w).Perm (List.range l.length) := by
    rw [List.perm_ext_iff_of_nodup]
    · intro k
      simp only [List.mem_flatMap, List.mem_range, List.mem_filter, beq_iff_eq]
      constructor
      · rintro ⟨w, _, hk, _⟩; exact hk
      · intro hk; exact ⟨k % n, Nat.mod_lt _ hn, hk, rfl⟩
    · rw [List.nodup_iff_pairwise_ne, List.flatMap, List.pairwise_flatten]
      constructor
      · intro x hx
        obtain ⟨w, _, rfl⟩ := List.mem_map.1 hx
        exact List.Pairwise.filter _ List.nodup_range
      · rw [List.pairwise_map]
        apply List.Pairwise.imp _ (List.nodup_range (n := n))
        intro a b hab x hx y hy he
        simp only [List.mem_filter, beq_iff_eq] at hx hy
        subst he
        exact hab (hx.2.symm.trans hy.2)
    · exact List.nodup_range
  have := hidx.filterMap (fun k => l[k]?)
  rw [List.filterMap_flatMap] at this
  refine this.trans ?_
  have hp := pick_all l
  unfold pick at hp
  rw [hp]

theorem splitWorkers_flatten (nw ws : Nat) (hn : 0 < nw) (idx : List Nat) (h : nw * ws ≤ idx.length) : (splitWorkers nw ws idx).flatten = idx := by
  unfold splitWorkers
  have key : ∀ m, m < nw → ((List.range m).map fun w =>
      (idx.take (if w = nw - 1 then idx.length else (w + 1) * ws)).drop (w * ws)).flatten = idx.take (m * ws) := by
    intro m
    induction m with
    | zero => intro _; simp
    | succ m ih =>
      intro hm
      rw [List.range_succ, List.map_append, List.flatten_append, ih (by omega)]
      simp only [List.map_cons, List.map_nil, List.flatten_cons, List.flatten_nil, List.append_nil]
      rw [if_neg (by omega)]
      conv => rhs; rw [← List.take_append_drop (m * ws) (idx.take ((m + 1) * ws)), List.take_take, Nat.min_eq_left (by
        apply Nat.mul_le_mul_right; omega)]
  obtain ⟨m, rfl⟩ : ∃ m, nw = m + 1 := ⟨nw - 1, by omega⟩
  simp only
  rw [List.range_succ, List.map_append, List.flatten_append, key m (by omega)]
  simp

end LitData
