import Verif.Model.Packing
import Verif.Lemmas.Names

/-! Facts about packing and slicing the inputs. -/

namespace LitData

variable {α : Type}

theorem minBinFrom_spec (ws : List Int) : ∀ (pre : List Int) (best : Nat) (bestW : Int), pre[best]? = some bestW →
    (∀ w ∈ pre, bestW ≤ w) →
    ∃ m : Int, (pre ++ ws)[minBinFrom best bestW pre.length ws]? = some m ∧ ∀ w ∈ pre ++ ws, m ≤ w := by
  induction ws with
  | nil =>
    intro pre best bestW h1 h2
    exact ⟨bestW, by simpa [minBinFrom] using h1, by simpa using h2⟩
  | cons w ws ih =>
    intro pre best bestW h1 h2
    have hl : (pre ++ [w]).length = pre.length + 1 := by simp
    have hb : best < pre.length := (List.getElem?_eq_some_iff.1 h1).1
    unfold minBinFrom
    split
    · rename_i hlt
      have := ih (pre ++ [w]) pre.length w (by simp) (by
        intro v hv
        rcases List.mem_append.1 hv with hv | hv
        · have := h2 v hv; omega
        · simp at hv; omega)
      simpa [hl] using this
    · rename_i hlt
      have := ih (pre ++ [w]) best bestW (by rw [List.getElem?_append_left hb]; exact h1) (by
        intro v hv
        rcases List.mem_append.1 hv with hv | hv
        · exact h2 v hv
        · simp at hv; omega)
      simpa [hl] using this

theorem minBin_spec (l : List Int) (h : l ≠ []) : ∃ m : Int, l[minBin l]? = some m ∧ ∀ w ∈ l, m ≤ w := by
  cases l with
  | nil => exact absurd rfl h
  | cons a l =>
    have := minBinFrom_spec l [a] 0 a (by simp) (by simp)
    simpa [minBin] using this

/-- A bin is described by the weighted items put into it. -/
def binOf (b : List (α × Int)) : List α × Int := (b.map (·.1), (b.map (·.2)).sum)

theorem modify_flatten_perm {β : Type} (l : List (List β)) (x : β) : ∀ (i : Nat), i < l.length →
    (l.modify i (· ++ [x])).flatten.Perm (l.flatten ++ [x]) := by
  induction l with
  | nil => intro i h; simp at h
  | cons a l ih =>
    intro i h
    cases i with
    | zero =>
      simp only [List.modify_zero_cons, List.flatten_cons, List.append_assoc]
      exact List.Perm.append_left a List.perm_append_comm
    | succ i =>
      simp only [List.modify_succ_cons, List.flatten_cons, List.append_assoc]
      exact List.Perm.append_left a (ih i (by simpa using h))

/-- The invariant of the packing loop: no bin exceeds another by more than any of its own items. -/
def Packed (bins : List (List (α × Int))) : Prop :=
  ∀ a ∈ bins, ∀ b ∈ bins, ∀ x ∈ a, (a.map (·.2)).sum ≤ (b.map (·.2)).sum + x.2

theorem packLoop_spec (rest : List (α × Int)) : ∀ (bins : List (List (α × Int))), 0 < bins.length →
    (∀ x ∈ rest, 0 < x.2) → rest.Pairwise (fun a b => b.2 ≤ a.2) →
    (∀ a ∈ bins, ∀ x ∈ a, ∀ y ∈ rest, y.2 ≤ x.2) → Packed bins →
    ∃ out, packLoop (bins.map binOf) rest = .ok (out.map binOf) ∧ out.length = bins.length ∧
      out.flatten.Perm (bins.flatten ++ rest) ∧ Packed out := by
  induction rest with
  | nil =>
    intro bins _ _ _ _ hp
    exact ⟨bins, rfl, rfl, by simp, hp⟩
  | cons x rest ih =>
    intro bins hl hpos hsort hold hp
    obtain ⟨x, w⟩ := x
    have hmap : (bins.map binOf).map (·.2) = bins.map (fun b => (b.map (·.2)).sum) := by
      rw [List.map_map]; rfl
    obtain ⟨m, hm, hmin⟩ := minBin_spec ((bins.map binOf).map (·.2)) (by
      intro h; rw [List.map_eq_nil_iff, List.map_eq_nil_iff] at h; subst h; simp at hl)
    generalize hi : minBin ((bins.map binOf).map (·.2)) = i at *
    have hil : i < bins.length := by
      have := (List.getElem?_eq_some_iff.1 hm).1; simpa using this
    have hstep : (bins.map binOf).modify i (fun b => (b.1 ++ [x], b.2 + w)) = (bins.modify i (· ++ [(x, w)])).map binOf := by
      apply List.ext_getElem?
      intro j
      simp only [List.getElem?_map, List.getElem?_modify]
      cases bins[j]? with
      | none => simp
      | some b =>
        by_cases hij : i = j <;> simp [hij, binOf]
    have hmv : m = (bins[i].map (·.2)).sum := by
      have := (List.getElem?_eq_some_iff.1 hm).2; rw [← this]; simp [binOf]
    have hw : 0 < w := hpos (x, w) List.mem_cons_self
    have hsort' := List.pairwise_cons.1 hsort
    have hmem : ∀ a ∈ bins.modify i (· ++ [(x, w)]), a ∈ bins ∨ a = bins[i] ++ [(x, w)] := by
      intro a ha
      obtain ⟨j, hj⟩ := List.getElem?_of_mem ha
      rw [List.getElem?_modify] at hj
      by_cases hij : i = j
      · subst hij; rw [List.getElem?_eq_getElem hil] at hj; simp at hj; exact Or.inr hj.symm
      · simp [hij] at hj; exact Or.inl (List.mem_of_getElem? hj)
    have hmin' : ∀ b ∈ bins, (bins[i].map (·.2)).sum ≤ (b.map (·.2)).sum := by
      intro b hb
      rw [← hmv]
      exact hmin _ (by rw [hmap]; exact List.mem_map_of_mem hb)
    have hbi : bins[i] ∈ bins := List.getElem_mem _
    obtain ⟨out, h1, h2, h3, h4⟩ := ih (bins.modify i (· ++ [(x, w)])) (by simpa using hl)
      (fun y hy => hpos y (List.mem_cons_of_mem _ hy)) hsort'.2
      (by
        intro a ha y hy z hz
        rcases hmem a ha with h | h
        · exact hold a h y hy z (List.mem_cons_of_mem _ hz)
        · subst h
          rcases List.mem_append.1 hy with hy | hy
          · exact hold _ hbi y hy z (List.mem_cons_of_mem _ hz)
          · simp at hy; subst hy; exact hsort'.1 z hz)
      (by
        intro a ha b hb y hy
        rcases hmem a ha with ha | ha <;> rcases hmem b hb with hb | hb
        · exact hp a ha b hb y hy
        · subst hb
          have := hp a ha _ hbi y hy
          simp only [List.map_append, List.sum_append, List.map_cons, List.map_nil, List.sum_cons, List.sum_nil]
          omega
        · subst ha
          have hmn := hmin' b hb
          simp only [List.map_append, List.sum_append, List.map_cons, List.map_nil, List.sum_cons, List.sum_nil]
          rcases List.mem_append.1 hy with hy | hy
          · have := hold _ hbi y hy (x, w) List.mem_cons_self
            simp only at this
            omega
          · simp at hy; subst hy; simp only; omega
        · subst ha; subst hb
          have hy0 : 0 < y.2 ∨ w ≤ y.2 := by
            rcases List.mem_append.1 hy with hy | hy
            · exact Or.inr (hold _ hbi y hy (x, w) List.mem_cons_self)
            · simp at hy; subst hy; exact Or.inl hw
          omega)
    refine ⟨out, ?_, ?_, ?_, h4⟩
    · unfold packLoop
      rw [hi, if_pos (by simpa using hil), hstep]
      exact h1
    · simpa using h2
    · refine h3.trans ?_
      have := (modify_flatten_perm bins (x, w) i hil).append_right rest
      simpa using this

theorem addRemainder_length (l : List Nat) : ∀ r, (addRemainder l r).length = l.length := by
  induction l with
  | nil => intro r; rfl
  | cons c l ih => intro r; cases r <;> simp [addRemainder, ih]

theorem addRemainder_sum (l : List Nat) : ∀ r, r ≤ l.length → (addRemainder l r).sum = l.sum + r := by
  induction l with
  | nil => intro r h; simp at h; subst h; rfl
  | cons c l ih =>
    intro r h
    cases r with
    | zero => simp [addRemainder]
    | succ r =>
      simp only [addRemainder, List.sum_cons]
      rw [ih r (by simpa using h)]
      omega

theorem addRemainder_mem (q : Nat) (l : List Nat) (h : ∀ c ∈ l, c = q) : ∀ r, ∀ c ∈ addRemainder l r, c = q ∨ c = q + 1 := by
  induction l with
  | nil => intro r c hc; simp [addRemainder] at hc
  | cons a l ih =>
    intro r c hc
    have ha := h a List.mem_cons_self
    cases r with
    | zero => exact Or.inl (h c (by simpa [addRemainder] using hc))
    | succ r =>
      simp only [addRemainder] at hc
      rcases List.mem_cons.1 hc with hc | hc
      · right; omega
      · exact ih (fun c hc => h c (List.mem_cons_of_mem _ hc)) r c hc

theorem inputsPerWorker_length (n ws : Nat) : (inputsPerWorker n ws).length = ws := by
  simp [inputsPerWorker, addRemainder_length]

theorem inputsPerWorker_sum (n ws : Nat) (h : 0 < ws) : (inputsPerWorker n ws).sum = n := by
  unfold inputsPerWorker
  rw [List.sum_reverse, addRemainder_sum _ _ (by simp; exact Nat.le_of_lt (Nat.mod_lt _ h)), List.sum_reverse]
  simp only [List.sum_replicate_nat]
  exact Nat.div_add_mod n ws

theorem inputsPerWorker_mem (n ws : Nat) : ∀ c ∈ inputsPerWorker n ws, c = n / ws ∨ c = n / ws + 1 := by
  intro c hc
  unfold inputsPerWorker at hc
  rw [List.mem_reverse] at hc
  exact addRemainder_mem _ _ (by intro c hc; simp at hc; exact hc.2) _ c hc

theorem cumsumFrom_getD (l : List Nat) : ∀ (acc i : Nat), i < l.length → (cumsumFrom acc l).getD i 0 = acc + (l.take (i + 1)).sum := by
  induction l with
  | nil => intro acc i h; simp at h
  | cons c l ih =>
    intro acc i h
    cases i with
    | zero => simp [cumsumFrom]
    | succ i =>
      have := ih (acc + c) i (by simpa using h)
      simp only [cumsumFrom, List.getD_cons_succ, List.take_succ_cons, List.sum_cons]
      rw [this]
      omega

/-- Slices cut at the running sums. -/
theorem shares_flatten (items : List α) (counts : List Nat) : ∀ k, k ≤ counts.length → (counts.take k).sum ≤ items.length →
    (((List.range k).map (fun w => (items.take ((counts.take (w + 1)).sum)).drop ((counts.take w).sum))).flatten)
      = items.take ((counts.take k).sum) := by
  intro k
  induction k with
  | zero => intro _ _; simp
  | succ k ih =>
    intro hk hs
    have hle : (counts.take k).sum ≤ (counts.take (k + 1)).sum := by
      rw [List.take_succ_eq_append_getElem (by omega), List.sum_append]; omega
    rw [List.range_succ, List.map_append, List.flatten_append, ih (by omega) (by omega)]
    simp only [List.map_cons, List.map_nil, List.flatten_cons, List.flatten_nil, List.append_nil]
    generalize (counts.take k).sum = a at *
    generalize (counts.take (k + 1)).sum = b at *
    have h := List.take_append_drop a (items.take b)
    rw [List.take_take, Nat.min_eq_left hle] at h
    exact h

end LitData
