import Verif.Lemmas.AssignRank

/-! Facts about the shuffled split. -/

namespace LitData
open Spec

theorem pickIntervals_ok (ivs : List Interval) (idx : List Nat) (h : ∀ i ∈ idx, i < ivs.length) :
    ∃ out, pickIntervals ivs idx = .ok out ∧ out.length = idx.length ∧
      datasetSamples idx out = idx.flatMap (fun i => match ivs[i]? with
        | some iv => region i iv.roiStart iv.roiEnd | none => []) := by
  unfold pickIntervals
  induction idx with
  | nil => exact ⟨[], rfl, rfl, rfl⟩
  | cons i idx ih =>
    obtain ⟨out, h1, h2, h3⟩ := ih (fun j hj => h j (by simp [hj]))
    have hi := h i (by simp)
    refine ⟨ivs[i] :: out, ?_, by simp [h2], ?_⟩
    · rw [List.mapM_cons, h1]
      simp only [List.getElem?_eq_getElem hi]
      rfl
    · simp only [datasetSamples, List.zip_cons_cons, List.flatMap_cons, List.getElem?_eq_getElem hi] at h3 ⊢
      rw [h3]

theorem datasetSamples_range (ivs : List Interval) :
    datasetSamples (List.range ivs.length) ivs = (List.range ivs.length).flatMap (fun i => match ivs[i]? with
        | some iv => region i iv.roiStart iv.roiEnd | none => []) := by
  obtain ⟨out, h1, h2, h3⟩ := pickIntervals_ok ivs (List.range ivs.length) (by simp)
  rw [← h3]
  congr 1
  apply List.ext_getElem?
  intro i
  have key : ∀ (idx : List Nat) (out : List Interval), pickIntervals ivs idx = .ok out → 
      ∀ k : Nat, out[k]? = (idx[k]?).bind (fun i : Nat => ivs[i]?) := by
    intro idx
    unfold pickIntervals
    induction idx with
    | nil => intro out h k; simp [pure, Except.pure] at h; subst h; simp
    | cons a idx ih =>
      intro out h k
      rw [List.mapM_cons] at h
      cases hx : ivs[a]? with
      | none => simp [hx, bind, Except.bind] at h
      | some iv =>
        simp only [hx, bind, Except.bind] at h
        split at h
        · simp at h
        · rename_i out' hout
          simp only [pure, Except.pure, Except.ok.injEq] at h
          subst h
          cases k with
          | zero => simp [hx]
          | succ k => simpa using ih out' hout k
  rw [key _ _ h1 i]
  by_cases hi : i < ivs.length
  · rw [List.getElem?_range hi]; rfl
  · have hi' : ivs.length ≤ i := by omega
    rw [List.getElem?_eq_none hi', List.getElem?_eq_none (by simpa using hi')]
    rfl

/-- The samples of one chunk of a dataset. -/
def chunkRegion (ivs : List Interval) (i : Nat) : List (Nat × Nat) :=
  match ivs[i]? with
  | some iv => region i iv.roiStart iv.roiEnd
  | none => []

theorem mem_chunkRegion (ivs : List Interval) (i : Nat) (x : Nat × Nat) :
    x ∈ chunkRegion ivs i ↔ x.1 = i ∧ ∃ iv, ivs[i]? = some iv ∧ iv.roiStart ≤ x.2 ∧ x.2 < iv.roiEnd := by
  obtain ⟨c, s⟩ := x
  unfold chunkRegion
  cases h : ivs[i]? with
  | none => simp
  | some iv =>
    simp only [region, List.mem_map, List.mem_range'_1, Prod.mk.injEq, Option.some.injEq, exists_eq_left']
    constructor
    · rintro ⟨a, h1, rfl, rfl⟩; exact ⟨rfl, by omega⟩
    · rintro ⟨rfl, h1⟩; exact ⟨s, by omega, rfl, rfl⟩

theorem flatten_modify_perm {α : Type} (acc : List (List α)) (k : Nat) (c : List α) (h : k < acc.length) :
    (acc.modify k (· ++ c)).flatten.Perm (acc.flatten ++ c) := by
  induction acc generalizing k with
  | nil => simp at h
  | cons a acc ih =>
    cases k with
    | zero =>
      simp only [List.modify_zero_cons, List.flatten_cons, List.append_assoc]
      exact List.Perm.append_left _ List.perm_append_comm
    | succ k =>
      simp only [List.modify_succ_cons, List.flatten_cons, List.append_assoc]
      exact List.Perm.append_left _ (ih k (by simpa using h))

theorem flatten_map_perm {α : Type} (f : List α → List α) (hf : ∀ l, (f l).Perm l) (ls : List (List α)) :
    (ls.map f).flatten.Perm ls.flatten := by
  induction ls with
  | nil => simp
  | cons a ls ih => simpa using List.Perm.append (hf a) ih

theorem groupChunks_spec (cs : List (List Nat)) (W nn nw per : Nat) (hper : 0 < per) (hnn : 0 < nn)
    (hW : W = per * nn) (hnw : 0 < nw) (hlen : cs.length = W * nw) :
    ∃ nodes, groupChunksByNodes cs W nn nw = .ok nodes ∧ nodes.length = nn ∧
      nodes.flatten.Perm cs.flatten := by
  unfold groupChunksByNodes
  rw [if_neg (by omega)]
  have hdiv : W / nn = per := by rw [hW]; exact Nat.mul_div_cancel _ hnn
  simp only [hdiv]
  have key : ∀ (l : List (List Nat)) (k : Nat) (acc : List (List Nat)), acc.length = nn →
      k + l.length ≤ W * nw →
      ∃ nodes, (l.zipIdx k).foldlM (fun acc (x : List Nat × Nat) =>
        if nw = 0 ∨ per = 0 then (Except.error Err.zeroDivision : Py (List (List Nat)))
        else if x.2 / nw / per < acc.length then .ok (acc.modify (x.2 / nw / per) (· ++ x.1))
        else .error .indexError) acc = .ok nodes ∧ nodes.length = nn ∧
        nodes.flatten.Perm (acc.flatten ++ l.flatten) := by
    intro l
    induction l with
    | nil => intro k acc h _; exact ⟨acc, rfl, h, by simp⟩
    | cons a l ih =>
      intro k acc hacc hk
      simp only [List.length_cons] at hk
      have hlt : k / nw / per < nn := by
        rw [Nat.div_div_eq_div_mul]
        apply Nat.div_lt_of_lt_mul
        rw [hW] at hk
        have : nw * per * nn = per * nn * nw := by grind
        omega
      obtain ⟨nodes, h1, h2, h3⟩ := ih (k+1) (acc.modify (k / nw / per) (· ++ a)) (by simp [hacc]) (by omega)
      refine ⟨nodes, ?_, h2, ?_⟩
      · rw [List.zipIdx_cons, List.foldlM_cons]
        rw [if_neg (by omega), if_pos (by show k / nw / per < acc.length; omega)]
        exact h1
      · refine h3.trans ?_
        rw [List.flatten_cons, ← List.append_assoc]
        exact List.Perm.append_right _ (flatten_modify_perm acc _ a (by omega))
  obtain ⟨nodes, h1, h2, h3⟩ := key cs 0 (List.replicate nn []) (by simp) (by omega)
  refine ⟨nodes, h1, h2, ?_⟩
  have : (List.replicate nn ([] : List Nat)).flatten = [] := by simp
  rw [this, List.nil_append] at h3
  exact h3

end LitData
