import Verif.Model.Basic

/-! `pySorted` sorts. -/

namespace LitData

theorem insertSorted_perm (a : Nat) (l : List Nat) : (insertSorted a l).Perm (a :: l) := by
  induction l with
  | nil => exact List.Perm.refl _
  | cons b l ih =>
    unfold insertSorted
    split
    · exact List.Perm.refl _
    · exact (List.Perm.cons b ih).trans (List.Perm.swap _ _ _)

theorem pySorted_perm (l : List Nat) : (pySorted l).Perm l := by
  induction l with
  | nil => exact List.Perm.refl _
  | cons a l ih => exact (insertSorted_perm a _).trans (List.Perm.cons a ih)

theorem pySorted_length (l : List Nat) : (pySorted l).length = l.length := (pySorted_perm l).length_eq

theorem insertSorted_pairwise (a : Nat) (l : List Nat) (h : l.Pairwise (· ≤ ·)) :
    (insertSorted a l).Pairwise (· ≤ ·) := by
  induction l with
  | nil => simp [insertSorted]
  | cons b l ih =>
    unfold insertSorted
    rw [List.pairwise_cons] at h
    split
    · rename_i hab
      refine List.pairwise_cons.2 ⟨?_, List.pairwise_cons.2 h⟩
      intro c hc
      rcases List.mem_cons.1 hc with rfl | hc
      · exact hab
      · exact Nat.le_trans hab (h.1 c hc)
    · rename_i hab
      refine List.pairwise_cons.2 ⟨?_, ih h.2⟩
      intro c hc
      rcases List.mem_cons.1 ((insertSorted_perm a l).mem_iff.1 hc) with rfl | hc
      · omega
      · exact h.1 c hc

theorem pySorted_pairwise (l : List Nat) : (pySorted l).Pairwise (· ≤ ·) := by
  induction l with
  | nil => exact List.Pairwise.nil
  | cons a l ih => exact insertSorted_pairwise a _ ih

theorem pySorted_of_pairwise (l : List Nat) (h : l.Pairwise (· ≤ ·)) : pySorted l = l := by
  induction l with
  | nil => rfl
  | cons a l ih =>
    rw [List.pairwise_cons] at h
    rw [pySorted, ih h.2]
    cases l with
    | nil => rfl
    | cons b l => rw [insertSorted, if_pos (h.1 b (by simp))]

end LitData
