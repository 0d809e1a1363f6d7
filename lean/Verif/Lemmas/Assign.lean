import Verif.Model.Assign
import Verif.Spec.Samples

namespace LitData
open Spec

/-! ### Generic facts about `cut` -/

theorem cut_length {α : Type} (ns : List Nat) (xs : List α) : (cut ns xs).length = ns.length := by
  induction ns generalizing xs with
  | nil => rfl
  | cons n ns ih => simp [cut, ih]

theorem cut_nil {α : Type} (ns : List Nat) : cut ns ([] : List α) = ns.map (fun _ => []) := by
  induction ns with
  | nil => rfl
  | cons n ns ih => simp [cut, ih]

theorem cut_flatten {α : Type} (ns : List Nat) (xs : List α) :
    (cut ns xs).flatten = xs.take ns.sum := by
  induction ns generalizing xs with
  | nil => simp [cut]
  | cons n ns ih =>
    simp only [cut, List.flatten_cons, List.sum_cons, ih]
    rw [List.take_add]

theorem cut_append {α : Type} (ns ms : List Nat) (xs : List α) :
    cut (ns ++ ms) xs = cut ns xs ++ cut ms (xs.drop ns.sum) := by
  induction ns generalizing xs with
  | nil => simp [cut]
  | cons n ns ih => simp [cut, ih, List.drop_drop]

/-- New budgets after `xs` has been dealt out. -/
def dealt {α : Type} (ns : List Nat) (xs : List α) : List Nat :=
  List.zipWith (fun n p => n - p.length) ns (cut ns xs)

theorem dealt_cons {α : Type} (n : Nat) (ns : List Nat) (xs : List α) :
    dealt (n :: ns) xs = (n - (xs.take n).length) :: dealt ns (xs.drop n) := by
  simp [dealt, cut]

theorem dealt_nil {α : Type} (ns : List Nat) : dealt ns ([] : List α) = ns := by
  induction ns with
  | nil => rfl
  | cons n ns ih => simp [dealt_cons, ih]

theorem sub_take_length {α : Type} (n : Nat) (xs : List α) :
    n - (xs.take n).length = n - xs.length := by
  rw [List.length_take]; omega

theorem cut_two {α : Type} (ns : List Nat) (xs ys : List α) :
    cut ns (xs ++ ys) = List.zipWith (· ++ ·) (cut ns xs) (cut (dealt ns xs) ys) := by
  induction ns generalizing xs ys with
  | nil => simp [cut]
  | cons n ns ih =>
    simp only [cut, dealt_cons, List.zipWith_cons_cons, sub_take_length, List.take_append,
      List.drop_append, ih]

theorem dealt_append {α : Type} (ns : List Nat) (xs ys : List α) :
    dealt ns (xs ++ ys) = dealt (dealt ns xs) ys := by
  induction ns generalizing xs ys with
  | nil => simp [dealt, cut]
  | cons n ns ih =>
    simp only [dealt_cons, sub_take_length, List.length_append, List.drop_append, ih,
      List.cons.injEq, and_true]
    omega

/-! ### One chunk -/

/-- The samples of an optional piece. -/
def optSamples (o : Option Piece) : List (Nat × Nat) := samples o.toList

theorem region_length (c a b : Nat) : (region c a b).length = b - a := by simp [region]

theorem region_nil (c a b : Nat) (h : b - a = 0) : region c a b = [] := by simp [region, h]

theorem region_take (c a b n : Nat) (h : n ≤ b - a) : (region c a b).take n = region c a (a + n) := by
  simp only [region, ← List.map_take]
  congr 1
  rw [show a + n - a = n by omega]
  apply List.ext_getElem
  · simp; omega
  · intro i h1 h2; simp

theorem region_drop (c a b n : Nat) : (region c a b).drop n = region c (a + n) b := by
  simp only [region, ← List.map_drop]
  congr 1
  rw [List.drop_range']
  congr 1
  · omega
  · omega

theorem assignChunk_spec (c : Nat) (iv : Interval) (bs : List Nat) :
    (assignChunk c iv bs).map (·.1) = dealt bs (region c iv.roiStart iv.roiEnd) ∧
    (assignChunk c iv bs).map (fun u => optSamples u.2) = cut bs (region c iv.roiStart iv.roiEnd) := by
  induction bs generalizing iv with
  | nil => simp [assignChunk, dealt, cut]
  | cons b bs ih =>
    unfold assignChunk
    split
    · subst b
      simp [dealt_cons, cut, ih, show optSamples none = [] from rfl]
    split
    · rename_i h
      have hr : region c iv.roiStart iv.roiEnd = [] := region_nil _ _ _ h
      rw [hr, dealt_nil, cut_nil]
      simp [optSamples, samples, Function.comp_def]
    split
    · rename_i h
      have h' : b ≤ iv.roiEnd - iv.roiStart := by unfold Interval.size at h; omega
      obtain ⟨h1, h2⟩ := ih { iv with roiStart := iv.roiStart + b }
      simp only [List.map_cons, dealt_cons, cut, region_drop, h1, h2, region_take _ _ _ _ h']
      simp [region_length, optSamples, samples]
    · rename_i h
      have h' : iv.roiEnd - iv.roiStart ≤ b := by unfold Interval.size at h; omega
      have hl : (region c iv.roiStart iv.roiEnd).length ≤ b := by rw [region_length]; exact h'
      simp only [List.map_cons, dealt_cons, cut, List.take_of_length_le hl, List.drop_of_length_le hl,
        dealt_nil, cut_nil]
      simp [region_length, optSamples, samples, Interval.size, Function.comp_def]

theorem assignChunk_length (c : Nat) (iv : Interval) (bs : List Nat) :
    (assignChunk c iv bs).length = bs.length := by
  have := congrArg List.length (assignChunk_spec c iv bs).2
  simpa [cut_length] using this

/-! ### All chunks -/

theorem samples_append (ps qs : List Piece) : samples (ps ++ qs) = samples ps ++ samples qs := by
  simp [samples]

theorem samples_appendOpt (ps : List Piece) (o : Option Piece) :
    samples (appendOpt ps o) = samples ps ++ optSamples o := by
  cases o <;> simp [appendOpt, optSamples, samples]

theorem zip_map_fst {α β γ : Type} (f : β → γ) (xs : List α) (ys : List β) (h : xs.length = ys.length) :
    (xs.zip ys).map (fun p => f p.2) = ys.map f := by
  induction xs generalizing ys with
  | nil => cases ys <;> simp_all
  | cons x xs ih => cases ys <;> simp_all

theorem assignLoop_spec (cs : List (Nat × Interval)) (st : List (Nat × List Piece)) :
    (assignLoop cs st).map (fun s => samples s.2) =
      List.zipWith (· ++ ·) (st.map fun s => samples s.2)
        (cut (st.map (·.1)) (cs.flatMap fun x => region x.1 x.2.roiStart x.2.roiEnd)) := by
  induction cs generalizing st with
  | nil =>
    simp only [assignLoop, List.flatMap_nil, cut_nil]
    induction st with
    | nil => rfl
    | cons s st ih => simp_all
  | cons x cs ih =>
    obtain ⟨c, iv⟩ := x
    simp only [assignLoop, List.flatMap_cons]
    rw [ih, cut_two]
    obtain ⟨h1, h2⟩ := assignChunk_spec c iv (st.map (·.1))
    have hl := assignChunk_length c iv (st.map (·.1))
    rw [← h1, ← h2]
    generalize (cs.flatMap fun x => region x.1 x.2.roiStart x.2.roiEnd) = rest
    generalize assignChunk c iv (st.map (·.1)) = upd at hl ⊢
    rw [List.length_map] at hl
    have e : (List.map (fun s => s.1) (List.map (fun x => (x.2.1, appendOpt x.1.2 x.2.2)) (st.zip upd)))
        = upd.map (·.1) := by
      rw [List.map_map]
      exact zip_map_fst (·.1) st upd hl.symm
    rw [e]
    generalize cut (upd.map (·.1)) rest = R
    clear h1 h2 e ih
    induction st generalizing upd R with
    | nil => simp
    | cons s st ih =>
      cases upd with
      | nil => simp at hl
      | cons u upd =>
        cases R with
        | nil => simp
        | cons r R =>
          simp only [List.zip_cons_cons, List.map_cons, List.zipWith_cons_cons, samples_appendOpt,
            List.append_assoc, List.cons.injEq, true_and]
          exact ih upd (by simpa using hl) R

theorem assignLoop_length (cs : List (Nat × Interval)) (st : List (Nat × List Piece)) :
    (assignLoop cs st).length = st.length := by
  have := congrArg List.length (assignLoop_spec cs st)
  simpa [cut_length] using this

end LitData
