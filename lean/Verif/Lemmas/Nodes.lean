import Verif.Model.Nodes
import Verif.Props.Pipeline

/-! The merge of the indexes of several nodes. -/

namespace LitData.Props
open LitData

theorem mergeLoop_sublist {C : Type} [DecidableEq C] (fs : List String) (d : CacheDir C) (acc : IndexData C) :
    (mergeLoop fs d acc).2.Sublist d := by
  induction fs generalizing d acc with
  | nil => exact List.Sublist.refl _
  | cons f fs ih =>
    unfold mergeLoop
    repeat' split
    all_goals first
      | exact List.Sublist.refl _
      | exact (ih _ _).trans List.filter_sublist

/-- The name of the file that `_merge_no_wait` writes. -/
def mergedName : Option Nat → String
  | none => "index.json"
  | some r => nodeIndexName r

theorem isIndexName_merged (node : Option Nat) : isIndexName (mergedName node) = true := by
  cases node with
  | none => decide
  | some r => exact isIndexName_node r

/-- Merging index files with one configuration, whatever their names. -/
theorem merge_sorted {C : Type} [DecidableEq C] (c : C) (node : Option Nat) (d : CacheDir C) (hn : (d.map (·.1)).Nodup)
    (data : String → List ChunkInfo) (fs : List String) (hfs : sortBy strLe ((d.map (·.1)).filter isIndexName) = fs)
    (h : ∀ f ∈ fs, dirGet d f = some (.index ⟨data f, some c⟩)) :
    ∃ d', mergeNoWait node none d = (.ok (), d') ∧
      dirGet d' (mergedName node) = some (.index ⟨fs.flatMap data, if fs = [] then none else some c⟩) ∧
      (∀ f, isIndexName f = false → dirGet d' f = dirGet d f) ∧
      (∀ e ∈ d', isIndexName e.1 = true → e.1 = mergedName node) ∧ (d'.map (·.1)).Nodup := by
  have hmem : ∀ f, f ∈ fs ↔ f ∈ d.map (·.1) ∧ isIndexName f = true := by
    intro f
    rw [← hfs, (sortBy_perm _ _).mem_iff, List.mem_filter]
  have hnd : fs.Nodup := by rw [← hfs]; exact (sortBy_perm _ _).nodup_iff.2 (hn.filter _)
  obtain ⟨d', h1, h2, h3⟩ := mergeLoop_ok c data fs hnd d h ⟨[], none⟩ (Or.inl rfl)
  have hsub : d'.Sublist d := by
    have := mergeLoop_sublist fs d ⟨[], none⟩
    rw [h1] at this
    exact this
  refine ⟨dirWrite d' (mergedName node) (.index ⟨fs.flatMap data, if fs = [] then none else some c⟩), ?_, dirGet_write _ _ _, ?_, ?_, ?_⟩
  · unfold mergeNoWait
    rw [hfs, Option.getD_none, h1]
    cases node <;> rfl
  · intro f hf
    rw [dirGet_write_ne _ _ _ _ (by intro e; rw [← e, isIndexName_merged] at hf; cases hf), h2]
    intro hm
    rw [((hmem f).1 hm).2] at hf
    cases hf
  · intro e he hi
    unfold dirWrite at he
    rcases List.mem_append.1 he with he | he
    · obtain ⟨h4, h5⟩ := (h3 e).1 (List.mem_filter.1 he).1
      exact absurd ((hmem _).2 ⟨List.mem_map_of_mem h4, hi⟩) h5
    · rw [List.mem_singleton.1 he]
  · unfold dirWrite dirRemove
    rw [List.map_append, List.nodup_append]
    refine ⟨(hn.sublist (hsub.map _)).sublist (List.filter_sublist.map _), by simp, ?_⟩
    intro a ha b hb
    obtain ⟨e, he, rfl⟩ := List.mem_map.1 ha
    simp only [List.map_cons, List.map_nil, List.mem_singleton] at hb
    subst hb
    simpa using (List.mem_filter.1 he).2

/-- The merge of the workers of one node, in the order of the text of their ranks. -/
theorem merge_node {C : Type} [DecidableEq C] (c : C) (ws : List (List ChunkInfo)) (d : CacheDir C) (h : WorkersDone c ws d) (node : Option Nat)
    (hne : ws.flatten ≠ []) :
    ∃ d', mergeNoWait node none d = (.ok (), d') ∧
      dirGet d' (mergedName node) = some (.index ⟨inRankOrder ws, some c⟩) ∧
      (∀ e ∈ d', isIndexName e.1 = true → e.1 = mergedName node) ∧ (d'.map (·.1)).Nodup := by
  have hp : ((rankOrder ws.length).filter fun r => ws.getD r [] != []).Perm (busyRanks ws) := (rankOrder_perm ws.length).filter _
  have hs : sortBy strLe ((d.map (·.1)).filter isIndexName) =
      ((rankOrder ws.length).filter fun r => ws.getD r [] != []).map rankIndexName := by
    apply sortNames_eq _ _ ((workersDone_names h).trans (hp.map _).symm)
    rw [List.pairwise_map]
    apply List.Pairwise.filter
    exact sortBy_pairwise (fun a b => strLe (rankIndexName a) (rankIndexName b))
      (fun a b => lexLe_total (rankIndexName a).toList (rankIndexName b).toList)
      (fun a b c => lexLe_trans (rankIndexName a).toList (rankIndexName b).toList (rankIndexName c).toList) _
  have hget : ∀ f ∈ ((rankOrder ws.length).filter fun r => ws.getD r [] != []).map rankIndexName,
      dirGet d f = some (.index ⟨(match dirGet d f with
        | some (.index i) => i.chunks
        | _ => []), some c⟩) := by
    intro f hf
    obtain ⟨r, hr, rfl⟩ := List.mem_map.1 hf
    obtain ⟨cs, h1, h2⟩ := (busyRanks_mem ws r).1 (hp.mem_iff.1 hr)
    rw [dirGet_mem d h.names _ _ (h.index r cs h1 h2)]
  obtain ⟨d', h1, h2, _, h4, h5⟩ := merge_sorted c node d h.names (fun f => match dirGet d f with
        | some (.index i) => i.chunks
        | _ => []) _ hs hget
  refine ⟨d', h1, ?_, h4, h5⟩
  rw [h2]
  have hdat : (((rankOrder ws.length).filter fun r => ws.getD r [] != []).map rankIndexName).flatMap (fun f => match dirGet d f with
      | some (.index i) => i.chunks
      | _ => []) = inRankOrder ws := by
    unfold inRankOrder
    rw [← busy_flatMap, List.flatMap_def, List.flatMap_def, List.map_map]
    congr 1
    apply List.map_congr_left
    intro r hr
    obtain ⟨cs, h1, h2⟩ := (busyRanks_mem ws r).1 (hp.mem_iff.1 hr)
    simp only [Function.comp_apply]
    rw [dirGet_mem d h.names _ _ (h.index r cs h1 h2)]
    simp [List.getD_eq_getElem?_getD, h1]
  have hne' : ¬ ((rankOrder ws.length).filter fun r => ws.getD r [] != []).map rankIndexName = [] := by
    intro e
    rw [e] at hdat
    have := (inRankOrder_perm ws)
    rw [← hdat] at this
    exact hne this.nil_eq.symm
  rw [hdat, if_neg hne']

/-- The nodes in the order in which their indexes are merged: sorted by the text of the file names. -/
def nodeOrder (n : Nat) : List Nat := sortBy (fun a b => strLe (nodeIndexName a) (nodeIndexName b)) (List.range n)

theorem nodeOrder_perm (n : Nat) : (nodeOrder n).Perm (List.range n) := sortBy_perm _ _

/-- Up to ten nodes the order is that of the numbers. -/
theorem nodeOrder_ten (n : Nat) (h : n ≤ 10) : nodeOrder n = List.range n := by
  have : ∀ n, n < 11 → nodeOrder n = List.range n := by decide +kernel
  exact this n (by omega)

/-- With eleven, node 10 comes between 1 and 2. -/
example : nodeOrder 12 = [0, 1, 10, 11, 2, 3, 4, 5, 6, 7, 8, 9] := by decide +kernel

/-- The cache directory of a node holds the index files of the nodes with `p`, and no other index files. -/
structure HoldsNodes {C : Type} (idx : Nat → IndexData C) (p : Nat → Prop) (d : CacheDir C) : Prop where
  names : (d.map (·.1)).Nodup
  index : ∀ j, p j → (nodeIndexName j, .index (idx j)) ∈ d
  only : ∀ e ∈ d, isIndexName e.1 = true → ∃ j, p j ∧ e.1 = nodeIndexName j

theorem HoldsNodes.write {C : Type} {idx : Nat → IndexData C} {p : Nat → Prop} {d : CacheDir C} (h : HoldsNodes idx p d) (k : Nat) :
    HoldsNodes idx (fun j => p j ∨ j = k) (dirWrite d (nodeIndexName k) (.index (idx k))) := by
  refine ⟨?_, ?_, ?_⟩
  · unfold dirWrite dirRemove
    rw [List.map_append, List.nodup_append]
    refine ⟨h.names.sublist (List.filter_sublist.map _), by simp, ?_⟩
    intro a ha b hb
    obtain ⟨e, he, rfl⟩ := List.mem_map.1 ha
    simp only [List.map_cons, List.map_nil, List.mem_singleton] at hb
    subst hb
    simpa using (List.mem_filter.1 he).2
  · intro j hj
    unfold dirWrite dirRemove
    by_cases e : j = k
    · subst e; simp
    · have hj : p j := hj.resolve_right e
      refine List.mem_append_left _ (List.mem_filter.2 ⟨h.index j hj, ?_⟩)
      simp only [bne_iff_ne, ne_eq]
      exact fun he => e (nodeIndexName_inj _ _ he)
  · intro e he hi
    unfold dirWrite dirRemove at he
    rcases List.mem_append.1 he with he | he
    · obtain ⟨j, h1, h2⟩ := h.only e (List.mem_filter.1 he).1 hi
      exact ⟨j, Or.inl h1, h2⟩
    · rw [List.mem_singleton.1 he]
      exact ⟨k, Or.inr rfl, rfl⟩

/-- The merge of the indexes of all nodes. -/
theorem merge_nodes {C : Type} [DecidableEq C] (c : C) (cs : Nat → List ChunkInfo) (N : Nat) (hN : 0 < N) (d : CacheDir C)
    (h : HoldsNodes (fun n => ⟨cs n, some c⟩) (· < N) d) :
    ∃ d', mergeNoWait none none d = (.ok (), d') ∧
      dirGet d' "index.json" = some (.index ⟨(nodeOrder N).flatMap cs, some c⟩) := by
  have hp : ((d.map (·.1)).filter isIndexName).Perm ((nodeOrder N).map nodeIndexName) := by
    rw [List.perm_ext_iff_of_nodup (h.names.filter _)]
    · intro f
      rw [List.mem_filter, List.mem_map, List.mem_map]
      constructor
      · rintro ⟨⟨e, he, rfl⟩, hi⟩
        obtain ⟨r, h1, h2⟩ := h.only e he hi
        exact ⟨r, (nodeOrder_perm N).mem_iff.2 (List.mem_range.2 h1), h2.symm⟩
      · rintro ⟨r, hr, rfl⟩
        exact ⟨⟨_, h.index r (List.mem_range.1 ((nodeOrder_perm N).mem_iff.1 hr)), rfl⟩, isIndexName_node r⟩
    · rw [List.nodup_iff_pairwise_ne, List.pairwise_map]
      exact (List.nodup_iff_pairwise_ne.1 ((nodeOrder_perm N).nodup_iff.2 List.nodup_range)).imp fun hab he => hab (nodeIndexName_inj _ _ he)
  have hs : sortBy strLe ((d.map (·.1)).filter isIndexName) = (nodeOrder N).map nodeIndexName := by
    apply sortNames_eq _ _ hp
    rw [List.pairwise_map]
    exact sortBy_pairwise (fun a b => strLe (nodeIndexName a) (nodeIndexName b))
      (fun a b => lexLe_total (nodeIndexName a).toList (nodeIndexName b).toList)
      (fun a b c => lexLe_trans (nodeIndexName a).toList (nodeIndexName b).toList (nodeIndexName c).toList) _
  have hmem : ∀ r ∈ nodeOrder N, dirGet d (nodeIndexName r) = some (.index ⟨cs r, some c⟩) := fun r hr =>
    dirGet_mem d h.names _ _ (h.index r (List.mem_range.1 ((nodeOrder_perm N).mem_iff.1 hr)))
  obtain ⟨d', h1, h2, _⟩ := merge_sorted c none d h.names (fun f => match dirGet d f with
        | some (.index i) => i.chunks
        | _ => []) _ hs (by
    intro f hf
    obtain ⟨r, hr, rfl⟩ := List.mem_map.1 hf
    rw [hmem r hr])
  refine ⟨d', h1, ?_⟩
  have e : ((nodeOrder N).map nodeIndexName).flatMap (fun f => match dirGet d f with
        | some (.index i) => i.chunks
        | _ => []) = (nodeOrder N).flatMap cs := by
    rw [List.flatMap_def, List.flatMap_def, List.map_map]
    congr 1
    apply List.map_congr_left
    intro r hr
    simp only [Function.comp_apply]
    rw [hmem r hr]
  have hne : ¬ (nodeOrder N).map nodeIndexName = [] := by
    intro e
    have := congrArg List.length e
    rw [List.length_map, (nodeOrder_perm N).length_eq, List.length_range, List.length_nil] at this
    omega
  rw [show "index.json" = mergedName none from rfl, h2, e, if_neg hne]

end LitData.Props
