import Verif.Props.TreeMapMain

/-! Property C80: leaves, key paths, laws of mapping, broadcasting. -/

namespace LitData.Props
open LitData Spec

section
variable {α : Type} (isJpeg : α → Bool) (isLeaf : Tree α → Bool) (fields : String → List String)

mutual
/-- The positions of the leaves. -/
def leafPos : Tree α → List (List Nat)
  | .leaf _ => [[]]
  | .node h cs => if isLeafNode isJpeg isLeaf (.node h cs) then [[]] else leafPosList 0 cs

def leafPosList (i : Nat) : List (Tree α) → List (List Nat)
  | [] => []
  | c :: cs => (leafPos c).map (i :: ·) ++ leafPosList (i + 1) cs
end

mutual
theorem leafPos_sorted (t : Tree α) : (leafPos isJpeg isLeaf t).Pairwise (· < ·) := by
  match t with
  | .leaf a => simp [leafPos]
  | .node h cs =>
    simp only [leafPos]
    split
    · simp
    · exact (leafPosList_sorted 0 cs).1

theorem leafPosList_sorted (i : Nat) (cs : List (Tree α)) :
    (leafPosList isJpeg isLeaf i cs).Pairwise (· < ·) ∧ ∀ p ∈ leafPosList isJpeg isLeaf i cs, ∃ j q, p = j :: q ∧ i ≤ j := by
  match cs with
  | [] => simp [leafPosList]
  | c :: cs =>
    obtain ⟨h1, h2⟩ := leafPosList_sorted (i + 1) cs
    simp only [leafPosList]
    constructor
    · rw [List.pairwise_append]
      refine ⟨?_, h1, ?_⟩
      · rw [List.pairwise_map]
        exact (leafPos_sorted c).imp (fun h => List.cons_lt_cons_iff.2 (.inr ⟨rfl, h⟩))
      · intro a ha b hb
        obtain ⟨q, _, rfl⟩ := List.mem_map.1 ha
        obtain ⟨j, q', rfl, hj⟩ := h2 b hb
        exact List.cons_lt_cons_iff.2 (.inl (by omega))
    · intro p hp
      rcases List.mem_append.1 hp with hp | hp
      · obtain ⟨q, _, rfl⟩ := List.mem_map.1 hp
        exact ⟨i, q, rfl, Nat.le_refl _⟩
      · obtain ⟨j, q, rfl, hj⟩ := h2 p hp
        exact ⟨j, q, rfl, by omega⟩
end

mutual
theorem leafPos_leaves (t : Tree α) : (leafPos isJpeg isLeaf t).map (subtreeAt t) = (treeIter isJpeg isLeaf t).map some := by
  match t with
  | .leaf a => simp [leafPos, treeIter, subtreeAt]
  | .node h cs =>
    simp only [leafPos, treeIter]
    split
    · simp [subtreeAt]
    · exact leafPosList_leaves h cs cs 0 (fun i => by simp)

theorem leafPosList_leaves (h : Head) (all cs : List (Tree α)) (i : Nat) (hi : ∀ j, cs[j]? = all[i + j]?) :
    (leafPosList isJpeg isLeaf i cs).map (subtreeAt (.node h all)) = (treeIterList isJpeg isLeaf cs).map some := by
  match cs with
  | [] => simp [leafPosList, treeIterList]
  | c :: cs =>
    simp only [leafPosList, treeIterList, List.map_append, List.map_map]
    rw [leafPosList_leaves h all cs (i + 1) (fun j => by have := hi (j + 1); simp at this; rw [this]; congr 1; omega), ← leafPos_leaves c]
    congr 1
    apply List.map_congr_left
    intro p _
    have := hi 0
    simp only [List.getElem?_cons_zero, Nat.add_zero] at this
    simp only [Function.comp, subtreeAt, ← this]
end

theorem leafAt_cons (h : Head) (cs : List (Tree α)) (isL : Tree α → Bool) (hL : isL (.node h cs) = false) (i : Nat) (p : List Nat) (x : Tree α) :
    IsLeafAt isL (.node h cs) (i :: p) x ↔ ∃ c, cs[i]? = some c ∧ IsLeafAt isL c p x := by
  unfold IsLeafAt
  constructor
  · rintro ⟨h1, h2, h3⟩
    simp only [subtreeAt] at h1
    cases hc : cs[i]? with
    | none => rw [hc] at h1; cases h1
    | some c =>
      rw [hc] at h1
      refine ⟨c, rfl, h1, h2, ?_⟩
      intro q y hq hne hs
      exact h3 (i :: q) y (by simpa using hq) (by simpa using hne) (by simp [subtreeAt, hc, hs])
  · rintro ⟨c, hc, h1, h2, h3⟩
    refine ⟨by simp [subtreeAt, hc, h1], h2, ?_⟩
    intro q y hq hne hs
    cases q with
    | nil => simp only [subtreeAt, Option.some.injEq] at hs; rw [← hs]; exact hL
    | cons j q =>
      rw [List.cons_prefix_cons] at hq
      obtain ⟨rfl, hq⟩ := hq
      simp only [subtreeAt, hc] at hs
      exact h3 q y hq (by simpa using hne) hs

theorem leafAt_top (t : Tree α) (isL : Tree α → Bool) (hL : isL t = true) (p : List Nat) : (∃ x, IsLeafAt isL t p x) ↔ p = [] := by
  constructor
  · rintro ⟨x, _, _, h3⟩
    apply Classical.byContradiction
    intro hp
    have := h3 [] t (List.nil_prefix) (fun h => hp h.symm) (by cases t <;> rfl)
    rw [hL] at this
    cases this
  · rintro rfl
    refine ⟨t, by cases t <;> rfl, hL, ?_⟩
    intro q y hq hne
    exact absurd (List.prefix_nil.1 hq) hne

mutual
theorem mem_leafPos (t : Tree α) (p : List Nat) : p ∈ leafPos isJpeg isLeaf t ↔ ∃ x, IsLeafAt (isLeafNode isJpeg isLeaf) t p x := by
  match t with
  | .leaf a => rw [leafAt_top _ _ rfl]; simp [leafPos]
  | .node h cs =>
    simp only [leafPos]
    by_cases hL : isLeafNode isJpeg isLeaf (.node h cs) = true
    · rw [leafAt_top _ _ hL, if_pos hL]; simp
    · rw [if_neg hL, mem_leafPosList cs 0 p]
      have hL' : isLeafNode isJpeg isLeaf (.node h cs) = false := by simpa using hL
      cases p with
      | nil =>
        constructor
        · rintro ⟨i, c, q, _, h, _⟩; cases h
        · rintro ⟨x, h1, h2, _⟩
          simp only [subtreeAt, Option.some.injEq] at h1
          rw [← h1, hL'] at h2
          cases h2
      | cons i p =>
        constructor
        · rintro ⟨j, c, q, h1, h2, x, h3⟩
          simp only [Nat.zero_add, List.cons.injEq] at h2
          obtain ⟨rfl, rfl⟩ := h2
          exact ⟨x, (leafAt_cons h cs _ hL' _ _ x).2 ⟨c, h1, h3⟩⟩
        · rintro ⟨x, hx⟩
          obtain ⟨c, h1, h2⟩ := (leafAt_cons h cs _ hL' _ _ x).1 hx
          exact ⟨i, c, p, h1, by simp, x, h2⟩

theorem mem_leafPosList (cs : List (Tree α)) (k : Nat) (p : List Nat) : p ∈ leafPosList isJpeg isLeaf k cs ↔
    ∃ i c q, cs[i]? = some c ∧ p = (k + i) :: q ∧ ∃ x, IsLeafAt (isLeafNode isJpeg isLeaf) c q x := by
  match cs with
  | [] => simp [leafPosList]
  | c :: cs =>
    simp only [leafPosList, List.mem_append, List.mem_map]
    rw [mem_leafPosList cs (k + 1) p]
    constructor
    · rintro (⟨q, hq, rfl⟩ | ⟨i, c', q, h1, rfl, h3⟩)
      · exact ⟨0, c, q, rfl, by simp, (mem_leafPos c q).1 hq⟩
      · exact ⟨i + 1, c', q, by simpa using h1, by simp; omega, h3⟩
    · rintro ⟨i, c', q, h1, rfl, h3⟩
      cases i with
      | zero =>
        simp only [List.getElem?_cons_zero, Option.some.injEq] at h1
        subst h1
        exact .inl ⟨q, (mem_leafPos c q).2 h3, by simp⟩
      | succ i => exact .inr ⟨i, c', q, by simpa using h1, by simp; omega, h3⟩
end

/-- **C80, the leaves.** `tree_iter`, `tree_leaves`, `tree_flatten` and `tree_leaves_with_path` give the same: all leaves, each once, from left to right. -/
theorem c80_leaves (t : Tree α) (ht : TreeOk fields t) : ∃ ps : List (List Nat), ps.Pairwise (· < ·) ∧
    (∀ p, p ∈ ps ↔ ∃ x, IsLeafAt (isLeafNode isJpeg isLeaf) t p x) ∧ ps.map (subtreeAt t) = (treeIter isJpeg isLeaf t).map some ∧
    (flattenW isJpeg isLeaf t).1 = treeIter isJpeg isLeaf t ∧ (leavesWithPath isJpeg isLeaf fields t).map (·.2) = treeIter isJpeg isLeaf t :=
  ⟨leafPos isJpeg isLeaf t, leafPos_sorted isJpeg isLeaf t, mem_leafPos isJpeg isLeaf t, leafPos_leaves isJpeg isLeaf t, flattenW_leaves isJpeg isLeaf t,
    keyPaths_leaves isJpeg isLeaf fields t ht⟩

mutual
/-- Without `is_leaf`, the flattening is the one that the writer uses (C11). -/
theorem flattenW_none (t : Tree α) : flattenW isJpeg (fun _ => false) t = flatten isJpeg t := by
  match t with
  | .leaf a => simp [flattenW, flatten]
  | .node h cs =>
    simp only [flattenW, flatten, isLeafNode, Bool.false_or]
    rw [flattenWList_none cs]

theorem flattenWList_none (cs : List (Tree α)) : flattenWList isJpeg (fun _ => false) cs = flattenList isJpeg cs := by
  match cs with
  | [] => simp [flattenWList, flattenList]
  | c :: cs => simp only [flattenWList, flattenList]; rw [flattenW_none c, flattenWList_none cs]
end

mutual
theorem keyGet_own (t : Tree α) (ht : TreeOk fields t) :
    (keyPaths isJpeg isLeaf fields [] t).map (fun q => keyGet fields t q.1) = (keyPaths isJpeg isLeaf fields [] t).map (fun q => .ok q.2) := by
  match t with
  | .leaf a => simp [keyPaths, keyGet]
  | .node h cs =>
    simp only [TreeOk] at ht
    simp only [keyPaths]
    split
    · simp [keyGet]
    · obtain ⟨e1, e2⟩ := entries_self fields h cs ht.1 ht.2.1
      exact keyGetList_own cs ht.2.2 _ (.node h cs) e2 e1

theorem keyGetList_own (cs : List (Tree α)) (ht : TreesOk fields cs) (es : List KeyEntry) (r : Tree α) (hl : es.length = cs.length)
    (hr : es.map (fun e => e.get fields r) = cs.map .ok) :
    (keyPathsList isJpeg isLeaf fields [] es cs).map (fun q => keyGet fields r q.1) =
      (keyPathsList isJpeg isLeaf fields [] es cs).map (fun q => .ok q.2) := by
  match es, cs with
  | [], [] => simp [keyPathsList]
  | e :: es, [] => simp at hl
  | [], c :: cs => simp at hl
  | e :: es, c :: cs =>
    simp only [TreesOk] at ht
    simp only [List.map_cons, List.cons.injEq] at hr
    rw [keyPathsList_cons, List.map_append, List.map_append, List.map_map, List.map_map, keyGetList_own cs ht.2 es r (by simpa using hl) hr.2]
    congr 1
    have := keyGet_own c ht.1
    simp only [Function.comp_def, keyGet, hr.1]
    exact this
end

theorem entries_nodup (h : Head) (n : Nat) (hh : h.Fits n) (hf : ∀ c a, h = .named c a → (fields c).Nodup ∧ (fields c).length = a) :
    ((entriesOf fields h n).map entryNorm).Nodup := by
  have hd : ∀ ks : List Key, (ks.map Key.norm).Nodup → ((ks.map KeyEntry.map).map entryNorm).Nodup := by
    intro ks hk
    rw [List.map_map]
    rw [show entryNorm ∘ KeyEntry.map = KeyEntry.map ∘ Key.norm from rfl, ← List.map_map]
    exact hk.map KeyEntry.map (fun a b hab h => hab (by cases h; rfl))
  have hs : (((List.range n).map KeyEntry.seq).map entryNorm).Nodup := by
    rw [List.map_map]
    exact List.nodup_range.map _ (fun a b hab h => hab (by cases h; rfl))
  cases h with
  | named c a =>
    simp only [entriesOf, List.map_map]
    exact (hf c a rfl).1.map _ (fun a b hab h => hab (by cases h; rfl))
  | dict ks => exact hd ks hh.2.1
  | odict ks => exact hd ks hh.2.1
  | ddict f ks => exact hd ks hh.2.1
  | tuple => exact hs
  | list => exact hs
  | deque m => exact hs

mutual
theorem keyPaths_nodup (t : Tree α) (ht : TreeOk fields t) : ((keyPaths isJpeg isLeaf fields [] t).map (fun q => q.1.map entryNorm)).Nodup := by
  match t with
  | .leaf a => simp [keyPaths]
  | .node h cs =>
    simp only [TreeOk] at ht
    simp only [keyPaths]
    split
    · simp
    · exact (keyPathsList_nodup cs ht.2.2 _ (entries_nodup fields h cs.length ht.1 ht.2.1)).1

theorem keyPathsList_nodup (cs : List (Tree α)) (ht : TreesOk fields cs) (es : List KeyEntry) (hn : (es.map entryNorm).Nodup) :
    ((keyPathsList isJpeg isLeaf fields [] es cs).map (fun q => q.1.map entryNorm)).Nodup ∧
      ∀ q ∈ keyPathsList isJpeg isLeaf fields [] es cs, ∃ e p, q.1 = e :: p ∧ e ∈ es := by
  match es, cs with
  | [], cs => cases cs <;> simp [keyPathsList]
  | e :: es, [] => simp [keyPathsList]
  | e :: es, c :: cs =>
    simp only [TreesOk] at ht
    simp only [List.map_cons, List.nodup_cons] at hn
    obtain ⟨h1, h2⟩ := keyPathsList_nodup cs ht.2 es hn.2
    rw [keyPathsList_cons]
    constructor
    · rw [List.map_append, List.nodup_append]
      refine ⟨?_, h1, ?_⟩
      · rw [List.map_map]
        rw [show (fun q : List KeyEntry × Tree α => q.1.map entryNorm) ∘ (fun q : List KeyEntry × Tree α => (e :: q.1, q.2)) =
          (fun l => entryNorm e :: l) ∘ (fun q : List KeyEntry × Tree α => q.1.map entryNorm) from rfl, ← List.map_map]
        exact (keyPaths_nodup c ht.1).map _ (fun a b hab h => hab (by cases h; rfl))
      · intro a ha b hb hab
        subst hab
        obtain ⟨q, hq, rfl⟩ := List.mem_map.1 ha
        obtain ⟨q', hq', hqq⟩ := List.mem_map.1 hb
        obtain ⟨q0, _, rfl⟩ := List.mem_map.1 hq
        obtain ⟨e', p, he, hm⟩ := h2 q' hq'
        rw [he] at hqq
        simp only [List.map_cons, List.cons.injEq] at hqq
        exact hn.1 (by rw [← hqq.1]; exact List.mem_map_of_mem hm)
    · intro q hq
      rcases List.mem_append.1 hq with hq | hq
      · obtain ⟨q0, _, rfl⟩ := List.mem_map.1 hq
        exact ⟨e, q0.1, rfl, by simp⟩
      · obtain ⟨e', p, he, hm⟩ := h2 q hq
        exact ⟨e', p, he, by simp [hm]⟩
end

/-- **C80, key paths** lead to their leaves, and no two are equal. -/
theorem c80_paths (t : Tree α) (ht : TreeOk fields t) :
    (∀ q ∈ leavesWithPath isJpeg isLeaf fields t, keyGet fields t q.1 = .ok q.2) ∧
    ((leavesWithPath isJpeg isLeaf fields t).map (fun q => q.1.map entryNorm)).Nodup := by
  refine ⟨?_, keyPaths_nodup isJpeg isLeaf fields t ht⟩
  intro q hq
  obtain ⟨i, hi, rfl⟩ := List.getElem_of_mem hq
  have := congrArg (fun l => l[i]?) (keyGet_own isJpeg isLeaf fields t ht)
  unfold leavesWithPath at hi ⊢
  simpa [hi] using this

mutual
theorem unflatten_mapped (g : Tree α → Tree α) (t : Tree α) (ht : TreeOk fields t) :
    unflatten (flattenW isJpeg isLeaf t).2 ((treeIter isJpeg isLeaf t).map g) = .ok (mapTree (isLeafNode isJpeg isLeaf) g t) := by
  match t with
  | .leaf a => simp [flattenW, treeIter, unflatten, mapTree]
  | .node h cs =>
    simp only [TreeOk] at ht
    simp only [flattenW, treeIter, mapTree]
    by_cases hL : isLeafNode isJpeg isLeaf (.node h cs) = true
    · simp only [hL, if_true, List.map_cons, List.map_nil, unflatten]; rfl
    · simp only [hL, if_false, Bool.false_eq_true]
      obtain ⟨h1, h2⟩ := unflattenList_mapped g cs ht.2.2
      simp only [unflatten]
      rw [flattenWList_num, flattenWList_leaves, if_neg (by simp), h1]
      exact build_ok h _ (by rw [h2]; exact ht.1)

theorem unflattenList_mapped (g : Tree α → Tree α) (cs : List (Tree α)) (ht : TreesOk fields cs) :
    unflattenList (flattenWList isJpeg isLeaf cs).2 ((treeIterList isJpeg isLeaf cs).map g) = .ok (mapTrees (isLeafNode isJpeg isLeaf) g cs) ∧
      (mapTrees (isLeafNode isJpeg isLeaf) g cs).length = cs.length := by
  match cs with
  | [] => simp [flattenWList, treeIterList, unflattenList, mapTrees]
  | c :: cs =>
    simp only [TreesOk] at ht
    obtain ⟨h1, h2⟩ := unflattenList_mapped g cs ht.2
    have hn : (flattenW isJpeg isLeaf c).2.numLeaves = ((treeIter isJpeg isLeaf c).map g).length := by rw [flattenW_num, flattenW_leaves]; simp
    simp only [flattenWList, treeIterList, unflattenList, mapTrees, List.map_append, List.length_cons, h2, and_true]
    rw [hn, List.take_left, List.drop_left, unflatten_mapped g c ht.1, h1]
end

/-- **C80, one sample.** A function that does not raise is applied to every leaf; nothing else changes. -/
theorem c80_map (g : Tree α → Tree α) (t : Tree α) (ht : TreeOk fields t) :
    treeMap isJpeg isLeaf (fun x _ => .ok (g x)) t [] = .ok (mapTree (isLeafNode isJpeg isLeaf) g t) := by
  have hrows : ∀ l : List (Tree α), rows l ([] : List (List (Tree α))) = l.map (fun x => (x, [])) := by
    intro l
    induction l with
    | nil => rfl
    | cons x l ih => simp only [rows, heads, List.map_nil, ih, List.map_cons]
  unfold treeMap
  simp only [flattenAll]
  rw [flattenW_leaves, hrows, mapPy_map, (mapPy_ok_iff _ _ ((treeIter isJpeg isLeaf t).map g)).2 (by simp)]
  exact unflatten_mapped isJpeg isLeaf fields g t ht

mutual
theorem mapTree_id (isL : Tree α → Bool) (t : Tree α) : mapTree isL (fun x => x) t = t := by
  match t with
  | .leaf a => simp [mapTree]
  | .node h cs => simp only [mapTree]; rw [mapTrees_id isL cs]; split <;> rfl

theorem mapTrees_id (isL : Tree α → Bool) (cs : List (Tree α)) : mapTrees isL (fun x => x) cs = cs := by
  match cs with
  | [] => simp [mapTrees]
  | c :: cs => simp only [mapTrees]; rw [mapTree_id isL c, mapTrees_id isL cs]
end

/-- **C80, identity.** -/
theorem c80_map_id (t : Tree α) (ht : TreeOk fields t) : treeMap isJpeg isLeaf (fun x _ => .ok x) t [] = .ok t := by
  rw [c80_map isJpeg isLeaf fields (fun x => x) t ht, mapTree_id]

/-- **C80, exceptions.** The exception of the first leaf, from left to right, on which the function raises. -/
theorem c80_map_error (f : Tree α → Py (Tree α)) (t : Tree α) (ht : TreeOk fields t) (e : Err) :
    treeMap isJpeg isLeaf (fun x _ => f x) t [] = .error e ↔
      ∃ pre x post, treeIter isJpeg isLeaf t = pre ++ x :: post ∧ (∀ y ∈ pre, ∃ z, f y = .ok z) ∧ f x = .error e := by
  have hrows : ∀ l : List (Tree α), rows l ([] : List (List (Tree α))) = l.map (fun x => (x, [])) := by
    intro l
    induction l with
    | nil => rfl
    | cons x l ih => simp only [rows, heads, List.map_nil, ih, List.map_cons]
  unfold treeMap
  simp only [flattenAll]
  rw [flattenW_leaves, hrows, mapPy_map, ← mapPy_error_iff]
  cases hm : mapPy (fun x => f x) (treeIter isJpeg isLeaf t) with
  | error e' => simp
  | ok ys =>
    have hl : ys.length = (treeIter isJpeg isLeaf t).length := by
      have := congrArg List.length ((mapPy_ok_iff _ _ _).1 hm)
      simpa using this.symm
    obtain ⟨t', h, _⟩ := unflatten_fill isJpeg isLeaf fields t ht ys hl
    simp only [h, reduceCtorEq]

/-- **C80, in place.** `tree_map_` makes the same calls as `tree_map` and returns its argument. -/
theorem c80_in_place (f : Tree α → List (Tree α) → Py (Tree α)) (t : Tree α) (ht : TreeOk fields t) (rests : List (Tree α))
    (hr : ∀ r ∈ rests, TreeOk fields r) (u : Tree α) :
    treeMapInPlace isJpeg isLeaf f t rests = .ok u ↔ u = t ∧ ∃ t', treeMap isJpeg isLeaf f t rests = .ok t' := by
  have hr' := (treesOk_iff fields rests).2 hr
  unfold treeMapInPlace treeMap
  simp only
  cases hc : flattenAll isJpeg (flattenW isJpeg isLeaf t).2 rests with
  | error e => simp
  | ok cols =>
    simp only
    cases hm : mapPy (fun a => f a.1 a.2) (rows (flattenW isJpeg isLeaf t).1 cols) with
    | error e => simp
    | ok ys =>
      obtain ⟨_, k2⟩ := (flattenAll_iff isJpeg isLeaf fields t ht rests hr' cols).1 hc
      have hlen : (keyPaths isJpeg isLeaf fields [] t).length = (treeIter isJpeg isLeaf t).length := by
        rw [← keyPaths_leaves isJpeg isLeaf fields t ht]; simp
      obtain ⟨argss, g1, g2, _⟩ := rows_zip (fun r (q : List KeyEntry × Tree α) => keyGet fields r q.1) (keyPaths isJpeg isLeaf fields [] t) rests cols k2
        (flattenW isJpeg isLeaf t).1 (by rw [flattenW_leaves, hlen])
      have hl : ys.length = (treeIter isJpeg isLeaf t).length := by
        have := congrArg List.length ((mapPy_ok_iff _ _ _).1 hm)
        rw [g2] at this
        simp [flattenW_leaves] at this
        omega
      obtain ⟨t', h, _⟩ := unflatten_fill isJpeg isLeaf fields t ht ys hl
      simp only [h, Except.ok.injEq]
      exact ⟨fun h => ⟨h.symm, t', rfl⟩, fun h => h.1.symm⟩

/-- **C80, some leaves only.** -/
theorem c80_map_only (p : Tree α → Bool) (g : Tree α → Tree α) (t : Tree α) (ht : TreeOk fields t) :
    treeMapOnly isJpeg isLeaf p (fun x => .ok (g x)) t = .ok (mapTree (isLeafNode isJpeg isLeaf) (fun x => if p x = true then g x else x) t) := by
  unfold treeMapOnly
  rw [← c80_map isJpeg isLeaf fields _ t ht]
  congr 1
  funext x _
  unfold mapOnly
  split <;> rfl

/-- **C80, all and any.** -/
theorem c80_all_any (p only : Tree α → Bool) (t : Tree α) :
    (treeAll isJpeg isLeaf p t = true ↔ ∀ q x, IsLeafAt (isLeafNode isJpeg isLeaf) t q x → p x = true) ∧
    (treeAny isJpeg isLeaf p t = true ↔ ∃ q x, IsLeafAt (isLeafNode isJpeg isLeaf) t q x ∧ p x = true) ∧
    (treeAllOnly isJpeg isLeaf only p t = true ↔ ∀ q x, IsLeafAt (isLeafNode isJpeg isLeaf) t q x → only x = true → p x = true) ∧
    (treeAnyOnly isJpeg isLeaf only p t = true ↔ ∃ q x, IsLeafAt (isLeafNode isJpeg isLeaf) t q x ∧ only x = true ∧ p x = true) := by
  have hmem : ∀ x, x ∈ treeIter isJpeg isLeaf t ↔ ∃ q, IsLeafAt (isLeafNode isJpeg isLeaf) t q x := by
    intro x
    have h1 := leafPos_leaves isJpeg isLeaf t
    constructor
    · intro hx
      have : some x ∈ (leafPos isJpeg isLeaf t).map (subtreeAt t) := by rw [h1]; exact List.mem_map_of_mem hx
      obtain ⟨q, hq, e⟩ := List.mem_map.1 this
      obtain ⟨y, hy⟩ := (mem_leafPos isJpeg isLeaf t q).1 hq
      have : y = x := by have := hy.1; rw [e] at this; cases this; rfl
      exact ⟨q, this ▸ hy⟩
    · rintro ⟨q, hq⟩
      have : some x ∈ (treeIter isJpeg isLeaf t).map some := by
        rw [← h1, ← hq.1]
        exact List.mem_map_of_mem ((mem_leafPos isJpeg isLeaf t q).2 ⟨x, hq⟩)
      simpa using this
  unfold treeAll treeAny treeAllOnly treeAnyOnly
  refine ⟨?_, ?_, ?_, ?_⟩
  · rw [List.all_eq_true]
    exact ⟨fun h q x hx => h x ((hmem x).2 ⟨q, hx⟩), fun h x hx => let ⟨q, hq⟩ := (hmem x).1 hx; h q x hq⟩
  · rw [List.any_eq_true]
    exact ⟨fun ⟨x, hx, hp⟩ => let ⟨q, hq⟩ := (hmem x).1 hx; ⟨q, x, hq, hp⟩, fun ⟨q, x, hx, hp⟩ => ⟨x, (hmem x).2 ⟨q, hx⟩, hp⟩⟩
  · rw [List.all_eq_true]
    constructor
    · intro h q x hx ho
      exact h x (List.mem_filter.2 ⟨(hmem x).2 ⟨q, hx⟩, ho⟩)
    · intro h x hx
      obtain ⟨hx, ho⟩ := List.mem_filter.1 hx
      obtain ⟨q, hq⟩ := (hmem x).1 hx
      exact h q x hq ho
  · rw [List.any_eq_true]
    constructor
    · rintro ⟨x, hx, hp⟩
      obtain ⟨hx, ho⟩ := List.mem_filter.1 hx
      obtain ⟨q, hq⟩ := (hmem x).1 hx
      exact ⟨q, x, hq, ho, hp⟩
    · rintro ⟨q, x, hx, ho, hp⟩
      exact ⟨x, List.mem_filter.2 ⟨(hmem x).2 ⟨q, hx⟩, ho⟩, hp⟩

theorem flatten_leafy (x : Tree α) (h : isLeafNode isJpeg isLeaf x = true) : flattenW isJpeg isLeaf x = ([x], .leaf) := by
  cases x with
  | leaf a => simp [flattenW]
  | node hd cs => simp only [flattenW]; rw [if_pos h]

mutual
theorem flatten_mapTree (g : Tree α → Tree α) (t : Tree α) (hg : ∀ x ∈ treeIter isJpeg isLeaf t, isLeafNode isJpeg isLeaf (g x) = true)
    (hs : StaysOpen (isLeafNode isJpeg isLeaf) g t) :
    flattenW isJpeg isLeaf (mapTree (isLeafNode isJpeg isLeaf) g t) = ((treeIter isJpeg isLeaf t).map g, (flattenW isJpeg isLeaf t).2) := by
  match t with
  | .leaf a =>
    simp only [mapTree, treeIter, flattenW, List.map_cons, List.map_nil]
    exact flatten_leafy isJpeg isLeaf _ (hg _ (by simp [treeIter]))
  | .node h cs =>
    simp only [mapTree, treeIter, StaysOpen] at hg hs ⊢
    by_cases hL : isLeafNode isJpeg isLeaf (.node h cs) = true
    · simp only [hL, if_true, List.mem_singleton, forall_eq] at hg ⊢
      rw [flatten_leafy isJpeg isLeaf _ hg, flatten_leafy isJpeg isLeaf _ hL]
      rfl
    · simp only [hL, if_false, Bool.false_eq_true, false_or] at hg hs ⊢
      simp only [flattenW, hs.1, if_false, Bool.false_eq_true, hL]
      rw [flattenList_mapTrees g cs hg hs.2]

theorem flattenList_mapTrees (g : Tree α → Tree α) (cs : List (Tree α)) (hg : ∀ x ∈ treeIterList isJpeg isLeaf cs, isLeafNode isJpeg isLeaf (g x) = true)
    (hs : StayOpen (isLeafNode isJpeg isLeaf) g cs) :
    flattenWList isJpeg isLeaf (mapTrees (isLeafNode isJpeg isLeaf) g cs) = ((treeIterList isJpeg isLeaf cs).map g, (flattenWList isJpeg isLeaf cs).2) := by
  match cs with
  | [] => simp [mapTrees, flattenWList, treeIterList]
  | c :: cs =>
    simp only [StayOpen] at hs
    simp only [treeIterList, List.mem_append] at hg
    simp only [mapTrees, flattenWList, treeIterList, List.map_append]
    rw [flatten_mapTree g c (fun x hx => hg x (.inl hx)) hs.1, flattenList_mapTrees g cs (fun x hx => hg x (.inr hx)) hs.2]
end

/-- **C80, composition.** If the images of the leaves are leaves and no container of leaves becomes one, then mapping twice is mapping the composition, and
the structure stays. -/
theorem c80_map_map (g : Tree α → Tree α) (f : Tree α → Py (Tree α)) (t : Tree α)
    (hg : ∀ x ∈ treeIter isJpeg isLeaf t, isLeafNode isJpeg isLeaf (g x) = true) (hs : StaysOpen (isLeafNode isJpeg isLeaf) g t) :
    treeMap isJpeg isLeaf (fun x _ => f x) (mapTree (isLeafNode isJpeg isLeaf) g t) [] = treeMap isJpeg isLeaf (fun x _ => f (g x)) t [] ∧
    (flattenW isJpeg isLeaf (mapTree (isLeafNode isJpeg isLeaf) g t)).2 = (flattenW isJpeg isLeaf t).2 := by
  have h := flatten_mapTree isJpeg isLeaf g t hg hs
  refine ⟨?_, by rw [h]⟩
  unfold treeMap
  simp only [flattenAll]
  rw [h, flattenW_leaves]
  simp only
  rw [rows_map, mapPy_map]

mutual
theorem open_mapTree (g : Tree α → Tree α) (t : Tree α) (hg : ∀ x ∈ treeIter isJpeg (fun _ => false) t, ∀ a, g x = .leaf a → isJpeg a = false) :
    StaysOpen (isLeafNode isJpeg (fun _ => false)) g t ∧ ∀ a, mapTree (isLeafNode isJpeg (fun _ => false)) g t = .leaf a → isJpeg a = false := by
  match t with
  | .leaf a => exact ⟨by simp [StaysOpen], fun b hb => hg (.leaf a) (by simp [treeIter]) b hb⟩
  | .node h cs =>
    simp only [StaysOpen, mapTree, treeIter] at hg ⊢
    by_cases hL : isLeafNode isJpeg (fun _ => false) (.node h cs) = true
    · simp only [hL, if_true, List.mem_singleton, forall_eq, true_or, true_and] at hg ⊢
      exact hg
    · simp only [hL, if_false, Bool.false_eq_true, false_or] at hg ⊢
      obtain ⟨h1, h2⟩ := open_mapTrees g cs hg
      refine ⟨⟨?_, h1⟩, by intro a ha; cases ha⟩
      cases cs with
      | nil => cases h <;> simp [isLeafNode, isJpegArray, mapTrees]
      | cons c cs =>
        have := h2 _ (by simp [mapTrees] : mapTree (isLeafNode isJpeg (fun _ => false)) g c ∈ mapTrees (isLeafNode isJpeg (fun _ => false)) g (c :: cs))
        simp only [isLeafNode, isJpegArray, mapTrees, List.all_cons, Bool.false_or]
        generalize mapTree (isLeafNode isJpeg (fun _ => false)) g c = c' at *
        cases c' with
        | leaf a => simp [this a rfl]
        | node _ _ => simp

theorem open_mapTrees (g : Tree α → Tree α) (cs : List (Tree α)) (hg : ∀ x ∈ treeIterList isJpeg (fun _ => false) cs, ∀ a, g x = .leaf a → isJpeg a = false) :
    StayOpen (isLeafNode isJpeg (fun _ => false)) g cs ∧
      ∀ c ∈ mapTrees (isLeafNode isJpeg (fun _ => false)) g cs, ∀ a, c = .leaf a → isJpeg a = false := by
  match cs with
  | [] => simp [StayOpen, mapTrees]
  | c :: cs =>
    simp only [treeIterList, List.mem_append] at hg
    obtain ⟨a1, a2⟩ := open_mapTree g c (fun x hx => hg x (.inl hx))
    obtain ⟨b1, b2⟩ := open_mapTrees g cs (fun x hx => hg x (.inr hx))
    refine ⟨⟨a1, b1⟩, ?_⟩
    intro d hd
    simp only [mapTrees, List.mem_cons] at hd
    rcases hd with rfl | hd
    · exact a2
    · exact b2 d hd
end

/-- **C80, composition without images.** A function that gives no JPEG images keeps the structure. -/
theorem c80_map_map_no_images (g : Tree α → Tree α) (f : Tree α → Py (Tree α)) (t : Tree α)
    (hg : ∀ x ∈ treeIter isJpeg (fun _ => false) t, ∃ a, g x = .leaf a ∧ isJpeg a = false) :
    treeMap isJpeg (fun _ => false) (fun x _ => f x) (mapTree (isLeafNode isJpeg (fun _ => false)) g t) [] =
      treeMap isJpeg (fun _ => false) (fun x _ => f (g x)) t [] ∧
    (flatten isJpeg (mapTree (isLeafNode isJpeg (fun _ => false)) g t)).2 = (flatten isJpeg t).2 := by
  rw [← flattenW_none, ← flattenW_none]
  apply c80_map_map
  · intro x hx
    obtain ⟨a, ha, _⟩ := hg x hx
    rw [ha]; rfl
  · apply (open_mapTree isJpeg g t _).1
    intro x hx a ha
    obtain ⟨b, hb, hj⟩ := hg x hx
    rw [ha] at hb
    cases hb
    exact hj

mutual
theorem broadcast_sound (t : Tree α) (r : Tree α) (hr : TreeOk fields r) (ht : TreeOk fields t) (l : List (Tree α))
    (h : broadcastTo isJpeg isLeaf t (flattenW isJpeg isLeaf r).2 = some l) :
    l.length = (treeIter isJpeg isLeaf r).length ∧ ∀ a ∈ (keyPaths isJpeg isLeaf fields [] r).zip l,
      ∃ p, p.map entryNorm <+: a.1.1.map entryNorm ∧ (p, a.2) ∈ keyPaths isJpeg isLeaf fields [] t := by
  have hleaf : ∀ (x : Tree α), keyPaths isJpeg isLeaf fields [] t = [([], x)] →
      some (List.replicate (flattenW isJpeg isLeaf r).2.numLeaves x) = some l → l.length = (treeIter isJpeg isLeaf r).length ∧
      ∀ a ∈ (keyPaths isJpeg isLeaf fields [] r).zip l, ∃ p, p.map entryNorm <+: a.1.1.map entryNorm ∧ (p, a.2) ∈ keyPaths isJpeg isLeaf fields [] t := by
    intro x hx hl
    cases hl
    rw [flattenW_num, flattenW_leaves]
    refine ⟨by simp, ?_⟩
    intro a ha
    have := (List.of_mem_zip ha).2
    rw [List.mem_replicate] at this
    exact ⟨[], by simp, by rw [hx, this.2]; simp⟩
  match t, ht, h, hleaf with
  | .leaf a, ht, h, hleaf =>
    simp only [broadcastTo] at h
    exact hleaf (.leaf a) (by simp [keyPaths]) h
  | .node hd cs, ht, h, hleaf =>
    simp only [TreeOk] at ht
    by_cases hL : isLeafNode isJpeg isLeaf (.node hd cs) = true
    · simp only [broadcastTo, hL, if_true] at h
      exact hleaf (.node hd cs) (by simp [keyPaths, hL]) h
    · simp only [broadcastTo, hL, if_false, Bool.false_eq_true] at h
      cases r with
      | leaf b => simp [flattenW] at h
      | node hd' cs' =>
        simp only [TreeOk] at hr
        by_cases hL' : isLeafNode isJpeg isLeaf (.node hd' cs') = true
        · simp [flattenW, hL'] at h
        · simp only [flattenW, hL', if_false, Bool.false_eq_true, flattenWList_len] at h
          split at h
          · rename_i hc
            simp only [keyPaths, treeIter, hL, hL', if_false, Bool.false_eq_true]
            obtain ⟨_, e1⟩ := entries_self fields hd cs ht.1 ht.2.1
            obtain ⟨_, e2⟩ := entries_self fields hd' cs' hr.1 hr.2.1
            have he : (entriesOf fields hd cs.length).map entryNorm = (entriesOf fields hd' cs'.length).map entryNorm := by
              rw [hc.2]
              have h1 := hc.1
              cases hd <;> cases hd' <;> simp only [Head.norm, reduceCtorEq, Head.dict.injEq, Head.odict.injEq, Head.ddict.injEq, Head.named.injEq] at h1 <;>
                simp only [entriesOf, List.map_map]
              all_goals first
                | (rw [show entryNorm ∘ KeyEntry.map = KeyEntry.map ∘ Key.norm from rfl, ← List.map_map, ← List.map_map]; first | rw [h1] | rw [h1.2])
                | rw [h1.1]
            exact broadcastList_sound cs cs' hr.2.2 ht.2.2 _ _ e1 e2 hc.2 he l h
          · cases h

theorem broadcastList_sound (cs cs' : List (Tree α)) (hr : TreesOk fields cs') (ht : TreesOk fields cs) (es es' : List KeyEntry) (h1 : es.length = cs.length)
    (h2 : es'.length = cs'.length) (hc : cs.length = cs'.length) (he : es.map entryNorm = es'.map entryNorm) (l : List (Tree α))
    (h : broadcastList isJpeg isLeaf cs (flattenWList isJpeg isLeaf cs').2 = some l) :
    l.length = (treeIterList isJpeg isLeaf cs').length ∧ ∀ a ∈ (keyPathsList isJpeg isLeaf fields [] es' cs').zip l,
      ∃ p, p.map entryNorm <+: a.1.1.map entryNorm ∧ (p, a.2) ∈ keyPathsList isJpeg isLeaf fields [] es cs := by
  match cs, cs', es, es' with
  | [], [], [], [] =>
    simp only [flattenWList, broadcastList, Option.some.injEq] at h
    subst h
    simp [treeIterList, keyPathsList]
  | c :: cs, c' :: cs', e :: es, e' :: es' =>
    simp only [TreesOk] at hr ht
    simp only [List.map_cons, List.cons.injEq] at he
    simp only [flattenWList, broadcastList] at h
    cases ha : broadcastTo isJpeg isLeaf c (flattenW isJpeg isLeaf c').2 with
    | none => rw [ha] at h; cases h
    | some a =>
      rw [ha] at h
      simp only at h
      cases hb : broadcastList isJpeg isLeaf cs (flattenWList isJpeg isLeaf cs').2 with
      | none => rw [hb] at h; cases h
      | some b =>
        rw [hb] at h
        cases h
        obtain ⟨a1, a2⟩ := broadcast_sound c c' hr.1 ht.1 a ha
        obtain ⟨b1, b2⟩ := broadcastList_sound cs cs' hr.2 ht.2 es es' (by simpa using h1) (by simpa using h2) (by simpa using hc) he.2 b hb
        refine ⟨by simp [treeIterList, a1, b1], ?_⟩
        rw [keyPathsList_cons, keyPathsList_cons]
        have hlen : ((keyPaths isJpeg isLeaf fields [] c').map (fun q => (e' :: q.1, q.2))).length = a.length := by
          rw [a1, ← keyPaths_leaves isJpeg isLeaf fields c' hr.1]; simp
        rw [List.zip_append hlen]
        intro x hx
        rcases List.mem_append.1 hx with hx | hx
        · rw [List.zip_map_left] at hx
          obtain ⟨y, hy, rfl⟩ := List.mem_map.1 hx
          obtain ⟨p, hp, hm⟩ := a2 y hy
          refine ⟨e :: p, ?_, List.mem_append_left _ (List.mem_map.2 ⟨_, hm, rfl⟩)⟩
          simp only [Prod.map, List.map_cons, he.1, id_eq]
          exact (List.cons_prefix_cons).2 ⟨rfl, hp⟩
        · obtain ⟨p, hp, hm⟩ := b2 x hx
          exact ⟨p, hp, List.mem_append_right _ hm⟩
  | [], _ :: _, _, _ => simp at hc
  | _ :: _, [], _, _ => simp at hc
  | [], [], _ :: _, _ => simp at h1
  | [], [], [], _ :: _ => simp at h2
  | _ :: _, _ :: _, [], _ => simp at h1
  | _ :: _, _ :: _, _ :: _, [] => simp at h2
end

/-- **C80, broadcasting.** Each leaf of `r` gets the leaf of `t` that is on the way to it. -/
theorem c80_broadcast (t r : Tree α) (ht : TreeOk fields t) (hr : TreeOk fields r) (l : List (Tree α))
    (h : broadcastTo isJpeg isLeaf t (flattenW isJpeg isLeaf r).2 = some l) :
    l.length = (treeIter isJpeg isLeaf r).length ∧ ∀ a ∈ (leavesWithPath isJpeg isLeaf fields r).zip l,
      ∃ p, p.map entryNorm <+: a.1.1.map entryNorm ∧ (p, a.2) ∈ leavesWithPath isJpeg isLeaf fields t :=
  broadcast_sound isJpeg isLeaf fields t r hr ht l h

mutual
theorem broadcast_complete (g : Tree α → Tree α) (t : Tree α) (hs : StaysOpen (isLeafNode isJpeg isLeaf) g t) :
    ∃ l, broadcastTo isJpeg isLeaf t (flattenW isJpeg isLeaf (mapTree (isLeafNode isJpeg isLeaf) g t)).2 = some l := by
  match t with
  | .leaf a => simp only [broadcastTo]; exact ⟨_, rfl⟩
  | .node h cs =>
    simp only [StaysOpen, mapTree] at hs ⊢
    by_cases hL : isLeafNode isJpeg isLeaf (.node h cs) = true
    · simp only [broadcastTo, hL, if_true]; exact ⟨_, rfl⟩
    · simp only [hL, if_false, Bool.false_eq_true, false_or] at hs ⊢
      obtain ⟨l, h1, h2⟩ := broadcastList_complete g cs hs.2
      refine ⟨l, ?_⟩
      simp only [broadcastTo, hL, if_false, Bool.false_eq_true, flattenW, hs.1, flattenWList_len, h2, and_self, if_true]
      exact h1

theorem broadcastList_complete (g : Tree α → Tree α) (cs : List (Tree α)) (hs : StayOpen (isLeafNode isJpeg isLeaf) g cs) :
    ∃ l, broadcastList isJpeg isLeaf cs (flattenWList isJpeg isLeaf (mapTrees (isLeafNode isJpeg isLeaf) g cs)).2 = some l ∧
      (mapTrees (isLeafNode isJpeg isLeaf) g cs).length = cs.length := by
  match cs with
  | [] => exact ⟨[], by simp [mapTrees, flattenWList, broadcastList], by simp [mapTrees]⟩
  | c :: cs =>
    simp only [StayOpen] at hs
    obtain ⟨a, ha⟩ := broadcast_complete g c hs.1
    obtain ⟨b, hb, hl⟩ := broadcastList_complete g cs hs.2
    exact ⟨a ++ b, by simp only [mapTrees, flattenWList, broadcastList, ha, hb], by simp [mapTrees, hl]⟩
end

/-- **C80, broadcasting works** to every sample that has the containers of `t` and anything in the place of its leaves. -/
theorem c80_broadcast_complete (g : Tree α → Tree α) (t : Tree α) (hs : StaysOpen (isLeafNode isJpeg isLeaf) g t) :
    ∃ l, broadcastTo isJpeg isLeaf t (flattenW isJpeg isLeaf (mapTree (isLeafNode isJpeg isLeaf) g t)).2 = some l :=
  broadcast_complete isJpeg isLeaf g t hs

mutual
theorem broadcast_self (t : Tree α) : broadcastTo isJpeg isLeaf t (flattenW isJpeg isLeaf t).2 = some (treeIter isJpeg isLeaf t) := by
  match t with
  | .leaf a => simp [broadcastTo, flattenW, treeIter, TSpec.numLeaves]
  | .node h cs =>
    by_cases hL : isLeafNode isJpeg isLeaf (.node h cs) = true
    · simp [broadcastTo, hL, flattenW, treeIter, TSpec.numLeaves]
    · simp only [broadcastTo, hL, if_false, Bool.false_eq_true, flattenW, flattenWList_len, and_self, if_true, treeIter]
      exact broadcastList_self cs

theorem broadcastList_self (cs : List (Tree α)) : broadcastList isJpeg isLeaf cs (flattenWList isJpeg isLeaf cs).2 = some (treeIterList isJpeg isLeaf cs) := by
  match cs with
  | [] => rfl
  | c :: cs => simp only [flattenWList, broadcastList, treeIterList]; rw [broadcast_self c, broadcastList_self cs]
end

/-- **C80, broadcasting to the own structure** gives the leaves. -/
theorem c80_broadcast_self (t : Tree α) : broadcastTo isJpeg isLeaf t (flattenW isJpeg isLeaf t).2 = some (treeIter isJpeg isLeaf t) :=
  broadcast_self isJpeg isLeaf t

/-- **Images change the structure** (violation): a function that opens files as JPEG images turns a list of names into one leaf. -/
theorem c80_images_change_structure (a b : α) (ha : isJpeg a = false) (x y : α) (hx : isJpeg x = true) (hy : isJpeg y = true) (g : Tree α → Tree α)
    (ga : g (.leaf a) = .leaf x) (gb : g (.leaf b) = .leaf y) :
    treeMap isJpeg (fun _ => false) (fun t _ => .ok (g t)) (.node .list [.leaf a, .leaf b]) [] = .ok (.node .list [.leaf x, .leaf y]) ∧
    (flatten isJpeg (.node .list [.leaf a, .leaf b])).2 = .node .list [.leaf, .leaf] ∧
    (flatten isJpeg (.node .list [.leaf x, .leaf y])).2 = .leaf := by
  have hL : isLeafNode isJpeg (fun _ => false) (.node .list [.leaf a, .leaf b]) = false := by simp [isLeafNode, isJpegArray, ha]
  refine ⟨?_, ?_, ?_⟩
  · rw [c80_map isJpeg (fun _ => false) (fun _ => []) g _ (by simp [TreeOk, TreesOk, Head.Fits])]
    simp [mapTree, mapTrees, hL, ga, gb]
  · simp [flatten, flattenList, isJpegArray, ha]
  · simp [flatten, isJpegArray, hx, hy]

/-- **Images beside other values are refused** (violation): a list of JPEG images cannot go along with a list of as many other values. -/
theorem c80_images_refused (f : Tree α → List (Tree α) → Py (Tree α)) (a b x y : α) (ha : isJpeg a = false) (hx : isJpeg x = true) (hy : isJpeg y = true) :
    treeMap isJpeg (fun _ => false) f (.node .list [.leaf a, .leaf b]) [.node .list [.leaf x, .leaf y]] = .error .valueError := by
  have hL : isLeafNode isJpeg (fun _ => false) (.node .list [.leaf a, .leaf b]) = false := by simp [isLeafNode, isJpegArray, ha]
  simp [treeMap, flattenW, hL, flattenWList, flattenAll, flattenUpTo, isJpegArray, hx, hy]

end

/-! Samples that meet the hypotheses: `{"a": [1, (2, 3)], 5: []}`, beside `OrderedDict([(5, []), ("a", [[7], (8, 9)])])`. -/

def demoBeside : Tree Nat :=
  .node (.odict [.atom (.int 5), .atom (.str "a")])
    [.node .list [], .node .list [.node .list [.leaf 7], .node .tuple [.leaf 8, .leaf 9]]]

def demoFirst : Tree Nat :=
  .node (.dict [.atom (.str "a"), .atom (.int 5)])
    [.node .list [.leaf 1, .node .tuple [.leaf 2, .leaf 3]], .node .list []]

theorem demoFirst_ok : TreeOk (fun _ => []) demoFirst := by
  simp only [demoFirst, TreeOk, TreesOk, Head.Fits, List.length_cons, List.length_nil, reduceCtorEq, false_implies, implies_true, and_true]
  decide

theorem demoBeside_ok : TreeOk (fun _ => []) demoBeside := by
  simp only [demoBeside, TreeOk, TreesOk, Head.Fits, List.length_cons, List.length_nil, reduceCtorEq, false_implies, implies_true, and_true]
  decide

/-- The function takes the value of the second sample. -/
example : treeMap (fun _ => false) (fun _ => false) (fun _ r => match r with | [y] => .ok y | _ => .error .typeError) demoFirst [demoBeside] =
    .ok (.node (.dict [.atom (.str "a"), .atom (.int 5)])
      [.node .list [.node .list [.leaf 7], .node .tuple [.leaf 8, .leaf 9]], .node .list []]) := by
  rfl

/-- One value for the whole list under `"a"` goes to its three leaves. -/
example : broadcastTo (fun _ => false) (fun _ => false) (.node (.dict [.atom (.str "a"), .atom (.int 5)]) [.leaf 4, .leaf 6])
    (flattenW (fun _ => false) (fun _ => false) demoFirst).2 = some [.leaf 4, .leaf 4, .leaf 4] := by
  rfl

example : leavesWithPath (fun _ => false) (fun _ => false) (fun _ => []) demoFirst =
    [([.map (.atom (.str "a")), .seq 0], .leaf 1), ([.map (.atom (.str "a")), .seq 1, .seq 0], .leaf 2),
      ([.map (.atom (.str "a")), .seq 1, .seq 1], .leaf 3)] := by
  rfl

end LitData.Props
