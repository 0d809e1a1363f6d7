import Verif.Model.Merge

/-! File names: decimal numbers between separators are unambiguous; sorting by name. -/

namespace LitData

theorem sep_inj {α : Type} (c : α) : ∀ (a a' b b' : List α), c ∉ a → c ∉ a' → a ++ c :: b = a' ++ c :: b' → a = a' ∧ b = b'
  | [], [], b, b', _, _, h => ⟨rfl, by simpa using h⟩
  | [], x :: a', b, b', _, h2, h => by
    simp only [List.nil_append, List.cons_append, List.cons.injEq] at h
    exact absurd (by rw [h.1]; simp) h2
  | x :: a, [], b, b', h1, _, h => by
    simp only [List.nil_append, List.cons_append, List.cons.injEq] at h
    exact absurd (by rw [← h.1]; simp) h1
  | x :: a, x' :: a', b, b', h1, h2, h => by
    simp only [List.cons_append, List.cons.injEq] at h
    obtain ⟨h3, h4⟩ := sep_inj c a a' b b' (fun hc => h1 (List.mem_cons_of_mem _ hc)) (fun hc => h2 (List.mem_cons_of_mem _ hc)) h.2
    exact ⟨by rw [h.1, h3], h4⟩

theorem toDigits_isDigit (n : Nat) (c : Char) (h : c ∈ Nat.toDigits 10 n) : c.isDigit = true :=
  Nat.isDigit_of_mem_toDigits (by decide) (by decide) h

theorem not_mem_toDigits (n : Nat) (c : Char) (h : c.isDigit = false) : c ∉ Nat.toDigits 10 n := by
  intro hm
  rw [toDigits_isDigit n c hm] at h
  exact Bool.noConfusion h

theorem toDigits_inj (n m : Nat) (h : Nat.toDigits 10 n = Nat.toDigits 10 m) : n = m := by
  rw [← Nat.ofDigitChars_ten_toDigits (n := n), h, Nat.ofDigitChars_ten_toDigits]

theorem ofList_inj (a b : List Char) (h : String.ofList a = String.ofList b) : a = b := by
  have := congrArg String.toList h
  simpa using this

theorem chunkSuffix_cons (comp : Option String) : ∃ t, chunkSuffix comp = '.' :: t := by
  cases comp with
  | none => exact ⟨_, rfl⟩
  | some c => exact ⟨c.toList ++ ".bin".toList, rfl⟩

theorem chunkFilename_inj (comp comp' : Option String) (r r' i i' : Nat)
    (h : chunkFilename comp r i = chunkFilename comp' r' i') : r = r' ∧ i = i' := by
  unfold chunkFilename at h
  have h := ofList_inj _ _ h
  have h := List.append_cancel_left h
  obtain ⟨h1, h2⟩ := sep_inj '-' _ _ _ _ (not_mem_toDigits r '-' (by decide)) (not_mem_toDigits r' '-' (by decide)) h
  obtain ⟨t, ht⟩ := chunkSuffix_cons comp
  obtain ⟨t', ht'⟩ := chunkSuffix_cons comp'
  rw [ht, ht'] at h2
  obtain ⟨h3, _⟩ := sep_inj '.' _ _ _ _ (not_mem_toDigits i '.' (by decide)) (not_mem_toDigits i' '.' (by decide)) h2
  exact ⟨toDigits_inj _ _ h1, toDigits_inj _ _ h3⟩

theorem rankIndexName_inj (r r' : Nat) (h : rankIndexName r = rankIndexName r') : r = r' := by
  unfold rankIndexName at h
  exact toDigits_inj _ _ (List.append_cancel_right (ofList_inj _ _ h))

theorem nodeIndexName_inj (r r' : Nat) (h : nodeIndexName r = nodeIndexName r') : r = r' := by
  unfold nodeIndexName at h
  exact toDigits_inj _ _ (List.append_cancel_right (ofList_inj _ _ h))

theorem isIndexName_rank (r : Nat) : isIndexName (rankIndexName r) = true := by
  unfold isIndexName rankIndexName
  rw [String.toList_ofList, List.isSuffixOf_iff_suffix]
  exact ⟨Nat.toDigits 10 r ++ ['.'], by simp⟩

theorem isIndexName_node (r : Nat) : isIndexName (nodeIndexName r) = true := by
  unfold isIndexName nodeIndexName
  rw [String.toList_ofList, List.isSuffixOf_iff_suffix]
  exact ⟨Nat.toDigits 10 r ++ ['-'], by simp⟩

theorem rankIndexName_ne_index (r : Nat) : rankIndexName r ≠ "index.json" := by
  intro h
  have := congrArg String.toList h
  unfold rankIndexName at this
  rw [String.toList_ofList] at this
  have hl := congrArg List.length this
  have : (Nat.toDigits 10 r).length ≠ 0 := by simp
  simp at hl

theorem isIndexName_chunk (comp : Option String) (r i : Nat) : isIndexName (chunkFilename comp r i) = false := by
  apply Bool.eq_false_iff.mpr
  intro h
  unfold isIndexName chunkFilename at h
  rw [String.toList_ofList, List.isSuffixOf_iff_suffix] at h
  obtain ⟨t, ht⟩ := h
  have h2 : (t ++ ['i', 'n', 'd', 'e', 'x', '.', 'j', 's', 'o', 'n']).reverse.take 2 = ['n', 'o'] := by simp
  rw [ht] at h2
  cases comp with
  | none => simp [chunkSuffix] at h2
  | some c => simp [chunkSuffix] at h2

/-! ## Sorting -/

theorem insertBy_perm {α : Type} (le : α → α → Bool) (a : α) (l : List α) : (insertBy le a l).Perm (a :: l) := by
  induction l with
  | nil => exact List.Perm.refl _
  | cons b l ih =>
    unfold insertBy
    split
    · exact List.Perm.refl _
    · exact (List.Perm.cons b ih).trans (List.Perm.swap _ _ _)

theorem sortBy_perm {α : Type} (le : α → α → Bool) (l : List α) : (sortBy le l).Perm l := by
  induction l with
  | nil => exact List.Perm.refl _
  | cons a l ih => exact (insertBy_perm le a _).trans (List.Perm.cons a ih)

theorem insertBy_pairwise {α : Type} (le : α → α → Bool) (htot : ∀ a b, le a b = true ∨ le b a = true)
    (htr : ∀ a b c, le a b = true → le b c = true → le a c = true) (a : α) (l : List α)
    (h : l.Pairwise (fun a b => le a b = true)) : (insertBy le a l).Pairwise (fun a b => le a b = true) := by
  induction l with
  | nil => simp [insertBy]
  | cons b l ih =>
    unfold insertBy
    rw [List.pairwise_cons] at h
    split
    · rename_i hab
      refine List.pairwise_cons.2 ⟨?_, List.pairwise_cons.2 h⟩
      intro c hc
      rcases List.mem_cons.1 hc with rfl | hc
      · exact hab
      · exact htr _ _ _ hab (h.1 c hc)
    · rename_i hab
      refine List.pairwise_cons.2 ⟨?_, ih h.2⟩
      intro c hc
      rcases List.mem_cons.1 ((insertBy_perm le a l).mem_iff.1 hc) with rfl | hc
      · rcases htot c b with h | h
        · exact absurd h hab
        · exact h
      · exact h.1 c hc

theorem sortBy_pairwise {α : Type} (le : α → α → Bool) (htot : ∀ a b, le a b = true ∨ le b a = true)
    (htr : ∀ a b c, le a b = true → le b c = true → le a c = true) (l : List α) :
    (sortBy le l).Pairwise (fun a b => le a b = true) := by
  induction l with
  | nil => exact List.Pairwise.nil
  | cons a l ih => exact insertBy_pairwise le htot htr a _ ih

theorem pairwise_perm_eq {α : Type} (le : α → α → Prop) (hanti : ∀ a b, le a b → le b a → a = b)
    (l m : List α) (hp : l.Perm m) (hl : l.Pairwise le) (hm : m.Pairwise le) : l = m := by
  induction l generalizing m with
  | nil => exact hp.nil_eq
  | cons a l ih =>
    cases m with
    | nil => exact absurd hp.length_eq (by simp)
    | cons b m =>
      rw [List.pairwise_cons] at hl hm
      have hab : a = b := by
        have ha : a ∈ b :: m := hp.mem_iff.1 (by simp)
        have hb : b ∈ a :: l := hp.mem_iff.2 (by simp)
        rcases List.mem_cons.1 ha with h | h
        · exact h
        · rcases List.mem_cons.1 hb with h' | h'
          · exact h'.symm
          · exact hanti _ _ (hl.1 b h') (hm.1 a h)
      subst hab
      rw [ih m hp.cons_inv hl.2 hm.2]

theorem lexLe_total : ∀ a b, lexLe a b = true ∨ lexLe b a = true
  | [], _ => Or.inl (by simp [lexLe])
  | _ :: _, [] => Or.inr (by simp [lexLe])
  | a :: as, b :: bs => by
    have ih := lexLe_total as bs
    simp only [lexLe, Bool.or_eq_true, decide_eq_true_eq, Bool.and_eq_true]
    by_cases h : a = b
    · subst h
      rcases ih with h | h
      · exact Or.inl (Or.inr ⟨rfl, h⟩)
      · exact Or.inr (Or.inr ⟨rfl, h⟩)
    · have : a.toNat ≠ b.toNat := fun e => h (Char.toNat_inj.mp e)
      rcases Nat.lt_or_gt_of_ne this with h | h
      · exact Or.inl (Or.inl h)
      · exact Or.inr (Or.inl h)

theorem lexLe_trans : ∀ a b c, lexLe a b = true → lexLe b c = true → lexLe a c = true
  | [], _, _ => by simp [lexLe]
  | _ :: _, [], _ => by simp [lexLe]
  | _ :: _, _ :: _, [] => by simp [lexLe]
  | a :: as, b :: bs, c :: cs => by
    have ih := lexLe_trans as bs cs
    simp only [lexLe, Bool.or_eq_true, decide_eq_true_eq, Bool.and_eq_true]
    rintro (h1 | ⟨rfl, h1⟩) (h2 | ⟨rfl, h2⟩)
    · exact Or.inl (by omega)
    · exact Or.inl h1
    · exact Or.inl h2
    · exact Or.inr ⟨rfl, ih h1 h2⟩

theorem lexLe_antisymm : ∀ a b, lexLe a b = true → lexLe b a = true → a = b
  | [], [] => by simp
  | [], _ :: _ => by simp [lexLe]
  | _ :: _, [] => by simp [lexLe]
  | a :: as, b :: bs => by
    have ih := lexLe_antisymm as bs
    simp only [lexLe, Bool.or_eq_true, decide_eq_true_eq, Bool.and_eq_true]
    rintro (h1 | ⟨rfl, h1⟩) (h2 | ⟨h2, h3⟩)
    · omega
    · subst h2; omega
    · omega
    · rw [ih h1 h3]

theorem sortNames_eq (l m : List String) (hp : l.Perm m) (hm : m.Pairwise (fun a b => strLe a b = true)) :
    sortBy strLe l = m := by
  refine pairwise_perm_eq (fun a b => strLe a b = true) ?_ _ _ ((sortBy_perm _ _).trans hp) ?_ hm
  · intro a b h1 h2
    exact String.ext (lexLe_antisymm _ _ h1 h2)
  · exact sortBy_pairwise strLe (fun _ _ => lexLe_total _ _) (fun _ _ _ => lexLe_trans _ _ _) l

theorem sortNames_pairwise (l : List String) : (sortBy strLe l).Pairwise (fun a b => strLe a b = true) :=
  sortBy_pairwise strLe (fun _ _ => lexLe_total _ _) (fun _ _ _ => lexLe_trans _ _ _) l

/-- In a sorted list two members stand in their order. -/
theorem pairwise_before {α : Type} (R : α → α → Prop) (l : List α) (h : l.Pairwise R) (x y : α) (hx : x ∈ l) (hy : y ∈ l)
    (hne : x ≠ y) (hR : ¬ R y x) : ∃ A B D, l = A ++ x :: (B ++ y :: D) := by
  induction l with
  | nil => simp at hx
  | cons a l ih =>
    rw [List.pairwise_cons] at h
    rcases List.mem_cons.1 hx with rfl | hx'
    · rcases List.mem_cons.1 hy with rfl | hy
      · exact absurd rfl hne
      · obtain ⟨B, D, hBD⟩ := List.append_of_mem hy
        exact ⟨[], B, D, by rw [hBD]; rfl⟩
    · rcases List.mem_cons.1 hy with hy | hy
      · exact absurd (hy ▸ h.1 x hx') hR
      · obtain ⟨A, B, D, e⟩ := ih h.2 hx' hy
        exact ⟨a :: A, B, D, by rw [e]; rfl⟩

end LitData
