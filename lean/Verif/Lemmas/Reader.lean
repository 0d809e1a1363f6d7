import Verif.Model.Reader

/-! Lemmas about the reader of a remote dataset. -/

namespace LitData

/-- A list without the elements that repeat the one before them. -/
def squeeze : List Nat → List Nat
  | [] => []
  | [a] => [a]
  | a :: b :: l => if a = b then squeeze (b :: l) else a :: squeeze (b :: l)

theorem squeeze_snoc (l : List Nat) (c : Nat) : squeeze (l ++ [c]) = if l.getLast? = some c then squeeze l else squeeze l ++ [c] := by
  induction l with
  | nil => simp [squeeze]
  | cons a l ih =>
    cases l with
    | nil =>
      by_cases h : a = c
      · simp [squeeze, h]
      · simp [squeeze, h]
    | cons b l =>
      rw [List.getLast?_cons_cons, List.cons_append, List.cons_append, squeeze, ← List.cons_append, ih]
      simp only [squeeze]
      by_cases h : a = b <;> by_cases h2 : (b :: l).getLast? = some c <;> simp [h, h2]

theorem squeeze_mem (l : List Nat) {c : Nat} (h : c ∈ squeeze l) : c ∈ l := by
  induction l with
  | nil => exact h
  | cons a l ih =>
    cases l with
    | nil => exact h
    | cons b l =>
      unfold squeeze at h
      split at h
      · exact List.mem_cons_of_mem _ (ih h)
      · rcases List.mem_cons.1 h with h | h
        · exact h ▸ List.mem_cons_self
        · exact List.mem_cons_of_mem _ (ih h)

theorem squeeze_take_prefix (l : List Nat) (k : Nat) : squeeze (l.take k) <+: squeeze l := by
  have key : ∀ (m a : List Nat), squeeze a <+: squeeze (a ++ m) := by
    intro m
    induction m with
    | nil => intro a; simp
    | cons c m ih =>
      intro a
      have := ih (a ++ [c])
      rw [List.append_assoc] at this
      refine List.IsPrefix.trans ?_ this
      rw [squeeze_snoc]
      split
      · exact List.prefix_refl _
      · exact List.prefix_append _ _
  have := key (l.drop k) (l.take k)
  rwa [List.take_append_drop] at this

theorem squeeze_getLast (l : List Nat) : (squeeze l).getLast? = l.getLast? := by
  induction l with
  | nil => rfl
  | cons a l ih =>
    cases l with
    | nil => rfl
    | cons b l =>
      rw [squeeze, List.getLast?_cons_cons, ← ih]
      split
      · rfl
      · have : squeeze (b :: l) ≠ [] := by
          intro h
          rw [h] at ih
          rw [List.getLast?_cons] at ih
          cases ih
        obtain ⟨x, y, e⟩ := List.exists_cons_of_ne_nil this
        rw [e, List.getLast?_cons_cons]

theorem squeeze_replicate_append (a n : Nat) (l : List Nat) (hl : l.head? ≠ some a) : squeeze (List.replicate (n + 1) a ++ l) = a :: squeeze l := by
  induction n with
  | zero =>
    cases l with
    | nil => rfl
    | cons b l =>
      have : a ≠ b := by intro h; apply hl; simp [h]
      simp [squeeze, this]
  | succ n ih =>
    rw [List.replicate_succ, List.cons_append]
    have : List.replicate (n + 1) a ++ l = a :: (List.replicate n a ++ l) := by rw [List.replicate_succ, List.cons_append]
    rw [this, squeeze, if_pos rfl, ← this, ih]

/-- The item is read from the cache as from the remote folder, if what is read is whole. -/
theorem loadItem_sim {disk files : String → Option Bytes} {ecfg : Option EncConfig} {enc : Option Encryption} {st : PyTreeState}
    {path : String} {c i b size : Nat} {r : Bytes × PyTreeState} (hw : ∀ f, disk path = some f → f.length < size ∨ files path = some f)
    (hcur : ecfg = none ∨ st.path ≠ some path ∨ disk path = files path) (h : loadItem disk ecfg enc st path c i b size = .ok r) :
    loadItem files ecfg enc st path c i b size = .ok r := by
  have key : ∀ st1, openChunk disk st path size = .ok st1 → openChunk files st path size = .ok st1 ∧ (ecfg = none ∨ disk path = files path) := by
    intro st1 ho
    unfold openChunk at ho ⊢
    split at ho
    · rename_i hp
      rw [if_pos hp]
      refine ⟨ho, ?_⟩
      rcases hcur with g | g | g
      · exact .inl g
      · exact absurd hp g
      · exact .inr g
    · rename_i hp
      rw [if_neg hp]
      cases hd : disk path with
      | none => rw [hd] at ho; cases ho
      | some f =>
        rw [hd] at ho
        simp only at ho
        split at ho
        · rename_i hl
          rcases hw f hd with g | g
          · omega
          · rw [g]
            simp only [if_pos hl]
            exact ⟨ho, .inr trivial⟩
        · cases ho
  unfold loadItem at h ⊢
  simp only [bind, Except.bind] at h ⊢
  cases ho : openChunk disk st path size with
  | error e => rw [ho] at h; cases h
  | ok st1 =>
    obtain ⟨k1, k2⟩ := key st1 ho
    rw [ho] at h
    rw [k1]
    simp only at h ⊢
    cases ecfg with
    | none => exact h
    | some cf =>
      rcases k2 with g | g
      · cases g
      · simp only at h ⊢
        unfold loadEncrypted at h ⊢
        rw [← g]
        exact h

/-- If the file is whole, reading from the cache and from the remote folder is the same. -/
theorem loadItem_same {disk files : String → Option Bytes} {path : String} (h : disk path = files path) (ecfg : Option EncConfig)
    (enc : Option Encryption) (st : PyTreeState) (c i b size : Nat) :
    loadItem disk ecfg enc st path c i b size = loadItem files ecfg enc st path c i b size := by
  unfold loadItem openChunk loadEncrypted
  rw [h]

theorem loadItem_path {fs : String → Option Bytes} {ecfg : Option EncConfig} {enc : Option Encryption} {st : PyTreeState}
    {path : String} {c i b size : Nat} {raw : Bytes} {ld : PyTreeState} (h : loadItem fs ecfg enc st path c i b size = .ok (raw, ld)) :
    ld.path = some path := by
  unfold loadItem at h
  simp only [bind, Except.bind] at h
  cases ho : openChunk fs st path size with
  | error e => rw [ho] at h; cases h
  | ok st1 =>
    have hp : st1.path = some path := by
      unfold openChunk at ho
      split at ho
      · rename_i g; cases ho; exact g
      · split at ho
        · split at ho
          · cases ho; rfl
          · cases ho
        · cases ho
    rw [ho] at h
    simp only at h
    cases ecfg with
    | none =>
      simp only at h
      split at h
      · cases h
      · split at h
        · cases h
        · cases h; exact hp
    | some cf =>
      simp only at h
      unfold loadEncrypted at h
      simp only [bind, Except.bind, pure, Except.pure] at h
      split at h
      · cases h
      · split at h
        · split at h
          · split at h
            · cases h
            · cases h; exact hp
          · split at h
            · cases h
            · split at h
              · cases h
              · split at h
                · cases h
                · cases h; exact hp
        · split at h
          · cases h
          · split at h
            · cases h
            · split at h
              · cases h
              · cases h; exact hp

end LitData
