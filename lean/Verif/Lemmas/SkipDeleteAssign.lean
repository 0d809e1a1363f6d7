import Verif.Lemmas.SkipDeleteExact
import Verif.Lemmas.Assign

/-! The assignment of chunks to workers meets the conditions of the simulation. -/

namespace LitData

/-- A worker's pieces so far: all but the first, and the last of a full worker, have at least `bs` samples. -/
def GoodPieces (bs b : Nat) (ps : List Piece) : Prop :=
  ∀ k p, 0 < k → (k + 1 < ps.length ∨ b ≠ 0) → ps[k]? = some p → bs ≤ p.interval.size

/-- The state of the assignment: good pieces, and nothing given to workers after one that is not full. -/
def Shaped (bs : Nat) : List (Nat × List Piece) → Prop
  | [] => True
  | x :: st => GoodPieces bs x.1 x.2 ∧ (x.1 ≠ 0 → ∀ y ∈ st, y.2 = []) ∧ Shaped bs st

theorem good_append_full {bs b : Nat} {ps : List Piece} (h : GoodPieces bs b ps) (hb : b ≠ 0) (p : Piece) :
    GoodPieces bs 0 (ps ++ [p]) := by
  intro k q hk hcase hq
  have hlt : k < ps.length := by
    rcases hcase with h1 | h1
    · simp at h1; omega
    · exact absurd rfl h1
  rw [List.getElem?_append_left hlt] at hq
  exact h k q hk (Or.inr hb) hq

theorem good_append_whole {bs b b' : Nat} {ps : List Piece} (h : GoodPieces bs b ps) (hb : b ≠ 0) (p : Piece)
    (hp : ps = [] ∨ bs ≤ p.interval.size) : GoodPieces bs b' (ps ++ [p]) := by
  intro k q hk hcase hq
  by_cases hlt : k < ps.length
  · rw [List.getElem?_append_left hlt] at hq
    exact h k q hk (Or.inr hb) hq
  · rw [List.getElem?_append_right (by omega)] at hq
    by_cases heq : k = ps.length
    · subst heq
      rw [Nat.sub_self] at hq
      simp only [List.getElem?_cons_zero, Option.some.injEq] at hq
      subst hq
      rcases hp with rfl | hp
      · simp at hk
      · exact hp
    · have hl : [p].length ≤ k - ps.length := by simp; omega
      rw [List.getElem?_eq_none hl] at hq
      cases hq

/-- The new state after one chunk. -/
def giveChunk (chunk : Nat) (iv : Interval) (st : List (Nat × List Piece)) : List (Nat × List Piece) :=
  (st.zip (assignChunk chunk iv (st.map (·.1)))).map fun (s, u) => (u.1, appendOpt s.2 u.2)

theorem zip_keep (st : List (Nat × List Piece)) :
    ((st.zip ((st.map (·.1)).map fun b => ((b, none) : Nat × Option Piece))).map fun (s, u) => (u.1, appendOpt s.2 u.2)) = st := by
  induction st with
  | nil => rfl
  | cons x st ih =>
    simp only [List.map_cons, List.zip_cons_cons, ih]
    rfl

theorem giveChunk_length (chunk : Nat) (iv : Interval) (st : List (Nat × List Piece)) :
    (giveChunk chunk iv st).length = st.length := by
  simp [giveChunk, assignChunk_length]

theorem giveChunk_shaped (bs chunk : Nat) (st : List (Nat × List Piece)) :
    ∀ (iv : Interval), Shaped bs st → (bs ≤ iv.size ∨ ∀ x ∈ st, x.1 ≠ 0 → x.2 = []) →
      Shaped bs (giveChunk chunk iv st) := by
  induction st with
  | nil => intro iv _ _; trivial
  | cons x st ih =>
    obtain ⟨b, ps⟩ := x
    intro iv hsh hiv
    obtain ⟨h1, h2, h3⟩ := hsh
    simp only at h1 h2
    unfold giveChunk
    simp only [List.map_cons, assignChunk]
    by_cases hb : b = 0
    · subst hb
      simp only [if_true, List.zip_cons_cons, List.map_cons]
      refine ⟨h1, fun hc => absurd rfl hc, ?_⟩
      exact ih iv h3 (hiv.imp id fun h x hx => h x (by simp [hx]))
    · simp only [if_neg hb]
      by_cases hs : iv.size = 0
      · simp only [if_pos hs, List.zip_cons_cons, List.map_cons, zip_keep]
        exact ⟨h1, h2, h3⟩
      · simp only [if_neg hs]
        by_cases hgt : iv.size > b
        · simp only [if_pos hgt, List.zip_cons_cons, List.map_cons, appendOpt]
          refine ⟨good_append_full h1 hb _, fun hc => absurd rfl hc, ?_⟩
          exact ih _ h3 (Or.inr fun x hx _ => h2 hb x hx)
        · simp only [if_neg hgt, List.zip_cons_cons, List.map_cons, zip_keep]
          refine ⟨good_append_whole h1 hb _ ?_, fun _ => h2 hb, h3⟩
          rcases hiv with h | h
          · exact Or.inr h
          · exact Or.inl (h (b, ps) (by simp) hb)

theorem giveChunk_empty (chunk : Nat) (iv : Interval) (st : List (Nat × List Piece)) (h : iv.size = 0) :
    giveChunk chunk iv st = st := by
  induction st with
  | nil => rfl
  | cons x st ih =>
    obtain ⟨b, ps⟩ := x
    unfold giveChunk at ih ⊢
    simp only [List.map_cons, assignChunk]
    by_cases hb : b = 0
    · subst hb
      simp only [if_true, List.zip_cons_cons, List.map_cons, ih]
      rfl
    · simp only [if_neg hb, if_pos h, List.zip_cons_cons, List.map_cons, zip_keep]
      rfl

theorem assignLoop_shaped (bs : Nat) (cs : List (Nat × Interval)) (h : ∀ c ∈ cs, bs ≤ c.2.size ∨ c.2.size = 0) :
    ∀ st, Shaped bs st → Shaped bs (assignLoop cs st) := by
  induction cs with
  | nil => intro st hst; exact hst
  | cons c cs ih =>
    intro st hst
    obtain ⟨chunk, iv⟩ := c
    have : assignLoop ((chunk, iv) :: cs) st = assignLoop cs (giveChunk chunk iv st) := rfl
    rw [this]
    refine ih (fun c hc => h c (by simp [hc])) _ ?_
    rcases h (chunk, iv) (by simp) with h1 | h1
    · exact giveChunk_shaped bs chunk st iv hst (Or.inl h1)
    · rw [giveChunk_empty chunk iv st h1]; exact hst

theorem shaped_init (bs : Nat) (budgets : List Nat) : Shaped bs (budgets.map fun b => (b, [])) := by
  induction budgets with
  | nil => trivial
  | cons b budgets ih =>
    refine ⟨?_, ?_, ih⟩
    · intro k p _ _ hp; simp at hp
    · intro _ y hy
      obtain ⟨b', _, rfl⟩ := List.mem_map.1 hy
      rfl

theorem shaped_mem {bs : Nat} {st : List (Nat × List Piece)} (h : Shaped bs st) : ∀ x ∈ st, GoodPieces bs x.1 x.2 := by
  induction st with
  | nil => intro x hx; cases hx
  | cons y st ih =>
    intro x hx
    rcases List.mem_cons.1 hx with rfl | hx
    · exact h.1
    · exact ih h.2.2 x hx

/-- Of the pieces of a worker, only the first and the last can be smaller than the smallest chunk. -/
theorem associate_inner {W : Nat} {idx : List Nat} {ivs : List Interval} {dl : Bool} {nw bs m : Nat}
    {ws : List (List Piece)} (h : associate W idx ivs dl nw bs = .ok ws) (hsz : ∀ iv ∈ ivs, m ≤ iv.size ∨ iv.size = 0) :
    ∀ ps ∈ ws, ∀ k p, 0 < k → k + 1 < ps.length → ps[k]? = some p → m ≤ p.interval.size := by
  unfold associate at h
  simp only at h
  split at h
  · cases h
  · split at h
    · cases h
    · simp only [Except.ok.injEq] at h
      subst h
      intro ps hps k p hk hlt hp
      obtain ⟨x, hx, rfl⟩ := List.mem_map.1 hps
      have hsh := assignLoop_shaped m (idx.zip ivs) (fun c hc => hsz c.2 (List.of_mem_zip hc).2) _ (shaped_init m (itemsPerWorker (ivs.map Interval.size).sum W nw bs dl))
      exact shaped_mem hsh x hx k p hk (Or.inl hlt) hp

end LitData
